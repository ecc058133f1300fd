import Verif.Proofs.Strings2
import Verif.Proofs.Keys
import Verif.Spec.Hashes
/-! The hash commands on a typed store, and laws of the hash table object. -/
namespace Godis
open Resp (Reply bulks)

variable {ext : Ext} {it : Iter} {s s' : Store}

theorem HObj.setAll_length (kvs : List (Bytes × HVal)) : ∀ h : HObj, (h.setAll kvs false).2 = kvs.length := by
  induction kvs with
  | nil => intro h; rfl
  | cons p kvs ih =>
    intro h
    obtain ⟨k, v⟩ := p
    simp only [HObj.setAll, HObj.set, ih]
    simp
    omega

theorem hPairs_length (ext : Ext) : ∀ l : List Bytes, (hPairs ext l).length = l.length / 2
  | [] => rfl
  | [_] => by simp [hPairs]
  | _ :: _ :: l => by simp only [hPairs, List.length_cons, hPairs_length ext l]; omega

theorem itemReplies_nils {α : Type} (vs : List α) :
    itemReplies (vs.map (fun _ => ⟨.nil, .bulkStrings⟩)) = some (vs.map (fun _ => Reply.bulk none)) := by
  induction vs with
  | nil => rfl
  | cons v vs ih => simp only [List.map_cons, itemReplies, ih, Item.reply]

theorem hash_answers (ht : Typed s) {c : Cmd} (hc : c ∈ [Cmd.hDel, .hExists, .hGet, .hGetAll, .hIncrBy, .hIncrByFloat,
      .hKeys, .hLen, .hMGet, .hMSet, .hSet, .hSetNx, .hVals]) (args : List Bytes) :
    ∃ o, c.fn ext it s args = .ok (s, o) ∧ (setRsp o).reply =
      some (HashSpec.reply (refloat ext) ((args.head?).any (fun k => (s.keys.get k).isSome)) c.name args) := by
  rcases args with _ | ⟨k, args⟩
  · simp only [List.mem_cons, List.not_mem_nil, or_false] at hc
    rcases hc with rfl | rfl | rfl | rfl | rfl | rfl | rfl | rfl | rfl | rfl | rfl | rfl | rfl <;>
    exact ⟨_, rfl, rfl⟩
  have hT := loadHash_cases ht k true
  have hF := loadHash_cases ht k false
  cases hg : s.keys.get k with
  | none =>
    have hT : s.loadHash k true = .ok (.error .nil) := by
      rcases hT with ⟨_, h⟩ | ⟨_, h, _⟩
      · exact h
      · rw [hg] at h; cases h
    have hF : s.loadHash k false = .ok (.error .nil) := by
      rcases hF with ⟨_, h⟩ | ⟨_, h, _⟩
      · exact h
      · rw [hg] at h; cases h
    simp only [List.mem_cons, List.not_mem_nil, or_false] at hc
    simp only [List.head?_cons, Option.any_some, hg, Option.isSome_none]
    rcases hc with rfl | rfl | rfl | rfl | rfl | rfl | rfl | rfl | rfl | rfl | rfl | rfl | rfl <;>
    rcases args with _ | ⟨a, _ | ⟨b, r⟩⟩ <;>
    simp only [Cmd.fn, cmdHDel, cmdHExists, cmdHGet, cmdHIncrBy, cmdHIncrByFloat, cmdHKeys, cmdHLen, cmdHMGet, cmdHMSet,
      cmdHSet, cmdHSetNx, cmdHVals, cmdHGetAll, Store.hGetAll, Store.hDel, Store.hExists, Store.hGet, Store.hIncrBy, Store.hIncrByFloat,
      Store.hKeys, Store.hLen, Store.hMGet, Store.hSet, Store.hVals, hT, hF, bind, Except.bind, notEnough] <;>
    first
    | exact ⟨_, rfl, rfl⟩
    | skip
    · rw [show Cmd.name .hIncrBy = b! "hincrby" from rfl]
      cases hb : parseInt b with
      | none =>
        refine ⟨_, rfl, ?_⟩
        simp [HashSpec.reply, HashSpec.needs, int64_eq, hb, HashSpec.errInt, Err.msg]
        try (intro h; omega)
      | some n =>
        refine ⟨_, rfl, ?_⟩
        simp [HashSpec.reply, HashSpec.needs, int64_eq, hb]
        try (intro h; omega)
    · rw [show Cmd.name .hIncrByFloat = b! "hincrbyfloat" from rfl]
      cases hb : ext.parseFloat b with
      | none =>
        refine ⟨_, rfl, ?_⟩
        simp [HashSpec.reply, HashSpec.needs, refloat, hb, HashSpec.errInt, Err.msg]
        try (intro h; omega)
      | some n =>
        refine ⟨_, rfl, ?_⟩
        simp [HashSpec.reply, HashSpec.needs, refloat, hb]
        try (intro h; omega)
    · rw [show Cmd.name .hMGet = b! "hmget" from rfl]
      refine ⟨_, rfl, ?_⟩
      rw [setRsp_ok]
      simp only [bulkInterfaces, Response.reply, List.map_map]
      show (itemReplies ((a :: b :: r).map (fun _ => ⟨.nil, .bulkStrings⟩))).map Reply.array = _
      rw [itemReplies_nils]
      simp [HashSpec.reply, HashSpec.needs]
      intro h; omega
    · rw [show Cmd.name .hSet = b! "hset" from rfl]
      refine ⟨_, rfl, ?_⟩
      rw [setRsp_ok, reply_int, HObj.setAll_length, hPairs_length]
      simp [HashSpec.reply, HashSpec.needs]
      rw [if_neg (by omega)]
      congr 1; omega
  | some info =>
    have hne : info.type ≠ .hashTable := by
      rcases hT with ⟨h, _⟩ | ⟨i, h, h', _⟩
      · rw [hg] at h; cases h
      · rw [hg] at h; cases h; exact h'
    have hT := loadHash_ne hg hne true
    have hF := loadHash_ne hg hne false
    simp only [List.mem_cons, List.not_mem_nil, or_false] at hc
    simp only [List.head?_cons, Option.any_some, hg, Option.isSome_some]
    rcases hc with rfl | rfl | rfl | rfl | rfl | rfl | rfl | rfl | rfl | rfl | rfl | rfl | rfl <;>
    rcases args with _ | ⟨a, _ | ⟨b, r⟩⟩ <;>
    simp only [Cmd.fn, cmdHDel, cmdHExists, cmdHGet, cmdHIncrBy, cmdHIncrByFloat, cmdHKeys, cmdHLen, cmdHMGet, cmdHMSet,
      cmdHSet, cmdHSetNx, cmdHVals, cmdHGetAll, Store.hGetAll, Store.hDel, Store.hExists, Store.hGet, Store.hIncrBy, Store.hIncrByFloat,
      Store.hKeys, Store.hLen, Store.hMGet, Store.hSet, Store.hVals, hT, hF, bind, Except.bind, notEnough] <;>
    first
    | exact ⟨_, rfl, rfl⟩
    | skip
    · rw [show Cmd.name .hIncrBy = b! "hincrby" from rfl]
      cases hb : parseInt b with
      | none =>
        refine ⟨_, rfl, ?_⟩
        simp [HashSpec.reply, HashSpec.needs, int64_eq, hb, HashSpec.errInt, Err.msg]
        try (intro h; omega)
      | some n =>
        refine ⟨_, rfl, ?_⟩
        simp [HashSpec.reply, HashSpec.needs, int64_eq, hb, Err.msg, ListSpec.errType]
        try (intro h; omega)
    · rw [show Cmd.name .hIncrByFloat = b! "hincrbyfloat" from rfl]
      cases hb : ext.parseFloat b with
      | none =>
        refine ⟨_, rfl, ?_⟩
        simp [HashSpec.reply, HashSpec.needs, refloat, hb, HashSpec.errInt, Err.msg]
        try (intro h; omega)
      | some n =>
        refine ⟨_, rfl, ?_⟩
        simp [HashSpec.reply, HashSpec.needs, refloat, hb, Err.msg, ListSpec.errType]
        try (intro h; omega)

/-! ## the object -/
namespace HObj
variable {h h' : HObj} {f g : Bytes} {v : HVal}

theorem get_set' (h : HObj) (f g : Bytes) (v : HVal) :
    (h.set f v false).1.get g = if g = f then some v else h.get g := by
  simp only [set, get, Bool.false_eq_true, if_false]; exact SMap.get_set _ _ _ _

theorem get_setNx (h : HObj) (f g : Bytes) (v : HVal) :
    (h.set f v true).1.get g = if g = f then some ((h.get f).getD v) else h.get g := by
  have := SMap.get_setIfAbsent h.table f g v
  simp only [set, get, if_true]
  split <;> exact this

theorem get_del' (hw : h.table.WF) (f g : Bytes) :
    (h.del f).1.get g = if g = f then none else h.get g := by
  have := SMap.get_deleteIfExists h.table hw f g
  simp only [del, get]
  split <;> exact this

theorem wf_set (hw : h.table.WF) (f : Bytes) (v : HVal) (nx : Bool) : (h.set f v nx).1.table.WF := by
  unfold set
  split
  · have := hw.setIfAbsent f v
    simp only
    split <;> exact this
  · exact hw.set f v

theorem wf_del (hw : h.table.WF) (f : Bytes) : (h.del f).1.table.WF := by
  have := hw.deleteIfExists f
  unfold del
  simp only
  split <;> exact this

theorem incrBy_run (h : HObj) (f : Bytes) (i : Int) : h.incrBy f i = match h.get f with
    | none => (⟨h.table.set f (.int i), h.length⟩, .ok i)
    | some (.int j) => (⟨h.table.set f (.int (wrap64 (j + i))), h.length⟩, .ok (wrap64 (j + i)))
    | some _ => (h, .error .notInteger) := by
  simp only [incrBy, get, SMap.upsert]
  cases hg : h.table.get f with
  | none => rfl
  | some w => cases w <;> rfl

theorem incrByFloat_run (ext : Ext) (h : HObj) (f : Bytes) (x : F64) : h.incrByFloat ext f x = match h.get f with
    | none => (⟨h.table.set f (.float x), h.length⟩, .ok x)
    | some (.float y) => (⟨h.table.set f (.float (ext.fadd y x)), h.length⟩, .ok (ext.fadd y x))
    | some _ => (h, .error .notFloat) := by
  simp only [incrByFloat, get, SMap.upsert]
  cases hg : h.table.get f with
  | none => rfl
  | some w => cases w <;> rfl

theorem length_set (hw : h.table.WF) (hl : h.length = h.table.card) (f : Bytes) (v : HVal) (nx : Bool) :
    (h.set f v nx).1.length = (h.set f v nx).1.table.card := by
  unfold set
  cases hg : h.table.get f with
  | none =>
    have hc := SMap.card_set_new h.table hw f v hg
    have hh : h.table.has f = false := by rw [SMap.has_eq, hg]; rfl
    cases nx
    · simp [hh, hc, hl]
    · simp only [if_true, SMap.setIfAbsent, hh, Bool.false_eq_true, if_false]
      simp [hc, hl]
  | some w =>
    have hc := SMap.card_set_old h.table hw f v (by rw [hg]; rfl)
    have hh : h.table.has f = true := by rw [SMap.has_eq, hg]; rfl
    cases nx
    · simp [hh, hc, hl]
    · simp [SMap.setIfAbsent, hh, hl]

end HObj
end Godis
