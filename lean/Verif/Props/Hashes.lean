import Verif.Proofs.Hashes
import Verif.Props.Lists2
/-!
# C31, C32: hashes

No command of this server ever makes a key hold a hash: HSET, HINCRBY and HINCRBYFLOAT fill a new table and drop it.
`HashSpec.reply` (Spec/Hashes.lean) says what hash commands answer instead.  The table object itself (C32) is only
reachable from Go code.
-/
namespace Godis
open Resp (Reply bulks)
open StrSpec (lower)

/-! ## C31 -/

/-- C31, what the code does.  On every reachable store, a hash command changes nothing and replies as on a key without a
hash; all it sees is whether the key holds something. -/
theorem C31_hash_partial {ext s} (hs : Reachable ext s) {name : Bytes} {args : List Bytes}
    (hc : lower name ∈ HashSpec.commands) {present : Bool}
    (hp : ∀ k, args.head? = some k → Reads ext s [b! "exists", k] (.int (if present then 1 else 0))) :
    Reads ext s (name :: args) (HashSpec.reply (refloat ext) present (lower name) args) := by
  obtain ⟨rng, tr, h⟩ := hs
  have ht := h.typed (typed_init rng)
  have hpr : args ≠ [] → present = (args.head?).any (fun k => (s.keys.get k).isSome) := by
    intro hne
    rcases args with _ | ⟨k, args⟩
    · exact absurd rfl hne
    have := (exists_answers.mp (hp k rfl it0)).1
    simp only [List.head?_cons, Option.any_some]
    cases present <;> cases hh : (s.keys.get k).isSome <;> simp_all
  have key : ∀ c : Cmd, lower name = c.name → (∀ u, toLower u name = lower name) → lookupCmd c.name = some c →
      c ∈ [Cmd.hDel, .hExists, .hGet, .hGetAll, .hIncrBy, .hIncrByFloat,
      .hKeys, .hLen, .hMGet, .hMSet, .hSet, .hSetNx, .hVals] →
      Reads ext s (name :: args) (HashSpec.reply (refloat ext) present (lower name) args) := by
    intro c hn hu hl hm it
    rw [answers_iff (c := c) (by rw [hu, hn]; exact hl), hn]
    obtain ⟨o, h1, h2⟩ := hash_answers (ext := ext) (it := it) ht hm args
    refine ⟨o, h1, ?_⟩
    rw [h2]
    by_cases hne : args = []
    · subst hne
      simp only [List.mem_cons, List.not_mem_nil, or_false] at hm
      rcases hm with rfl | rfl | rfl | rfl | rfl | rfl | rfl | rfl | rfl | rfl | rfl | rfl | rfl <;> rfl
    · rw [hpr hne]
  have hu : ∀ u, toLower u name = lower name := fun u => lower_eq (ascii_of_lower rfl (by
    simp only [HashSpec.commands, List.mem_cons, List.not_mem_nil, or_false] at hc
    rcases hc with h | h | h | h | h | h | h | h | h | h | h | h | h <;> rw [h] <;> unfold StrSpec.Ascii <;> decide))
  simp only [HashSpec.commands, List.mem_cons, List.not_mem_nil, or_false] at hc
  rcases hc with h | h | h | h | h | h | h | h | h | h | h | h | h
  · exact key .hDel h hu rfl (by simp)
  · exact key .hExists h hu rfl (by simp)
  · exact key .hGet h hu rfl (by simp)
  · exact key .hGetAll h hu rfl (by simp)
  · exact key .hIncrBy h hu rfl (by simp)
  · exact key .hIncrByFloat h hu rfl (by simp)
  · exact key .hKeys h hu rfl (by simp)
  · exact key .hLen h hu rfl (by simp)
  · exact key .hMGet h hu rfl (by simp)
  · exact key .hMSet h hu rfl (by simp)
  · exact key .hSet h hu rfl (by simp)
  · exact key .hSetNx h hu rfl (by simp)
  · exact key .hVals h hu rfl (by simp)

/-- C31 fails in full, for every key and field, on every reachable store: right after a successful HSET the key does not
exist and HGET replies nil. -/
theorem C31_violated {ext s} (hs : Reachable ext s) {k f v : Bytes}
    (hk : Reads ext s [b! "exists", k] (.int 0)) :
    Reads ext s [b! "hset", k, f, v] (.int 1) ∧ Reads ext s [b! "hget", k, f] (.bulk none) ∧
    Reads ext s [b! "hlen", k] (.int 0) := by
  have hp : ∀ r : List Bytes, ∀ k', (k :: r).head? = some k' →
      Reads ext s [b! "exists", k'] (.int (if (false : Bool) = true then 1 else 0)) := by
    intro r k' h; cases h; exact hk
  have h1 : HashSpec.reply (refloat ext) false (b! "hset") [k, f, v] = .int 1 := by simp [HashSpec.reply, HashSpec.needs]
  exact ⟨h1 ▸ C31_hash_partial hs (name := b! "hset") (by decide) (hp [f, v]),
    C31_hash_partial hs (name := b! "hget") (by decide) (hp [f]),
    C31_hash_partial hs (name := b! "hlen") (by decide) (hp [])⟩

/-- Case: HSET, HINCRBY and HSETNX answer as if they had worked, and nothing is there; on a string key they are
refused. -/
example : replies [[b! "hset", b! "h", b! "f", b! "v", b! "g", b! "w"], [b! "hget", b! "h", b! "f"], [b! "hincrby", b! "h", b! "n", b! "5"],
      [b! "hincrby", b! "h", b! "n", b! "5"], [b! "hlen", b! "h"], [b! "set", b! "s", b! "x"], [b! "hset", b! "s", b! "f", b! "v"],
      [b! "hmget", b! "h", b! "f", b! "g"]] =
    some [.int 2, .bulk none, .int 5, .int 5, .int 0, .simple (b! "OK"), .error (b! "key type and command not match"),
      .array [.bulk none, .bulk none]] := by decide +kernel

/-! ## C32 -/

/-- The tables that can be built with the operations of the package, from an empty one. -/
inductive HObj.Built (ext : Ext) : HObj → Prop
  | empty : Built ext HObj.empty
  | set {h f v nx} : Built ext h → Built ext (h.set f v nx).1
  | del {h f} : Built ext h → Built ext (h.del f).1
  | incrBy {h f i} : Built ext h → Built ext (h.incrBy f i).1
  | incrByFloat {h f x} : Built ext h → Built ext (h.incrByFloat ext f x).1

/-- The same, with `set` only. -/
inductive HObj.BuiltBySet : HObj → Prop
  | empty : BuiltBySet HObj.empty
  | set {h f v nx} : BuiltBySet h → BuiltBySet (h.set f v nx).1

theorem HObj.Built.wf {ext h} (hb : HObj.Built ext h) : h.table.WF := by
  induction hb with
  | empty => exact SMap.WF.empty
  | set _ ih => exact HObj.wf_set ih _ _ _
  | del _ ih => exact HObj.wf_del ih _
  | @incrBy h f i _ ih =>
    rw [HObj.incrBy_run]
    split
    · exact ih.set _ _
    · exact ih.set _ _
    · exact ih
  | @incrByFloat h f i _ ih =>
    rw [HObj.incrByFloat_run]
    split
    · exact ih.set _ _
    · exact ih.set _ _
    · exact ih

/-- C32, reads and writes: `set` makes the field read the new value, `set` with NX does so only if the field was absent,
`del` makes it absent; no other field changes. -/
theorem C32_set_del {ext} {h : HObj} (hb : HObj.Built ext h) (f g : Bytes) (v : HVal) :
    (h.set f v false).1.get g = (if g = f then some v else h.get g) ∧
    (h.set f v true).1.get g = (if g = f ∧ h.get f = none then some v else h.get g) ∧
    (h.del f).1.get g = (if g = f then none else h.get g) ∧
    HObj.empty.get g = none := by
  refine ⟨HObj.get_set' h f g v, ?_, HObj.get_del' hb.wf f g, rfl⟩
  rw [HObj.get_setNx]
  by_cases e : g = f
  · subst e; cases h.get g <;> simp
  · simp [e]

/-- C32, increment: an integer field grows by `i` (modulo 2^64), an absent one becomes `i`, any other is refused and
nothing changes; likewise for fractions. -/
theorem C32_incr {ext : Ext} {h : HObj} (f g : Bytes) (i : Int) (x : F64) :
    (match h.get f with
    | none => (h.incrBy f i).2 = .ok i ∧ (h.incrBy f i).1.get g = if g = f then some (.int i) else h.get g
    | some (.int j) => (h.incrBy f i).2 = .ok (wrap64 (j + i)) ∧
        (h.incrBy f i).1.get g = if g = f then some (.int (wrap64 (j + i))) else h.get g
    | some _ => (h.incrBy f i).2 = .error .notInteger ∧ (h.incrBy f i).1 = h) ∧
    (match h.get f with
    | none => (h.incrByFloat ext f x).2 = .ok x ∧
        (h.incrByFloat ext f x).1.get g = if g = f then some (.float x) else h.get g
    | some (.float y) => (h.incrByFloat ext f x).2 = .ok (ext.fadd y x) ∧
        (h.incrByFloat ext f x).1.get g = if g = f then some (.float (ext.fadd y x)) else h.get g
    | some _ => (h.incrByFloat ext f x).2 = .error .notFloat ∧ (h.incrByFloat ext f x).1 = h) := by
  rw [HObj.incrBy_run, HObj.incrByFloat_run]
  cases hg : h.get f with
  | none => exact ⟨⟨rfl, SMap.get_set _ _ _ _⟩, rfl, SMap.get_set _ _ _ _⟩
  | some w =>
    cases w with
    | str t => exact ⟨⟨rfl, rfl⟩, rfl, rfl⟩
    | int j => exact ⟨⟨rfl, SMap.get_set _ _ _ _⟩, rfl, rfl⟩
    | float y => exact ⟨⟨rfl, rfl⟩, rfl, SMap.get_set _ _ _ _⟩

/-- C32, the field count, for tables that were only `set`: it is the number of fields listed, which are exactly the
present ones, each once. -/
theorem C32_count_partial {h} (hb : HObj.BuiltBySet h) (it : Iter) :
    h.length = (h.keys it).length ∧ (h.keys it).Nodup ∧ ∀ f, f ∈ h.keys it ↔ (h.get f).isSome := by
  have : h.table.WF ∧ h.length = h.table.card := by
    induction hb with
    | empty => exact ⟨SMap.WF.empty, by simp [HObj.empty]⟩
    | set _ ih => exact ⟨HObj.wf_set ih.1 _ _ _, HObj.length_set ih.1 ih.2 _ _ _⟩
  refine ⟨?_, SMap.entries_keys_nodup it _ this.1, fun f => SMap.mem_keys it _ this.1 f⟩
  rw [this.2]; exact congrArg _ (SMap.keys_length it h.table).symm

/-- C32, listing, for all tables. -/
theorem C32_keys {ext h} (hb : HObj.Built ext h) (it : Iter) :
    (h.keys it).Nodup ∧ ∀ f, f ∈ h.keys it ↔ (h.get f).isSome :=
  ⟨SMap.entries_keys_nodup it _ hb.wf, fun f => SMap.mem_keys it _ hb.wf f⟩

/-- C32 fails in full: deleting a present field reports 0 and leaves the count, deleting an absent one reports 1 and
lowers the count, and an increment that creates a field does not raise the count. -/
theorem C32_violated (f g : Bytes) (hfg : g ≠ f) (v : HVal) :
    ((HObj.empty.set f v false).1.del f).2 = 0 ∧ ((HObj.empty.set f v false).1.del f).1.length = 1 ∧
    ((HObj.empty.set f v false).1.del g).2 = 1 ∧ ((HObj.empty.set f v false).1.del g).1.length = 0 ∧
    (HObj.empty.incrBy f 1).1.length = 0 := by
  have h1 : (HObj.empty.set f v false).1 = ⟨SMap.empty.set f v, 1⟩ := rfl
  have h2 : (SMap.empty.set f v).has f = true := by simp [SMap.has_eq]
  have h3 : (SMap.empty.set f v).has g = false := by simp [SMap.has_eq, SMap.get_set, hfg]
  rw [h1, HObj.incrBy_run]
  simp only [HObj.del, SMap.deleteIfExists, h2, h3]
  refine ⟨rfl, rfl, rfl, rfl, rfl⟩

/-- Case: a table with three fields, one of them incremented. -/
example : ∃ h, HObj.BuiltBySet h ∧ HObj.Built ext0 h ∧ h.length = 3 ∧ h.get (b! "n") = some (.int 4) ∧
    (h.incrBy (b! "n") 3).2 = .ok 7 ∧ (h.incrBy (b! "t") 3).2 = .error .notInteger :=
  ⟨(((HObj.empty.set (b! "n") (.int 4) false).1.set (b! "t") (.str (b! "x")) true).1.set (b! "u") (.int 1) false).1,
    .set (.set (.set .empty)), .set (.set (.set .empty)), by decide +kernel, by decide +kernel, by decide +kernel, by decide +kernel⟩

end Godis
