import Verif.Proofs.Reach
/-! Every command's response can be encoded (except `MGET` of a wrong-type key). -/
namespace Godis
open Resp (Reply)

/-- the response stands for a RESP reply -/
def Fits (o : Except Err Response) : Prop := ∃ m, (setRsp o).reply = some m

theorem fits_err (e : Err) : Fits (.error e) := ⟨_, setRsp_error e⟩
theorem fits_int (i : Int) : Fits (.ok (newResponseWithInteger i)) := ⟨_, rfl⟩
theorem fits_bulk (b : Bytes) : Fits (.ok (newResponseWithBulkString b)) := ⟨_, rfl⟩
theorem fits_nil : Fits (.ok newResponseWithNilBulk) := ⟨_, rfl⟩
theorem fits_empty : Fits (.ok newResponseWithEmptyArray) := ⟨_, rfl⟩
theorem fits_get (v : Bytes) : Fits (.ok (bulkInterfaces false [.str v])) := ⟨_, rfl⟩
theorem fits_bulks (vs : List Bytes) : Fits (.ok (bulkStrings true vs)) := ⟨_, reply_bulks vs⟩
theorem fits_simple {s : Bytes} (h : 10 ∉ s) : Fits (.ok (newResponseWithSimpleString s)) :=
  ⟨.simple s, by simp [setRsp, newResponseWithSimpleString, Response.reply, Item.reply, h]⟩

theorem itemReplies_opts (os : List (Option Bytes)) :
    itemReplies (os.map (fun o => (⟨optIface o, .bulkStrings⟩ : Item))) = some (os.map Reply.bulk) := by
  induction os with
  | nil => rfl
  | cons v vs ih =>
    rw [List.map_cons, itemReplies, ih]
    cases v <;> rfl

theorem fits_opts (os : List (Option Bytes)) : Fits (.ok (bulkInterfaces true (os.map optIface))) := by
  refine ⟨.array (os.map Reply.bulk), ?_⟩
  simp only [setRsp, bulkInterfaces, Response.reply, if_true, List.map_map]
  have := itemReplies_opts os
  rw [show (fun x => (⟨x, .bulkStrings⟩ : Item)) ∘ optIface = fun o => ⟨optIface o, .bulkStrings⟩ from rfl, this]
  rfl

theorem fits_nils (l : List Bytes) : Fits (.ok (bulkInterfaces true (l.map (fun _ => .nil)))) := by
  have := fits_opts (l.map (fun _ => none))
  rwa [List.map_map] at this

theorem fits_intReply {s s' : Store} {r o} (h : intReply s r = .ok (s', o)) : Fits o := by
  unfold intReply at h
  split at h <;> cases h
  · exact fits_err _
  · exact fits_int _

theorem fits_intReplyNilOk {s s' : Store} {r o} (h : intReplyNilOk s r = .ok (s', o)) : Fits o := by
  unfold intReplyNilOk at h
  split at h <;> cases h
  · exact fits_int _
  · exact fits_err _
  · exact fits_int _

theorem fits_arrReply {s s' : Store} {n r o} (h : arrReply s n r = .ok (s', o)) (hn : Fits (.ok n)) : Fits o := by
  unfold arrReply at h
  split at h <;> cases h
  · exact hn
  · exact fits_err _
  · exact fits_bulks _

theorem fits_zPopReply {s s' : Store} {r o} (h : zPopReply s r = .ok (s', o)) : Fits o := by
  unfold zPopReply at h
  split at h
  · cases h; exact fits_empty
  · split at h <;> cases h
    · exact fits_err _
    · exact fits_bulks _

theorem noLF_type (t : KeyType) : 10 ∉ t.text := by cases t <;> decide

/-- one step of analysing a command's code -/
local macro "fit_step" h:ident : tactic => `(tactic| first
  | exact fits_intReply $h | exact fits_intReplyNilOk $h | exact fits_zPopReply $h
  | exact fits_arrReply $h fits_nil | exact fits_arrReply $h fits_empty
  | (cases $h:ident; first
      | exact fits_err _ | exact fits_int _ | exact fits_bulk _ | exact fits_nil | exact fits_empty
      | exact fits_get _ | exact fits_bulks _ | exact fits_opts _ | exact fits_nils _
      | exact fits_simple (noLF_type _) | exact fits_simple (by decide))
  | split at $h:ident
  | (obtain ⟨_, _, $h:ident⟩ := bind_ok $h))

/-- Every command but `MGET` and `HGETALL`, on any store: a response that stands for a reply. -/
theorem fn_fits (c : Cmd) (hc : c ≠ .mget) (hc' : c ≠ .hGetAll) {ext it s args s' o}
    (h : c.fn ext it s args = .ok (s', o)) : Fits o := by
  cases c
  case mget => exact absurd rfl hc
  case hGetAll => exact absurd rfl hc'
  all_goals
    clear hc hc'
    simp only [Cmd.fn, cmdSet, cmdMSet, cmdGet, cmdIncr, cmdIncrBy, cmdDecr, cmdDecrBy, cmdAppend, cmdKeys, cmdExists,
      cmdDel, cmdType, cmdPing, cmdCommand, cmdLPush, cmdLPop, cmdRPush, cmdRPop, cmdLLen, cmdLRange, cmdLRem,
      cmdLIndex, cmdLSet, cmdLInsert, cmdSAdd, cmdSCard, cmdSOp, cmdSOpStore, cmdSIsMember, cmdSMembers, cmdSMove,
      cmdSRem, cmdSPop, cmdHDel, cmdHExists, cmdHGet, cmdHIncrBy, cmdHIncrByFloat, cmdHKeys, cmdHLen, cmdHMGet,
      cmdHMSet, cmdHSet, cmdHSetNx, cmdHVals, cmdZAdd, cmdZScore, cmdZRank, cmdZRem, cmdZCard, cmdZCount, cmdZIncr,
      cmdZRange, cmdZRangeByScore, cmdZRevRange, cmdZPopMin, cmdZPopMax] at h
    repeat' fit_step h

/-- `HGETALL`, on a well-typed store. -/
theorem hGetAll_fits {ext it s args s' o} (ht : Typed s) (h : Cmd.hGetAll.fn ext it s args = .ok (s', o)) : Fits o := by
  simp only [Cmd.fn, cmdHGetAll] at h
  split at h
  · next k _ =>
    obtain ⟨⟨m, err⟩, h1, h2⟩ := bind_ok h
    rcases loadHash_cases ht k true with ⟨_, hl⟩ | ⟨_, _, _, hl⟩ <;>
    · simp only [Store.hGetAll, hl, bind, Except.bind] at h1
      cases h1
      simp only [or_true, if_true] at h2
      cases h2
      exact fits_nil
  · cases h; exact fits_err _

theorem get_cases {s : Store} (ht : Typed s) (k : Bytes) :
    (s.keys.get k = none ∧ s.get k = .ok ([], some .nil)) ∨
    (Wrong s k ∧ s.get k = .ok ([], some .keyAndCommandNotMatch)) ∨
    (∃ v, s.keys.get k = some ⟨.string, .str v⟩ ∧ s.get k = .ok (v, none)) := by
  cases hg : s.keys.get k with
  | none => exact .inl ⟨rfl, by simp [Store.get, hg]⟩
  | some info =>
    by_cases hty : info.type = .string
    · rcases ht.kind _ _ hg with ⟨v, rfl⟩ | ⟨r, o, rfl, ho, _⟩
      · exact .inr (.inr ⟨v, rfl, by simp [Store.get, hg]⟩)
      · exact absurd hty o.kind_ne_string
    · exact .inr (.inl ⟨⟨info, hg, hty⟩, by simp [Store.get, hg, hty]⟩)

/-- the items of `MGET`: they encode unless a key holds a value that is not a string -/
theorem mGet_items {s : Store} (ht : Typed s) : ∀ ks : List Bytes, ∃ vs, s.mGet ks = .ok vs ∧ vs.length = ks.length ∧
    ((∃ k ∈ ks, Wrong s k) →
      encodeItems (vs.map (fun v => (⟨v.iface, .bulkStrings⟩ : Item))) = .error .typeAssertion) ∧
    ((∀ k ∈ ks, ¬ Wrong s k) → ∃ rs, itemReplies (vs.map (fun v => (⟨v.iface, .bulkStrings⟩ : Item))) = some rs)
  | [] => ⟨[], rfl, rfl, fun ⟨_, h, _⟩ => absurd h (by simp), fun _ => ⟨[], rfl⟩⟩
  | k :: ks => by
    obtain ⟨vs, h1, hlen, h2, h3⟩ := mGet_items ht ks
    rcases get_cases ht k with ⟨hg, hk⟩ | ⟨hw, hk⟩ | ⟨v, hg, hk⟩
    · have hnw : ¬ Wrong s k := fun ⟨_, h, _⟩ => by rw [hg] at h; cases h
      refine ⟨.nil :: vs, by simp only [Store.mGet, hk, h1]; rfl, by simp [hlen], ?_, ?_⟩
      · rintro ⟨k', hk', hw'⟩
        rw [List.mem_cons] at hk'
        have : ∃ k ∈ ks, Wrong s k := by
          rcases hk' with rfl | hk'
          · exact absurd hw' hnw
          · exact ⟨k', hk', hw'⟩
        rw [List.map_cons, encodeItems, h2 this]; rfl
      · intro h
        obtain ⟨rs, hr⟩ := h3 (fun k' hk' => h k' (by simp [hk']))
        exact ⟨_, by rw [List.map_cons, itemReplies, hr]; rfl⟩
    · refine ⟨.err .keyAndCommandNotMatch :: vs, by simp only [Store.mGet, hk, h1]; rfl, by simp [hlen], ?_, ?_⟩
      · intro _
        rw [List.map_cons, encodeItems]; rfl
      · intro h; exact absurd hw (h k (by simp))
    · have hnw : ¬ Wrong s k := fun ⟨_, h, h'⟩ => by rw [hg] at h; cases h; exact h' rfl
      refine ⟨.str v :: vs, by simp only [Store.mGet, hk, h1]; rfl, by simp [hlen], ?_, ?_⟩
      · rintro ⟨k', hk', hw'⟩
        rw [List.mem_cons] at hk'
        have : ∃ k ∈ ks, Wrong s k := by
          rcases hk' with rfl | hk'
          · exact absurd hw' hnw
          · exact ⟨k', hk', hw'⟩
        rw [List.map_cons, encodeItems, h2 this]; rfl
      · intro h
        obtain ⟨rs, hr⟩ := h3 (fun k' hk' => h k' (by simp [hk']))
        exact ⟨_, by rw [List.map_cons, itemReplies, hr]; rfl⟩

/-- `MGET`, on a well-typed store -/
theorem mget_fits {ext it s args s' o} (ht : Typed s) (h : Cmd.mget.fn ext it s args = .ok (s', o)) :
    ((∀ k ∈ args, ¬ Wrong s k) ∧ Fits o) ∨
    ((∃ k ∈ args, Wrong s k) ∧ (setRsp o).encode = .error .typeAssertion ∧ (setRsp o).reply = none) := by
  simp only [Cmd.fn, cmdMGet] at h
  split at h
  · next k ks =>
    obtain ⟨vs, h1, hlen, h2, h3⟩ := mGet_items ht (k :: ks)
    rw [h1] at h
    cases h
    have hne : vs ≠ [] := by intro he; rw [he] at hlen; simp at hlen
    obtain ⟨w, ws, rfl⟩ := List.exists_cons_of_ne_nil hne
    by_cases hw : ∃ k' ∈ k :: ks, Wrong s k'
    · refine .inr ⟨hw, ?_⟩
      have he := h2 hw
      have henc : (setRsp (.ok (bulkInterfaces true ((w :: ws).map (·.iface))))).encode = .error .typeAssertion := by
        simp only [setRsp, bulkInterfaces, Response.encode, List.map_map, List.map_cons, Bool.not_true,
          Bool.false_eq_true, if_false]
        rw [List.map_cons] at he
        have : (fun x => (⟨x, .bulkStrings⟩ : Item)) ∘ (fun x : Store.MGetItem => x.iface) = fun v => ⟨v.iface, .bulkStrings⟩ := rfl
        rw [this, he]; rfl
      refine ⟨henc, ?_⟩
      cases hr : (setRsp (.ok (bulkInterfaces true ((w :: ws).map (·.iface))))).reply with
      | none => rfl
      | some m =>
        obtain ⟨b, hb, _⟩ := encode_denotes _ m hr
        rw [henc] at hb; cases hb
    · push Not at hw
      obtain ⟨rs, hr⟩ := h3 hw
      refine .inl ⟨hw, .array rs, ?_⟩
      simp only [setRsp, bulkInterfaces, Response.reply, if_true, List.map_map]
      rw [show (fun x => (⟨x, .bulkStrings⟩ : Item)) ∘ (fun x : Store.MGetItem => x.iface) = fun v => ⟨v.iface, .bulkStrings⟩ from rfl, hr]
      rfl
  · next hne =>
    cases h
    refine .inl ⟨?_, fits_err _⟩
    cases args with
    | nil => simp
    | cons a l => exact absurd rfl (hne a l)

end Godis
