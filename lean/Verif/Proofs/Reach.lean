import Verif.Props.Defs
import Verif.Proofs.Effects
/-! Invariants along histories. -/
namespace Godis
open Resp (Reply bulks)
open KeySpec (keyArgs)

theorem reply_error (e : Err) : (newResponseWithError e.msg).reply = some (.error e.msg) := by
  cases e <;> rfl

@[simp] theorem setRsp_error (e : Err) : (setRsp (.error e)).reply = some (.error e.msg) := reply_error e
@[simp] theorem setRsp_ok (r : Response) : (setRsp (.ok r)).reply = r.reply := rfl
@[simp] theorem reply_int (i : Int) : (newResponseWithInteger i).reply = some (.int i) := rfl
@[simp] theorem reply_bulk (s : Bytes) : (newResponseWithBulkString s).reply = some (.bulk (some s)) := rfl
@[simp] theorem reply_nil : newResponseWithNilBulk.reply = some (.bulk none) := rfl
@[simp] theorem reply_empty : newResponseWithEmptyArray.reply = some (.array []) := rfl
@[simp] theorem reply_ok : (newResponseWithSimpleString respOK).reply = some (.simple (b! "OK")) := rfl
@[simp] theorem reply_get (v : Bytes) : (bulkInterfaces false [.str v]).reply = some (.bulk (some v)) := rfl

theorem itemReplies_strs (vs : List Bytes) :
    itemReplies (vs.map (fun s => ⟨.str s, .bulkStrings⟩)) = some (vs.map (fun v => Reply.bulk (some v))) := by
  induction vs with
  | nil => rfl
  | cons v vs ih => simp [itemReplies, ih, Item.reply]

@[simp] theorem reply_bulks (vs : List Bytes) : (bulkStrings true vs).reply = some (bulks vs) := by
  simp [bulkStrings, Response.reply, itemReplies_strs, bulks]

theorem runRequest_cases {ext it s req s' r} (h : runRequest ext it s req = .ok (s', r)) :
    (req = [] ∧ s' = s ∧ r = none) ∨
    ∃ name args, req = name :: args ∧
      ((lookupCmd (toLower ext.lowerUni name) = none ∧ s' = s ∧ r = some (newResponseWithError Err.unknownCommand.msg)) ∨
       ∃ c o, lookupCmd (toLower ext.lowerUni name) = some c ∧ c.fn ext it s args = .ok (s', o) ∧
         r = some (setRsp o)) := by
  unfold runRequest at h
  cases req with
  | nil => simp only [newCommand] at h; cases h; exact .inl ⟨rfl, rfl, rfl⟩
  | cons name args =>
    refine .inr ⟨name, args, rfl, ?_⟩
    simp only [newCommand] at h
    obtain ⟨⟨s1, r1⟩, h1, h2⟩ := bind_ok h
    cases h2
    unfold execute at h1
    split at h1
    · next hl => cases h1; exact .inl ⟨hl, rfl, rfl⟩
    · next c hl =>
      obtain ⟨⟨s2, r2⟩, h3, h4⟩ := bind_ok h1
      cases h4
      exact .inr ⟨c, r2, hl, h3, rfl⟩

/-- An answered request either leaves the store alone or is one of the commands. -/
theorem Answers.cases {ext it s req m s'} (h : Answers ext it s req m s') :
    ∃ name args, req = name :: args ∧
      ((lookupCmd (toLower ext.lowerUni name) = none ∧ s' = s ∧ m = .error Err.unknownCommand.msg) ∨
       ∃ c o, lookupCmd (toLower ext.lowerUni name) = some c ∧ c.fn ext it s args = .ok (s', o) ∧
         (setRsp o).reply = some m) := by
  obtain ⟨rsp, h1, h2⟩ := h
  rcases runRequest_cases h1 with ⟨_, _, h⟩ | ⟨name, args, rfl, ⟨hl, rfl, hr⟩ | ⟨c, o, hl, hf, hr⟩⟩
  · cases h
  · cases hr
    refine ⟨name, args, rfl, .inl ⟨hl, rfl, ?_⟩⟩
    rw [reply_error] at h2; exact (Option.some.inj h2).symm
  · cases hr; exact ⟨name, args, rfl, .inr ⟨c, o, hl, hf, h2⟩⟩

theorem typed_init (rng : Rng) : Typed (Store.init rng) :=
  ⟨SMap.WF.empty, fun k info h => by simp [Store.init] at h⟩

/-- effect of one answered request -/
theorem Answers.eff {ext it s req m s'} (h : Answers ext it s req m s') (ht : Typed s) :
    s' = s ∨ ∃ name args c, req = name :: args ∧ lookupCmd (toLower ext.lowerUni name) = some c ∧
      Eff ext c args (keyArgs (toLower ext.lowerUni name) args) s s' := by
  obtain ⟨name, args, rfl, ⟨_, rfl, _⟩ | ⟨c, o, hl, hf, _⟩⟩ := h.cases
  · exact .inl rfl
  · refine .inr ⟨name, args, c, rfl, hl, ?_⟩
    rw [lookup_name hl]; exact fn_eff c ht hf

theorem Answers.typed {ext it s req m s'} (h : Answers ext it s req m s') (ht : Typed s) : Typed s' := by
  rcases h.eff ht with rfl | ⟨_, _, _, _, _, he⟩
  · exact ht
  · exact he.typed ht

theorem Trace.typed {ext s tr s'} (h : Trace ext s tr s') (ht : Typed s) : Typed s' := by
  induction h with
  | nil => exact ht
  | snoc _ ha ih => exact ha.typed ih

theorem Reachable.typed {ext s} (h : Reachable ext s) : Typed s := by
  obtain ⟨rng, tr, h⟩ := h; exact h.typed (typed_init rng)

theorem ReachableBy.reachable {ext ok s} (h : ReachableBy ext ok s) : Reachable ext s := by
  obtain ⟨rng, tr, h, _⟩ := h; exact ⟨rng, tr, h⟩

theorem ReachableBy.typed {ext ok s} (h : ReachableBy ext ok s) : Typed s := h.reachable.typed

/-- induction over the histories of a reachable store -/
theorem ReachableBy.induct {ext ok s} (h : ReachableBy ext ok s) (P : Store → Prop)
    (h0 : ∀ rng, P (Store.init rng))
    (hs : ∀ s it req m s', ReachableBy ext ok s → P s → ok req → Answers ext it s req m s' → P s') : P s := by
  obtain ⟨rng, tr, h, hok⟩ := h
  induction h with
  | nil => exact h0 rng
  | @snoc tr s it req m s' ht ha ih =>
    have hok' : ∀ p ∈ tr, ok p.1 := fun p hp => hok p (by simp [hp])
    exact hs s it req m s' ⟨rng, tr, ht, hok'⟩ (ih hok') (hok (req, m) (by simp)) ha

end Godis
