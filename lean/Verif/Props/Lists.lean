import Verif.Proofs.Lists3
/-!
# C20–C24: lists

`ListSpec.after k tr` (Spec/Lists.lean) is what key `k` holds after the history `tr`, computed from the requests and
replies alone; `ListSpec.reply` is what each list command must answer.  The cases `hollow` and `lost` of the
specification record a defect (see `C23_lrem_violated`): an LREM that removes every element makes one end of the list
unusable.  Histories that never run into it satisfy the plain sequence specification (`C20_sequence_partial`).
-/
namespace Godis
open Resp (Reply bulks)
open ListSpec
open StrSpec (int64 lower isError Ascii)
open KeySpec (keyArgs readOnly)

/-- C20, what the code does.  After any history, every list request on `k` is answered exactly as `ListSpec.reply`
says for the view `after k tr`, unless the list is `lost`; and the view after that request is the one of the longer
history, so that the statement applies again. -/
theorem C20_lists_partial {ext rng tr s} (h : Trace ext (Store.init rng) tr s) (hp : ∀ p ∈ tr, Plain p.1)
    {k name : Bytes} {args : List Bytes} (hq : Plain (name :: k :: args)) {m : Reply}
    (hm : reply (after k tr) (lower name) args = some m) (it : Iter) :
    ∃ s', (∀ m' s'', Answers ext it s (name :: k :: args) m' s'' ↔ m' = m ∧ s'' = s') ∧
      Trace ext (Store.init rng) (tr ++ [(name :: k :: args, m)]) s' := by
  obtain ⟨s', ha⟩ := list_answers (ext := ext) (it := it) (h.lmatch hp k) hq hm
  exact ⟨s', fun m' s'' => ⟨fun h' => ha.unique h', fun ⟨h1, h2⟩ => h1 ▸ h2 ▸ ha⟩, h.snoc ha⟩

/-- only an LREM that empties a list leaves the plain views -/
def IsPlainView : LView → Prop
  | .absent => True
  | .other => True
  | .list _ => True
  | _ => False

/-- C20 for histories in which `k` is never the target of LREM: the key is absent, holds something that is not a list,
or holds a sequence, and every list request is answered from that sequence. -/
theorem C20_sequence_partial {ext rng tr s} (h : Trace ext (Store.init rng) tr s) (hp : ∀ p ∈ tr, Plain p.1)
    {k : Bytes} (hno : ∀ p ∈ tr, lower (p.1.headD []) = b! "lrem" → p.1[1]? ≠ some k) :
    IsPlainView (after k tr) ∧
    ∀ name args, Plain (name :: k :: args) →
      lower name ∈ [b! "lpush", b! "rpush", b! "lpop", b! "rpop", b! "llen", b! "lrange", b! "lrem", b! "lset", b! "linsert"] →
      ∃ m, reply (after k tr) (lower name) args = some m ∧
        ∀ it, ∃ s', Answers ext it s (name :: k :: args) m s' := by
  have hv : IsPlainView (after k tr) := by
    clear h hp s ext rng
    induction tr using List.reverseRecOn with
    | nil => trivial
    | append_singleton tr p ih =>
      rw [after_snoc]
      have ih := ih (fun q hq => hno q (by simp [hq]))
      have hn := hno p (by simp)
      revert ih
      generalize after k tr = v
      intro ih
      obtain ⟨req, m⟩ := p
      unfold step
      repeat' split
      all_goals first | exact ih | trivial | skip
      · cases v <;> first | trivial | exact ih
      · cases v <;> first | trivial | exact ih
      · next hh _ _ _ _ hw =>
        simp only [ne_eq, not_not] at hh
        have hne : lower (req.headD []) ≠ b! "lrem" := by
          intro he
          apply hn he
          rcases req with _ | ⟨n, _ | ⟨k', r⟩⟩ <;> simp_all
        simp only [listWriters, List.mem_cons, List.not_mem_nil, or_false] at hw
        dsimp only at hw hne ⊢
        generalize lower (req.headD []) = name at hw hne
        generalize req.tail.tail = as
        rcases hw with rfl | rfl | rfl | rfl | rfl | rfl | rfl
        · cases v <;> first | trivial | exact ih
        · cases v <;> first | trivial | exact ih
        · cases v <;> first | trivial | exact ih
        · cases v <;> first | trivial | exact ih
        · exact absurd rfl hne
        · cases v <;> first | exact ih | skip
          rcases as with _ | ⟨i, _ | ⟨x, r⟩⟩ <;> trivial
        · cases v <;> first | exact ih | skip
          rcases as with _ | ⟨i, _ | ⟨x, _ | ⟨y, r⟩⟩⟩ <;> trivial
  refine ⟨hv, fun name args hq hname => ?_⟩
  have hl : after k tr ≠ .lost := by intro he; rw [he] at hv; exact hv
  have hr : ∃ m, reply (after k tr) (lower name) args = some m := by
    by_cases hw : lower name ∈ listWriters
    · exact reply_some hl hw args
    · have : lower name = b! "llen" ∨ lower name = b! "lrange" := by
        simp only [listWriters, List.mem_cons, List.not_mem_nil, or_false] at hw hname
        tauto
      rcases this with e | e
      · rw [e, reply_llen, if_neg hl]; exact ⟨_, rfl⟩
      · rw [e, reply_lrange, if_neg hl]; exact ⟨_, rfl⟩
  obtain ⟨m, hm⟩ := hr
  exact ⟨m, hm, fun it => list_answers (h.lmatch hp k) hq hm⟩

/-- Case: a history with all list commands; the view is a three-element list and LRANGE reports it. -/
def listDemo : List (List Bytes) :=
  [[b! "RPUSH", b! "l", b! "a", b! "b"], [b! "lpush", b! "l", b! "c", b! "d"], [b! "lpop", b! "l"],
   [b! "linsert", b! "l", b! "Before", b! "b", b! "x"], [b! "lset", b! "l", b! "-1", b! "z"], [b! "rpop", b! "l", b! "1"],
   [b! "set", b! "k", b! "v"], [b! "lrem", b! "l", b! "0", b! "a"], [b! "rpush", b! "l", b! "e"]]

/-- the demo history is played, all its requests are plain and the view is the sequence c, x, e -/
example : ∃ tr s, Trace ext0 (Store.init rng0) tr s ∧ (∀ p ∈ tr, Plain p.1) ∧
    after (b! "l") tr = .list [b! "c", b! "x", b! "e"] ∧
    Reads ext0 s [b! "lrange", b! "l", b! "0", b! "-1"] (bulks [b! "c", b! "x", b! "e"]) := by
  have hp : (play ext0 it0 (Store.init rng0) listDemo).isSome := by decide +kernel
  obtain ⟨⟨tr, s⟩, h⟩ := Option.isSome_iff_exists.mp hp
  have htr : tr = listDemo.zip ((replies listDemo).getD []) := by
    have h2 : replies listDemo = some (tr.map (·.2)) := by unfold replies; rw [h]; rfl
    rw [h2, ← play_fst h]; simp [List.zip_map', List.map_id'']
  have hpl : ∀ p ∈ tr, Plain p.1 := by
    rw [htr]; unfold Plain Ascii; decide +kernel
  have haf : after (b! "l") tr = .list [b! "c", b! "x", b! "e"] := by rw [htr]; decide +kernel
  refine ⟨tr, s, play_trace h, hpl, haf, ?_⟩
  refine list_reads (.inl rfl) ((play_trace h).lmatch hpl _) ?_ ?_
  · unfold Plain Ascii; decide
  · rw [haf]; decide

end Godis
