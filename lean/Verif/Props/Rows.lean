import Verif.Proofs.Rows3
import Verif.Props.Crash
/-!
# C59: lists, exactly

`RowSpec` (Spec/Rows.lean) says what every list request answers in every case, including the lists that an LREM has
emptied, where `ListSpec` (C20) stops.  `RowSpec.after k tr` is what key `k` holds after the history `tr`, computed from
requests and replies alone.
-/
namespace Godis
open Resp (Reply bulks)
open StrSpec (int64 lower isError Ascii)
open ListSpec (Plain)
open RowSpec (Row View Outcome answer commands)

variable {ext : Ext} {s : Store}

/-- C59: after any history, every list request is answered exactly as the specification says, or crashes the server where
the specification says so. -/
theorem C59_lists {rng tr} (h : Trace ext (Store.init rng) tr s) (hp : ∀ p ∈ tr, Plain p.1)
    {name : Bytes} {args : List Bytes} (hn : lower name ∈ commands) (hq : Plain (name :: args)) (it : Iter) :
    match answer (fun k => RowSpec.after k tr) (lower name) args with
    | .reply m => ∃ s', (∀ m' s'', Answers ext it s (name :: args) m' s'' ↔ m' = m ∧ s'' = s') ∧
        Trace ext (Store.init rng) (tr ++ [(name :: args, m)]) s'
    | .crash => Crashes ext it s (name :: args) := by
  have := row_request (ext := ext) (it := it) (s := s) (look := fun k => RowSpec.after k tr) hn hq (fun k _ => h.rmatch hp k)
  cases ha : answer (fun k => RowSpec.after k tr) (lower name) args with
  | reply m =>
    rw [ha] at this
    obtain ⟨s', ha⟩ := this
    exact ⟨s', fun m' s'' => ⟨fun h' => ha.unique h', fun ⟨h1, h2⟩ => h1 ▸ h2 ▸ ha⟩, h.snoc ha⟩
  | crash => rw [ha] at this; exact ⟨_, this⟩

theorem Answers.not_crashes {it req m s'} (h : Answers ext it s req m s') : ¬ Crashes ext it s req := by
  rintro ⟨p, hp⟩
  obtain ⟨r, h, _⟩ := h
  rw [hp] at h; cases h

/-- C59: the server crashes on a list request exactly where the specification says so. -/
theorem C59_crash {rng tr} (h : Trace ext (Store.init rng) tr s) (hp : ∀ p ∈ tr, Plain p.1)
    {name : Bytes} {args : List Bytes} (hn : lower name ∈ commands) (hq : Plain (name :: args)) (it : Iter) :
    Crashes ext it s (name :: args) ↔ answer (fun k => RowSpec.after k tr) (lower name) args = .crash := by
  have := C59_lists h hp hn hq it
  cases ha : answer (fun k => RowSpec.after k tr) (lower name) args with
  | reply m =>
    rw [ha] at this
    obtain ⟨s', h', _⟩ := this
    exact ⟨fun hc => absurd hc ((h' m s').mpr ⟨rfl, rfl⟩).not_crashes, fun e => by cases e⟩
  | crash => rw [ha] at this; exact ⟨fun _ => rfl, fun _ => this⟩

/-- C59, C19: whatever the history, of the list requests only LREM, LINDEX and LSET can crash the server. -/
theorem C59_safe {rng tr} (h : Trace ext (Store.init rng) tr s) (hp : ∀ p ∈ tr, Plain p.1)
    {name : Bytes} {args : List Bytes} (hn : lower name ∈ commands) (hq : Plain (name :: args))
    (hs : lower name ∉ [b! "lrem", b! "lindex", b! "lset"]) (it : Iter) : ¬ Crashes ext it s (name :: args) := by
  rw [C59_crash h hp hn hq]
  have ht : ∀ (v : View) m, RowSpec.typed v (.reply m) ≠ .crash := by
    intro v m; unfold RowSpec.typed; split <;> simp
  generalize (fun k => RowSpec.after k tr) = look
  simp only [List.mem_cons, List.not_mem_nil, or_false, not_or] at hs
  obtain ⟨h1, h2, h3⟩ := hs
  rcases args with _ | ⟨k, args⟩
  · simp [answer]
  · unfold answer
    have h1' : ¬ lower name = s!! "lrem" := h1
    have h2' : ¬ lower name = s!! "lindex" := h2
    have h3' : ¬ lower name = s!! "lset" := h3
    simp only [h1', h2', h3', if_false]
    repeat' split
    all_goals first | exact ht _ _ | (intro h; cases h)

/-- C59: where the plain sequence specification of C20 says that a key holds a sequence, the row is that sequence, both
ends are known and the counter is its length. -/
theorem C59_agrees {rng tr} (h : Trace ext (Store.init rng) tr s) (hp : ∀ p ∈ tr, Plain p.1) {k : Bytes} {l : List Bytes}
    (hl : ListSpec.after k tr = .list l) : RowSpec.after k tr = .row (.good l) := by
  have h1 := h.lmatch hp k
  have h2 := h.rmatch hp k
  have h3 := sane_after k tr
  rw [hl] at h1
  obtain ⟨o, ⟨r, hg, ho⟩, hI⟩ := h1
  cases hr : RowSpec.after k tr with
  | absent => rw [hr] at h2; rw [show s.keys.get k = none from h2] at hg; cases hg
  | other => rw [hr] at h2; obtain ⟨i, h2, h4⟩ := h2; rw [hg] at h2; cases h2; exact absurd rfl h4
  | row c =>
    rw [hr] at h2 h3
    obtain ⟨o', ⟨r', hg', ho'⟩, hH⟩ := h2
    rw [hg] at hg'; cases hg'
    rw [ho] at ho'; cases ho'
    rw [row_unique hI hH h3]

/-! ## cases -/

deriving instance DecidableEq for RowSpec.Outcome

/-- a list that an LREM has emptied, pushed to at the known end -/
def hollowDemo : List (List Bytes) :=
  [[b! "RPUSH", b! "l", b! "a"], [b! "LREM", b! "l", b! "0", b! "a"], [b! "RPUSH", b! "l", b! "b", b! "b"]]

/-- Case: after RPUSH, an emptying LREM and another RPUSH, LLEN is 2 but LRANGE shows nothing, RPOP returns the last item,
and LREM from the left crashes the server. -/
example : ∃ tr s, Trace ext0 (Store.init rng0) tr s ∧ (∀ p ∈ tr, Plain p.1) ∧
    RowSpec.after (b! "l") tr = .row ⟨[[], b! "b", b! "b"], false, true, 2⟩ ∧
    answer (fun k => RowSpec.after k tr) (b! "llen") [b! "l"] = .reply (.int 2) ∧
    answer (fun k => RowSpec.after k tr) (b! "lrange") [b! "l", b! "0", b! "-1"] = .reply (bulks []) ∧
    answer (fun k => RowSpec.after k tr) (b! "rpop") [b! "l"] = .reply (bulks [b! "b"]) ∧
    Crashes ext0 it0 s [b! "LREM", b! "l", b! "1", b! "b"] := by
  obtain ⟨s, h⟩ := demo (reqs := hollowDemo) (by decide +kernel)
  have hp : ∀ p ∈ hollowDemo.zip ((replies hollowDemo).getD []), Plain p.1 := by unfold Plain Ascii; decide +kernel
  exact ⟨_, s, h, hp, by decide +kernel, by decide +kernel, by decide +kernel, by decide +kernel,
    (C59_crash h hp (by decide) (by unfold Plain Ascii; decide) it0).mpr (by decide +kernel)⟩

/-- the counter goes wrong -/
def negativeDemo : List (List Bytes) :=
  hollowDemo ++ [[b! "LREM", b! "l", b! "-1", []], [b! "LREM", b! "l", b! "-2", b! "b"]]

/-- Case: LLEN can be negative. -/
example : ∃ tr s, Trace ext0 (Store.init rng0) tr s ∧ (∀ p ∈ tr, Plain p.1) ∧
    ∃ s', Answers ext0 it0 s [b! "LLEN", b! "l"] (.int (-1)) s' := by
  obtain ⟨s, h⟩ := demo (reqs := negativeDemo) (by decide +kernel)
  have hp : ∀ p ∈ negativeDemo.zip ((replies negativeDemo).getD []), Plain p.1 := by unfold Plain Ascii; decide +kernel
  refine ⟨_, s, h, hp, ?_⟩
  have hl := C59_lists h hp (name := b! "LLEN") (args := [b! "l"]) (by decide) (by unfold Plain Ascii; decide) it0
  have e : answer (fun k => RowSpec.after k (negativeDemo.zip ((replies negativeDemo).getD []))) (lower (b! "LLEN")) [b! "l"] =
      .reply (.int (-1)) := by decide +kernel
  rw [e] at hl
  obtain ⟨s', h', _⟩ := hl
  exact ⟨s', (h' (.int (-1)) s').mpr ⟨rfl, rfl⟩⟩

/-- Case: a long list in good order; `C59_agrees` applies and LSET at a position in the right half is answered. -/
example : ∃ tr s, Trace ext0 (Store.init rng0) tr s ∧ (∀ p ∈ tr, Plain p.1) ∧
    RowSpec.after (b! "l") tr = .row (.good [b! "c", b! "x", b! "e"]) ∧
    answer (fun k => RowSpec.after k tr) (b! "lset") [b! "l", b! "-1", b! "z"] = .reply (.simple (b! "OK")) := by
  obtain ⟨s, h⟩ := demo (reqs := listDemo) (by decide +kernel)
  have hp : ∀ p ∈ listDemo.zip ((replies listDemo).getD []), Plain p.1 := by unfold Plain Ascii; decide +kernel
  exact ⟨_, s, h, hp, C59_agrees h hp (by decide +kernel), by decide +kernel⟩

end Godis
