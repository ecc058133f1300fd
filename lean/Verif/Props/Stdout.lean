import Verif.Props.Recovery
import Verif.Proofs.Stdout
/-!
# The log as it is really written: standard output, C54

`Props/Recovery` is about the entries of the log.  The server writes them to standard output, and ZCOUNT, ZRANGEBYSCORE and
ZRANGE BYSCORE print there, too.
-/
namespace Godis.Event
open Resp (IsRequest IsLog IsMixed)

theorem Output.mixed {ext n rng L σ t} (h : Output ext n rng L σ t) (hwf : WellFormed L) :
    ∃ reqs, Texts σ.log reqs ∧ IsMixed t reqs := by
  induction h with
  | nil => exact ⟨[], .nil, .nil⟩
  | @snoc L σ t l σ' hr hc hs ih =>
    obtain ⟨reqs, h1, h2⟩ := ih (hwf.of_prefix (List.prefix_append _ _))
    have hrun := Run.snoc hr.run hc hs
    obtain ⟨reqs', h3⟩ := hrun.log_requests hwf
    have hlog : σ'.log = σ.log ++ (logs [l]).map (·.2) := by
      rw [hrun.log_eq, hr.run.log_eq, ← List.map_append]
      congr 1
      rw [logs_snoc]
      cases l <;> rfl
    by_cases hl : ∃ i x, l = .log i x
    · obtain ⟨i, x, rfl⟩ := hl
      have e : σ'.log = σ.log ++ [x] := hlog
      rw [e] at h3
      have hx : ∃ req, IsRequest x req := by
        obtain ⟨i, hi, hx⟩ := List.getElem_of_mem (show x ∈ σ.log ++ [x] by simp)
        have := h3.get hi (by rw [← h3.length_eq]; exact hi)
        simp only [List.get_eq_getElem, hx] at this
        exact ⟨_, this⟩
      obtain ⟨req, hx⟩ := hx
      refine ⟨reqs ++ [req], ?_, ?_⟩
      · rw [e]; exact List.rel_append h1 (.cons hx .nil)
      · exact isMixed_append h2 (.entry hx .nil)
    · have e : σ'.log = σ.log := by
        rw [hlog]
        cases l <;> first | exact absurd ⟨_, _, rfl⟩ hl | simp [logs]
      refine ⟨reqs, by rw [e]; exact h1, ?_⟩
      have h4 : IsMixed (emitted ext σ l) [] := by
        cases l <;> simp only [emitted] <;> first | exact .nil | (split; exact printed_mixed _ _ _ _; exact .nil) | exact absurd ⟨_, _, rfl⟩ hl
      simpa using isMixed_append h2 h4

/-- C54: whatever the schedule, if all frames are well-formed requests, the logged requests, in order, can be read from standard
output by skipping the lines that do not begin with an asterisk, and nothing else can be read from it. -/
theorem C54_stdout_reads_back {ext n rng L σ t} (h : Output ext n rng L σ t) (hwf : WellFormed L) :
    ∃ reqs, Texts σ.log reqs ∧ IsMixed t reqs ∧ ∀ reqs', IsMixed t reqs' → reqs' = reqs := by
  obtain ⟨reqs, h1, h2⟩ := h.mixed hwf
  refine ⟨reqs, h1, h2, ?_⟩
  intro reqs' h'
  obtain ⟨k, e1, h3⟩ := isMixed_prefix (x := []) (y := []) h' h2 rfl (Nat.le_refl _)
  obtain ⟨j, e2, h4⟩ := isMixed_prefix (x := []) (y := []) h2 h' rfl (Nat.le_refl _)
  have l1 := congrArg List.length e1
  have l2 := congrArg List.length e2
  rw [List.length_take] at l1 l2
  rw [e1, List.take_of_length_le (by omega)]

/-- C54, crash points: if standard output is cut off after any byte, every way to read requests from the beginning of what is
left gives the first of the logged requests. -/
theorem C54_stdout_crash_point {ext n rng L σ t} (h : Output ext n rng L σ t) (hwf : WellFormed L) {p : Bytes} (hp : p <+: t) :
    ∃ reqs, Texts σ.log reqs ∧ ∀ q rest reqs', p = q ++ rest → IsMixed q reqs' → ∃ j, j ≤ reqs.length ∧ reqs' = reqs.take j := by
  obtain ⟨reqs, h1, h2⟩ := h.mixed hwf
  refine ⟨reqs, h1, ?_⟩
  intro q rest reqs' hq hr
  obtain ⟨y, hy⟩ := hp
  have e : q ++ (rest ++ y) = t ++ [] := by rw [← List.append_assoc, ← hq, List.append_nil]; exact hy
  obtain ⟨k, e1, e2⟩ := isMixed_prefix hr h2 e (by
    have := congrArg List.length e
    simp only [List.length_append, List.length_nil] at this
    omega)
  exact ⟨k, e2, e1⟩

/-- `ZADD z 1 a` as a frame -/
def zaddZ : Bytes := b! "*4\r\n$4\r\nZADD\r\n$1\r\nz\r\n$1\r\n1\r\n$1\r\na\r\n"
/-- `ZCOUNT z 0 5` as a frame -/
def zcountZ : Bytes := b! "*4\r\n$6\r\nZCOUNT\r\n$1\r\nz\r\n$1\r\n0\r\n$1\r\n5\r\n"

/-- run the schedule and collect standard output -/
def outSchedule (ext : Ext) (it : Iter) (n : Nat) : List Label → Sys → Bytes → List Act → Option (List Label × Sys × Bytes)
  | L, σ, t, [] => some (L, σ, t)
  | L, σ, t, a :: as =>
    if σ.crashed = true then none
    else match perform ext it n σ a with
      | none => none
      | some (l, σ') => outSchedule ext it n (L ++ [l]) σ' (t ++ emitted ext σ l) as

theorem outSchedule_run {ext it n rng} : ∀ {as L σ t L' σ' t'}, Output ext n rng L σ t →
    outSchedule ext it n L σ t as = some (L', σ', t') → Output ext n rng L' σ' t'
  | [], L, σ, t, L', σ', t', hr, h => by cases h; exact hr
  | a :: as, L, σ, t, L', σ', t', hr, h => by
    unfold outSchedule at h
    split at h
    · cases h
    · next hc =>
      split at h
      · cases h
      · next hp => exact outSchedule_run (.snoc hr (by simpa using hc) (perform_step hp)) h

theorem isRequest_zaddZ : IsRequest zaddZ [b! "ZADD", b! "z", b! "1", b! "a"] :=
  ⟨b! "4", _, by decide, .cons (d := b! "4") (by decide) (.cons (d := b! "1") (by decide) (.cons (d := b! "1") (by decide)
    (.cons (d := b! "1") (by decide) .nil))), by decide⟩
theorem isRequest_zcountZ : IsRequest zcountZ [b! "ZCOUNT", b! "z", b! "0", b! "5"] :=
  ⟨b! "4", _, by decide, .cons (d := b! "6") (by decide) (.cons (d := b! "1") (by decide) (.cons (d := b! "1") (by decide)
    (.cons (d := b! "1") (by decide) .nil))), by decide⟩

/-- the frames of a run -/
def recvs (L : List Label) : List Bytes := L.filterMap fun l => match l with | .recv _ _ f => some f | _ => none

/-- Case: ZADD and ZCOUNT; standard output holds both requests and the line that ZCOUNT printed. -/
theorem noise_case : ∃ L σ, Output ext0 1 rng0 L σ (zaddZ ++ [10] ++ (zcountZ ++ [10]) ++ b! "0 1\n") ∧ WellFormed L := by
  have h : (outSchedule ext0 it0 1 [] (Sys.init rng0) []
    [.recv 0 0 zaddZ, .handle 0, .handle 0, .work 0, .work 0, .work 0, .work 0,
     .recv 1 0 zcountZ, .handle 1, .handle 1, .work 0, .work 0, .work 0]).map (fun p => (recvs p.1, p.2.2))
      = some ([zaddZ, zcountZ], zaddZ ++ [10] ++ (zcountZ ++ [10]) ++ b! "0 1\n") := by decide +kernel
  obtain ⟨⟨L, σ, t⟩, h1, h2⟩ := Option.map_eq_some_iff.mp h
  simp only [Prod.mk.injEq] at h2
  refine ⟨L, σ, h2.2 ▸ outSchedule_run .nil h1, ?_⟩
  intro i c f hm
  have : f ∈ recvs L := List.mem_filterMap.mpr ⟨_, hm, rfl⟩
  rw [h2.1] at this
  simp only [List.mem_cons, List.not_mem_nil, or_false] at this
  rcases this with rfl | rfl
  · exact ⟨_, isRequest_zaddZ, by simp, by decide, by decide⟩
  · exact ⟨_, isRequest_zcountZ, by simp, by decide, by decide⟩

/-- C54 fails for standard output as it is: after ZADD and ZCOUNT it is not a log of requests; a reader that does not know
of the other lines cannot read it. -/
theorem C54_noise_violated : ∃ L σ t, Output ext0 1 rng0 L σ t ∧ WellFormed L ∧ ∀ reqs, ¬ IsLog t reqs := by
  obtain ⟨L, σ, h1, h2⟩ := noise_case
  refine ⟨L, σ, _, h1, h2, ?_⟩
  intro reqs h
  have hl : IsLog (zaddZ ++ 10 :: (zcountZ ++ 10 :: [])) _ := .cons isRequest_zaddZ (.cons isRequest_zcountZ .nil)
  have hm : ∀ {t reqs}, IsLog t reqs → ∀ c r, t = c :: r → c = 42 := by
    intro t reqs h c r e
    cases h with
    | nil => cases e
    | cons h1 _ =>
      obtain ⟨x, rfl⟩ := isRequest_head h1
      simp only [List.cons_append, List.cons.injEq] at e
      exact e.1.symm
  generalize ht : zaddZ ++ [10] ++ (zcountZ ++ [10]) ++ b! "0 1\n" = t at h
  cases h with
  | nil => exact absurd ht (by decide)
  | cons g1 g2 =>
    obtain ⟨rfl, e, _⟩ := isRequest_unique (x := [10] ++ ((zcountZ ++ [10]) ++ b! "0 1\n")) isRequest_zaddZ g1 (by rw [← ht]; simp)
    simp only [List.cons_append, List.nil_append, List.cons.injEq, true_and] at e
    subst e
    generalize ht : zcountZ ++ [10] ++ b! "0 1\n" = t at g2
    cases g2 with
    | nil => exact absurd ht (by decide)
    | cons k1 k2 =>
      obtain ⟨rfl, e, _⟩ := isRequest_unique (x := [10] ++ b! "0 1\n") isRequest_zcountZ k1 (by rw [← ht]; simp)
      simp only [List.cons_append, List.nil_append, List.cons.injEq, true_and] at e
      exact absurd (hm k2 _ _ e.symm) (by decide)

end Godis.Event
