import Verif.Model.Main
import Verif.Props.Settle
import Verif.Props.Schedules
import Verif.Props.Log
/-!
# The life of the process: C55
-/
namespace Godis.Main
open Godis.Event (Sys Label Step Run Stopper frames)

/-- the steps of the server in a run of the process -/
def sysLabels (L : List PLabel) : List Label := L.filterMap fun l => match l with | .sys l => some l | _ => none

/-- the number of signals -/
def signals (L : List PLabel) : Nat := L.countP fun l => match l with | .signal => true | _ => false

/-- a signal arrives before the server has begun to serve -/
def EarlySignal (L : List PLabel) : Prop := ∃ A B, L = A ++ .signal :: B ∧ .listening ∉ A

/-- nothing can happen any more, except that more frames or more signals arrive -/
def AtRest (ext : Ext) (p : Proc) : Prop := ∀ l p', PStep ext p l p' → l = .signal ∨ ∃ i c f, l = .sys (.recv i c f)

theorem sysLabels_snoc (L : List PLabel) (l : PLabel) : sysLabels (L ++ [l]) = sysLabels L ++ sysLabels [l] := by
  simp [sysLabels]

theorem mem_sysLabels {L : List PLabel} {l : Label} : l ∈ sysLabels L ↔ .sys l ∈ L := by
  unfold sysLabels
  rw [List.mem_filterMap]
  constructor
  · rintro ⟨a, h1, h2⟩
    cases a <;> simp_all
  · intro h; exact ⟨_, h, rfl⟩

/-- the server inside the process runs as in `Model/Event` -/
theorem PSteps.run {ext rng L p} (h : PRun ext rng L p) : Run ext 1 rng (sysLabels L) p.sys := by
  induction h with
  | nil => exact .nil
  | snoc h hc he hs ih =>
    rw [sysLabels_snoc]
    cases hs with
    | recv i c f σ' _ hs => exact .snoc ih hc hs
    | sys l σ' _ _ hs => exact .snoc ih hc hs
    | onShutdown σ' _ hs => exact .snoc ih hc hs
    | _ => simpa [sysLabels] using ih

/-- the bookkeeping of `main` -/
structure Inv (L : List PLabel) (p : Proc) : Prop where
  notYet : p.runner = .starting ∨ p.runner = .serving ∨ p.runner = .closing → .sys .stop ∉ L ∧ .served ∉ L
  stopping : p.runner = .stopping → .sys .stop ∈ L
  done : p.runner = .done → .startFailed ∈ L ∨ .sys .stopped ∈ L
  told : p.runner = .closing ∨ p.runner = .stopping → p.waiter = .waiting ∨ p.waiter = .done
  waiting : p.waiter = .waiting → p.runner ≠ .starting ∧ p.runner ≠ .serving
  pending : p.runner = .done → p.waiter = .selecting → p.err = true
  cause : p.waiter ≠ .selecting ∨ p.sig = true ∨ p.err = true → .signal ∈ L ∨ .startFailed ∈ L
  failed : .startFailed ∈ L → p.runner = .done ∧ .listening ∉ L
  start : p.runner = .starting ↔ .listening ∉ L ∧ .startFailed ∉ L
  quiet : p.runner = .starting → ∀ i c f, .sys (.recv i c f) ∉ L
  frames : .startFailed ∈ L → ∀ i c f, .sys (.recv i c f) ∉ L
  exited : p.exited = true → p.runner = .done ∧ p.waiter = .done
  early : ¬ EarlySignal L → p.runner = .serving → (p.waiter = .selecting ∨ p.waiter = .calling) ∧ (.signal ∈ L → p.sig = true ∨ p.waiter = .calling)
  erred : p.err = true → .startFailed ∈ L
  none : .listening ∉ L → .signal ∈ L → EarlySignal L
  prompt : ¬ EarlySignal L → p.runner = .starting → p.waiter = .selecting ∧ p.sig = false

theorem EarlySignal.snoc {L : List PLabel} {l : PLabel} (h : EarlySignal L) : EarlySignal (L ++ [l]) := by
  obtain ⟨A, B, rfl, h2⟩ := h
  exact ⟨A, B ++ [l], by simp, h2⟩

theorem PSteps.inv {ext rng L p} (h : PRun ext rng L p) : Inv L p := by
  induction h with
  | nil => constructor <;> simp [Proc.init]
  | @snoc L q l q' h hc he hs ih =>
    have hrun := PSteps.run h
    have hret : q.sys.stopper = .returned → .sys .stopped ∈ L := fun hh => mem_sysLabels.mp (hrun.stopping.2.2.2.1 hh)
    have hes : l = .signal → .listening ∉ L → EarlySignal (L ++ [l]) := fun hl hn => ⟨L, [], by rw [hl], hn⟩
    have hmn : EarlySignal L → EarlySignal (L ++ [l]) := fun h' => h'.snoc
    have hmono : ¬ EarlySignal (L ++ [l]) → ¬ EarlySignal L := fun hh h' => hh h'.snoc
    obtain ⟨i1, i2, i3, i4, i5, i6, i7, i8, i9, i10, i11, i12, i13, i15, i16, i14⟩ := ih
    have hm : ∀ x, x ∈ L ++ [l] ↔ x ∈ L ∨ x = l := fun x => by simp
    cases hs with
    | recv i c f σ' h1 h2 => constructor <;> simp only [hm, reduceCtorEq, or_false, PLabel.sys.injEq] <;> grind
    | sys l σ' h1 h2 h3 => constructor <;> simp only [hm, reduceCtorEq, or_false, PLabel.sys.injEq] <;> grind
    | _ => constructor <;> simp only [hm, reduceCtorEq, or_false, or_true] <;> grind

/-- C55: the process ends only because of a signal or because the server could not be started. -/
theorem C55_exit_cause {ext rng L p} (h : PRun ext rng L p) (he : p.exited = true) : .signal ∈ L ∨ .startFailed ∈ L := by
  have hi := h.inv
  exact hi.cause (.inl (by simp [(hi.exited he).2]))

/-- C55: when the process ends after serving, the event pool was shut down before: `event.Stop` returned, the worker has
ended, so no command was cut off.  If the server could not be started, no frame was ever received. -/
theorem C55_exit_clean {ext rng L p} (h : PRun ext rng L p) (he : p.exited = true) :
    (.sys .stopped ∈ L ∧ p.sys.worker 0 = .exited) ∨ ∀ i c f, .sys (.recv i c f) ∉ L := by
  have hi := h.inv
  rcases hi.done (hi.exited he).1 with h1 | h1
  · exact .inr (hi.frames h1)
  · exact .inl ⟨h1, ((h.run.workers.2.1 (mem_sysLabels.mpr h1)).2 0 (by omega))⟩

/-- C55: a bounded number of steps per frame and signal. -/
theorem C55_bounded {ext rng L p} (h : PRun ext rng L p) :
    L.length ≤ 11 * frames (sysLabels L) + signals L + 11 := by
  have hb := Event.C52_bounded h.run
  have key : L.length + (match p.runner with | .starting => 2 | .serving => 1 | .closing => 1 | .stopping => 1 | .done => 0) +
      (match p.waiter with | .selecting => 3 | .calling => 2 | .waiting => 1 | .done => 0) + (if p.exited then 0 else 1) ≤
      (sysLabels L).length + signals L + 6 := by
    clear hb
    induction h with
    | nil => simp [Proc.init, sysLabels, signals]
    | @snoc L q l q' h hc he hs ih =>
      have e1 : signals (L ++ [l]) = signals L + signals [l] := by simp [signals]
      have e2 : (sysLabels (L ++ [l])).length = (sysLabels L).length + (sysLabels [l]).length := by simp [sysLabels]
      rw [e1, e2, List.length_append]
      cases hs <;> simp_all [sysLabels, signals] <;> grind
  omega

/-- C55: when everything has come to rest, the process has ended, if the server could not be started, or if a signal
came and none came before the server had begun to serve. -/
theorem C55_signal_exits_partial {ext rng L p} (h : PRun ext rng L p) (hr : AtRest ext p)
    (hcause : .startFailed ∈ L ∨ .signal ∈ L ∧ ¬ EarlySignal L) : p.exited = true := by
  have hi := h.inv
  by_contra hne
  have hne : p.exited = false := by simpa using hne
  have rest : ∀ l p', PStep ext p l p' → l ≠ .signal → (∀ i c f, l ≠ .sys (.recv i c f)) → False := by
    intro l p' hs h1 h2
    rcases hr l p' hs with rfl | ⟨i, c, f, rfl⟩
    · exact h1 rfl
    · exact h2 i c f rfl
  have hstop := Event.C52_stop_returns (by omega) h.run (by
    intro l σ' hs
    by_cases h1 : ∃ i c f, l = .recv i c f
    · exact .inl h1
    by_cases h2 : l = .stop
    · exact .inr h2
    refine (rest _ _ (.sys p l σ' (fun i c f he => h1 ⟨i, c, f, he⟩) h2 hs) (by simp) ?_).elim
    intro i c f he
    cases he
    exact h1 ⟨i, c, f, rfl⟩)
  cases hrun : p.runner with
  | starting => exact rest _ _ (.listening p hrun) (by simp) (by simp)
  | closing =>
    have hno : p.sys.stopper = .no := by
      by_contra hh
      exact (hi.notYet (.inr (.inr hrun))).1 (mem_sysLabels.mp (h.run.workers.2.2.2.mpr hh))
    exact rest _ _ (.onShutdown p _ hrun (.stop p.sys hno)) (by simp) (by simp)
  | stopping =>
    have h1 := hstop.1 (mem_sysLabels.mpr (hi.stopping hrun))
    exact rest _ _ (.served p hrun (h.run.workers.2.1 h1).1) (by simp) (by simp)
  | done =>
    cases hw : p.waiter with
    | selecting => exact rest _ _ (.noticedErr p hw (hi.pending hrun hw)) (by simp) (by simp)
    | calling => exact rest _ _ (.notFound p hw (.inr hrun)) (by simp) (by simp)
    | waiting => exact rest _ _ (.waited p hw) (by simp) (by simp)
    | done => exact rest _ _ (.exit p hrun hw) (by simp) (by simp)
  | serving =>
    rcases hcause with h1 | ⟨h1, h2⟩
    · have := (hi.failed h1).1
      rw [hrun] at this
      exact absurd this (by decide)
    · obtain ⟨h3, h4⟩ := hi.early h2 hrun
      cases hw : p.waiter with
      | calling => exact rest _ _ (.told p hw hrun) (by simp) (by simp)
      | selecting =>
        rcases h4 h1 with h5 | h5
        · exact rest _ _ (.noticedSig p hw h5) (by simp) (by simp)
        · rw [hw] at h5; exact absurd h5 (by decide)
      | waiting => rw [hw] at h3; exact absurd h3 (by decide)
      | done => rw [hw] at h3; exact absurd h3 (by decide)

theorem frames_snoc (L : List PLabel) (l : PLabel) (hl : ∀ i c f, l ≠ .sys (.recv i c f)) :
    frames (sysLabels (L ++ [l])) = frames (sysLabels L) := by
  rw [sysLabels_snoc]
  cases l with
  | sys l => cases l <;> simp_all [frames, sysLabels]
  | _ => simp [frames, sysLabels]

theorem signals_snoc (L : List PLabel) (l : PLabel) (hl : l ≠ .signal) : signals (L ++ [l]) = signals L := by
  cases l <;> simp_all [signals]

theorem prests {ext rng} : ∀ (k : Nat) {L p}, PRun ext rng L p → 11 * frames (sysLabels L) + signals L + 11 ≤ L.length + k →
    ∃ L' p', PRun ext rng (L ++ L') p' ∧ (∀ l ∈ L', l ≠ .signal ∧ ∀ i c f, l ≠ .sys (.recv i c f)) ∧
      (p'.sys.crashed = true ∨ p'.exited = true ∨ AtRest ext p') := by
  intro k
  induction k with
  | zero =>
    intro L p h hk
    refine ⟨[], p, by simpa using h, by simp, ?_⟩
    by_contra hc
    simp only [not_or, Bool.not_eq_true, AtRest, not_forall] at hc
    obtain ⟨c1, c2, l, p', hs, c3, c4⟩ := hc
    have h' := PSteps.snoc h c1 c2 hs
    have := C55_bounded h'
    rw [frames_snoc L l (fun i c f he => c4 ⟨i, c, f, he⟩), signals_snoc L l c3] at this
    simp only [List.length_append, List.length_singleton] at this
    omega
  | succ k ih =>
    intro L p h hk
    by_cases hc : p.sys.crashed = true ∨ p.exited = true ∨ AtRest ext p
    · exact ⟨[], p, by simpa using h, by simp, hc⟩
    · simp only [not_or, Bool.not_eq_true, AtRest, not_forall] at hc
      obtain ⟨c1, c2, l, p', hs, c3, c4⟩ := hc
      have c4' : ∀ i c f, l ≠ .sys (.recv i c f) := fun i c f he => c4 ⟨i, c, f, he⟩
      have h' := PSteps.snoc h c1 c2 hs
      obtain ⟨L', q, g1, g2, g3⟩ := ih h' (by
        rw [frames_snoc L l c4', signals_snoc L l c3]
        simp only [List.length_append, List.length_singleton]
        omega)
      refine ⟨l :: L', q, by simpa using g1, ?_, g3⟩
      intro x hx
      rcases List.mem_cons.mp hx with rfl | hx
      · exact ⟨c3, c4'⟩
      · exact g2 x hx

/-- C55: from every point of every run the process can come to rest, without further frames or signals, unless a command
panics. -/
theorem C55_comes_to_rest {ext rng L p} (h : PRun ext rng L p) :
    ∃ L' p', PRun ext rng (L ++ L') p' ∧ (∀ l ∈ L', l ≠ .signal ∧ ∀ i c f, l ≠ .sys (.recv i c f)) ∧
      (p'.sys.crashed = true ∨ p'.exited = true ∨ AtRest ext p') :=
  prests _ h (Nat.le_add_left _ _)

/-! ## Running a given schedule -/

/-- who acts next -/
inductive PAct where
  | sys (a : Event.Act)
  | serve
  | fail
  | signal
  /-- the waiting goroutine -/
  | wait
  | main

/-- the step of the chosen goroutine, if it can act -/
def pperform (ext : Ext) (it : Iter) (p : Proc) : PAct → Option (PLabel × Proc)
  | .sys a =>
    match Event.perform ext it 1 p.sys a with
    | some (.recv i c f, σ') => if p.runner = .serving ∨ p.runner = .closing ∨ p.runner = .stopping then some (.sys (.recv i c f), { p with sys := σ' }) else none
    | some (.stop, σ') => if p.runner = .closing then some (.sys .stop, { p with runner := .stopping, sys := σ' }) else none
    | some (l, σ') => some (.sys l, { p with sys := σ' })
    | none => none
  | .serve =>
    match p.runner, p.sys.stopper with
    | .starting, _ => some (.listening, { p with runner := .serving })
    | .stopping, .returned => some (.served, { p with runner := .done })
    | _, _ => none
  | .fail => if p.runner = .starting then some (.startFailed, { p with runner := .done, err := true }) else none
  | .signal => some (.signal, { p with sig := true })
  | .wait =>
    match p.waiter with
    | .selecting => if p.sig = true then some (.noticed, { p with waiter := .calling, sig := false })
        else if p.err = true then some (.noticed, { p with waiter := .calling, err := false }) else none
    | .calling => if p.runner = .serving then some (.told, { p with waiter := .waiting, runner := .closing })
        else if p.runner = .starting ∨ p.runner = .done then some (.notFound, { p with waiter := .done }) else none
    | .waiting => some (.waited, { p with waiter := .done })
    | .done => none
  | .main => if p.runner = .done ∧ p.waiter = .done then some (.exit, { p with exited := true }) else none

theorem pperform_step {ext it p a l p'} (h : pperform ext it p a = some (l, p')) : PStep ext p l p' := by
  cases a with
  | sys a =>
    simp only [pperform] at h
    split at h
    · next hp =>
      split at h
      · next hr => cases h; exact .recv p _ _ _ _ hr (Event.perform_step hp)
      · cases h
    · next hp =>
      split at h
      · next hr => cases h; exact .onShutdown p _ hr (Event.perform_step hp)
      · cases h
    · next hn1 hn2 hp =>
      cases h
      refine .sys p _ _ ?_ ?_ (Event.perform_step hp)
      · intro i c f he; subst he; exact hn1 i c f rfl
      · intro he; subst he; exact hn2 rfl
    · cases h
  | serve =>
    simp only [pperform] at h
    split at h
    · next hr => cases h; exact .listening p hr
    · next hr hs => cases h; exact .served p hr hs
    · cases h
  | fail =>
    simp only [pperform] at h
    split at h
    · next hr => cases h; exact .startFailed p hr
    · cases h
  | signal => cases h; exact .signal p
  | wait =>
    simp only [pperform] at h
    split at h
    · next hw =>
      split at h
      · next hs => cases h; exact .noticedSig p hw hs
      · split at h
        · next he => cases h; exact .noticedErr p hw he
        · cases h
    · next hw =>
      split at h
      · next hs => cases h; exact .told p hw hs
      · split at h
        · next he => cases h; exact .notFound p hw he
        · cases h
    · next hw => cases h; exact .waited p hw
    · cases h
  | main =>
    simp only [pperform] at h
    split at h
    · next hr => cases h; exact .exit p hr.1 hr.2
    · cases h

/-- run the schedule; `none` if a chosen goroutine cannot act -/
def pschedule (ext : Ext) (it : Iter) : List PLabel → Proc → List PAct → Option (List PLabel × Proc)
  | L, p, [] => some (L, p)
  | L, p, a :: as =>
    if p.sys.crashed = true ∨ p.exited = true then none
    else match pperform ext it p a with
      | none => none
      | some (l, p') => pschedule ext it (L ++ [l]) p' as

theorem pschedule_run {ext it rng} : ∀ {as L p L' p'}, PRun ext rng L p → pschedule ext it L p as = some (L', p') → PRun ext rng L' p'
  | [], L, p, L', p', hr, h => by cases h; exact hr
  | a :: as, L, p, L', p', hr, h => by
    simp only [pschedule] at h
    split at h
    · cases h
    · next hc =>
      split at h
      · cases h
      · next hp =>
        simp only [not_or, Bool.not_eq_true] at hc
        exact pschedule_run (.snoc hr hc.1 hc.2 (pperform_step hp)) h

theorem ptry {ext it rng as L} (h : ((pschedule ext it [] (Proc.init rng) as).map fun x => (x.1, x.2.exited)) = some (L, true)) :
    ∃ p, PRun ext rng L p ∧ p.exited = true := by
  cases hs : pschedule ext it [] (Proc.init rng) as with
  | none => rw [hs] at h; cases h
  | some x =>
    rw [hs] at h
    obtain ⟨L', p⟩ := x
    simp only [Option.map_some, Option.some.injEq, Prod.mk.injEq] at h
    obtain ⟨rfl, h2⟩ := h
    exact ⟨p, pschedule_run .nil hs, h2⟩

/-- Case: the server starts, a signal comes, the process ends. -/
example : ∃ L p, PRun ext0 rng0 L p ∧ p.exited = true ∧ .signal ∈ L ∧ ¬ EarlySignal L := by
  obtain ⟨p, h1, h2⟩ := ptry (ext := ext0) (it := it0) (rng := rng0)
    (as := [.serve, .signal, .wait, .wait, .sys .stop, .sys .stop, .sys (.quit 0), .sys .stop, .serve, .wait, .main]) rfl
  refine ⟨_, p, h1, h2, by simp, ?_⟩
  rintro ⟨A, B, e, hn⟩
  cases A with
  | nil => simp at e
  | cons a A =>
    simp only [List.nil_append, List.cons_append, List.cons.injEq] at e
    rw [← e.1] at hn
    simp at hn

/-- C55 fails for a signal that comes too early: it is lost, and no later signal ends the process. -/
theorem C55_early_signal_violated (ext : Ext) (rng : Rng) :
    ∃ L p, PRun ext rng L p ∧ .signal ∈ L ∧ .listening ∈ L ∧ ∀ L' p', PSteps ext p L' p' → p'.exited = false := by
  have h1 : PRun ext rng [] (Proc.init rng) := .nil
  have h2 := PSteps.snoc h1 rfl rfl (.signal _)
  have h3 := PSteps.snoc h2 rfl rfl (.noticedSig _ rfl rfl)
  have h4 := PSteps.snoc h3 rfl rfl (.notFound _ rfl (.inl rfl))
  have h5 := PSteps.snoc h4 rfl rfl (.listening _ rfl)
  refine ⟨_, _, h5, by simp, by simp, ?_⟩
  intro L' p' hs
  suffices hinv : p'.runner = .serving ∧ p'.waiter = .done ∧ p'.exited = false from hinv.2.2
  induction hs with
  | nil => exact ⟨rfl, rfl, rfl⟩
  | snoc _ _ _ hs ih =>
    obtain ⟨i1, i2, i3⟩ := ih
    cases hs <;> simp_all

/-- C45 fails at the end of the process: a request was executed, but the process ends before its handler has written the
reply; nothing waits for the handlers. -/
theorem C45_exit_violated : ∃ L p rsp, PRun ext0 rng0 L p ∧ p.exited = true ∧ .sys (.recv 0 0 Event.setX5) ∈ L ∧
    .sys (.exec 0 0 rsp) ∈ L ∧ .sys (.publish 0 0) ∈ L ∧ ∀ b, .sys (.write 0 0 b) ∉ L := by
  obtain ⟨p, h1, h2⟩ := ptry (ext := ext0) (it := it0) (rng := rng0)
    (as := [.serve, .sys (.recv 0 0 Event.setX5), .sys (.handle 0), .sys (.handle 0), .sys (.work 0), .sys (.work 0), .sys (.work 0), .sys (.work 0),
      .signal, .wait, .wait, .sys .stop, .sys .stop, .sys (.quit 0), .sys .stop, .serve, .wait, .main]) rfl
  exact ⟨_, p, _, h1, h2, by simp, List.mem_of_getElem (i := 6) (h := by decide) rfl, by simp, by simp⟩

end Godis.Main
