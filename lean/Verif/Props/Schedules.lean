import Verif.Proofs.Event2
/-!
# Running a given schedule

Used only to show that hypotheses of theorems are met by concrete runs, and to exhibit runs that violate a claim.
-/
namespace Godis.Event

/-- who acts next -/
inductive Act where
  /-- a frame arrives -/
  | recv (i conn : Nat) (frame : Bytes)
  /-- the handler of frame `i` makes its next step -/
  | handle (i : Nat)
  /-- the handler of frame `i` sees the timeout -/
  | timeout (i : Nat)
  /-- worker `w` makes its next step (in the select: receives an event) -/
  | work (w : Nat)
  /-- worker `w`, in the select, sees its `done` channel -/
  | quit (w : Nat)
  /-- the caller of `Stop` makes its next step -/
  | stop

/-- the step of the chosen goroutine, if it can act -/
def perform (ext : Ext) (it : Iter) (n : Nat) (σ : Sys) : Act → Option (Label × Sys)
  | .recv i c f =>
    match σ.handler i with
    | .absent => some (.recv i c f, { σ with handler := upd σ.handler i (.submitted c f) })
    | _ => none
  | .handle i =>
    match σ.handler i with
    | .submitted c f =>
      match decodeFromReader f with
      | .err _ _ => some (.quiet i, { σ with handler := upd σ.handler i .ended })
      | .panic p => some (.died i p, { σ with handler := upd σ.handler i .ended })
      | .ok rec _ => some (.log i rec.orgStr,
          { σ with handler := upd σ.handler i (.logged c rec), log := σ.log ++ [rec.orgStr] })
    | .logged c rec =>
      match newCommand ext rec.elements with
      | none => some (.quiet i, { σ with handler := upd σ.handler i .ended })
      | some (name, args) =>
        if σ.closed = true then some (.died i .sendOnClosed, { σ with handler := upd σ.handler i .ended })
        else if σ.chan.length < 1 then
          some (.enqueue i, { σ with handler := upd σ.handler i (.waiting c), chan := σ.chan ++ [⟨i, name, args⟩] })
        else none
    | .waiting c =>
      match σ.done i with
      | none => none
      | some rsp => some (.result i, { σ with handler := upd σ.handler i (.replying c rsp) })
    | .replying c rsp =>
      match rsp.encode with
      | .error p => some (.died i p, { σ with handler := upd σ.handler i .ended })
      | .ok b => if b = [] then some (.quiet i, { σ with handler := upd σ.handler i .ended })
        else some (.write i c b, { σ with handler := upd σ.handler i .ended, out := σ.out ++ [(c, b)] })
    | _ => none
  | .timeout i =>
    match σ.handler i with
    | .waiting c => some (.timeout i,
        { σ with handler := upd σ.handler i (.replying c (newResponseWithError deadlineExceeded)) })
    | _ => none
  | .work w =>
    if w < n then
      match σ.worker w with
      | .idle =>
        match σ.chan with
        | [] => if σ.closed = true then some (.exit w, { σ with worker := upd σ.worker w .exited }) else none
        | e :: rest => some (.take w e.id, { σ with worker := upd σ.worker w (.took e), chan := rest })
      | .took e => some (.start w e.id, { σ with worker := upd σ.worker w (.running e σ.store) })
      | .running e snap =>
        match execute ext it snap e.name e.args with
        | .error p => if p = .diverge then none else some (.crash w e.id p, { σ with crashed := true })
        | .ok (s', rsp) => some (.exec w e.id rsp, { σ with worker := upd σ.worker w (.got e rsp), store := s' })
      | .got e rsp => some (.publish w e.id,
          { σ with worker := upd σ.worker w .idle, done := upd σ.done e.id (some rsp) })
      | .exited => none
    else none
  | .quit w =>
    if w < n then
      match σ.worker w with
      | .idle => if σ.told w = true then some (.exit w, { σ with worker := upd σ.worker w .exited }) else none
      | _ => none
    else none
  | .stop =>
    match σ.stopper with
    | .no => some (.stop, { σ with closed := true, stopper := .signalling 0 })
    | .signalling w =>
      if w < n then some (.signal w, { σ with told := upd σ.told w true, stopper := .signalling (w + 1) })
      else if w = n ∧ ∀ v < n, (match σ.worker v with | .exited => true | _ => false) = true then some (.stopped, { σ with stopper := .returned })
      else none
    | .returned => none

theorem perform_step {ext it n σ a l σ'} (h : perform ext it n σ a = some (l, σ')) : Step ext n σ l σ' := by
  cases a with
  | recv i c f =>
    simp only [perform] at h
    split at h
    · next hh => cases h; exact .recv σ i c f hh
    · cases h
  | handle i =>
    simp only [perform] at h
    split at h
    · next c f hh =>
      split at h
      · next hd => cases h; exact .badFrame σ i c f _ _ hh hd
      · next hd => cases h; exact .decodePanic σ i c f _ hh hd
      · next hd => cases h; exact .log σ i c f _ _ hh hd
    · next c rec hh =>
      split at h
      · next hd => cases h; exact .noCommand σ i c rec hh hd
      · next hd =>
        split at h
        · next hc => cases h; exact .sendClosed σ i c rec _ _ hh hd hc
        · next hc =>
          split at h
          · next hl => cases h; exact .enqueue σ i c rec _ _ hh hd (by simpa using hc) hl
          · cases h
    · next c hh =>
      split at h
      · cases h
      · next hd => cases h; exact .result σ i c _ hh hd
    · next c rsp hh =>
      split at h
      · next hd => cases h; exact .encodePanic σ i c rsp _ hh hd
      · next hd =>
        split at h
        · next hb => cases h; subst hb; exact .writeNothing σ i c rsp hh hd
        · next hb => cases h; exact .write σ i c rsp _ hh hd hb
    · cases h
  | timeout i =>
    simp only [perform] at h
    split at h
    · next hh => cases h; exact .timeout σ i _ hh
    · cases h
  | work w =>
    simp only [perform] at h
    split at h
    · next hw =>
      split at h
      · next hi =>
        split at h
        · next hc =>
          split at h
          · next hcl => cases h; exact .exitClosed σ w hw hi hcl hc
          · cases h
        · next hc => cases h; exact .take σ w _ _ hw hi hc
      · next hi => cases h; exact .start σ w _ hw hi
      · next hi =>
        split at h
        · next he =>
          split at h
          · cases h
          · next hd => cases h; exact .crash σ w _ _ it _ hw hi he hd
        · next he => cases h; exact .exec σ w _ _ _ it _ hw hi he
      · next hi => cases h; exact .publish σ w _ _ hw hi
      · cases h
    · cases h
  | quit w =>
    simp only [perform] at h
    split at h
    · next hw =>
      split at h
      · next hi =>
        split at h
        · next ht => cases h; exact .exitTold σ w hw hi ht
        · cases h
      · cases h
    · cases h
  | stop =>
    simp only [perform] at h
    split at h
    · next hs => cases h; exact .stop σ hs
    · next w hs =>
      split at h
      · next hw => cases h; exact .signal σ w hs hw
      · split at h
        · next hw =>
          cases h
          obtain ⟨rfl, hw⟩ := hw
          refine .stopped σ hs ?_
          intro v hv
          have := hw v hv
          split at this
          · assumption
          · cases this
        · cases h
    · cases h

/-- run the schedule; `none` if a chosen goroutine cannot act -/
def schedule (ext : Ext) (it : Iter) (n : Nat) : List Label → Sys → List Act → Option (List Label × Sys)
  | L, σ, [] => some (L, σ)
  | L, σ, a :: as =>
    if σ.crashed = true then none
    else match perform ext it n σ a with
      | none => none
      | some (l, σ') => schedule ext it n (L ++ [l]) σ' as

theorem schedule_run {ext it n rng} : ∀ {as L σ L' σ'}, Run ext n rng L σ → schedule ext it n L σ as = some (L', σ') →
    Run ext n rng L' σ'
  | [], L, σ, L', σ', hr, h => by cases h; exact hr
  | a :: as, L, σ, L', σ', hr, h => by
    unfold schedule at h
    split at h
    · cases h
    · next hc =>
      split at h
      · cases h
      · next hp => exact schedule_run (.snoc hr (by simpa using hc) (perform_step hp)) h

/-- run the schedule on a fresh process -/
def trySchedule (ext : Ext) (it : Iter) (n : Nat) (rng : Rng) (as : List Act) : Option (List Label × Sys) :=
  schedule ext it n [] (Sys.init rng) as

theorem try_run {ext it n rng as L σ} (h : trySchedule ext it n rng as = some (L, σ)) : Run ext n rng L σ :=
  schedule_run .nil h

/-- the schedule is a run with these actions -/
theorem try_labels {ext it n rng as L} (h : (trySchedule ext it n rng as).map (·.1) = some L) : ∃ σ, Run ext n rng L σ := by
  cases hr : trySchedule ext it n rng as with
  | none => rw [hr] at h; cases h
  | some r =>
    rw [hr] at h
    cases h
    exact ⟨r.2, try_run hr⟩

end Godis.Event
