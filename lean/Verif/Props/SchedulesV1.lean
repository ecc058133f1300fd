import Verif.Proofs.V13
import Verif.Props.Schedules
/-!
# Running a given schedule of the v1 server

Used only to show that hypotheses of theorems are met by concrete runs, and to exhibit runs that violate a claim.
-/
namespace Godis.V1
open Godis.Event (Sys Label Step upd Act perform perform_step)

/-- who acts next -/
inductive VAct where
  /-- the goroutine that calls `Start` -/
  | start
  /-- a connection is accepted -/
  | accept (c : Nat) (segs : List Bytes)
  /-- the goroutine that calls `Stop` -/
  | stop
  /-- the reader of connection `c` -/
  | read (c : Nat)
  /-- the loop of connection `c` receives from `ReceiveChan`; the request gets the number `i` -/
  | handle (c i : Nat)
  /-- the loop of connection `c`, in `HandleRequest` or `Write` -/
  | run (c : Nat)
  /-- the loop of connection `c`, in `HandleRequest`, sees the timeout -/
  | timeout (c : Nat)
  /-- the worker -/
  | work
  /-- the worker sees its `done` channel -/
  | quit
  /-- the loop of connection `c` is done with a request -/
  | next (c : Nat)
  /-- the loop of connection `c` receives from `ErrorChan` -/
  | error (c : Nat)
  /-- the loop of connection `c` sees that the context was cancelled -/
  | cancelled (c : Nat)
  /-- `handleConn` of connection `c`, after its loop -/
  | close (c : Nat)

/-- a step of the pool or of a handler -/
def vsys (v : Srv) (l : Label) (σ' : Sys) (ok : Bool) : Option (VLabel × Srv) :=
  match l with
  | .stop | .recv .. | .log .. => none
  | .died i p => if ok = true then some (.panic (.handling i p), { v with crashed := true }) else none
  | l => if ok = true ∨ actor l = none then some (.sys l, { v with sys := σ' }) else none

/-- the step of the chosen goroutine, if it can act -/
def vperform (ext : Ext) (it : Iter) (v : Srv) : VAct → Option (VLabel × Srv)
  | .start =>
    match v.starter with
    | .no => some (.begun, { v with starter := .begun, ctx := true })
    | .begun => some (.listening, { v with starter := .listening })
    | .listening => some (.serving, { v with starter := .accepting, listener := some true })
    | .accepting => if v.listener = some false then some (.acceptEnd, { v with starter := .waiting }) else none
    | .waiting => if v.wg = 0 then some (.started, { v with starter := .returned }) else none
    | _ => none
  | .accept c b =>
    if v.starter = .accepting ∧ v.listener = some true ∧ (v.conn c).loop = .absent then
      some (.accept c b, { v with conn := upd v.conn c (.new b), wg := v.wg + 1 })
    else none
  | .stop =>
    match v.closer with
    | .no => some (.stopCalled, { v with closer := .closedListener, listener := v.listener.map fun _ => false })
    | .closedListener =>
      match perform ext it 1 v.sys .stop with
      | some (.stop, σ') => some (.sys .stop, { v with closer := .stopping, sys := σ' })
      | _ => none
    | .stopping =>
      match v.sys.stopper with
      | .returned => if v.ctx = true then some (.stopReturned, { v with closer := .returned, cancelled := true })
          else some (.panic .nilCancel, { v with crashed := true })
      | _ =>
        match perform ext it 1 v.sys .stop with
        | some (l, σ') => vsys v l σ' false
        | none => none
    | .returned => none
  | .read c =>
    if (v.conn c).loop = .absent then none else
    match (v.conn c).reader with
    | .loop =>
      match rdDecode (v.conn c).input with
      | .ok r rest =>
        -- the text of the request stands for it, unless there are arrays in arrays
        if decodeFromReader r.orgStr = .ok r [] then some (.reader c,
          { v with conn := upd v.conn c { v.conn c with input := rest, reader := .hasRequest r.orgStr r } })
        else none
      | .err e rest => some (.reader c,
          { v with conn := upd v.conn c { v.conn c with input := rest, reader := .hasError (e = .eof) } })
      | .panic p => some (.panic (.decoding p), { v with crashed := true })
    | .hasRequest b r =>
      if (v.conn c).receive.length < 1 then some (.reader c,
          { v with conn := upd v.conn c { v.conn c with reader := .loop, receive := (v.conn c).receive ++ [(b, r)] } })
      else none
    | .hasError last =>
      if (v.conn c).errors < 1 then some (.reader c,
          { v with conn := upd v.conn c { v.conn c with
            reader := if last then .returning else .loop, errors := (v.conn c).errors + 1 } })
      else none
    | .returning => some (.reader c,
        { v with conn := upd v.conn c { v.conn c with reader := .closedReceive, receiveClosed := true } })
    | .closedReceive => some (.reader c, { v with conn := upd v.conn c { v.conn c with reader := .gone, errorClosed := true } })
    | .gone => none
  | .handle c i =>
    if (v.conn c).loop = .selecting then
      match (v.conn c).receive, v.sys.handler i with
      | (b, r) :: rest, .absent => some (.handle i c b r,
          { v with
            conn := upd v.conn c { v.conn c with loop := .handling i, receive := rest },
            sys := { v.sys with handler := upd v.sys.handler i (.logged c r), log := v.sys.log ++ [r.orgStr] } })
      | [], _ => if (v.conn c).receiveClosed = true then some (.panic .nilRequest, { v with crashed := true }) else none
      | _, _ => none
    else none
  | .run c =>
    match (v.conn c).loop with
    | .handling i =>
      match perform ext it 1 v.sys (.handle i) with
      | some (l, σ') => if actor l = some i then vsys v l σ' true else none
      | none => none
    | _ => none
  | .timeout c =>
    match (v.conn c).loop with
    | .handling i =>
      match perform ext it 1 v.sys (.timeout i) with
      | some (l, σ') => if actor l = some i then vsys v l σ' true else none
      | none => none
    | _ => none
  | .work =>
    match perform ext it 1 v.sys (.work 0) with
    | some (l, σ') => vsys v l σ' false
    | none => none
  | .quit =>
    match perform ext it 1 v.sys (.quit 0) with
    | some (l, σ') => vsys v l σ' false
    | none => none
  | .next c =>
    match (v.conn c).loop with
    | .handling i =>
      match v.sys.handler i with
      | .ended => some (.next c, { v with conn := upd v.conn c { v.conn c with loop := .selecting } })
      | _ => none
    | _ => none
  | .error c =>
    if (v.conn c).loop = .selecting ∧ (0 < (v.conn c).errors ∨ (v.conn c).errorClosed = true) then
      some (.leave c, { v with conn := upd v.conn c { v.conn c with loop := .leaving, errors := (v.conn c).errors - 1 } })
    else none
  | .cancelled c =>
    if (v.conn c).loop = .selecting ∧ v.cancelled = true then
      some (.leave c, { v with conn := upd v.conn c { v.conn c with loop := .leaving } })
    else none
  | .close c =>
    match (v.conn c).loop with
    | .leaving => some (.closeConn c, { v with conn := upd v.conn c { v.conn c with loop := .closed } })
    | .closed =>
      if 0 < v.wg then some (.gone c, { v with conn := upd v.conn c { v.conn c with loop := .gone }, wg := v.wg - 1 })
      else some (.panic .negativeCounter, { v with crashed := true })
    | _ => none

theorem vsys_step {ext v l σ' ok x} (h : vsys v l σ' ok = some x) (hs : Step ext 1 v.sys l σ')
    (hok : ok = true → ∃ c i, actor l = some i ∧ (v.conn c).loop = .handling i) : VStep ext v x.1 x.2 := by
  unfold vsys at h
  split at h
  · cases h
  · cases h
  · cases h
  · next i p =>
    split at h
    · next e =>
      cases h
      obtain ⟨c, j, h1, h2⟩ := hok e
      cases h1
      exact .died v c i p σ' h2 hs
    · cases h
  · next l h1 h2 h3 h4 =>
    split at h
    · next e =>
      cases h
      refine .sys v _ σ' hs h1 h2 h3 h4 ?_
      intro i hi
      rcases e with e | e
      · obtain ⟨c, j, g1, g2⟩ := hok e
        rw [hi] at g1; cases g1
        exact ⟨c, g2⟩
      · rw [hi] at e; cases e
    · cases h

theorem vperform_step {ext it v a x} (h : vperform ext it v a = some x) : VStep ext v x.1 x.2 := by
  cases a with
  | start =>
    simp only [vperform] at h
    split at h
    · next e => cases h; exact .begun v e
    · next e => cases h; exact .listening v e
    · next e => cases h; exact .serving v e
    · next e => split at h <;> [(next e' => cases h; exact .acceptEnd v e e'); cases h]
    · next e => split at h <;> [(next e' => cases h; exact .started v e e'); cases h]
    · cases h
  | accept c b =>
    simp only [vperform] at h
    split at h <;> [(next e => cases h; exact .accept v c b e.1 e.2.1 e.2.2); cases h]
  | stop =>
    simp only [vperform] at h
    split at h
    · next e => cases h; exact .stopCalled v e
    · next e =>
      split at h
      · next hp => cases h; exact .stopPool v _ e (perform_step hp)
      · cases h
    · next e =>
      split at h
      · next e2 =>
        split at h
        · next e3 => cases h; exact .cancel v e e2 e3
        · next e3 => cases h; exact .cancelNil v e e2 (by simpa using e3)
      · split at h
        · next hp => exact vsys_step h (perform_step hp) (by simp)
        · cases h
    · cases h
  | read c =>
    simp only [vperform] at h
    split at h <;> [cases h; skip]
    next ha =>
    split at h
    · next hr =>
      split at h
      · next hd => split at h <;> [(next hb => cases h; exact .decode v c _ _ _ ha hr hd hb); cases h]
      · next hd => cases h; exact .malformed v c _ _ _ ha hr hd (by simp)
      · next hd => cases h; exact .decodePanic v c _ ha hr hd
    · next hr => split at h <;> [(next hl => cases h; exact .request v c _ _ hr hl); cases h]
    · next hr => split at h <;> [(next hl => cases h; exact .error v c _ hr hl); cases h]
    · next hr => cases h; exact .closeReceive v c hr
    · next hr => cases h; exact .closeError v c hr
    · cases h
  | handle c i =>
    simp only [vperform] at h
    split at h <;> [skip; cases h]
    next hl =>
    split at h
    · next hr hh => cases h; exact .handle v c i _ _ _ hl hr hh
    · next hr => split at h <;> [(next hc => cases h; exact .handleNil v c hl hr hc); cases h]
    · cases h
  | run c =>
    simp only [vperform] at h
    split at h <;> [skip; cases h]
    next i hl =>
    split at h <;> [skip; cases h]
    next hp =>
    split at h <;> [skip; cases h]
    next hi => exact vsys_step h (perform_step hp) (fun _ => ⟨c, i, hi, hl⟩)
  | timeout c =>
    simp only [vperform] at h
    split at h <;> [skip; cases h]
    next i hl =>
    split at h <;> [skip; cases h]
    next hp =>
    split at h <;> [skip; cases h]
    next hi => exact vsys_step h (perform_step hp) (fun _ => ⟨c, i, hi, hl⟩)
  | work =>
    simp only [vperform] at h
    split at h <;> [(next hp => exact vsys_step h (perform_step hp) (by simp)); cases h]
  | quit =>
    simp only [vperform] at h
    split at h <;> [(next hp => exact vsys_step h (perform_step hp) (by simp)); cases h]
  | next c =>
    simp only [vperform] at h
    split at h <;> [skip; cases h]
    next hl =>
    split at h <;> [skip; cases h]
    next hh => cases h; exact .next v c _ hl hh
  | error c =>
    simp only [vperform] at h
    split at h <;> [(next e => cases h; exact .gotError v c e.1 e.2); cases h]
  | cancelled c =>
    simp only [vperform] at h
    split at h <;> [(next e => cases h; exact .quit v c e.1 e.2); cases h]
  | close c =>
    simp only [vperform] at h
    split at h
    · next e => cases h; exact .closeConn v c e
    · next e =>
      split at h
      · next e2 => cases h; exact .gone v c e e2
      · next e2 => cases h; exact .goneNegative v c e (by omega)
    · cases h

/-- run the schedule; `none` if a chosen goroutine cannot act -/
def vschedule (ext : Ext) (it : Iter) : List VLabel → Srv → List VAct → Option (List VLabel × Srv)
  | L, v, [] => some (L, v)
  | L, v, a :: as =>
    if v.sys.crashed = true ∨ v.crashed = true then none
    else match vperform ext it v a with
      | none => none
      | some (l, v') => vschedule ext it (L ++ [l]) v' as

theorem vschedule_run {ext it rng} : ∀ {as L v L' v'}, VRun ext rng L v → vschedule ext it L v as = some (L', v') → VRun ext rng L' v'
  | [], L, v, L', v', hr, h => by cases h; exact hr
  | a :: as, L, v, L', v', hr, h => by
    simp only [vschedule] at h
    split at h
    · cases h
    · next hc =>
      split at h
      · cases h
      · next hp =>
        simp only [not_or, Bool.not_eq_true] at hc
        exact vschedule_run (.snoc hr hc.1 hc.2 (vperform_step hp)) h

/-- run the schedule and look at its result -/
theorem vtry {α : Type} {ext it rng as} (f : List VLabel × Srv → α) {a : α}
    (h : (vschedule ext it [] (Srv.init rng) as).map f = some a) : ∃ L v, VRun ext rng L v ∧ f (L, v) = a := by
  cases hs : vschedule ext it [] (Srv.init rng) as with
  | none => rw [hs] at h; cases h
  | some x =>
    obtain ⟨L, v⟩ := x
    rw [hs] at h
    simp only [Option.map_some, Option.some.injEq] at h
    exact ⟨L, v, vschedule_run .nil hs, h⟩

end Godis.V1
