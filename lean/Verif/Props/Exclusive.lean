import Verif.Model.Debug
import Verif.Proofs.Event2
import Verif.Props.Schedules
import Verif.Props.Shutdown
import Verif.Props.Play
/-!
# Exclusive access to the store: C56

The maps behind the store have no locks (lib/shard_map: "non-lock single thread").  They are safe only if no two commands
ever use them at the same time.
-/
namespace Godis.Event

/-- C56: only the execution of a command changes the store: not decoding, queueing, answering, stopping. -/
theorem C56_only_commands_write {ext n σ l σ'} (hs : Step ext n σ l σ') (hl : ∀ w i rsp, l ≠ .exec w i rsp) :
    σ'.store = σ.store := by
  cases hs <;> first | rfl | exact absurd rfl (hl _ _ _)

theorem running_between {ext rng} {A : List Label} {w i : Nat} : ∀ (B : List Label) {σ},
    Run ext 1 rng (A ++ .start w i :: B) σ →
    (∃ rsp, .exec w i rsp ∈ B) ∨
      (w = 0 ∧ (∃ e, σ.worker 0 = .running e σ.store ∧ e.id = i) ∧ ∃ σ0, Run ext 1 rng A σ0 ∧ σ0.store = σ.store) := by
  intro B
  induction B using List.reverseRecOn with
  | nil =>
    intro σ h
    refine .inr ?_
    have key : ∀ {L σ}, Run ext 1 rng L σ → L = A ++ [.start w i] →
        w = 0 ∧ (∃ e, σ.worker 0 = .running e σ.store ∧ e.id = i) ∧ ∃ σ0, Run ext 1 rng A σ0 ∧ σ0.store = σ.store := by
      intro L σ h hL
      cases h with
      | nil => simp at hL
      | @snoc L' q l q' hr hc hs =>
        obtain ⟨rfl, hl⟩ := List.append_inj' hL rfl
        cases hl
        cases hs with
        | start w e hw hwk =>
          have h0 : w = 0 := by omega
          subst h0
          exact ⟨rfl, ⟨e, by simp, rfl⟩, q, hr, rfl⟩
    exact key h rfl
  | append_singleton B l ih =>
    intro σ h
    have h' : Run ext 1 rng ((A ++ .start w i :: B) ++ [l]) σ := by simpa using h
    have key : ∀ {L σ}, Run ext 1 rng L σ → L = (A ++ .start w i :: B) ++ [l] →
        ∃ q, Run ext 1 rng (A ++ .start w i :: B) q ∧ Step ext 1 q l σ := by
      intro L σ h hL
      cases h with
      | nil => simp at hL
      | @snoc L' q l q' hr hc hs =>
        obtain ⟨rfl, hl⟩ := List.append_inj' hL rfl
        cases hl
        exact ⟨q, hr, hs⟩
    obtain ⟨q, hr, hs⟩ := key h' rfl
    rcases ih hr with ⟨rsp, h1⟩ | ⟨h1, ⟨e, h2, h3⟩, σ0, h4, h5⟩
    · exact .inl ⟨rsp, by simp [h1]⟩
    · subst h1 h3
      by_cases hx : ∃ rsp, l = .exec 0 e.id rsp
      · obtain ⟨rsp, rfl⟩ := hx
        exact .inl ⟨rsp, by simp⟩
      · refine .inr ⟨rfl, ?_⟩
        cases hs with
        | exec w' e' snap s' it rsp hw hwk he =>
          have h0 : w' = 0 := by omega
          subst h0
          rw [h2] at hwk
          cases hwk
          exact absurd ⟨rsp, rfl⟩ hx
        | take w' e' rest hw hwk _ =>
          have h0 : w' = 0 := by omega
          subst h0
          rw [h2] at hwk; cases hwk
        | start w' e' hw hwk =>
          have h0 : w' = 0 := by omega
          subst h0
          rw [h2] at hwk; cases hwk
        | publish w' e' rsp hw hwk =>
          have h0 : w' = 0 := by omega
          subst h0
          rw [h2] at hwk; cases hwk
        | exitTold w' hw hwk _ =>
          have h0 : w' = 0 := by omega
          subst h0
          rw [h2] at hwk; cases hwk
        | exitClosed w' hw hwk _ _ =>
          have h0 : w' = 0 := by omega
          subst h0
          rw [h2] at hwk; cases hwk
        | _ => exact ⟨⟨e, h2, rfl⟩, σ0, h4, h5⟩

/-- C56: commands never overlap: when a command begins, every command that began before it has ended. -/
theorem C56_exclusive {ext rng A w i B v j C σ} (h : Run ext 1 rng (A ++ .start w i :: (B ++ .start v j :: C)) σ) :
    ∃ rsp, .exec w i rsp ∈ B := by
  have e : A ++ .start w i :: (B ++ .start v j :: C) = (A ++ .start w i :: B) ++ .start v j :: C := by simp
  rw [e] at h
  obtain ⟨q, q', h1, h2, _⟩ := h.at
  rcases running_between B h1 with h3 | ⟨_, ⟨e, h3, _⟩, _⟩
  · exact h3
  · exfalso
    cases h2 with
    | start _ e' hw hwk =>
      have h0 : v = 0 := by omega
      subst h0
      rw [h3] at hwk
      cases hwk

/-- C56: while a command runs, the store stays as the command found it, up to the moment the command itself changes it. -/
theorem C56_undisturbed {ext rng A w i B σ} (h : Run ext 1 rng (A ++ .start w i :: B) σ) (hn : ∀ rsp, .exec w i rsp ∉ B) :
    ∃ σ0, Run ext 1 rng A σ0 ∧ σ0.store = σ.store := by
  rcases running_between B h with ⟨rsp, h1⟩ | ⟨_, _, h2⟩
  · exact absurd h1 (hn rsp)
  · exact h2

/-- Case: two requests on two connections; the second waits until the first is done. -/
example : ∃ A B C σ, Run ext0 1 rng0 (A ++ .start 0 0 :: (B ++ .start 0 1 :: C)) σ ∧ A.length = 7 := by
  obtain ⟨σ, h⟩ := try_labels (ext := ext0) (it := it0) (n := 1) (rng := rng0)
    (as := [.recv 0 0 setX5, .recv 1 1 setX5, .handle 0, .handle 1, .handle 0, .work 0, .handle 1, .work 0, .work 0, .work 0, .work 0, .work 0])
    (L := _) rfl
  exact ⟨[_, _, _, _, _, _, _], [_, _, _], [], σ, h, rfl⟩

end Godis.Event

namespace Godis.Debug


deriving instance DecidableEq for Event.Label
deriving instance DecidableEq for DLabel
open Godis.Event (Sys Label Step upd)

/-- who acts next -/
inductive DAct where
  | sys (a : Event.Act)
  /-- `main` -/
  | main
  /-- the goroutine of the `k`-th command -/
  | pre (k : Nat)

/-- the step of the chosen goroutine, if it can act -/
def dperform (ext : Ext) (it : Iter) (d : DProc) : DAct → Option (DLabel × DProc)
  | .sys a =>
    if d.prepared = true then
      match Event.perform ext it 1 d.sys a with
      | some (l, σ') => some (.sys l, { d with sys := σ' })
      | none => none
    else none
  | .main =>
    match prepareData[d.next]? with
    | some (name, args) => some (.launch d.next, { d with next := d.next + 1, pre := upd d.pre d.next (.launched name args) })
    | none => if d.next = prepareData.length ∧ d.prepared = false then some (.prepared, { d with prepared := true }) else none
  | .pre k =>
    match d.pre k with
    | .launched name args => some (.begin k, { d with pre := upd d.pre k (.running name args d.sys.store) })
    | .running name args snap =>
      match execute ext it snap name args with
      | .ok (s', rsp) => some (.finish k rsp, { d with pre := upd d.pre k .blocked, sys := { d.sys with store := s' } })
      | .error _ => none
    | _ => none

theorem dperform_step {ext it d a l d'} (h : dperform ext it d a = some (l, d')) : DStep ext d l d' := by
  cases a with
  | sys a =>
    simp only [dperform] at h
    split at h
    · next hp =>
      split at h
      · next hs => cases h; exact .sys d _ _ hp (Event.perform_step hs)
      · cases h
    · cases h
  | main =>
    simp only [dperform] at h
    split at h
    · next hs => cases h; exact .launch d _ _ hs
    · split at h
      · next hs => cases h; exact .prepared d hs.1 hs.2
      · cases h
  | pre k =>
    simp only [dperform] at h
    split at h
    · next hs => cases h; exact .begin d k _ _ hs
    · next hs =>
      split at h
      · next he => cases h; exact .finish d k _ _ _ _ it _ hs he
      · cases h
    · cases h

/-- run the schedule; `none` if a chosen goroutine cannot act -/
def dschedule (ext : Ext) (it : Iter) : List DLabel → DProc → List DAct → Option (List DLabel × DProc)
  | L, d, [] => some (L, d)
  | L, d, a :: as =>
    if d.sys.crashed = true then none
    else match dperform ext it d a with
      | none => none
      | some (l, d') => dschedule ext it (L ++ [l]) d' as

theorem dschedule_run {ext it rng} : ∀ {as L d L' d'}, DRun ext rng L d → dschedule ext it L d as = some (L', d') →
    DRun ext rng L' d'
  | [], L, d, L', d', hr, h => by cases h; exact hr
  | a :: as, L, d, L', d', hr, h => by
    unfold dschedule at h
    split at h
    · cases h
    · next hc =>
      split at h
      · cases h
      · next hp => exact dschedule_run (.snoc hr (by simpa using hc) (dperform_step hp)) h

theorem dtry {ext it rng as L} (h : (dschedule ext it [] (DProc.init rng) as).map (·.1) = some L) : ∃ d, DRun ext rng L d := by
  cases hr : dschedule ext it [] (DProc.init rng) as with
  | none => rw [hr] at h; cases h
  | some r =>
    rw [hr] at h
    cases h
    exact ⟨r.2, dschedule_run .nil hr⟩

/-- `*2\r\n$3\r\nGET\r\n$4\r\nkey1\r\n` -/
def getKey1 : Bytes := b! "*2\r\n$3\r\nGET\r\n$4\r\nkey1\r\n"

/-- a request -/
def getX : Bytes := b! "*2\r\n$3\r\nGET\r\n$1\r\nx\r\n"

/-- C56 fails in a debug build: the second and the third of the preloaded commands (SET key1 hello, SET key2 10) run at the
same time, and the update of one is lost: all four have ended before the first request, and yet GET key1 finds nothing. -/
theorem C56_debug_overlap_violated : ∃ A B r0 r1 r2 r3 d, DRun ext0 rng0
    (A ++ [.begin 1, .begin 2, .finish 1 r1, .finish 2 r2, .begin 0, .finish 0 r0, .begin 3, .finish 3 r3, .sys (.recv 0 0 getKey1)] ++ B ++
      [.sys (.write 0 0 (b! "$-1\r\n"))]) d ∧ .prepared ∈ A := by
  obtain ⟨d, h⟩ := dtry (ext := ext0) (it := it0) (rng := rng0)
    (as := [.main, .main, .main, .main, .main, .pre 1, .pre 2, .pre 1, .pre 2, .pre 0, .pre 0, .pre 3, .pre 3, .sys (.recv 0 0 getKey1),
      .sys (.handle 0), .sys (.handle 0), .sys (.work 0), .sys (.work 0), .sys (.work 0), .sys (.work 0), .sys (.handle 0), .sys (.handle 0)])
    (L := [.launch 0, .launch 1, .launch 2, .launch 3, .prepared] ++ [.begin 1, .begin 2, .finish 1 (newResponseWithSimpleString respOK), .finish 2 (newResponseWithSimpleString respOK), .begin 0, .finish 0 (newResponseWithInteger 6), .begin 3,
      .finish 3 (newResponseWithInteger 5), .sys (.recv 0 0 getKey1)] ++ [.sys (.log 0 getKey1), .sys (.enqueue 0), .sys (.take 0 0), .sys (.start 0 0),
      .sys (.exec 0 0 newResponseWithNilBulk), .sys (.publish 0 0), .sys (.result 0)] ++ [.sys (.write 0 0 (b! "$-1\r\n"))]) (by decide +kernel)
  exact ⟨_, _, _, _, _, _, d, h, by simp⟩

/-- C56 fails in a debug build: a client's command runs while a preloaded command runs, and the client's update, which was
acknowledged, is lost. -/
theorem C56_debug_client_violated : ∃ A B C D rsp d, DRun ext0 rng0
    (A ++ .begin 1 :: (B ++ .sys (.exec 0 0 (newResponseWithSimpleString respOK)) :: (C ++ .finish 1 rsp :: (D ++ [.sys (.write 1 0 (b! "$-1\r\n"))])))) d ∧
    .sys (.recv 0 0 Event.setX5) ∈ B ∧ .sys (.write 0 0 (b! "+OK\r\n")) ∈ C ∧ .sys (.recv 1 0 getX) ∈ D := by
  obtain ⟨d, h⟩ := dtry (ext := ext0) (it := it0) (rng := rng0)
    (as := [.main, .main, .main, .main, .main, .pre 1, .sys (.recv 0 0 Event.setX5),
      .sys (.handle 0), .sys (.handle 0), .sys (.work 0), .sys (.work 0), .sys (.work 0), .sys (.work 0), .sys (.handle 0), .sys (.handle 0),
      .pre 1, .sys (.recv 1 0 getX),
      .sys (.handle 1), .sys (.handle 1), .sys (.work 0), .sys (.work 0), .sys (.work 0), .sys (.work 0), .sys (.handle 1), .sys (.handle 1)])
    (L := [.launch 0, .launch 1, .launch 2, .launch 3, .prepared] ++ .begin 1 :: ([.sys (.recv 0 0 Event.setX5), .sys (.log 0 Event.setX5), .sys (.enqueue 0),
      .sys (.take 0 0), .sys (.start 0 0)] ++ .sys (.exec 0 0 (newResponseWithSimpleString respOK)) :: ([.sys (.publish 0 0), .sys (.result 0), .sys (.write 0 0 (b! "+OK\r\n"))] ++
      .finish 1 (newResponseWithSimpleString respOK) :: ([.sys (.recv 1 0 getX), .sys (.log 1 getX), .sys (.enqueue 1),
      .sys (.take 0 1), .sys (.start 0 1), .sys (.exec 0 1 newResponseWithNilBulk), .sys (.publish 0 1), .sys (.result 1)] ++ [.sys (.write 1 0 (b! "$-1\r\n"))])))) (by decide +kernel)
  exact ⟨_, _, _, _, _, d, h, by simp, by simp, by simp⟩

end Godis.Debug
