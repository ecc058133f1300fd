import Verif.Spec.V1
import Verif.Proofs.Reader3
import Verif.Props.Shutdown
import Verif.Props.Settle
/-!
# Invariants of the v1 server
-/
namespace Godis.V1
open Godis.Event (Sys Label Step Run Stopper upd upd_apply upd_same OneAtATime)

theorem sysLabels_append (A B : List VLabel) : sysLabels (A ++ B) = sysLabels A ++ sysLabels B := List.flatMap_append

theorem sysLabels_single (l : VLabel) : sysLabels [l] = l.steps := by simp [sysLabels]

/-- the requests a connection holds were decoded -/
def Held (k : Conn) : Prop :=
  (∀ p ∈ k.receive, decodeFromReader p.1 = .ok p.2 []) ∧
  (∀ b r, k.reader = .hasRequest b r → decodeFromReader b = .ok r [])

theorem held {ext rng L v} (h : VRun ext rng L v) : ∀ c, Held (v.conn c) := by
  induction h with
  | nil => intro c; simp [Srv.init, Conn.none, Held]
  | @snoc L w l w' h hc hc' hs ih =>
    intro c
    have ihc := ih c
    cases hs with
    | accept c' b => simp only [upd_apply]; split <;> [simp [Held, Conn.new]; exact ihc]
    | decode c' b' r rest h1 h2 h3 h4 =>
      simp only [upd_apply]; split
      · next hcc => subst hcc; refine ⟨ihc.1, ?_⟩; rintro b r' hh; cases hh; exact h4
      · exact ihc
    | request c' b r h1 h2 =>
      simp only [upd_apply]; split
      · next hcc =>
        subst hcc
        refine ⟨?_, by simp⟩
        intro p hp
        rcases List.mem_append.mp hp with hp | hp
        · exact ihc.1 p hp
        · rw [List.mem_singleton] at hp; subst hp; exact ihc.2 b r h1
      · exact ihc
    | error c' last => simp only [upd_apply]; split <;> [skip; exact ihc]; subst_vars; exact ⟨ihc.1, by cases last <;> simp⟩
    | handle c' i b r rest h1 h2 =>
      simp only [upd_apply]; split
      · next hcc =>
        subst hcc
        exact ⟨fun p hp => ihc.1 p (by rw [h2]; exact List.mem_cons_of_mem _ hp), ihc.2⟩
      · exact ihc
    | malformed | readClosed | closeReceive | closeError | quit | gotError | next | writeFailed | closeConn | gone =>
      simp only [upd_apply]; split <;> [skip; exact ihc]
      subst_vars
      refine ⟨ihc.1, fun b r hh => ?_⟩
      first | exact ihc.2 b r hh | cases hh
    | _ => exact ihc

theorem upd_upd {α : Type} (f : Nat → α) (i : Nat) (a b : α) : upd (upd f i a) i b = upd f i b := by
  funext j; simp only [upd_apply]; split <;> rfl

/-- the event pool and the handlers inside the v1 server run as in `Model/Event` -/
theorem VSteps.run {ext rng L v} (h : VRun ext rng L v) : Run ext 1 rng (sysLabels L) v.sys := by
  induction h with
  | nil => exact .nil
  | @snoc L w l w' h hc hc' hs ih =>
    rw [sysLabels_append, sysLabels_single]
    cases hs with
    | stopPool σ' _ hs => exact .snoc ih hc hs
    | sys l σ' hs => exact .snoc ih hc hs
    | handle c i b r rest h1 h2 h3 =>
      have hd := (held h c).1 (b, r) (by rw [h2]; simp)
      have s1 := Run.snoc ih hc (.recv w.sys i c b h3)
      have s2 := Run.snoc s1 hc (.log _ i c b r [] (by simp) hd)
      simpa [VLabel.steps, upd_upd] using s2
    | _ => simpa [VLabel.steps] using ih

/-! ## One request at a time on each connection -/

open Godis.Event (arrived arrived_append mem_arrived)

/-- how far the requests taken on a connection are -/
def Turn (σ : Sys) (ids : List Nat) : Loop → Prop
  | .absent => ids = []
  | .selecting => ∀ i ∈ ids, σ.handler i = .ended
  | .handling i => ∃ A, ids = A ++ [i] ∧ ∀ j ∈ A, σ.handler j = .ended
  | _ => ∃ A B, ids = A ++ B ∧ B.length ≤ 1 ∧ ∀ j ∈ A, σ.handler j = .ended

/-- an ended handler stays ended -/
theorem Step.keeps_ended {ext n σ l σ' i} (hs : Step ext n σ l σ') (h : σ.handler i = .ended) : σ'.handler i = .ended := by
  cases hs <;> simp only [upd_apply] <;> first | exact h | (split <;> simp_all)

theorem Turn.mono {σ σ' : Sys} {ids p} (h : Turn σ ids p) (hm : ∀ i, σ.handler i = .ended → σ'.handler i = .ended) : Turn σ' ids p := by
  cases p with
  | absent => exact h
  | selecting => exact fun i hi => hm i (h i hi)
  | handling i => obtain ⟨A, h1, h2⟩ := h; exact ⟨A, h1, fun j hj => hm j (h2 j hj)⟩
  | leaving | closed | gone => obtain ⟨A, B, h1, h2, h3⟩ := h; exact ⟨A, B, h1, h2, fun j hj => hm j (h3 j hj)⟩

theorem Turn.leave {σ : Sys} {ids p} (h : Turn σ ids p) {q : Loop} (hq : q = .leaving ∨ q = .closed ∨ q = .gone) : Turn σ ids q := by
  have : ∃ A B, ids = A ++ B ∧ B.length ≤ 1 ∧ ∀ j ∈ A, σ.handler j = .ended := by
    cases p with
    | absent => exact ⟨[], [], h, by simp, by simp⟩
    | selecting => exact ⟨ids, [], by simp, by simp, h⟩
    | handling i => obtain ⟨A, h1, h2⟩ := h; exact ⟨A, [i], h1, by simp, h2⟩
    | leaving | closed | gone => exact h
  rcases hq with rfl | rfl | rfl <;> exact this

theorem arrived_steps (l : VLabel) (c : Nat) (h : ∀ i b t, l ≠ .handle i c b t) (hr : ∀ i c f, l ≠ .sys (.recv i c f)) : arrived l.steps c = [] := by
  cases l with
  | sys l => cases l <;> simp_all [VLabel.steps, arrived]
  | handle i c' b t =>
    have : c' ≠ c := by rintro rfl; exact h _ _ _ rfl
    simp [VLabel.steps, arrived, this]
  | _ => rfl

theorem turns {ext rng L v} (h : VRun ext rng L v) : ∀ c, Turn v.sys (arrived (sysLabels L) c) (v.conn c).loop := by
  induction h with
  | nil => intro c; simp [Srv.init, Conn.none, Turn, sysLabels, arrived]
  | @snoc L w l w' h hc hc' hs ih =>
    intro c
    have ihc := ih c
    rw [sysLabels_append, sysLabels_single, arrived_append]
    by_cases hl : ∃ i b t, l = .handle i c b t
    · obtain ⟨i, b, t, rfl⟩ := hl
      cases hs with
      | handle c' i b r rest h1 h2 h3 =>
        rw [h1] at ihc
        simp only [upd_same]
        refine ⟨_, by simp [VLabel.steps, arrived]; rfl, ?_⟩
        intro j hj
        have := ihc j hj
        simp only [upd_apply]
        split
        · next e => subst e; rw [h3] at this; cases this
        · exact this
    · have hr : ∀ i c f, l ≠ .sys (.recv i c f) := by
        rintro i c f rfl
        cases hs with
        | sys l σ' _ _ hno => exact hno _ _ _ rfl
      rw [arrived_steps l c (fun i b t e => hl ⟨i, b, t, e⟩) hr, List.append_nil]
      cases hs with
      | stopPool σ' _ hs => exact ihc.mono fun i => Step.keeps_ended hs
      | sys l σ' hs => exact ihc.mono fun i => Step.keeps_ended hs
      | accept c' b h1 h2 h3 =>
        simp only [upd_apply]; split
        · next e => subst e; rw [h3] at ihc; have : arrived _ c = [] := ihc; rw [this]; simp [Conn.new, Turn]
        · exact ihc
      | handle c' i b r rest h1 h2 h3 =>
        have hcc : c ≠ c' := by rintro rfl; exact hl ⟨_, _, _, rfl⟩
        simp only [upd_apply, if_neg hcc]
        refine ihc.mono fun j hj => ?_
        simp only [upd_apply]
        split
        · next e => subst e; rw [h3] at hj; cases hj
        · exact hj
      | next c' i h1 h2 =>
        simp only [upd_apply]; split
        · next e =>
          subst e
          rw [h1] at ihc
          obtain ⟨A, h3, h4⟩ := ihc
          rw [h3]
          intro j hj
          rcases List.mem_append.mp hj with hj | hj
          · exact h4 j hj
          · rw [List.mem_singleton] at hj; subst hj; exact h2
        · exact ihc
      | quit | gotError | writeFailed | closeConn | gone =>
        simp only [upd_apply]; split
        · next e => subst e; exact ihc.leave (by simp)
        · exact ihc
      | decode | malformed | readClosed | request | error | closeReceive | closeError =>
        simp only [upd_apply]; split
        · next e => subst e; exact ihc
        · exact ihc
      | _ => exact ihc

/-- a v1 connection is served one request at a time -/
theorem one_at_a_time {ext rng L v} (h : VRun ext rng L v) (c : Nat) : OneAtATime (sysLabels L) c := by
  induction h with
  | nil => intro A j f B hL; simp [sysLabels] at hL
  | @snoc L w l w' h hc hc' hs ih =>
    intro A j f B hL i f' hi
    rw [sysLabels_append, sysLabels_single] at hL
    rcases List.append_eq_append_iff.mp hL with ⟨a, ha, hb⟩ | ⟨a, ha, hb⟩
    · -- the new label is the one
      have hl : ∃ i b t, l = .handle i c b t ∧ a = [] := by
        cases l with
        | sys l =>
          exfalso
          have : l = .recv j c f := by
            cases a with
            | nil => simp [VLabel.steps] at hb; exact hb.1
            | cons x a => simp [VLabel.steps] at hb
          subst this
          cases hs with
          | sys l σ' _ _ hno => exact hno _ _ _ rfl
        | handle i c' b t =>
          cases a with
          | nil => simp [VLabel.steps] at hb; exact ⟨i, b, t, by rw [hb.1.2.1], rfl⟩
          | cons x a =>
            exfalso
            simp only [VLabel.steps, List.cons_append, List.cons.injEq] at hb
            cases a with
            | nil => simp at hb
            | cons y a => simp at hb
        | _ => simp [VLabel.steps] at hb
      obtain ⟨i', b, t, rfl, rfl⟩ := hl
      rw [List.append_nil] at ha
      subst ha
      cases hs with
      | handle c' i' b r rest h1 h2 h3 =>
        have ht := turns h c
        rw [h1] at ht
        have he := ht i (mem_arrived.mpr ⟨f', hi⟩)
        have hk := h.run.inv.handlers i
        rw [he] at hk
        rcases hk with hk | ⟨p, hk⟩ | ⟨c2, b2, hk⟩
        · exact ⟨_, hk, rfl, rfl⟩
        · exact ⟨_, hk, rfl, rfl⟩
        · exact ⟨_, hk, rfl, rfl⟩
    · cases a with
      | nil =>
        rw [List.append_nil] at ha
        rw [List.nil_append] at hb
        subst ha
        -- as above
        have hl : ∃ i b t, l = .handle i c b t := by
          cases l with
          | sys l =>
            exfalso
            have : l = .recv j c f := by simp [VLabel.steps] at hb; exact hb.1.symm
            subst this
            cases hs with
            | sys l σ' _ _ hno => exact hno _ _ _ rfl
          | handle i c' b t => simp [VLabel.steps] at hb; exact ⟨i, b, t, by rw [hb.1.2.1]⟩
          | _ => simp [VLabel.steps] at hb
        obtain ⟨i', b, t, rfl⟩ := hl
        cases hs with
        | handle c' i' b r rest h1 h2 h3 =>
          have ht := turns h c
          rw [h1] at ht
          have he := ht i (mem_arrived.mpr ⟨f', hi⟩)
          have hk := h.run.inv.handlers i
          rw [he] at hk
          rcases hk with hk | ⟨p, hk⟩ | ⟨c2, b2, hk⟩
          · exact ⟨_, hk, rfl, rfl⟩
          · exact ⟨_, hk, rfl, rfl⟩
          · exact ⟨_, hk, rfl, rfl⟩
      | cons x a =>
        simp only [List.cons_append, List.cons.injEq] at hb
        exact ih A j f a (by rw [ha, hb.1]) i f' hi

end Godis.V1
