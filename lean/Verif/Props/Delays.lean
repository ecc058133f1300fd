import Verif.Props.Wires
import Verif.Proofs.V1
import Verif.Spec.Delays
/-!
# Delays on the way: C93
-/
namespace Godis.Event
open DelaySpec
open Linear (Before)

/-- other bytes were written -/
def Sys.outs (σ : Sys) (o : List (Nat × Bytes)) : Sys := { σ with out := o }

/-- nothing reads what was written -/
theorem step_outs {ext n σ l σ'} (hs : Step ext n σ l σ') (o : List (Nat × Bytes)) : ∃ o', Step ext n (σ.outs o) l (σ'.outs o') := by
  cases hs with
  | recv i c f k => exact ⟨o, .recv (σ.outs o) i c f k⟩
  | drop i c f k => exact ⟨o, .drop (σ.outs o) i c f k⟩
  | badFrame i c f e r k kd => exact ⟨o, .badFrame (σ.outs o) i c f e r k kd⟩
  | decodePanic i c f p k kd => exact ⟨o, .decodePanic (σ.outs o) i c f p k kd⟩
  | log i c f rec r k kd => exact ⟨o, .log (σ.outs o) i c f rec r k kd⟩
  | noCommand i c rec k kd => exact ⟨o, .noCommand (σ.outs o) i c rec k kd⟩
  | enqueue i c rec nm as k k1 k2 k3 => exact ⟨o, .enqueue (σ.outs o) i c rec nm as k k1 k2 k3⟩
  | sendClosed i c rec nm as k k1 k2 => exact ⟨o, .sendClosed (σ.outs o) i c rec nm as k k1 k2⟩
  | take w e r k1 k2 k3 => exact ⟨o, .take (σ.outs o) w e r k1 k2 k3⟩
  | start w e k1 k2 => exact ⟨o, .start (σ.outs o) w e k1 k2⟩
  | exec w e sn s' it rsp k1 k2 k3 => exact ⟨o, .exec (σ.outs o) w e sn s' it rsp k1 k2 k3⟩
  | crash w e sn it p k1 k2 k3 k4 => exact ⟨o, .crash (σ.outs o) w e sn it p k1 k2 k3 k4⟩
  | publish w e rsp k1 k2 => exact ⟨o, .publish (σ.outs o) w e rsp k1 k2⟩
  | timeout i c k => exact ⟨o, .timeout (σ.outs o) i c k⟩
  | result i c rsp k k1 => exact ⟨o, .result (σ.outs o) i c rsp k k1⟩
  | write i c rsp b k k1 k2 => exact ⟨o ++ [(c, b)], .write (σ.outs o) i c rsp b k k1 k2⟩
  | writeNothing i c rsp k k1 => exact ⟨o, .writeNothing (σ.outs o) i c rsp k k1⟩
  | encodePanic i c rsp p k k1 => exact ⟨o, .encodePanic (σ.outs o) i c rsp p k k1⟩
  | stop k => exact ⟨o, .stop (σ.outs o) k⟩
  | signal w k1 k2 => exact ⟨o, .signal (σ.outs o) w k1 k2⟩
  | exitTold w k1 k2 k3 => exact ⟨o, .exitTold (σ.outs o) w k1 k2 k3⟩
  | exitClosed w k1 k2 k3 k4 => exact ⟨o, .exitClosed (σ.outs o) w k1 k2 k3 k4⟩
  | stopped k1 k2 => exact ⟨o, .stopped (σ.outs o) k1 k2⟩

/-- only its own steps change a handler -/
theorem step_other {ext n σ l σ'} (hs : Step ext n σ l σ') {i : Nat} (hi : l.about = some i → l.byWorker = true) :
    σ'.handler i = σ.handler i := by
  cases hs <;> simp only [Label.about, Option.some.injEq, Label.byWorker, Bool.false_eq_true, imp_false] at hi <;> simp only [upd_apply] <;>
    (split <;> first | rfl | (next e => exact absurd e.symm hi))

/-- the handler of `i` is elsewhere, and other bytes were written -/
def Sys.put (σ : Sys) (i : Nat) (x : Handler) (o : List (Nat × Bytes)) : Sys := { σ with handler := upd σ.handler i x, out := o }

theorem step_put {ext n σ l σ'} (hs : Step ext n σ l σ') {i : Nat} (hi : l.about = some i → l.byWorker = true) (x : Handler) (o : List (Nat × Bytes)) :
    ∃ o', Step ext n (σ.put i x o) l (σ'.put i x o') := by
  have key : ∀ (τ : Sys) o, τ.put i x o = (τ.mask fun j => if j = i then some x else none).outs o := by
    intro τ o
    unfold Sys.put Sys.mask Sys.outs upd
    congr 1
    funext j
    by_cases hj : j = i <;> simp [hj]
  obtain ⟨o', h⟩ := step_outs (step_mask (g := fun j => if j = i then some x else none) hs fun j hj hw => by
    have : j ≠ i := by rintro rfl; rw [hi hj] at hw; cases hw
    simp [this]) o
  exact ⟨o', by rw [key, key]; exact h⟩

/-- one run follows another -/
theorem follow {ext n rng} {R : Sys → Sys → Prop} {Q : Label → Prop}
    (hstep : ∀ {σ l σ' τ}, Q l → R σ τ → Step ext n σ l σ' → ∃ τ', R σ' τ' ∧ Step ext n τ l τ')
    (hcr : ∀ {σ τ}, R σ τ → τ.crashed = σ.crashed) : ∀ {B A A' σ}, Run ext n rng (A ++ B) σ →
    (∀ σ1, Run ext n rng A σ1 → ∃ τ, R σ1 τ ∧ Run ext n rng A' τ) → (∀ l ∈ B, Q l) →
    ∃ τ, R σ τ ∧ Run ext n rng (A' ++ B) τ := by
  intro B
  induction B using List.reverseRecOn with
  | nil => intro A A' σ h h0 _; rw [List.append_nil] at h ⊢; exact h0 σ h
  | append_singleton B l ih =>
    intro A A' σ h h0 hB
    rw [← List.append_assoc] at h ⊢
    generalize hL : A ++ B ++ [l] = L at h
    cases h with
    | nil => simp at hL
    | snoc hr hc hs =>
      obtain ⟨h1, h2⟩ := List.append_inj' hL rfl
      simp only [List.cons.injEq, and_true] at h2
      subst h1 h2
      obtain ⟨τ, hR, hτ⟩ := ih hr h0 fun l' hl' => hB l' (by simp [hl'])
      obtain ⟨τ', hR', hs'⟩ := hstep (hB l (by simp)) hR hs
      exact ⟨τ', hR', .snoc hτ (by rw [hcr hR, hc]) hs'⟩

/-- equal but for what was written -/
def Alike (σ τ : Sys) : Prop := ∃ o, τ = σ.outs o

theorem follow_alike {ext n rng B A A' σ} (h : Run ext n rng (A ++ B) σ)
    (h0 : ∀ σ1, Run ext n rng A σ1 → ∃ τ, Alike σ1 τ ∧ Run ext n rng A' τ) : ∃ τ, Alike σ τ ∧ Run ext n rng (A' ++ B) τ := by
  refine follow (Q := fun _ => True) (R := Alike) ?_ ?_ h h0 fun _ _ => trivial
  · rintro σ l σ' τ - ⟨o, rfl⟩ hs
    obtain ⟨o', h⟩ := step_outs hs o
    exact ⟨_, ⟨o', rfl⟩, h⟩
  · rintro σ τ ⟨o, rfl⟩; rfl

/-- a frame arrives earlier -/
theorem Run.recv_earlier {ext n rng A B i c f σ} (h : Run ext n rng (A ++ B ++ [.recv i c f]) σ) :
    ∃ τ, Alike σ τ ∧ Run ext n rng (A ++ .recv i c f :: B) τ := by
  have hi : ∀ l ∈ A ++ B, l.about ≠ some i := Run.recv_first (L2 := []) h
  generalize hL : A ++ B ++ [.recv i c f] = L at h
  cases h with
  | nil => simp at hL
  | @snoc L0 σ0 l _ hr hc hs =>
    obtain ⟨e1, e2⟩ := List.append_inj' hL rfl
    simp only [List.cons.injEq, and_true] at e2
    subst e1 e2
    have hne : ∀ σ1, Run ext n rng A σ1 → σ1.crashed = false := by
      intro σ1 h1
      by_contra hx
      simp only [Bool.not_eq_false] at hx
      obtain ⟨w, j, p, hm⟩ := h1.crashed_iff.mp hx
      rw [hr.crashed_iff.mpr ⟨w, j, p, by simp [hm]⟩] at hc
      cases hc
    obtain ⟨τ, ⟨o, rfl⟩, hτ⟩ := follow (Q := fun l => l.about ≠ some i) (R := fun σ τ => ∃ o, τ = σ.put i (.submitted c f) o)
      (A' := A ++ [.recv i c f]) (by
        rintro σ l σ' τ hl ⟨o, rfl⟩ hs
        obtain ⟨o', h⟩ := step_put hs (fun he => absurd he hl) (.submitted c f) o
        exact ⟨_, ⟨o', rfl⟩, h⟩)
      (by rintro σ τ ⟨o, rfl⟩; rfl) hr
      (fun σ1 h1 => ⟨σ1.put i (.submitted c f) σ1.out, ⟨_, rfl⟩,
        .snoc h1 (hne σ1 h1) (.recv σ1 i c f (h1.handler_absent fun l hl => hi l (by simp [hl])))⟩)
      (fun l hl => hi l (by simp [hl]))
    refine ⟨_, ?_, by simpa using hτ⟩
    cases hs with
    | recv _ _ _ k => exact ⟨o, rfl⟩

/-- a reply is written later -/
theorem Run.write_later {ext n rng A B i c b σ} (h : Run ext n rng (A ++ .write i c b :: B) σ) (hc : σ.crashed = false) :
    ∃ τ, Alike σ τ ∧ Run ext n rng (A ++ B ++ [.write i c b]) τ := by
  have hi : ∀ l ∈ B, l.about = some i → l.byWorker = true := fun l hl => h.after_end rfl rfl l hl
  have h' : Run ext n rng ((A ++ [.write i c b]) ++ B) σ := by simpa using h
  obtain ⟨τ, ⟨he, rsp, o, hk, hb, rfl⟩, hτ⟩ := follow (Q := fun l => l.about = some i → l.byWorker = true)
    (R := fun σ τ => σ.handler i = .ended ∧ ∃ rsp o, rsp.encode = .ok b ∧ b ≠ [] ∧ τ = σ.put i (.replying c rsp) o) (A' := A) (by
      rintro σ l σ' τ hl ⟨he, rsp, o, hk, hb, rfl⟩ hs
      obtain ⟨o', h⟩ := step_put hs hl (.replying c rsp) o
      exact ⟨_, ⟨by rw [step_other hs hl, he], rsp, o', hk, hb, rfl⟩, h⟩)
    (by rintro σ τ ⟨_, _, _, _, _, rfl⟩; rfl) h'
    (fun σ1 h1 => by
      generalize hL : A ++ [Label.write i c b] = L at h1
      cases h1 with
      | nil => simp at hL
      | @snoc L0 σ0 l _ hr hc hs =>
        obtain ⟨e1, e2⟩ := List.append_inj' hL rfl
        simp only [List.cons.injEq, and_true] at e2
        subst e1 e2
        cases hs with
        | write _ _ rsp _ k k1 k2 =>
          refine ⟨σ0, ⟨by simp, rsp, σ0.out, k1, k2, ?_⟩, hr⟩
          unfold Sys.put
          have : upd (upd σ0.handler i .ended) i (.replying c rsp) = σ0.handler := by
            funext j
            unfold upd
            by_cases hj : j = i
            · subst hj; simp [k]
            · simp [hj]
          simp only [this])
    (fun l hl => hi l hl)
  refine ⟨_, ?_, .snoc hτ hc (.write (σ.put i (.replying c rsp) o) i c rsp b (by simp [Sys.put]) hk hb)⟩
  refine ⟨o ++ [(c, b)], ?_⟩
  unfold Sys.put Sys.outs
  have : upd (upd σ.handler i (.replying c rsp)) i .ended = σ.handler := by
    funext j
    unfold upd
    by_cases hj : j = i
    · subst hj; simp [he]
    · simp [hj]
  simp only [this]

/-- C93: what the clients see at their ends is possible at the server: delays on the way add nothing. -/
theorem C93_delays {ext n rng h h' log store crashed} (hd : Delayed h h') (hp : Possible ext n rng h log store crashed) :
    Possible ext n rng h' log store crashed := by
  induction hd with
  | none => exact hp
  | @call h1 h2 e i c b _ hn ih =>
    obtain ⟨L, σ, hr, hv, rfl, rfl, rfl⟩ := ih
    obtain ⟨A, l, B', rfl, e1, e2, e3⟩ := visible_split hv
    obtain ⟨B, l', C, rfl, e4, e5, e6⟩ := visible_split (A := []) (v := .call i c b) e3
    obtain rfl : l' = .recv i c b := by
      cases l' <;> simp [visible] at e5
      obtain ⟨rfl, rfl, rfl⟩ := e5; rfl
    have hr' : Run ext n rng ((A ++ (l :: B) ++ [.recv i c b]) ++ C) σ := by simpa using hr
    obtain ⟨τ, ⟨o, rfl⟩, hτ⟩ := follow_alike hr' fun σ1 h1 => h1.recv_earlier
    refine ⟨_, _, hτ, ?_, rfl, rfl, rfl⟩
    have : A ++ .recv i c b :: (l :: B) ++ C = A ++ ([.recv i c b] ++ ([l] ++ (B ++ C))) := by simp
    rw [this]
    simp only [seen_append, e1, e2, e4, e6]
    rfl
  | @ret h1 h2 e i c b _ hn ih =>
    obtain ⟨L, σ, hr, hv, rfl, rfl, rfl⟩ := ih
    obtain ⟨A, l', B', rfl, e1, e5, e3⟩ := visible_split hv
    obtain ⟨B, l, C, rfl, e4, e2, e6⟩ := visible_split (A := []) (v := e) e3
    obtain rfl : l' = .write i c b := by
      cases l' <;> simp [visible] at e5
      obtain ⟨rfl, rfl, rfl⟩ := e5; rfl
    have hr' : Run ext n rng ((A ++ .write i c b :: (B ++ [l])) ++ C) σ := by simpa using hr
    obtain ⟨τ, ⟨o, rfl⟩, hτ⟩ := follow_alike hr' fun σ1 h1 => h1.write_later (by
      by_contra hx
      simp only [Bool.not_eq_false] at hx
      generalize hL : A ++ .write i c b :: (B ++ [l]) = L at h1
      cases h1 with
      | nil => cases hx
      | snoc hr hc hs =>
        rw [show A ++ .write i c b :: (B ++ [l]) = (A ++ .write i c b :: B) ++ [l] by simp] at hL
        obtain ⟨_, e7⟩ := List.append_inj' hL rfl
        simp only [List.cons.injEq, and_true] at e7
        subst e7
        cases hs <;> first | (simp [visible] at e2; done) | (rw [hc] at hx; cases hx))
    refine ⟨_, _, hτ, ?_, rfl, rfl, rfl⟩
    have : A ++ (B ++ [l]) ++ [.write i c b] ++ C = A ++ (B ++ ([l] ++ ([.write i c b] ++ C))) := by simp
    rw [this]
    simp only [seen_append, e1, e2, e4, e6]
    rfl

/-- C93: so what the clients see at their ends is linearizable, too (with one worker). -/
theorem C93_linearizable {ext rng L σ h} (hr : Run ext 1 rng L σ) (hd : Delayed (visible L) h) :
    Linear.Linearizable (fun tr => Trace ext (Store.init rng) tr σ.store) Decodes h := by
  obtain ⟨L', σ', h1, rfl, _, h2, _⟩ := C93_delays hd ⟨L, σ, hr, rfl, rfl, rfl, rfl⟩
  rw [← h2]
  exact C43_linearizable h1

/-- Case of the theorems: client 0 sets the register, then client 1 reads it; client 0 receives its answer after client 1 does. -/
example : ∃ L σ, Run ext0 1 rng0 L σ ∧
    Delayed (visible L) [.call 0 0 setX5, .call 3 1 getX, .ret 3 1 (b! "$1\r\n5\r\n"), .ret 0 0 (b! "+OK\r\n")] := by
  have hd : (trySchedule ext0 it0 1 rng0 (whole 0 0 setX5 ++ whole 3 1 getX)).map (fun p => visible p.1) =
      some [.call 0 0 setX5, .ret 0 0 (b! "+OK\r\n"), .call 3 1 getX, .ret 3 1 (b! "$1\r\n5\r\n")] := by decide +kernel
  obtain ⟨r, hr, hv⟩ := Option.map_eq_some_iff.mp hd
  refine ⟨r.1, r.2, try_run hr, ?_⟩
  rw [hv]
  have d1 := Delayed.ret (h1 := [.call 0 0 setX5]) (e := .call 3 1 getX) (h2 := [.ret 3 1 (b! "$1\r\n5\r\n")]) (i := 0) (c := 0)
    (b := b! "+OK\r\n") .none (by decide)
  exact Delayed.ret (h1 := [.call 0 0 setX5, .call 3 1 getX]) (e := .ret 3 1 (b! "$1\r\n5\r\n")) (h2 := []) (i := 0) (c := 0) d1 (by decide)

end Godis.Event

namespace Godis.V1
open Godis.Event DelaySpec

/-- C93, v1 server: what the clients of the v1 server see at their ends could happen at the sockets of a v2 server. -/
theorem C93_v1_delays {ext rng L v h} (hr : VRun ext rng L v) (hd : Delayed (visible (sysLabels L)) h) :
    Possible ext 1 rng h v.sys.log v.sys.store v.sys.crashed :=
  Event.C93_delays hd ⟨_, _, hr.run, rfl, rfl, rfl, rfl⟩

/-- C93, v1 server. -/
theorem C93_v1_linearizable {ext rng L v h} (hr : VRun ext rng L v) (hd : Delayed (visible (sysLabels L)) h) :
    Linear.Linearizable (fun tr => Trace ext (Store.init rng) tr v.sys.store) Decodes h :=
  Event.C93_linearizable hr.run hd

end Godis.V1
