import Verif.Model.Timed
import Verif.Spec.Timed
import Verif.Props.Settle
import Verif.Props.Concurrency
import Verif.Props.Texts
/-!
# C79: the ten-second deadline
-/
namespace Godis.Event
open Linear (gaveUp)
open Resp (Denotes)

variable {ext : Ext} {n : Nat} {rng : Rng}

theorem untimed_append (A B : List (Nat × Label)) : untimed (A ++ B) = untimed A ++ untimed B := List.map_append

theorem mem_untimed {L : List (Nat × Label)} {l : Label} : l ∈ untimed L ↔ ∃ t, (t, l) ∈ L := by simp [untimed]

theorem clock_snoc (A : List (Nat × Label)) (p : Nat × Label) : clock (A ++ [p]) = p.1 := by simp [clock]

/-- the own actions -/
def owns (L : List (Nat × Label)) : Nat := L.countP fun p => p.2.own
def frameCount (L : List (Nat × Label)) : Nat := L.countP fun p => p.2.isRecv

/-- what a server at rest cannot do -/
theorem rest_steps {L σ} (hr : Run ext n rng L σ) (hc : σ.crashed = false) (hn : ¬ CanMove ext n rng L) {l σ'} (hs : Step ext n σ l σ') : l.own = false := by
  cases h : l.own with
  | false => rfl
  | true => exact absurd ⟨σ, hr, hc, l, σ', hs, h⟩ hn

theorem rest_quiet {L σ} (hr : Run ext n rng L σ) (hc : σ.crashed = false) (hn : ¬ CanMove ext n rng L) :
    ∀ l σ', Step ext n σ l σ' → (∃ i c f, l = .recv i c f) ∨ (∃ i, l = .timeout i) ∨ l = .stop ∨
      ∃ i c f rec rest, l = .quiet i ∧ σ.handler i = .submitted c f ∧ decodeFromReader f = .ok rec rest := by
  intro l σ' hs
  have := rest_steps hr hc hn hs
  cases l <;> simp [Label.own] at this ⊢

/-- at rest everything received is finished -/
theorem rest_ended {L σ} (hp : 0 < n) (hr : Run ext n rng L σ) (hc : σ.crashed = false) (hst : .stop ∉ L) (hn : ¬ CanMove ext n rng L) :
    ∀ i c f, .recv i c f ∈ L → ∃ l ∈ L, l.about = some i ∧ l.ends = true := by
  intro i c f h
  rcases (C52_no_deadlock hp hr hst (rest_quiet hr hc hn)).2 i c f h with h | ⟨p, h⟩ | ⟨b, h⟩
  · exact ⟨_, h, rfl, rfl⟩
  · exact ⟨_, h, rfl, rfl⟩
  · exact ⟨_, h, rfl, rfl⟩

theorem not_closed {L σ} (hr : Run ext n rng L σ) (hst : .stop ∉ L) : σ.closed = false := by
  cases hc : σ.closed with
  | false => rfl
  | true => exact absurd (hr.workers.2.2.1.mpr hc) hst

/-- what is left when the server rests -/
theorem rest_left {L σ} (hp : 0 < n) (hr : Run ext n rng L σ) (hc : σ.crashed = false) (hst : .stop ∉ L) (hn : ¬ CanMove ext n rng L) :
    left n L σ = 2 * n + 3 := by
  have hbw : ∀ l σ', Step ext n σ l σ' → l.byWorker = false := by
    intro l σ' hs
    have := rest_steps hr hc hn hs
    cases l <;> simp_all [Label.own, Label.byWorker]
  have hcl := not_closed hr hst
  have hidle : ∀ w, σ.worker w = .idle := by
    intro w
    by_cases hwn : w < n
    · rcases hr.idle_worker hwn hbw with hi | hi
      · exact hi
      · have := hr.stopping.2.1 w hi; rw [hcl] at this; cases this
    · exact hr.workers.1 w (by omega)
  have hchan : σ.chan = [] := by
    cases hc : σ.chan with
    | nil => rfl
    | cons e rest => have := hbw _ _ (.take σ 0 e rest hp (hidle 0) hc); cases this
  have hh : ∀ i ∈ received L, (σ.handler i).weight = 0 := by
    intro i hi
    obtain ⟨c, f, hm⟩ := mem_received.mp hi
    obtain ⟨l, hl, h1, h2⟩ := rest_ended hp hr hc hst hn i c f hm
    rw [hr.ended hl h1 h2]; rfl
  have hs : σ.stopper = .no := by
    by_contra h
    exact hst (hr.workers.2.2.2.mpr h)
  have s1 : ((received L).map (fun i => (σ.handler i).weight)).sum = 0 := by
    have hz : ∀ l : List Nat, (∀ i ∈ l, (σ.handler i).weight = 0) → (l.map (fun i => (σ.handler i).weight)).sum = 0 := by
      intro l
      induction l with
      | nil => simp
      | cons a l ih => intro h; simp only [List.map_cons, List.sum_cons, h a (by simp), ih fun i hi => h i (by simp [hi])]
    exact hz _ hh
  have s2 : ((List.range n).map (fun w => (σ.worker w).weight)).sum = n := by
    simp [hidle, Worker.weight]
  simp only [left, s1, s2, hchan, hs, hc, Stopper.weight, List.length_nil]
  simp; omega

/-- what is left as long as `Stop` is not called -/
theorem left_ge {L σ} (hr : Run ext n rng L σ) (hst : .stop ∉ L) : 2 * n + 2 ≤ left n L σ := by
  have hcl := not_closed hr hst
  have hs : σ.stopper = .no := by
    by_contra h
    exact hst (hr.workers.2.2.2.mpr h)
  have hw : ∀ w, 1 ≤ (σ.worker w).weight := by
    intro w
    cases h : σ.worker w with
    | exited => have := hr.stopping.2.1 w h; rw [hcl] at this; cases this
    | _ => simp [Worker.weight]
  have hsum : ∀ l : List Nat, l.length ≤ (l.map (fun w => (σ.worker w).weight)).sum := by
    intro l
    induction l with
    | nil => simp
    | cons a l ih => have := hw a; simp only [List.map_cons, List.sum_cons, List.length_cons]; omega
  have := hsum (List.range n)
  simp only [List.length_range] at this
  simp only [left, hs, Stopper.weight]
  omega

theorem Run.snoc_inv {L l σ} (h : Run ext n rng (L ++ [l]) σ) : ∃ σ1, Run ext n rng L σ1 ∧ σ1.crashed = false ∧ Step ext n σ1 l σ := by
  generalize hL : L ++ [l] = L' at h
  cases h with
  | nil => simp at hL
  | snoc hr hc hs =>
    obtain ⟨h1, h2⟩ := List.append_inj' hL rfl
    simp only [List.cons.injEq, and_true] at h2
    subst h1 h2
    exact ⟨_, hr, hc, hs⟩

/-- what is left after further actions -/
theorem left_grow {L} : ∀ {L2 : List (Nat × Label)} {σ}, Run ext n rng (L ++ untimed L2) σ →
    ∃ σ1, Run ext n rng L σ1 ∧ (L2 ≠ [] ∨ σ.crashed = false → σ1.crashed = false) ∧ left n (L ++ untimed L2) σ + owns L2 ≤ left n L σ1 + 10 * frameCount L2 := by
  intro L2
  induction L2 using List.reverseRecOn with
  | nil => intro σ h; rw [untimed, List.map_nil, List.append_nil] at *; exact ⟨σ, h, by simp, by simp [owns, frameCount]⟩
  | append_singleton L2 y ih =>
    intro σ h
    have e : L ++ untimed (L2 ++ [y]) = (L ++ untimed L2) ++ [y.2] := by simp [untimed]
    rw [e] at h ⊢
    obtain ⟨σ2, h1, h2, h3⟩ := h.snoc_inv
    obtain ⟨σ1, g1, g2, g3⟩ := ih h1
    have hstep := h1.step_left h2 h3
    refine ⟨σ1, g1, fun _ => g2 (.inr h2), ?_⟩
    · have ho : owns (L2 ++ [y]) = owns L2 + if y.2.own then 1 else 0 := by simp [owns, List.countP_append, List.countP_cons]
      have hrv : frameCount (L2 ++ [y]) = frameCount L2 + if y.2.isRecv then 1 else 0 := by simp [frameCount, List.countP_append, List.countP_cons]
      rw [ho, hrv]
      obtain ⟨t, l⟩ := y
      cases l <;> simp [Label.own, Label.isRecv] at hstep ⊢ <;> omega

/-! ### A busy period -/

theorem init_rest : ¬ CanMove ext n rng [] := by
  rintro ⟨σ, hr, hc, l, σ', hs, ho⟩
  have : σ = Sys.init rng := by
    generalize hL : ([] : List Label) = L at hr
    cases hr with
    | nil => rfl
    | snoc => simp at hL
  subst this
  cases hs <;> simp_all [Sys.init, Label.own]

/-- the run, the times and the assumptions -/
structure Setting (ext : Ext) (n : Nat) (rng : Rng) (δ T M W : Nat) (L : List (Nat × Label)) : Prop where
  workers : 0 < n
  run : ∃ σ, Run ext n rng (untimed L) σ
  clocked : Clocked L
  unstopped : .stop ∉ untimed L
  until_ : ∀ p ∈ L, p.1 ≤ T
  prompt : Prompt ext n rng δ T L
  load : Load M W L
  enough : (10 * M + 2) * δ ≤ W

variable {δ T M W : Nat} {L : List (Nat × Label)}

theorem Setting.sorted (h : Setting ext n rng δ T M W L) {A B : List (Nat × Label)} {x y : Nat × Label} (e : L = A ++ x :: B) (hy : y ∈ B) : x.1 ≤ y.1 := by
  have := h.clocked.order
  rw [e, List.pairwise_append, List.pairwise_cons] at this
  exact this.2.1.1 y hy

theorem Setting.prefixRun (h : Setting ext n rng δ T M W L) {A B : List (Nat × Label)} (e : L = A ++ B) : ∃ σ, Run ext n rng (untimed A) σ := by
  obtain ⟨σ, hr⟩ := h.run
  rw [e, untimed_append] at hr
  exact hr.prefix

theorem Setting.prefixStop (h : Setting ext n rng δ T M W L) {A B : List (Nat × Label)} (e : L = A ++ B) : .stop ∉ untimed A := by
  intro hm
  apply h.unstopped
  rw [e, untimed_append]
  exact List.mem_append_left _ hm

/-- the own actions of a busy period, by the load -/
theorem Setting.few (h : Setting ext n rng δ T M W L) {A0 : List (Nat × Label)} {x : Nat × Label} (hx : x.2.isRecv = true)
    (h0 : ¬ CanMove ext n rng (untimed A0)) {A1 B : List (Nat × Label)} (e : L = A0 ++ x :: (A1 ++ B)) (hA : ∀ p ∈ A1, p.1 ≤ x.1 + W) :
    owns A1 ≤ 10 * M + 1 := by
  obtain ⟨σ, hr⟩ := h.prefixRun (A := A0 ++ x :: A1) (B := B) (by rw [e]; simp)
  rw [untimed_append] at hr
  obtain ⟨σ1, g1, g2, g3⟩ := left_grow hr
  rw [rest_left h.workers g1 (g2 (.inl (by simp))) (h.prefixStop (B := x :: (A1 ++ B)) (by rw [e])) h0] at g3
  have := left_ge hr (by rw [← untimed_append]; exact h.prefixStop (A := A0 ++ x :: A1) (B := B) (by rw [e]; simp))
  have ho : owns A1 ≤ owns (x :: A1) := by simp [owns, List.countP_cons]
  have hrv : frameCount (x :: A1) ≤ M := by
    refine Nat.le_trans ?_ (h.load x.1)
    have e2 : L = A0 ++ (x :: A1) ++ B := by rw [e]; simp
    rw [e2, List.countP_append, List.countP_append]
    have : frameCount (x :: A1) = (x :: A1).countP fun p => p.2.isRecv && decide (x.1 ≤ p.1) && decide (p.1 ≤ x.1 + W) := by
      apply List.countP_congr
      intro p hp
      have h1 : x.1 ≤ p.1 := by
        rcases List.mem_cons.mp hp with rfl | hp
        · exact Nat.le_refl _
        · exact h.sorted e (List.mem_append_left _ hp)
      have h2 : p.1 ≤ x.1 + W := by
        rcases List.mem_cons.mp hp with rfl | hp
        · omega
        · exact hA p hp
      simp [h1, h2]
    omega
  omega

/-- during a busy period the own actions keep up, and it ends in time -/
theorem Setting.busy (h : Setting ext n rng δ T M W L) {A0 : List (Nat × Label)} {x : Nat × Label} (hx : x.2.isRecv = true)
    (h0 : ¬ CanMove ext n rng (untimed A0)) : ∀ {A1 B : List (Nat × Label)}, L = A0 ++ x :: (A1 ++ B) →
    (∀ P Q, A1 = P ++ Q → CanMove ext n rng (untimed (A0 ++ x :: P))) →
    (∃ P Q, A1 = P ++ Q ∧ (∀ q ∈ Q, q.2.own = false) ∧ clock (A0 ++ x :: P) ≤ x.1 + owns A1 * δ) ∧
    (∀ p ∈ A1, p.1 ≤ x.1 + W) ∧ ((B = [] ∧ T ≤ x.1 + W) ∨ ∃ y B', B = y :: B' ∧ y.1 ≤ x.1 + (owns A1 + 1) * δ ∧ y.1 ≤ x.1 + W) := by
  have next : ∀ {A1 B : List (Nat × Label)}, L = A0 ++ x :: (A1 ++ B) →
      (∀ P Q, A1 = P ++ Q → CanMove ext n rng (untimed (A0 ++ x :: P))) →
      (∃ P Q, A1 = P ++ Q ∧ (∀ q ∈ Q, q.2.own = false) ∧ clock (A0 ++ x :: P) ≤ x.1 + owns A1 * δ) → (∀ p ∈ A1, p.1 ≤ x.1 + W) →
      ((B = [] ∧ T ≤ x.1 + W) ∨ ∃ y B', B = y :: B' ∧ y.1 ≤ x.1 + (owns A1 + 1) * δ ∧ y.1 ≤ x.1 + W) := by
    rintro A1 B e hm ⟨P, Q, e1, hQ, hcl⟩ hA
    have hk := h.few hx h0 e hA
    have hW : (owns A1 + 1) * δ ≤ W := Nat.le_trans (Nat.mul_le_mul_right _ (by omega)) h.enough
    have hδ : (owns A1 + 1) * δ = owns A1 * δ + δ := by rw [Nat.add_mul, Nat.one_mul]
    cases B with
    | nil =>
      refine .inl ⟨rfl, ?_⟩
      rcases h.prompt (A0 ++ x :: P) Q (by rw [e, e1]; simp) (hm P Q e1) with h1 | ⟨p, hp, ho, _⟩
      · omega
      · rw [hQ p hp] at ho; cases ho
    | cons y B' =>
      have hy : y.1 ≤ x.1 + (owns A1 + 1) * δ := by
        rcases h.prompt (A0 ++ x :: P) (Q ++ y :: B') (by rw [e, e1]; simp) (hm P Q e1) with h1 | ⟨p, hp, ho, hle⟩
        · have := h.until_ y (by rw [e]; simp)
          omega
        · rcases List.mem_append.mp hp with hp | hp
          · rw [hQ p hp] at ho; cases ho
          · have : y.1 ≤ p.1 := by
              rcases List.mem_cons.mp hp with rfl | hp
              · exact Nat.le_refl _
              · exact h.sorted (A := A0 ++ x :: A1) (B := B') (by rw [e]; simp) hp
            omega
      exact .inr ⟨y, B', rfl, hy, by omega⟩
  intro A1
  induction A1 using List.reverseRecOn with
  | nil =>
    intro B e hm
    have j : ∃ P Q : List (Nat × Label), [] = P ++ Q ∧ (∀ q ∈ Q, q.2.own = false) ∧ clock (A0 ++ x :: P) ≤ x.1 + owns [] * δ :=
      ⟨[], [], rfl, by simp, by simp [clock_snoc]⟩
    exact ⟨j, by simp, next e hm j (by simp)⟩
  | append_singleton A1 y ih =>
    intro B e hm
    obtain ⟨⟨P, Q, e1, hQ, hcl⟩, hA, hn⟩ := ih (B := y :: B) (by rw [e]; simp) fun P Q e1 => hm P (Q ++ [y]) (by rw [e1]; simp)
    obtain ⟨hy1, hy2⟩ : y.1 ≤ x.1 + (owns A1 + 1) * δ ∧ y.1 ≤ x.1 + W := by
      rcases hn with ⟨h1, _⟩ | ⟨y', B', h1, h2, h3⟩
      · cases h1
      · cases h1; exact ⟨h2, h3⟩
    have j : ∃ P Q, A1 ++ [y] = P ++ Q ∧ (∀ q ∈ Q, q.2.own = false) ∧ clock (A0 ++ x :: P) ≤ x.1 + owns (A1 ++ [y]) * δ := by
      cases ho : y.2.own with
      | true =>
        refine ⟨A1 ++ [y], [], by simp, by simp, ?_⟩
        have : A0 ++ x :: (A1 ++ [y]) = (A0 ++ x :: A1) ++ [y] := by simp
        rw [this, clock_snoc]
        simpa [owns, List.countP_append, List.countP_cons, ho] using hy1
      | false =>
        refine ⟨P, Q ++ [y], by rw [e1]; simp, fun q hq => ?_, ?_⟩
        · rcases List.mem_append.mp hq with hq | hq
          · exact hQ q hq
          · rw [List.mem_singleton.mp hq]; exact ho
        · simpa [owns, List.countP_append, List.countP_cons, ho] using hcl
    have hA' : ∀ p ∈ A1 ++ [y], p.1 ≤ x.1 + W := by
      intro p hp
      rcases List.mem_append.mp hp with hp | hp
      · exact hA p hp
      · rw [List.mem_singleton.mp hp]; exact hy2
    exact ⟨j, hA', next e hm j hA'⟩

/-- a server that is not at rest is in a busy period, which began with a frame -/
theorem Setting.began (h : Setting ext n rng δ T M W L) : ∀ {A B : List (Nat × Label)}, L = A ++ B → CanMove ext n rng (untimed A) →
    ∃ A0 x A1, A = A0 ++ x :: A1 ∧ x.2.isRecv = true ∧ ¬ CanMove ext n rng (untimed A0) ∧ ∀ P Q, A1 = P ++ Q → CanMove ext n rng (untimed (A0 ++ x :: P)) := by
  intro A
  induction A using List.reverseRecOn with
  | nil => intro B e hm; exact absurd hm init_rest
  | append_singleton A y ih =>
    intro B e hm
    by_cases hA : CanMove ext n rng (untimed A)
    · obtain ⟨A0, x, A1, e1, h1, h2, h3⟩ := ih (B := y :: B) (by rw [e]; simp) hA
      refine ⟨A0, x, A1 ++ [y], by rw [e1]; simp, h1, h2, fun P Q e2 => ?_⟩
      rcases List.eq_nil_or_concat Q with rfl | ⟨Q', q, rfl⟩
      · rw [List.append_nil] at e2
        rw [← e2]
        have : A0 ++ x :: (A1 ++ [y]) = A ++ [y] := by rw [e1]; simp
        rw [this]; exact hm
      · rw [List.concat_eq_append, ← List.append_assoc] at e2
        obtain ⟨e3, _⟩ := List.append_inj' e2 rfl
        exact h3 P Q' e3
    · refine ⟨A, y, [], by simp, ?_, hA, fun P Q e2 => ?_⟩
      · obtain ⟨σ, hr⟩ := h.prefixRun e
        rw [untimed_append] at hr
        obtain ⟨σ1, r1, r2, r3⟩ := hr.snoc_inv
        have ho := rest_steps r1 r2 hA r3
        have hst := h.prefixStop e
        rw [untimed_append] at hst
        obtain ⟨t, l⟩ := y
        cases l with
        | recv => rfl
        | stop => exact absurd (by simp [untimed]) hst
        | timeout i =>
          exfalso
          cases r3 with
          | timeout i c k1 =>
            have hk := r1.inv.handlers i
            rw [k1] at hk
            obtain ⟨⟨f, hf⟩, _⟩ := hk
            obtain ⟨l, hl, h1, h2⟩ := rest_ended h.workers r1 r2 (fun hh => hst (List.mem_append_left _ hh)) hA i c f hf
            rw [r1.ended hl h1 h2] at k1
            cases k1
        | _ => cases ho
      · simp only [List.nil_eq, List.append_eq_nil_iff] at e2
        rw [e2.1]; exact hm

/-- no command answers "context deadline exceeded" -/
theorem real_reply {s s' : Store} {it : Iter} {req : List Bytes} {rsp : Response} {b : Bytes} (hs : Reachable ext s)
    (h : runRequest ext it s req = .ok (s', some rsp)) (hb : rsp.encode = .ok b) : ¬ Denotes b gaveUp := by
  intro hd
  rcases run_cases (ext := ext) (it := it) hs.typed req with ⟨p, h1⟩ | ⟨_, h1⟩ | ⟨_, rsp', h1, h2, _⟩ | ⟨_, m, s1, rsp', h1, h2⟩
  · rw [h] at h1; cases h1
  · rw [h] at h1; cases h1
  · rw [h] at h1; cases h1; rw [hb] at h2; cases h2
  · obtain ⟨b', h3, h4⟩ := encode_denotes rsp' m h2
    have ha : Answers ext it s req m s1 := ⟨rsp', h1, h2⟩
    rw [h] at h1; cases h1
    rw [hb] at h3; cases h3
    have := denotes_unique h4 hd
    subst this
    obtain ⟨rng, tr, ht⟩ := hs
    cases req with
    | nil => cases h
    | cons w args =>
      have := (C78_texts (ht.snoc ha)).2.2 _ .error
      exact absurd this (by decide)

/-- **C79, not early.**  Nobody is told "context deadline exceeded" in less than ten seconds after the server got the request. -/
theorem C79_not_early {σ} {t i c b} (h : Run ext 1 rng (untimed L) σ) (hc : Clocked L) (hw : (t, .write i c b) ∈ L) (hb : Denotes b gaveUp) :
    ∃ t0 f, (t0, .recv i c f) ∈ L ∧ t0 + 10 * 10 ^ 9 ≤ t := by
  obtain ⟨A, B, e⟩ := List.mem_iff_append.mp hw
  have e' : untimed L = untimed A ++ .write i c b :: untimed B := by rw [e]; simp [untimed]
  obtain ⟨⟨f, hf⟩, ⟨hto, _⟩ | ⟨_, w, rsp, hex, henc⟩⟩ := C44_own_reply h e'
  · obtain ⟨t1, ht1⟩ := mem_untimed.mp hto
    obtain ⟨t0, c', f', h0, hle⟩ := hc.deadline t1 i (by rw [e]; exact List.mem_append_left _ ht1)
    have hcc := (h.recv_unique (by rw [e']; exact List.mem_append_left _ hf) (mem_untimed.mpr ⟨_, h0⟩)).1
    subst hcc
    have hle2 : t1 ≤ t := by
      have := hc.order
      rw [e, List.pairwise_append] at this
      exact this.2.2 _ ht1 (t, .write i c b) (by simp)
    exact ⟨t0, f', h0, by unfold tenSeconds at hle; omega⟩
  · exfalso
    obtain ⟨A1, A2, e2⟩ := List.mem_iff_append.mp hex
    rw [e', e2] at h
    obtain ⟨c', f', req, it, s, s', _, _, hr, hs⟩ := C44_own_request (A := A1) (B := A2 ++ .write i c b :: untimed B) (w := w) (i := i) (rsp := rsp) h (by simp)
    exact real_reply hs hr henc hb

/-- **C79, in time.**  Let the server do one action within every `δ` in which it has something to do, and let at most `M` frames
arrive in any `W`, where `W` is `10 M + 2` times `δ` or more but less than ten seconds.  Then, whatever the schedule: no
request times out, and the handling of every frame has ended `W` after its arrival, unless a command has crashed the
process. -/
theorem C79_in_time {σ} (hn : 0 < n) (h : Run ext n rng (untimed L) σ) (hc : Clocked L) (hst : .stop ∉ untimed L) (hT : ∀ p ∈ L, p.1 ≤ T)
    (hp : Prompt ext n rng δ T L) (hl : Load M W L) (hW : (10 * M + 2) * δ ≤ W) (hd : W < 10 * 10 ^ 9) :
    (∀ i, .timeout i ∉ untimed L) ∧
    ∀ t i c f, (t, .recv i c f) ∈ L → t + W < T → (∃ w j p, .crash w j p ∈ untimed L) ∨
      ∃ t' l, (t', l) ∈ L ∧ l.about = some i ∧ l.ends = true ∧ t' ≤ t + W := by
  have S : Setting ext n rng δ T M W L := ⟨hn, ⟨σ, h⟩, hc, hst, hT, hp, hl, hW⟩
  refine ⟨fun i hi => ?_, fun t i c f hr hlt => ?_⟩
  · obtain ⟨t, ht⟩ := mem_untimed.mp hi
    obtain ⟨A, B, e⟩ := List.mem_iff_append.mp ht
    obtain ⟨t0, c, f, h0, hle⟩ := hc.deadline t i ht
    have e' : untimed L = untimed A ++ .timeout i :: untimed B := by rw [e]; simp [untimed]
    have h' := h
    rw [e'] at h'
    -- the server is busy when the timer fires
    have hr' : Run ext n rng ((untimed A ++ [.timeout i]) ++ untimed B) σ := by simpa using h'
    obtain ⟨σ1, r1⟩ := hr'.prefix
    obtain ⟨σ2, r2, r3, r4⟩ := r1.snoc_inv
    have hstA : .stop ∉ untimed A := S.prefixStop e
    have hwait : ∃ c, σ2.handler i = .waiting c := by
      cases r4 with
      | timeout i c k => exact ⟨c, k⟩
    obtain ⟨c', hwait⟩ := hwait
    have hend : ∀ {A0 A1 : List (Nat × Label)}, A = A0 ++ A1 → ¬ CanMove ext n rng (untimed A0) → A1 ≠ [] ∨ A0 = A → (t0, .recv i c f) ∉ A0 := by
      intro A0 A1 eA hA hne hm
      have hrA : Run ext n rng (untimed A0 ++ untimed A1) σ2 := by rw [← untimed_append, ← eA]; exact r2
      obtain ⟨σ3, q1, q2, _⟩ := left_grow hrA
      obtain ⟨l, hl, h1, h2⟩ := rest_ended hn q1 (q2 (.inr r3)) (fun hh => hstA (by rw [eA, untimed_append]; exact List.mem_append_left _ hh)) hA i c f
        (mem_untimed.mpr ⟨_, hm⟩)
      have := r2.ended (l := l) (by rw [eA, untimed_append]; exact List.mem_append_left _ hl) h1 h2
      rw [hwait] at this
      cases this
    have h0A : (t0, Label.recv i c f) ∈ A := by
      rw [e] at h0
      rcases List.mem_append.mp h0 with h0 | h0
      · exact h0
      · exfalso
        rcases List.mem_cons.mp h0 with h0 | h0
        · cases h0
        · have := S.sorted e h0
          simp only [tenSeconds] at hle
          omega
    by_cases hm : CanMove ext n rng (untimed A)
    · obtain ⟨A0, x, A1, eA, hx, hA0, hA1⟩ := S.began e hm
      obtain ⟨_, _, hb⟩ := S.busy hx hA0 (A1 := A1) (B := (t, .timeout i) :: B) (by rw [e, eA]; simp) hA1
      have hx0 : x.1 ≤ t0 := by
        have hn0 := hend eA hA0 (.inl (by simp))
        rw [eA] at h0A
        rcases List.mem_append.mp h0A with h1 | h1
        · exact absurd h1 hn0
        · rcases List.mem_cons.mp h1 with h1 | h1
          · rw [← h1]
          · exact S.sorted (A := A0) (x := x) (B := A1 ++ (t, .timeout i) :: B) (by rw [e, eA]; simp) (List.mem_append_left _ h1)
      rcases hb with ⟨h1, _⟩ | ⟨y, B', h1, _, h2⟩
      · cases h1
      · cases h1
        dsimp only at h2
        simp only [tenSeconds] at hle
        omega
    · exact hend (A1 := []) (by simp) hm (.inr rfl) h0A
  · by_cases hcr : ∃ w j p, .crash w j p ∈ untimed L
    · exact .inl hcr
    refine .inr ?_
    -- what happened until `t + W`
    obtain ⟨A, B, e, hA, hB⟩ : ∃ A B, L = A ++ B ∧ (∀ p ∈ A, p.1 ≤ t + W) ∧ ∀ p ∈ B, t + W < p.1 := by
      refine ⟨L.takeWhile (fun p => decide (p.1 ≤ t + W)), L.dropWhile (fun p => decide (p.1 ≤ t + W)), by simp, fun p hp => ?_, ?_⟩
      · have : ∀ l : List (Nat × Label), p ∈ l.takeWhile (fun p => decide (p.1 ≤ t + W)) → p.1 ≤ t + W := by
          intro l
          induction l with
          | nil => simp
          | cons a l ih =>
            rw [List.takeWhile_cons]
            split
            · next ha =>
              intro h
              rcases List.mem_cons.mp h with rfl | h
              · simpa using ha
              · exact ih h
            · simp
        exact this _ hp
      · have hord := hc.order
        clear hr hcr S hl hp hT hst hc h
        induction L with
        | nil => simp
        | cons q L ih =>
          rw [List.pairwise_cons] at hord
          intro p hp
          rw [List.dropWhile_cons] at hp
          split at hp
          · exact ih hord.2 p hp
          · next hq =>
            simp only [decide_eq_true_eq, Nat.not_le] at hq
            rcases List.mem_cons.mp hp with rfl | hp
            · exact hq
            · exact Nat.lt_of_lt_of_le hq (hord.1 p hp)
    have hrA : (t, Label.recv i c f) ∈ A := by
      rw [e] at hr
      rcases List.mem_append.mp hr with hr | hr
      · exact hr
      · have := hB _ hr; dsimp only at this; omega
    have hcA : ∀ {A0 B0 : List (Nat × Label)}, L = A0 ++ B0 → ∀ {σ0}, Run ext n rng (untimed A0) σ0 → σ0.crashed = false := by
      intro A0 B0 e0 σ0 r0
      cases hcc : σ0.crashed with
      | false => rfl
      | true =>
        obtain ⟨w, j, p, hm⟩ := r0.stopping.2.2.2.2 hcc
        exact absurd ⟨w, j, p, by rw [e0, untimed_append]; exact List.mem_append_left _ hm⟩ hcr
    have fin : ∀ {A0 B0 : List (Nat × Label)}, L = A0 ++ B0 → (∀ p ∈ A0, p.1 ≤ t + W) → ¬ CanMove ext n rng (untimed A0) → (t, .recv i c f) ∈ A0 →
        ∃ t' l, (t', l) ∈ L ∧ l.about = some i ∧ l.ends = true ∧ t' ≤ t + W := by
      intro A0 B0 e0 hA0 hm0 hr0
      obtain ⟨σ0, r0⟩ := S.prefixRun e0
      obtain ⟨l, hl, h1, h2⟩ := rest_ended hn r0 (hcA e0 r0) (S.prefixStop e0) hm0 i c f (mem_untimed.mpr ⟨_, hr0⟩)
      obtain ⟨t', ht'⟩ := mem_untimed.mp hl
      exact ⟨t', l, by rw [e0]; exact List.mem_append_left _ ht', h1, h2, hA0 _ ht'⟩
    by_cases hm : CanMove ext n rng (untimed A)
    · obtain ⟨A0, x, A1, eA, hx, hA0, hA1⟩ := S.began e hm
      obtain ⟨_, _, hb⟩ := S.busy hx hA0 (A1 := A1) (B := B) (by rw [e, eA]; simp) hA1
      have hrA' := hrA
      rw [eA] at hrA'
      rcases List.mem_append.mp hrA' with h1 | h1
      · exact fin (A0 := A0) (B0 := x :: A1 ++ B) (by rw [e, eA]; simp) (fun p hp => hA p (by rw [eA]; exact List.mem_append_left _ hp)) hA0 h1
      · exfalso
        have hx0 : x.1 ≤ t := by
          rcases List.mem_cons.mp h1 with h1 | h1
          · rw [← h1]
          · exact S.sorted (A := A0) (x := x) (B := A1 ++ B) (by rw [e, eA]; simp) (List.mem_append_left _ h1)
        rcases hb with ⟨_, h1⟩ | ⟨y, B', rfl, _, h2⟩
        · omega
        · have := hB y (by simp); omega
    · exact fin e hA hm hrA

/-- **C79, refused but executed.**  Before `Stop`: when the server has nothing more to do, every request that was told "context
deadline exceeded" has been executed. -/
theorem C79_refused_executed {L σ} (hn : 0 < n) (h : Run ext n rng L σ) (hc : σ.crashed = false) (hst : .stop ∉ L) (hr : ¬ CanMove ext n rng L)
    {i} (ht : .timeout i ∈ L) : ∃ w rsp, .exec w i rsp ∈ L := by
  obtain ⟨A, B, e⟩ := List.mem_iff_append.mp ht
  have h' := h
  rw [e] at h'
  obtain ⟨σ1, σ2, h1, h2, _⟩ := h'.at
  have : .enqueue i ∈ A := by
    cases h2 with
    | timeout i c k => exact h1.waiting_enqueued i c k
  obtain ⟨w, rsp, h3, _⟩ := (C52_no_deadlock hn h hst (rest_quiet h hc hr)).1 i (by rw [e]; exact List.mem_append_left _ this)
  exact ⟨w, rsp, h3⟩

/-- **C79, waiting for a place.**  The deadline is not looked at before the request has been handed over: until then no request
is answered at all, however late it is. -/
theorem C79_no_deadline_before {L σ} (h : Run ext n rng L σ) {A B i c b} (hL : L = A ++ .write i c b :: B) : .enqueue i ∈ A := by
  have hA : ∃ σ1, Run ext n rng A σ1 := by rw [hL] at h; exact h.prefix
  obtain ⟨_, ⟨hto, _⟩ | ⟨_, w, rsp, hex, _⟩⟩ := C44_own_reply h hL
  · obtain ⟨A1, A2, e⟩ := List.mem_iff_append.mp hto
    rw [e] at hA
    obtain ⟨σ1, h1⟩ := hA
    obtain ⟨σ2, σ3, h2, h3, _⟩ := h1.at
    rw [e]
    cases h3 with
    | timeout i c k => exact List.mem_append_left _ (h2.waiting_enqueued i c k)
  · obtain ⟨σ1, h1⟩ := hA
    obtain ⟨_, _, _, ht⟩ := h1.inv.execGood w i rsp hex
    exact h1.inv.taken w i ht

/-! ### Cases -/

/-- a server that has finished everything has nothing to do -/
theorem cannot_move {L} (hst : .stop ∉ L) (h : ∀ σ, Run ext n rng L σ → (∀ i c f, .recv i c f ∈ L → σ.handler i = .ended) ∧ σ.chan = [] ∧ ∀ w, σ.worker w = .idle) :
    ¬ CanMove ext n rng L := by
  rintro ⟨σ, hr, hc, l, σ', hs, ho⟩
  obtain ⟨h1, h2, h3⟩ := h σ hr
  have hh : ∀ i, (σ.handler i).weight = 0 := by
    intro i
    by_contra hw
    obtain ⟨c, f, hm⟩ := mem_received.mp (hr.handler_received (i := i) (by omega))
    rw [h1 i c f hm] at hw
    exact hw rfl
  have hcl := not_closed hr hst
  have htold : ∀ w, σ.told w = false := fun w => by
    cases ht : σ.told w with
    | false => rfl
    | true => rw [hr.stopping.2.2.1 w ht] at hcl; cases hcl
  have hno : σ.stopper = .no := by
    by_contra h
    exact hst (hr.workers.2.2.2.mpr h)
  cases hs with
  | recv => cases ho
  | timeout => cases ho
  | stop => cases ho
  | drop i c f k | badFrame i c f _ _ k | decodePanic i c f _ k | log i c f _ _ k | noCommand i c _ k | enqueue i c _ _ _ k | sendClosed i c _ _ _ k
  | result i c _ k | write i c _ _ k | writeNothing i c _ k | encodePanic i c _ _ k =>
    have := hh i
    rw [k] at this
    cases this
  | take w e rest _ _ k => rw [h2] at k; cases k
  | start w e _ k | exec w e _ _ _ _ _ k | crash w e _ _ _ _ k | publish w e _ _ k => rw [h3 w] at k; cases k
  | exitTold w _ _ k => rw [htold w] at k; cases k
  | exitClosed w _ _ k => rw [hcl] at k; cases k
  | signal w k | stopped k => rw [hno] at k; cases k

/-- a list of times and actions is prompt, checked action by action; `R`: where the server has nothing to do -/
def Steady (R : List Nat) (δ T : Nat) (L : List (Nat × Label)) : Prop :=
  ∀ k < L.length + 1, k ∈ R ∨ T ≤ clock (L.take k) + δ ∨ ∃ p ∈ L.drop k, p.2.own = true ∧ p.1 ≤ clock (L.take k) + δ

instance (R : List Nat) (δ T : Nat) (L : List (Nat × Label)) : Decidable (Steady R δ T L) := by unfold Steady; infer_instance

theorem Steady.prompt {R : List Nat} {δ T : Nat} {L : List (Nat × Label)} (h : Steady R δ T L) (hR : ∀ k ∈ R, ¬ CanMove ext n rng (untimed (L.take k))) :
    Prompt ext n rng δ T L := by
  intro A B e hm
  have := h A.length (by rw [e]; simp; omega)
  rcases this with hk | h1
  · have := hR _ hk
    rw [e] at this
    simp at this
    exact absurd hm this
  · rw [e] at h1
    simpa using h1

/-- one action every `d` -/
def every (d : Nat) : Nat → List Label → List (Nat × Label)
  | _, [] => []
  | t, l :: L => (t, l) :: every d (t + d) L

theorem untimed_every (d : Nat) : ∀ t L, untimed (every d t L) = L
  | _, [] => rfl
  | t, l :: L => by simp only [every, untimed, List.map_cons]; congr 1; exact untimed_every d _ L

/-- the actions for one `INCR x`, whose answer is `v` -/
def oneIncr (i : Nat) (v : Int) (b : Bytes) : List Label :=
  [.recv i 0 incrX, .log i incrX, .enqueue i, .take 0 i, .start 0 i, .exec 0 i (newResponseWithInteger v), .publish 0 i, .result i, .write i 0 b]

theorem oneIncr_rest : ¬ CanMove ext0 1 rng0 (oneIncr 0 1 (b! ":1\r\n")) := by
  refine cannot_move (by simp [oneIncr]) fun σ h => ?_
  have hh : ∀ i c f, Label.recv i c f ∈ oneIncr 0 1 (b! ":1\r\n") → i = 0 := by simp [oneIncr]; tauto
  refine ⟨fun i c f hm => ?_, ?_, fun w => ?_⟩
  · rw [hh i c f hm]
    exact h.ended (l := .write 0 0 (b! ":1\r\n")) (by simp [oneIncr]) rfl rfl
  · cases hc : σ.chan with
    | nil => rfl
    | cons e rest =>
      obtain ⟨⟨_, c, f, _, _, hm, _⟩, _, h2⟩ := h.inv.chanGood e (by rw [hc]; simp)
      have := h2 (.take 0 0) (by simp [oneIncr]) (by rw [hh _ _ _ hm]; rfl)
      cases this
  · by_cases hw : 1 ≤ w
    · exact h.workers.1 w hw
    · have : w = 0 := by omega
      subst this
      have e : oneIncr 0 1 (b! ":1\r\n") = (((oneIncr 0 1 (b! ":1\r\n")).take 6 ++ [.publish 0 0]) ++ [.result 0]) ++ [.write 0 0 (b! ":1\r\n")] := rfl
      rw [e] at h
      obtain ⟨σ1, h1, _, s1⟩ := h.snoc_inv
      obtain ⟨σ2, h2, _, s2⟩ := h1.snoc_inv
      obtain ⟨σ3, h3, _, s3⟩ := h2.snoc_inv
      have : σ2.worker 0 = .idle := by
        generalize hl : Label.publish 0 0 = l at s3
        cases s3 with
        | publish w e rsp k0 k1 =>
          simp only [Label.publish.injEq] at hl
          obtain ⟨rfl, _⟩ := hl
          simp
        | _ => cases hl
      cases s1
      cases s2
      exact this

deriving instance DecidableEq for Label

/-- Case of `C79_in_time`: two requests, the second after a pause; one action every microsecond, at most one frame in any 12
microseconds. -/
example : ∃ L σ, Run ext0 1 rng0 (untimed L) σ ∧ Clocked L ∧ .stop ∉ untimed L ∧ (∀ p ∈ L, p.1 ≤ 109000) ∧ Prompt ext0 1 rng0 1000 109000 L ∧
    Load 1 12000 L ∧ (0, .recv 0 0 incrX) ∈ L ∧ 0 + 12000 < 109000 := by
  have hr : ∃ σ, Run ext0 1 rng0 (oneIncr 0 1 (b! ":1\r\n") ++ oneIncr 1 2 (b! ":2\r\n")) σ :=
    try_labels (it := it0) (as := [.recv 0 0 incrX, .handle 0, .handle 0, .work 0, .work 0, .work 0, .work 0, .handle 0, .handle 0,
      .recv 1 0 incrX, .handle 1, .handle 1, .work 0, .work 0, .work 0, .work 0, .handle 1, .handle 1]) (by decide +kernel)
  obtain ⟨σ, hr⟩ := hr
  refine ⟨every 1000 0 (oneIncr 0 1 (b! ":1\r\n")) ++ every 1000 100000 (oneIncr 1 2 (b! ":2\r\n")), σ, ?_, ⟨?_, ?_⟩, ?_, ?_, ?_, ?_, ?_, by decide⟩
  · rw [untimed_append, untimed_every, untimed_every]; exact hr
  · decide +kernel
  · intro t i h; simp [every, oneIncr] at h
  · simp [untimed, every, oneIncr]
  · decide +kernel
  · refine Steady.prompt (R := [0, 9]) (by decide +kernel) ?_
    intro k hk
    simp only [List.mem_cons, List.not_mem_nil, or_false] at hk
    rcases hk with rfl | rfl
    · exact init_rest
    · exact oneIncr_rest
  · intro t
    simp only [every, oneIncr, List.cons_append, List.nil_append, List.countP_cons, List.countP_nil, Label.isRecv, Bool.false_and, Bool.true_and, Bool.and_eq_true, decide_eq_true_eq]
    simp
    split <;> split <;> omega
  · simp [every, oneIncr]

/-- three clients' requests, the third waits for a place in the channel -/
def threeLate : List Label :=
  [.log 0 incrX, .log 1 incrX, .log 2 incrX, .enqueue 0, .take 0 0, .enqueue 1, .start 0 0, .exec 0 0 (newResponseWithInteger 1), .publish 0 0, .result 0,
   .write 0 0 (b! ":1\r\n"), .take 0 1, .start 0 1, .exec 0 1 (newResponseWithInteger 2), .publish 0 1, .result 1, .write 1 1 (b! ":2\r\n"),
   .enqueue 2, .take 0 2, .start 0 2, .exec 0 2 (newResponseWithInteger 3), .publish 0 2, .result 2, .write 2 2 (b! ":3\r\n")]

/-- C79: the deadline of ten seconds does not bound how long a client waits, even if the server is never idle: three requests
arrive at once, the server acts every second; the third is answered after 23 seconds (as if nothing had happened), of which it has spent 17
waiting for a place in the channel, where nobody looks at the deadline. -/
theorem C79_late_violated : ∃ L σ, Run ext0 1 rng0 (untimed L) σ ∧ Clocked L ∧ Prompt ext0 1 rng0 (10 ^ 9) (23 * 10 ^ 9) L ∧
    (0, .recv 2 2 incrX) ∈ L ∧ (∀ t, (t, .enqueue 2) ∈ L → t = 17 * 10 ^ 9) ∧ (23 * 10 ^ 9, .write 2 2 (b! ":3\r\n")) ∈ L ∧ ∀ t i, (t, .timeout i) ∉ L := by
  have hr : ∃ σ, Run ext0 1 rng0 ([.recv 0 0 incrX, .recv 1 1 incrX, .recv 2 2 incrX] ++ threeLate) σ :=
    try_labels (it := it0) (as := [.recv 0 0 incrX, .recv 1 1 incrX, .recv 2 2 incrX, .handle 0, .handle 1, .handle 2, .handle 0, .work 0, .handle 1, .work 0, .work 0, .work 0,
      .handle 0, .handle 0, .work 0, .work 0, .work 0, .work 0, .handle 1, .handle 1, .handle 2, .work 0, .work 0, .work 0, .work 0, .handle 2, .handle 2]) (by decide +kernel)
  obtain ⟨σ, hr⟩ := hr
  refine ⟨[(0, .recv 0 0 incrX), (0, .recv 1 1 incrX), (0, .recv 2 2 incrX)] ++ every (10 ^ 9) 0 threeLate, σ, ?_, ⟨?_, ?_⟩, ?_, by simp, ?_, ?_, ?_⟩
  · rw [untimed_append, untimed_every]; exact hr
  · decide +kernel
  · intro t i h; simp [every, threeLate] at h
  · exact Steady.prompt (R := []) (by decide +kernel) (by simp)
  · intro t h; simp [every, threeLate] at h; omega
  · decide +kernel
  · intro t i h; simp [every, threeLate] at h

/-- a request that is refused and executed later -/
def refused : List Label :=
  [.recv 0 0 incrX, .log 0 incrX, .enqueue 0, .timeout 0, .write 0 0 (b! "-context deadline exceeded\r\n"), .take 0 0, .start 0 0,
   .exec 0 0 (newResponseWithInteger 1), .publish 0 0]

/-- Case of `C79_refused_executed` and of `C79_not_early`: the request is refused after eleven seconds, and then executed. -/
example : (∃ σ, Run ext0 1 rng0 refused σ ∧ σ.crashed = false) ∧ .stop ∉ refused ∧ ¬ CanMove ext0 1 rng0 refused ∧ .timeout 0 ∈ refused ∧
    Clocked (List.zip [0, 1, 2, 11 * 10 ^ 9, 11 * 10 ^ 9, 12 * 10 ^ 9, 12 * 10 ^ 9, 12 * 10 ^ 9, 12 * 10 ^ 9] refused) ∧ Denotes (b! "-context deadline exceeded\r\n") gaveUp := by
  refine ⟨?_, by simp [refused], ?_, by simp [refused], ⟨by decide +kernel, ?_⟩, encode_gaveUp (by decide)⟩
  · have hd : (trySchedule ext0 it0 1 rng0 [.recv 0 0 incrX, .handle 0, .handle 0, .timeout 0, .handle 0, .work 0, .work 0, .work 0, .work 0]).map
        (fun p => (p.1, p.2.crashed)) = some (refused, false) := by decide +kernel
    obtain ⟨r, hr, hv⟩ := Option.map_eq_some_iff.mp hd
    simp only [Prod.mk.injEq] at hv
    exact ⟨r.2, hv.1 ▸ try_run hr, hv.2⟩
  · refine cannot_move (by simp [refused]) fun σ h => ?_
    have hh : ∀ i c f, Label.recv i c f ∈ refused → i = 0 := by simp [refused]; tauto
    refine ⟨fun i c f hm => ?_, ?_, fun w => ?_⟩
    · rw [hh i c f hm]
      exact h.ended (l := .write 0 0 (b! "-context deadline exceeded\r\n")) (by simp [refused]) rfl rfl
    · cases hc : σ.chan with
      | nil => rfl
      | cons e rest =>
        obtain ⟨⟨_, c, f, _, _, hm, _⟩, _, h2⟩ := h.inv.chanGood e (by rw [hc]; simp)
        have := h2 (.take 0 0) (by simp [refused]) (by rw [hh _ _ _ hm]; rfl)
        cases this
    · by_cases hw : 1 ≤ w
      · exact h.workers.1 w hw
      · have : w = 0 := by omega
        subst this
        have e : refused = refused.take 8 ++ [.publish 0 0] := rfl
        rw [e] at h
        obtain ⟨σ3, h3, _, s3⟩ := h.snoc_inv
        generalize hl : Label.publish 0 0 = l at s3
        cases s3 with
        | publish w e rsp k0 k1 =>
          simp only [Label.publish.injEq] at hl
          obtain ⟨rfl, _⟩ := hl
          simp
        | _ => cases hl
  · intro t i h
    simp [refused] at h
    obtain ⟨rfl, rfl⟩ := h
    exact ⟨0, 0, incrX, by simp [refused], by decide⟩

end Godis.Event
