import Verif.Proofs.Event3
/-!
# Every run is finite as long as no frame arrives, and nothing gets stuck
-/
namespace Godis.Event

/-- the steps a handler can still take (and those of the event it will make) -/
def Handler.weight : Handler → Nat
  | .absent => 0
  | .submitted .. => 10
  | .logged .. => 9
  | .waiting _ => 2
  | .replying .. => 1
  | .ended => 0

/-- the steps a worker can still take with what it holds -/
def Worker.weight : Worker → Nat
  | .idle => 1
  | .took _ => 4
  | .running .. => 3
  | .got .. => 2
  | .exited => 0

/-- the steps `Stop` can still take -/
def Stopper.weight (n : Nat) : Stopper → Nat
  | .no => n + 2
  | .signalling k => n + 1 - k
  | .returned => 0

/-- the frames received -/
def received (L : List Label) : List Nat :=
  L.filterMap fun l => match l with
    | .recv i _ _ => some i
    | _ => none

theorem mem_received {L i} : i ∈ received L ↔ ∃ c f, .recv i c f ∈ L := by
  simp only [received, List.mem_filterMap]
  constructor
  · rintro ⟨l, hl, he⟩
    cases l <;> simp at he
    subst he
    exact ⟨_, _, hl⟩
  · rintro ⟨c, f, h⟩; exact ⟨_, h, rfl⟩

theorem received_snoc (L : List Label) (l : Label) : received (L ++ [l]) = received L ++ (match l with
    | .recv i _ _ => [i]
    | _ => []) := by
  unfold received
  rw [List.filterMap_append]
  cases l <;> rfl

/-- a sum of weights when one value changes -/
theorem sum_upd {α : Type} (wt : α → Nat) (f : Nat → α) (i : Nat) (a : α) : ∀ {l : List Nat}, l.Nodup → i ∈ l →
    (l.map (fun j => wt (upd f i a j))).sum + wt (f i) = (l.map (fun j => wt (f j))).sum + wt a
  | [], _, h => by simp at h
  | x :: l, hn, h => by
    rw [List.nodup_cons] at hn
    simp only [List.map_cons, List.sum_cons]
    by_cases hx : i = x
    · subst hx
      have : (l.map (fun j => wt (upd f i a j))) = l.map (fun j => wt (f j)) := by
        apply List.map_congr_left
        intro j hj
        rw [upd_apply, if_neg (by rintro rfl; exact hn.1 hj)]
      rw [this, upd_same]
      omega
    · have h' : i ∈ l := by
        rcases List.mem_cons.mp h with h | h
        · exact absurd h hx
        · exact h
      have ih := sum_upd wt f i a hn.2 h'
      rw [upd_apply, if_neg (Ne.symm hx)]
      omega

theorem sum_upd_absent {α : Type} (wt : α → Nat) (f : Nat → α) (i : Nat) (a : α) {l : List Nat} (h : i ∉ l) :
    (l.map (fun j => wt (upd f i a j))).sum = (l.map (fun j => wt (f j))).sum := by
  congr 1
  apply List.map_congr_left
  intro j hj
  rw [upd_apply, if_neg (by rintro rfl; exact h hj)]

/-- the steps left -/
def left (n : Nat) (L : List Label) (σ : Sys) : Nat :=
  ((received L).map (fun i => (σ.handler i).weight)).sum + 4 * σ.chan.length +
  ((List.range n).map (fun w => (σ.worker w).weight)).sum + σ.stopper.weight n + (if σ.crashed then 0 else 1)

theorem Run.received_nodup {ext n rng L σ} (h : Run ext n rng L σ) : (received L).Nodup := by
  induction h with
  | nil => simp [received]
  | @snoc L σ l σ' hr hc hs ih =>
    rw [received_snoc]
    cases hs with
    | recv i c f k1 =>
      rw [List.nodup_append]
      refine ⟨ih, by simp, ?_⟩
      rintro a ha b hb rfl
      simp only [List.mem_singleton] at hb
      subst hb
      obtain ⟨c', f', hm⟩ := mem_received.mp ha
      have hk := hr.inv.handlers a
      rw [k1] at hk
      exact hk _ hm rfl
    | _ => simpa using ih

theorem Run.handler_received {ext n rng L σ} (h : Run ext n rng L σ) {i : Nat}
    (hi : 0 < (σ.handler i).weight) : i ∈ received L := by
  have hk := h.inv.handlers i
  rw [mem_received]
  cases hh : σ.handler i <;> rw [hh] at hi hk <;> simp only [Handler.weight] at hi
  · omega
  · exact ⟨_, _, hk.1⟩
  · obtain ⟨⟨f, _, h1, _⟩, _⟩ := hk
    exact ⟨_, _, h1⟩
  · obtain ⟨⟨f, h1⟩, _⟩ := hk
    exact ⟨_, _, h1⟩
  · obtain ⟨⟨f, h1⟩, _⟩ := hk
    exact ⟨_, _, h1⟩
  · omega

/-- every step but the arrival of a frame uses up some of what is left -/
theorem Run.step_left {ext n rng L σ l σ'} (h : Run ext n rng L σ) (hc : σ.crashed = false) (hs : Step ext n σ l σ') :
    left n (L ++ [l]) σ' + 1 ≤ left n L σ + (match l with | .recv .. => 11 | _ => 0) := by
  have hnd := h.received_nodup
  have hmem : ∀ i, 0 < (σ.handler i).weight → i ∈ received L := fun i => h.handler_received
  have hH : ∀ i a, 0 < (σ.handler i).weight →
      ((received L).map (fun j => (upd σ.handler i a j).weight)).sum + (σ.handler i).weight =
      ((received L).map (fun j => (σ.handler j).weight)).sum + a.weight := fun i a hi => sum_upd Handler.weight _ i a hnd (hmem i hi)
  have hW : ∀ w a, w < n → ((List.range n).map (fun j => (upd σ.worker w a j).weight)).sum + (σ.worker w).weight =
      ((List.range n).map (fun j => (σ.worker j).weight)).sum + a.weight :=
    fun w a hw => sum_upd Worker.weight _ w a List.nodup_range (List.mem_range.mpr hw)
  unfold left
  rw [received_snoc]
  cases hs with
  | recv i c f k1 =>
    have hni : i ∉ received L := by
      intro hm
      obtain ⟨c', f', hm⟩ := mem_received.mp hm
      have hk := h.inv.handlers i
      rw [k1] at hk
      exact hk _ hm rfl
    have := sum_upd_absent Handler.weight σ.handler i (.submitted c f) hni
    simp only [List.map_append, List.sum_append, List.map_cons, List.map_nil, List.sum_cons, List.sum_nil, upd_same, this]
    simp only [Handler.weight]
    omega
  | drop i c f k1 | badFrame i c f _ _ k1 | decodePanic i c f p k1 | log i c f rec rest k1 =>
    have := fun a => hH i a (by rw [k1]; simp [Handler.weight])
    have h0 := this .ended
    try have h1 := this (.logged c rec)
    simp only [k1, Handler.weight] at *
    simp only [List.append_nil]
    omega
  | noCommand i c rec k1 | sendClosed i c rec _ _ k1 =>
    have h0 := hH i .ended (by rw [k1]; simp [Handler.weight])
    simp only [k1, Handler.weight] at *
    simp only [List.append_nil]
    omega
  | enqueue i c rec nm args k1 =>
    have h0 := hH i (.waiting c) (by rw [k1]; simp [Handler.weight])
    simp only [k1, Handler.weight] at *
    simp only [List.append_nil, List.length_append, List.length_cons, List.length_nil]
    omega
  | take w e rest k0 k1 k2 =>
    have h0 := hW w (.took e) k0
    simp only [k1, k2, Worker.weight, List.append_nil, List.length_cons] at *
    omega
  | start w e k0 k1 =>
    have h0 := hW w (.running e σ.store) k0
    simp only [k1, Worker.weight, List.append_nil] at *
    omega
  | exec w e snap s' it rsp k0 k1 =>
    have h0 := hW w (.got e rsp) k0
    simp only [k1, Worker.weight, List.append_nil] at *
    omega
  | crash w e snap it p k0 k1 =>
    simp [hc]
  | publish w e rsp k0 k1 =>
    have h0 := hW w .idle k0
    simp only [k1, Worker.weight, List.append_nil] at *
    omega
  | timeout i c k1 =>
    have h0 := hH i (.replying c (newResponseWithError deadlineExceeded)) (by rw [k1]; simp [Handler.weight])
    simp only [k1, Handler.weight] at *
    simp only [List.append_nil]
    omega
  | result i c rsp k1 =>
    have h0 := hH i (.replying c rsp) (by rw [k1]; simp [Handler.weight])
    simp only [k1, Handler.weight] at *
    simp only [List.append_nil]
    omega
  | write i c rsp b k1 | writeNothing i c rsp k1 | encodePanic i c rsp p k1 =>
    have h0 := hH i .ended (by rw [k1]; simp [Handler.weight])
    simp only [k1, Handler.weight] at *
    simp only [List.append_nil]
    omega
  | stop k1 =>
    simp only [k1, Stopper.weight, List.append_nil]
    omega
  | signal w k1 k2 =>
    simp only [k1, Stopper.weight, List.append_nil]
    omega
  | exitTold w k0 k1 | exitClosed w k0 k1 =>
    have h0 := hW w .exited k0
    simp only [k1, Worker.weight, List.append_nil] at *
    omega
  | stopped k1 =>
    simp only [k1, Stopper.weight, List.append_nil]
    omega

theorem Run.left_bound {ext n rng L σ} (h : Run ext n rng L σ) : L.length + left n L σ ≤ 11 * (received L).length + 2 * n + 3 := by
  induction h with
  | nil =>
    simp only [left, received, Sys.init, Stopper.weight, Worker.weight]
    simp
    omega
  | @snoc L σ l σ' hr hc hs ih =>
    have := hr.step_left hc hs
    rw [received_snoc, List.length_append, List.length_append]
    cases l <;> simp only [List.length_cons, List.length_nil] at * <;> omega

/-- what `Stop` has signalled; only a stopping pool has ended workers -/
theorem Run.stopping {ext n rng L σ} (h : Run ext n rng L σ) :
    (∀ k, σ.stopper = .signalling k → k ≤ n ∧ ∀ w < k, σ.told w = true) ∧ (∀ w, σ.worker w = .exited → σ.closed = true) ∧
    (∀ w, σ.told w = true → σ.closed = true) ∧ (σ.stopper = .returned → .stopped ∈ L) ∧ (σ.crashed = true → ∃ w i p, .crash w i p ∈ L) := by
  induction h with
  | nil => simp [Sys.init]
  | @snoc L σ l σ' hr hc hs ih =>
    obtain ⟨i1, i2, i3, i4, i5⟩ := ih
    have hsc : σ.stopper ≠ .no → σ.closed = true := fun hh => hr.workers.2.2.1.mp (hr.workers.2.2.2.mpr hh)
    refine ⟨?_, ?_, ?_, ?_, ?_⟩
    · intro k hk
      cases hs with
      | stop k1 => cases hk; exact ⟨Nat.zero_le _, fun w hw => absurd hw (Nat.not_lt_zero _)⟩
      | signal w k1 k2 =>
        cases hk
        obtain ⟨a, b⟩ := i1 _ k1
        refine ⟨k2, fun v hv => ?_⟩
        simp only [upd_apply]
        split
        · rfl
        · exact b v (by omega)
      | stopped k1 => cases hk
      | _ => exact i1 k hk
    · intro w hw
      cases hs with
      | stop k1 => rfl
      | take v e rest k0 k1 k2 | start v e k0 k1 | exec v e snap s' it rsp k0 k1 | publish v e rsp k0 k1 =>
        simp only [upd_apply] at hw
        split at hw
        · cases hw
        · exact i2 w hw
      | exitTold v k0 k1 k2 => exact i3 v k2
      | exitClosed v k0 k1 k2 => exact k2
      | _ => exact i2 w hw
    · intro w hw
      cases hs with
      | stop k1 => rfl
      | signal v k1 k2 => exact hsc (by rw [k1]; simp)
      | _ => exact i3 w hw
    · intro hw
      cases hs with
      | stop k1 => cases hw
      | signal v k1 k2 => cases hw
      | stopped k1 => simp
      | _ => exact List.mem_append_left _ (i4 hw)
    · intro hw
      cases hs with
      | crash w e snap it p => exact ⟨w, e.id, p, by simp⟩
      | _ =>
        obtain ⟨w, i, p, hm⟩ := i5 hw
        exact ⟨w, i, p, List.mem_append_left _ hm⟩

end Godis.Event
