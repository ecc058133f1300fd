import Verif.Proofs.Event2
/-!
# Further invariants: ended handlers, accounting of events, shutdown, the log
-/
namespace Godis.Event

theorem Run.ended {ext n rng L σ} (h : Run ext n rng L σ) {l : Label} {i : Nat} (hl : l ∈ L) (hi : l.about = some i)
    (he : l.ends = true) : σ.handler i = .ended := by
  have hk := h.inv.handlers i
  cases hh : σ.handler i with
  | ended => rfl
  | absent => rw [hh] at hk; exact absurd hi (hk l hl)
  | submitted c f =>
    rw [hh] at hk
    have := hk.2 l hl hi
    subst this
    cases he
  | logged c rec =>
    rw [hh] at hk
    have := hk.2.2 l hl hi
    cases l <;> simp_all [Label.early, Label.ends]
  | waiting c =>
    rw [hh] at hk
    have := hk.2 l hl hi
    cases l <;> simp_all [Label.late, Label.ends]
  | replying c rsp =>
    rw [hh] at hk
    obtain ⟨_, _, h1, h2, h3⟩ := hk
    cases l <;> simp_all [Label.about, Label.ends]

/-- an ended handler does nothing more -/
theorem Step.of_ended {ext n σ l σ' i} (hs : Step ext n σ l σ') (h : σ.handler i = .ended) (hi : l.about = some i) :
    l.byWorker = true := by
  cases hs <;> simp_all [Label.about, Label.byWorker]

/-- after a handler has ended only workers act on its frame -/
theorem Run.after_end {ext n rng A l B σ} (h : Run ext n rng (A ++ l :: B) σ) {i : Nat} (hi : l.about = some i) (he : l.ends = true) :
    ∀ l' ∈ B, l'.about = some i → l'.byWorker = true := by
  intro l' hl' hi'
  obtain ⟨B1, B2, rfl⟩ := List.append_of_mem hl'
  have h' : Run ext n rng ((A ++ l :: B1) ++ l' :: B2) σ := by simpa using h
  obtain ⟨σ1, σ2, h1, h2, _⟩ := h'.at
  exact h2.of_ended (h1.ended (l := l) (by simp) hi he) hi'

/-- where an enqueued event is -/
def Located (L : List Label) (σ : Sys) (i : Nat) : Prop :=
  (∃ e ∈ σ.chan, e.id = i) ∨ (∃ w e, (σ.worker w).pending = some e ∧ e.id = i) ∨
  (∃ w e rsp, σ.worker w = .got e rsp ∧ e.id = i) ∨ ∃ w rsp, .exec w i rsp ∈ L ∧ .publish w i ∈ L ∧ σ.done i = some rsp

theorem Run.located {ext n rng L σ} (h : Run ext n rng L σ) : ∀ i, .enqueue i ∈ L → Located L σ i := by
  induction h with
  | nil => simp
  | @snoc L σ l σ' hr hc hs ih =>
    intro i hi
    by_cases hl : l = .enqueue i
    · subst hl
      cases hs with
      | enqueue i c rec nm args => exact .inl ⟨⟨i, nm, args⟩, by simp, rfl⟩
    · have hi' : .enqueue i ∈ L := by
        rcases List.mem_append.mp hi with h | h
        · exact h
        · exact absurd (List.mem_singleton.mp h).symm hl
      rcases ih i hi' with ⟨e, he, hid⟩ | ⟨w, e, he, hid⟩ | ⟨w, e, rsp, he, hid⟩ | ⟨w, rsp, h1, h2, h3⟩
      · cases hs with
        | take v e' rest k0 k1 k2 =>
          have hlen := hr.inv.chanLen
          rw [k2] at he hlen
          have hnil : rest = [] := by simpa using hlen
          rw [hnil, List.mem_singleton] at he
          subst he
          exact .inr (.inl ⟨v, e, by simp [Worker.pending], hid⟩)
        | enqueue j c rec nm args => exact .inl ⟨e, List.mem_append_left _ he, hid⟩
        | _ => exact .inl ⟨e, he, hid⟩
      · cases hs with
        | take v e' rest k0 k1 k2 =>
          refine .inr (.inl ⟨w, e, ?_, hid⟩)
          have : w ≠ v := by rintro rfl; rw [k1] at he; cases he
          simp only [upd_apply, if_neg this]; exact he
        | start v e' k0 k1 =>
          refine .inr (.inl ⟨w, e, ?_, hid⟩)
          simp only [upd_apply]
          split
          · next h => subst h; rw [k1] at he; exact he
          · exact he
        | exec v e' snap s' it rsp k0 k1 k2 =>
          by_cases hw : w = v
          · subst hw
            rw [k1] at he
            cases he
            exact .inr (.inr (.inl ⟨w, _, rsp, by simp, hid⟩))
          · refine .inr (.inl ⟨w, e, ?_, hid⟩)
            simp only [upd_apply, if_neg hw]; exact he
        | publish v e' rsp k0 k1 =>
          refine .inr (.inl ⟨w, e, ?_, hid⟩)
          have : w ≠ v := by rintro rfl; rw [k1] at he; cases he
          simp only [upd_apply, if_neg this]; exact he
        | exitTold v k0 k1 k2 =>
          refine .inr (.inl ⟨w, e, ?_, hid⟩)
          have : w ≠ v := by rintro rfl; rw [k1] at he; cases he
          simp only [upd_apply, if_neg this]; exact he
        | exitClosed v k0 k1 k2 =>
          refine .inr (.inl ⟨w, e, ?_, hid⟩)
          have : w ≠ v := by rintro rfl; rw [k1] at he; cases he
          simp only [upd_apply, if_neg this]; exact he
        | _ => exact .inr (.inl ⟨w, e, he, hid⟩)
      · cases hs with
        | publish v e' rsp' k0 k1 =>
          by_cases hw : w = v
          · subst hw
            rw [k1] at he
            cases he
            subst hid
            exact .inr (.inr (.inr ⟨w, rsp, List.mem_append_left _ (hr.inv.gotExec w e rsp k1).2.2, by simp, by simp⟩))
          · refine .inr (.inr (.inl ⟨w, e, rsp, ?_, hid⟩))
            simp only [upd_apply, if_neg hw]; exact he
        | take v e' rest k0 k1 k2 =>
          refine .inr (.inr (.inl ⟨w, e, rsp, ?_, hid⟩))
          have : w ≠ v := by rintro rfl; rw [k1] at he; cases he
          simp only [upd_apply, if_neg this]; exact he
        | start v e' k0 k1 =>
          refine .inr (.inr (.inl ⟨w, e, rsp, ?_, hid⟩))
          have : w ≠ v := by rintro rfl; rw [k1] at he; cases he
          simp only [upd_apply, if_neg this]; exact he
        | exec v e' snap s' it rsp' k0 k1 k2 =>
          refine .inr (.inr (.inl ⟨w, e, rsp, ?_, hid⟩))
          have : w ≠ v := by rintro rfl; rw [k1] at he; cases he
          simp only [upd_apply, if_neg this]; exact he
        | exitTold v k0 k1 k2 =>
          refine .inr (.inr (.inl ⟨w, e, rsp, ?_, hid⟩))
          have : w ≠ v := by rintro rfl; rw [k1] at he; cases he
          simp only [upd_apply, if_neg this]; exact he
        | exitClosed v k0 k1 k2 =>
          refine .inr (.inr (.inl ⟨w, e, rsp, ?_, hid⟩))
          have : w ≠ v := by rintro rfl; rw [k1] at he; cases he
          simp only [upd_apply, if_neg this]; exact he
        | _ => exact .inr (.inr (.inl ⟨w, e, rsp, he, hid⟩))
      · refine .inr (.inr (.inr ⟨w, rsp, List.mem_append_left _ h1, List.mem_append_left _ h2, ?_⟩))
        cases hs with
        | publish v e' rsp' k0 k1 =>
          simp only [upd_apply]
          split
          · next hid =>
            subst hid
            have := (hr.inv.gotExec v e' rsp' k1).2.2
            rw [hr.exec_unique this h1]
          · exact h3
        | _ => exact h3

/-- workers: the spare ones are idle; after `Stop` has returned all have ended -/
theorem Run.workers {ext n rng L σ} (h : Run ext n rng L σ) :
    (∀ w, n ≤ w → σ.worker w = .idle) ∧ (.stopped ∈ L → (σ.stopper = .returned) ∧ ∀ w < n, σ.worker w = .exited) ∧
    (.stop ∈ L ↔ σ.closed = true) ∧ (.stop ∈ L ↔ σ.stopper ≠ .no) := by
  induction h with
  | nil => simp [Sys.init]
  | @snoc L σ l σ' hr hc hs ih =>
    obtain ⟨ih1, ih2, ih3, ih4⟩ := ih
    refine ⟨?_, ?_, ?_, ?_⟩
    · intro w hw
      cases hs <;> simp only [upd_apply] <;> first | exact ih1 w hw | (rw [if_neg (by omega)]; exact ih1 w hw)
    · intro hst
      by_cases hl : l = .stopped
      · subst hl
        cases hs with
        | stopped k1 k2 => exact ⟨rfl, k2⟩
      · have hst' : .stopped ∈ L := by
          rcases List.mem_append.mp hst with h | h
          · exact h
          · exact absurd (List.mem_singleton.mp h).symm hl
        obtain ⟨a1, a2⟩ := ih2 hst'
        refine ⟨?_, ?_⟩
        · cases hs <;> simp_all
        · intro w hw
          have := a2 w hw
          cases hs <;> simp only [upd_apply] <;> first | exact this | (split <;> simp_all)
    · cases hs <;> simp_all
    · cases hs <;> simp_all

/-- the log is what the `log` labels say -/
def logs (L : List Label) : List (Nat × Bytes) :=
  L.filterMap fun l => match l with
    | .log i t => some (i, t)
    | _ => none

theorem mem_logs {L i t} : (i, t) ∈ logs L ↔ .log i t ∈ L := by
  simp only [logs, List.mem_filterMap]
  constructor
  · rintro ⟨l, hl, he⟩
    cases l <;> simp at he
    obtain ⟨rfl, rfl⟩ := he
    exact hl
  · intro h; exact ⟨_, h, rfl⟩

theorem logs_snoc (L : List Label) (l : Label) : logs (L ++ [l]) = logs L ++ (match l with
    | .log i t => [(i, t)]
    | _ => []) := by
  unfold logs
  rw [List.filterMap_append]
  cases l <;> rfl

theorem Run.log_eq {ext n rng L σ} (h : Run ext n rng L σ) : σ.log = (logs L).map (·.2) := by
  induction h with
  | nil => rfl
  | snoc hr hc hs ih =>
    rw [logs_snoc]
    cases hs <;> simp_all

theorem Run.logs_nodup {ext n rng L σ} (h : Run ext n rng L σ) : ((logs L).map (·.1)).Nodup := by
  induction h with
  | nil => simp [logs]
  | @snoc L σ l σ' hr hc hs ih =>
    rw [logs_snoc]
    cases hs with
    | log i c f rec rest k1 k2 =>
      rw [List.map_append, List.nodup_append]
      refine ⟨ih, by simp, ?_⟩
      rintro a ha b hb rfl
      simp only [List.map_cons, List.map_nil, List.mem_singleton] at hb
      subst hb
      obtain ⟨⟨j, t⟩, hm, hi⟩ := List.mem_map.mp ha
      simp only at hi
      subst hi
      have hk := hr.inv.handlers j
      rw [k1] at hk
      have := hk.2 _ (mem_logs.mp hm) rfl
      cases this
    | _ => simpa using ih

/-- the frame and text of a logged request -/
theorem Run.log_text {ext n rng L σ} (h : Run ext n rng L σ) : ∀ i t, .log i t ∈ L →
    ∃ c f rec rest, .recv i c f ∈ L ∧ decodeFromReader f = .ok rec rest ∧ rec.orgStr = t := by
  induction h with
  | nil => simp
  | @snoc L σ l σ' hr hc hs ih =>
    intro i t hm
    rcases List.mem_append.mp hm with hm | hm
    · obtain ⟨c, f, rec, rest, h1, h2, h3⟩ := ih i t hm
      exact ⟨c, f, rec, rest, List.mem_append_left _ h1, h2, h3⟩
    · rw [List.mem_singleton] at hm
      subst hm
      cases hs with
      | log i c f rec rest k1 k2 =>
        have hk := hr.inv.handlers i
        rw [k1] at hk
        exact ⟨c, f, rec, rest, List.mem_append_left _ hk.1, k2, rfl⟩

/-- a frame is received once -/
theorem Run.recv_unique {ext n rng L σ} (h : Run ext n rng L σ) {i c f c' f'} (h1 : .recv i c f ∈ L) (h2 : .recv i c' f' ∈ L) :
    c = c' ∧ f = f' := by
  induction h with
  | nil => cases h1
  | @snoc L σ l σ' hr hc hs ih =>
    rcases List.mem_append.mp h1 with k1 | k1 <;> rcases List.mem_append.mp h2 with k2 | k2
    · exact ih k1 k2
    · rw [List.mem_singleton] at k2
      subst k2
      have hk : Run ext n rng (L ++ .recv i c' f' :: []) σ' := .snoc hr hc hs
      exact (hk.recv_first (.recv i c f) k1 rfl).elim
    · rw [List.mem_singleton] at k1
      subst k1
      have hk : Run ext n rng (L ++ .recv i c f :: []) σ' := .snoc hr hc hs
      exact (hk.recv_first (.recv i c' f') k2 rfl).elim
    · rw [List.mem_singleton] at k1 k2
      rw [← k1] at k2
      cases k2
      exact ⟨rfl, rfl⟩

end Godis.Event
