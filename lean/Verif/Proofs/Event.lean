import Verif.Model.Event
import Verif.Spec.Labels
/-!
# Invariants of the concurrent server
-/
namespace Godis.Event

@[simp] theorem upd_same {α : Type} (f : Nat → α) (i : Nat) (a : α) : upd f i a i = a := by simp [upd]
theorem upd_apply {α : Type} (f : Nat → α) (i : Nat) (a : α) (j : Nat) : upd f i a j = if j = i then a else f j := rfl

/-- the label ends the wait of the handler or comes after -/
def Label.late : Label → Bool
  | .quiet _ | .died _ _ | .timeout _ | .result _ | .write .. => true
  | _ => false

/-- the label comes before the request is enqueued -/
def Label.early : Label → Bool
  | .recv .. | .log .. => true
  | _ => false

/-- where the response of a handler comes from -/
def Outcome (L : List Label) (i : Nat) (rsp : Response) : Prop :=
  (.timeout i ∈ L ∧ rsp = newResponseWithError deadlineExceeded) ∨
  (.result i ∈ L ∧ .timeout i ∉ L ∧ ∃ w, .exec w i rsp ∈ L)

/-- the handler's state fits the past -/
def HOk (L : List Label) (i : Nat) : Handler → Prop
  | .absent => ∀ l ∈ L, l.about ≠ some i
  | .submitted c f => .recv i c f ∈ L ∧ ∀ l ∈ L, l.about = some i → l = .recv i c f
  | .logged c rec => (∃ f rest, .recv i c f ∈ L ∧ decodeFromReader f = .ok rec rest) ∧ .log i rec.orgStr ∈ L ∧
      ∀ l ∈ L, l.about = some i → l.early = true
  | .waiting c => (∃ f, .recv i c f ∈ L) ∧ ∀ l ∈ L, l.about = some i → l.late = false
  | .replying c rsp => (∃ f, .recv i c f ∈ L) ∧ Outcome L i rsp ∧ (∀ c' b, .write i c' b ∉ L) ∧ .quiet i ∉ L ∧ ∀ p, .died i p ∉ L
  | .ended => .quiet i ∈ L ∨ (∃ p, .died i p ∈ L) ∨ ∃ c b, .write i c b ∈ L

/-- the event was made from a frame that was received, decoded, logged and enqueued -/
def Good (ext : Ext) (L : List Label) (e : Ev) : Prop :=
  .enqueue e.id ∈ L ∧ ∃ c f rec rest, .recv e.id c f ∈ L ∧ decodeFromReader f = .ok rec rest ∧ .log e.id rec.orgStr ∈ L ∧
    newCommand ext rec.elements = some (e.name, e.args)

theorem Good.mono {ext L e} (l : Label) (h : Good ext L e) : Good ext (L ++ [l]) e := by
  obtain ⟨h0, c, f, rec, rest, h1, h2, h3, h4⟩ := h
  exact ⟨List.mem_append_left _ h0, c, f, rec, rest, List.mem_append_left _ h1, h2, List.mem_append_left _ h3, h4⟩

/-- the handler has enqueued its event -/
def Past : Handler → Prop
  | .waiting _ | .replying _ _ | .ended => True
  | _ => False

/-- the event a worker holds and has not executed -/
def Worker.pending : Worker → Option Ev
  | .took e => some e
  | .running e _ => some e
  | _ => none

structure Inv (ext : Ext) (n : Nat) (L : List Label) (σ : Sys) : Prop where
  handlers : ∀ i, HOk L i (σ.handler i)
  chanLen : σ.chan.length ≤ 1
  chanGood : ∀ e ∈ σ.chan, Good ext L e ∧ Past (σ.handler e.id) ∧ ∀ l ∈ L, l.about = some e.id → l.byWorker = false
  pend : ∀ w e, (σ.worker w).pending = some e → Good ext L e ∧ Past (σ.handler e.id) ∧ (∀ v rsp, .exec v e.id rsp ∉ L) ∧ .take w e.id ∈ L
  pendChan : ∀ w e, (σ.worker w).pending = some e → ∀ e' ∈ σ.chan, e'.id ≠ e.id
  pendUniq : ∀ v w e e', (σ.worker v).pending = some e → (σ.worker w).pending = some e' → e.id = e'.id → v = w
  gotExec : ∀ w e rsp, σ.worker w = .got e rsp → Good ext L e ∧ Past (σ.handler e.id) ∧ .exec w e.id rsp ∈ L
  doneExec : ∀ i rsp, σ.done i = some rsp → ∃ w, .exec w i rsp ∈ L
  written : ∀ i c b, .write i c b ∈ L → (∃ f, .recv i c f ∈ L) ∧ ∃ rsp, rsp.encode = .ok b ∧ b ≠ [] ∧ Outcome L i rsp
  execGood : ∀ w i rsp, .exec w i rsp ∈ L → ∃ e, e.id = i ∧ Good ext L e ∧ .take w i ∈ L
  taken : ∀ w i, .take w i ∈ L → .enqueue i ∈ L
  enq : ∀ i, .enqueue i ∈ L → Past (σ.handler i)

theorem hok_other {L i h} {l : Label} (hl : l.about ≠ some i) (hh : HOk L i h) : HOk (L ++ [l]) i h := by
  cases h <;> simp only [HOk, Outcome, List.mem_append, List.mem_singleton] at hh ⊢
  case absent => grind
  case submitted => grind
  case logged => grind
  case waiting => grind
  case replying => grind [Label.about]
  case ended => grind

theorem hok_worker {L i h} {l : Label} (hl : l.byWorker = true) (hp : Past h) (hh : HOk L i h) : HOk (L ++ [l]) i h := by
  cases h <;> simp only [HOk, Outcome, List.mem_append, List.mem_singleton, Past] at hh ⊢ hp
  case waiting => 
    refine ⟨by grind, ?_⟩
    intro l' hl'
    rcases hl' with h | rfl
    · exact hh.2 _ h
    · intro _; cases l' <;> simp_all [Label.byWorker, Label.late]
  case replying => grind [Label.byWorker]
  case ended => grind

theorem inv_init (ext : Ext) (n : Nat) (rng : Rng) : Inv ext n [] (Sys.init rng) := by
  constructor <;> simp [Sys.init, HOk, Worker.pending]

/-- the handler's own step -/
theorem hok_upd {L i h} {l : Label} {f : Nat → Handler} (hi : l.about = some i) (hf : ∀ j, HOk L j (f j)) (hn : HOk (L ++ [l]) i h) (j : Nat) :
    HOk (L ++ [l]) j (upd f i h j) := by
  unfold upd
  split
  · next h => subst h; exact hn
  · next h => exact hok_other (by rw [hi]; intro he; exact h (Option.some.inj he).symm) (hf j)

theorem hok_same {L} {l : Label} {f : Nat → Handler} (hi : l.about = none) (hf : ∀ j, HOk L j (f j)) (j : Nat) :
    HOk (L ++ [l]) j (f j) := hok_other (by rw [hi]; simp) (hf j)

theorem hok_by {L i} {l : Label} {f : Nat → Handler} (hi : l.about = some i) (hb : l.byWorker = true) (hp : Past (f i))
    (hf : ∀ j, HOk L j (f j)) (j : Nat) : HOk (L ++ [l]) j (f j) := by
  by_cases h : j = i
  · subst h; exact hok_worker hb hp (hf j)
  · exact hok_other (by rw [hi]; intro he; exact h (Option.some.inj he).symm) (hf j)

theorem handlers_step {ext n L σ l σ'} (hI : Inv ext n L σ) (hs : Step ext n σ l σ') : ∀ i, HOk (L ++ [l]) i (σ'.handler i) := by
  have hh := hI.handlers
  cases hs with
  | recv i c f h =>
    refine hok_upd rfl hh ?_
    have := hh i
    rw [h] at this
    simp only [HOk, List.mem_append, List.mem_singleton] at this ⊢
    grind
  | drop i c f h | badFrame i c f e r h | noCommand i c rec h | writeNothing i c rsp h =>
    refine hok_upd rfl hh ?_
    simp [HOk]
  | decodePanic i c f p h | sendClosed i c rec nm args h | encodePanic i c rsp p h =>
    refine hok_upd rfl hh ?_
    simp [HOk]
  | log i c f rec rest h hd =>
    refine hok_upd rfl hh ?_
    have := hh i
    rw [h] at this
    simp only [HOk, List.mem_append, List.mem_singleton] at this ⊢
    grind [Label.early]
  | enqueue i c rec nm args h hd =>
    refine hok_upd rfl hh ?_
    have := hh i
    rw [h] at this
    simp only [HOk, List.mem_append, List.mem_singleton] at this ⊢
    refine ⟨by grind, ?_⟩
    intro l hl ha
    rcases hl with hl | rfl
    · have := this.2.2 l hl ha
      cases l <;> simp_all [Label.early, Label.late]
    · rfl
  | take w e rest h0 h1 h2 =>
    have := (hI.chanGood e (by rw [h2]; simp)).2.1
    exact hok_by rfl rfl this hh
  | start w e h0 h1 =>
    exact hok_by rfl rfl (hI.pend w e (by rw [h1]; rfl)).2.1 hh
  | exec w e snap s' it rsp h0 h1 h2 =>
    exact hok_by rfl rfl (hI.pend w e (by rw [h1]; rfl)).2.1 hh
  | crash w e snap it p h0 h1 h2 =>
    exact hok_by rfl rfl (hI.pend w e (by rw [h1]; rfl)).2.1 hh
  | publish w e rsp h0 h1 =>
    exact hok_by rfl rfl (hI.gotExec w e rsp h1).2.1 hh
  | timeout i c h =>
    refine hok_upd rfl hh ?_
    have := hh i
    rw [h] at this
    simp only [HOk, Outcome, List.mem_append, List.mem_singleton] at this ⊢
    grind [Label.about, Label.late]
  | result i c rsp h hd =>
    refine hok_upd rfl hh ?_
    have := hh i
    rw [h] at this
    have h2 := hI.doneExec i rsp hd
    simp only [HOk, Outcome, List.mem_append, List.mem_singleton] at this ⊢
    grind [Label.about, Label.late]
  | write i c rsp b h he hb =>
    refine hok_upd rfl hh ?_
    exact .inr (.inr ⟨c, b, by simp⟩)
  | stop h => exact hok_same rfl hh
  | signal w h => exact hok_same rfl hh
  | exitTold w h => exact hok_same rfl hh
  | exitClosed w h => exact hok_same rfl hh
  | stopped h => exact hok_same rfl hh

theorem past_step {ext n σ l σ'} (hs : Step ext n σ l σ') {i : Nat} (hp : Past (σ.handler i)) : Past (σ'.handler i) := by
  cases hs <;> simp only [upd_apply] <;> (try split) <;> simp_all [Past]

/-- labels that a handler makes about itself are not by workers -/
theorem about_byWorker {ext n σ l σ'} (hs : Step ext n σ l σ') (hb : l.byWorker = true) :
    (∃ w e rest, σ.worker w = .idle ∧ σ.chan = e :: rest ∧ l = .take w e.id) ∨ (∃ w e, (σ.worker w).pending = some e ∧ l.about = some e.id) ∨
    ∃ w e rsp, σ.worker w = .got e rsp ∧ l.about = some e.id := by
  cases hs <;> first | (simp [Label.byWorker] at hb; done) | skip
  case take w e rest h0 h1 h2 => exact .inl ⟨w, e, rest, h1, h2, rfl⟩
  case start w e h0 h1 => exact .inr (.inl ⟨w, e, by rw [h1]; rfl, rfl⟩)
  case exec w e _ _ _ _ h0 h1 _ => exact .inr (.inl ⟨w, e, by rw [h1]; rfl, rfl⟩)
  case crash w e _ _ _ h0 h1 _ _ => exact .inr (.inl ⟨w, e, by rw [h1]; rfl, rfl⟩)
  case publish w e _ h0 h1 => exact .inr (.inr ⟨w, e, _, h1, rfl⟩)

/-- what a step does to the channel and the workers' pending events -/
theorem queue_step {ext n σ l σ'} (hs : Step ext n σ l σ') :
    (σ'.chan = σ.chan ∧ ∀ w e, (σ'.worker w).pending = some e → (σ.worker w).pending = some e) ∨
    (∃ i conn rec name args, σ.handler i = .logged conn rec ∧ newCommand ext rec.elements = some (name, args) ∧ σ.chan = [] ∧
      σ'.chan = [⟨i, name, args⟩] ∧ σ'.worker = σ.worker ∧ l = .enqueue i) ∨
    (∃ w e rest, σ.worker w = .idle ∧ σ.chan = e :: rest ∧ σ'.chan = rest ∧ σ'.worker = upd σ.worker w (.took e) ∧ l = .take w e.id) := by
  cases hs
  case enqueue i c rec nm args h1 h2 h3 h4 =>
    have : σ.chan = [] := by
      cases h : σ.chan with
      | nil => rfl
      | cons a b => rw [h] at h4; simp at h4
    exact .inr (.inl ⟨i, c, rec, nm, args, h1, h2, this, by simp [this], rfl, rfl⟩)
  case take w e rest h0 h1 h2 => exact .inr (.inr ⟨w, e, rest, h1, h2, rfl, rfl, rfl⟩)
  all_goals
    refine .inl ⟨rfl, ?_⟩
    intro v e' he
    simp only [upd_apply] at he
    first
      | exact he
      | (split at he
         · next h => subst h; simp_all [Worker.pending]
         · exact he)

theorem inv_step {ext n L σ l σ'} (hI : Inv ext n L σ) (hs : Step ext n σ l σ') : Inv ext n (L ++ [l]) σ' where
  handlers := handlers_step hI hs
  chanLen := by
    have := hI.chanLen
    rcases queue_step hs with ⟨h, _⟩ | ⟨_, _, _, _, _, _, _, _, h, _⟩ | ⟨_, _, _, _, h1, h2, _⟩
    · rw [h]; exact this
    · rw [h]; simp
    · rw [h1] at this; rw [h2]; simp at this ⊢; simp [this]
  chanGood := by
    intro e he
    have hp : ∀ i, Past (σ.handler i) → Past (σ'.handler i) := fun i => past_step hs
    rcases queue_step hs with ⟨h, _⟩ | ⟨i, c, rec, nm, args, h1, h2, h3, h4, h5, rfl⟩ | ⟨w, e', rest, h1, h2, h3, h4, rfl⟩
    · rw [h] at he
      obtain ⟨a1, a2, a3⟩ := hI.chanGood e he
      refine ⟨a1.mono l, hp _ a2, ?_⟩
      intro l' hl ha
      rcases List.mem_append.mp hl with hl | hl
      · exact a3 l' hl ha
      · rw [List.mem_singleton] at hl
        subst hl
        refine Bool.eq_false_iff.mpr fun hb => ?_
        rcases about_byWorker hs hb with ⟨w, e1, rest, b1, b2, rfl⟩ | ⟨w, e1, b1, b2⟩ | ⟨w, e1, rsp, b1, b2⟩
        · have := hI.chanLen
          generalize e1.id = i at hs
          cases hs
          simp_all
        · rw [ha] at b2
          exact hI.pendChan w e1 b1 e he (Option.some.inj b2)
        · rw [ha] at b2
          have hx := (hI.gotExec w e1 rsp b1).2.2
          have := a3 _ hx (by simp only [Label.about]; exact b2.symm)
          simp [Label.byWorker] at this
    · rw [h4, List.mem_singleton] at he
      subst he
      have hk := hI.handlers i
      have hk' := handlers_step hI hs i
      rw [h1] at hk
      obtain ⟨⟨f, rest, k1, k2⟩, k3, k4⟩ := hk
      refine ⟨⟨by simp, c, f, rec, rest, List.mem_append_left _ k1, k2, List.mem_append_left _ k3, h2⟩, ?_, ?_⟩
      · cases hs; simp [Past]
      · intro l' hl ha
        rcases List.mem_append.mp hl with hl | hl
        · have := k4 l' hl ha
          cases l' <;> simp_all [Label.early, Label.byWorker]
        · rw [List.mem_singleton] at hl; subst hl; rfl
    · have := hI.chanLen
      rw [h2] at this
      simp at this
      rw [h3, this] at he
      cases he
  pend := by
    intro w e he
    have hp : ∀ i, Past (σ.handler i) → Past (σ'.handler i) := fun i => past_step hs
    have old : (σ.worker w).pending = some e → (∀ v rsp, l ≠ .exec v e.id rsp) → Good ext (L ++ [l]) e ∧ Past (σ'.handler e.id) ∧ (∀ v rsp, .exec v e.id rsp ∉ L ++ [l]) ∧ .take w e.id ∈ L ++ [l] := by
      intro ho hl
      obtain ⟨a1, a2, a3, a4⟩ := hI.pend w e ho
      refine ⟨a1.mono l, hp _ a2, ?_, List.mem_append_left _ a4⟩
      intro v rsp hm
      rcases List.mem_append.mp hm with hm | hm
      · exact a3 v rsp hm
      · exact hl v rsp (List.mem_singleton.mp hm).symm
    rcases queue_step hs with ⟨h, hq⟩ | ⟨i, c, rec, nm, args, h1, h2, h3, h4, h5, rfl⟩ | ⟨w', e', rest, h1, h2, h3, h4, rfl⟩
    · refine old (hq w e he) ?_
      rintro v rsp rfl
      generalize hid : e.id = i at hs
      cases hs with
      | exec w1 e1 snap s' it rsp k0 k1 k2 =>
        have := hI.pendUniq v w e1 e (by rw [k1]; rfl) (hq w e he) hid.symm
        subst this
        simp [Worker.pending] at he
    · exact old (by rw [← h5]; exact he) (by simp)
    · rw [h4, upd_apply] at he
      split at he
      · next hw =>
        subst hw
        simp only [Worker.pending, Option.some.injEq] at he
        subst he
        obtain ⟨a1, a2, a3⟩ := hI.chanGood e' (by rw [h2]; simp)
        refine ⟨a1.mono _, hp _ a2, ?_, by simp⟩
        intro v rsp hm
        rcases List.mem_append.mp hm with hm | hm
        · have := a3 _ hm rfl
          simp [Label.byWorker] at this
        · simp at hm
      · exact old he (by simp)
  pendChan := by
    intro w e he e' he'
    rcases queue_step hs with ⟨h, hq⟩ | ⟨i, c, rec, nm, args, h1, h2, h3, h4, h5, rfl⟩ | ⟨w', e1, rest, h1, h2, h3, h4, rfl⟩
    · rw [h] at he'; exact hI.pendChan w e (hq w e he) e' he'
    · rw [h5] at he
      rw [h4, List.mem_singleton] at he'
      subst he'
      have := (hI.pend w e he).2.1
      rintro rfl
      rw [h1] at this
      exact this
    · have := hI.chanLen
      rw [h2] at this
      simp at this
      rw [h3, this] at he'
      cases he'
  pendUniq := by
    intro v w e e' he he' hid
    rcases queue_step hs with ⟨h, hq⟩ | ⟨i, c, rec, nm, args, h1, h2, h3, h4, h5, rfl⟩ | ⟨w', e1, rest, h1, h2, h3, h4, rfl⟩
    · exact hI.pendUniq v w e e' (hq v e he) (hq w e' he') hid
    · rw [h5] at he he'; exact hI.pendUniq v w e e' he he' hid
    · rw [h4, upd_apply] at he he'
      have hm : e1 ∈ σ.chan := by rw [h2]; simp
      split at he <;> split at he'
      · simp_all
      · simp only [Worker.pending, Option.some.injEq] at he
        subst he
        exact absurd hid (hI.pendChan w e' he' _ hm)
      · simp only [Worker.pending, Option.some.injEq] at he'
        subst he'
        exact absurd hid.symm (hI.pendChan v e he _ hm)
      · exact hI.pendUniq v w e e' he he' hid
  gotExec := by
    intro w e rsp he
    have hp : ∀ i, Past (σ.handler i) → Past (σ'.handler i) := fun i => past_step hs
    have old : σ.worker w = .got e rsp → Good ext (L ++ [l]) e ∧ Past (σ'.handler e.id) ∧ .exec w e.id rsp ∈ L ++ [l] := by
      intro h
      obtain ⟨a1, a2, a3⟩ := hI.gotExec w e rsp h
      exact ⟨a1.mono l, hp _ a2, List.mem_append_left _ a3⟩
    cases hs with
    | exec w1 e1 snap s' it rsp' k0 k1 k2 =>
      simp only [upd_apply] at he
      split at he
      · next hw =>
        subst hw
        cases he
        obtain ⟨a1, a2, a3⟩ := hI.pend w e (by rw [k1]; rfl)
        exact ⟨a1.mono _, a2, by simp⟩
      · exact old he
    | _ => exact old (by simp only [upd_apply] at he; grind)
  doneExec := by
    intro i rsp he
    have old : σ.done i = some rsp → ∃ w, .exec w i rsp ∈ L ++ [l] := by
      intro h
      obtain ⟨w, hw⟩ := hI.doneExec i rsp h
      exact ⟨w, List.mem_append_left _ hw⟩
    cases hs with
    | publish w e rsp' k0 k1 =>
      simp only [upd_apply] at he
      split at he
      · next hw =>
        subst hw
        cases he
        exact ⟨w, List.mem_append_left _ (hI.gotExec w e rsp k1).2.2⟩
      · exact old he
    | _ => exact old he
  written := by
    intro i c b hm
    have mono : ∀ rsp, Outcome L i rsp → l.about ≠ some i ∨ l ≠ .timeout i → Outcome (L ++ [l]) i rsp := by
      intro rsp ho hl
      rcases ho with ⟨h1, h2⟩ | ⟨h1, h2, w, h3⟩
      · exact .inl ⟨List.mem_append_left _ h1, h2⟩
      · refine .inr ⟨List.mem_append_left _ h1, ?_, w, List.mem_append_left _ h3⟩
        intro hm
        rcases List.mem_append.mp hm with hm | hm
        · exact h2 hm
        · rw [List.mem_singleton] at hm
          subst hm
          simp [Label.about] at hl
    rcases List.mem_append.mp hm with ho | hm
    · obtain ⟨⟨f, h1⟩, rsp, h2, h3, h4⟩ := hI.written i c b ho
      refine ⟨⟨f, List.mem_append_left _ h1⟩, rsp, h2, h3, mono rsp h4 ?_⟩
      right
      rintro rfl
      cases hs with
      | timeout i c' k =>
        have := hI.handlers i
        rw [k] at this
        have := this.2 (.write i c b) ho rfl
        simp [Label.late] at this
    · rw [List.mem_singleton] at hm
      subst hm
      cases hs with
      | write i c rsp b k1 k2 k3 =>
        have := hI.handlers i
        rw [k1] at this
        obtain ⟨⟨f, h1⟩, h2, _⟩ := this
        exact ⟨⟨f, List.mem_append_left _ h1⟩, rsp, k2, k3, mono rsp h2 (.inr (by simp))⟩
  execGood := by
    intro w i rsp hm
    rcases List.mem_append.mp hm with hm | hm
    · obtain ⟨e, h1, h2, h3⟩ := hI.execGood w i rsp hm
      exact ⟨e, h1, h2.mono l, List.mem_append_left _ h3⟩
    · rw [List.mem_singleton] at hm
      subst hm
      cases hs with
      | exec w e snap s' it rsp k0 k1 k2 =>
        obtain ⟨a1, a2, a3, a4⟩ := hI.pend w e (by rw [k1]; rfl)
        exact ⟨e, rfl, a1.mono _, List.mem_append_left _ a4⟩
  taken := by
    intro w i hm
    rcases List.mem_append.mp hm with hm | hm
    · exact List.mem_append_left _ (hI.taken w i hm)
    · rw [List.mem_singleton] at hm
      subst hm
      cases hs with
      | take w e rest k0 k1 k2 => exact List.mem_append_left _ (hI.chanGood e (by rw [k2]; simp)).1.1
  enq := by
    intro i hm
    rcases List.mem_append.mp hm with hm | hm
    · exact past_step hs (hI.enq i hm)
    · rw [List.mem_singleton] at hm
      subst hm
      cases hs
      simp [Past]

theorem Run.inv {ext n rng L σ} (h : Run ext n rng L σ) : Inv ext n L σ := by
  induction h with
  | nil => exact inv_init ext n rng
  | snoc _ _ hs ih => exact inv_step ih hs

end Godis.Event
