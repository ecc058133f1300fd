import Verif.Proofs.Event
import Verif.Props.Crash
import Verif.Spec.Linear
/-!
# Runs, and the serial execution behind a run with one worker
-/
namespace Godis.Event
open Resp (Reply Denotes)
open Linear (Before Op)

/-- the first part of a run is a run -/
theorem Run.prefix {ext n rng} : ∀ {L2 L1 σ}, Run ext n rng (L1 ++ L2) σ → ∃ σ1, Run ext n rng L1 σ1 := by
  intro L2
  induction L2 using List.reverseRecOn with
  | nil => intro L1 σ h; rw [List.append_nil] at h; exact ⟨σ, h⟩
  | append_singleton L2 l ih =>
    intro L1 σ h
    rw [← List.append_assoc] at h
    generalize hL : L1 ++ L2 ++ [l] = L at h
    cases h with
    | nil => simp at hL
    | snoc hr hc hs =>
      obtain ⟨h1, h2⟩ := List.append_inj' hL rfl
      subst h1
      exact ih hr

/-- every label of a run is a step from the state reached before -/
theorem Run.at {ext n rng L1 l L2 σ} (h : Run ext n rng (L1 ++ l :: L2) σ) :
    ∃ σ1 σ2, Run ext n rng L1 σ1 ∧ Step ext n σ1 l σ2 ∧ Run ext n rng (L1 ++ [l]) σ2 := by
  have h' : Run ext n rng ((L1 ++ [l]) ++ L2) σ := by simpa using h
  obtain ⟨σ2, h2⟩ := h'.prefix
  generalize hL : L1 ++ [l] = L at h2
  cases h2 with
  | nil => simp at hL
  | snoc hr hc hs =>
    obtain ⟨h1, h2⟩ := List.append_inj' hL rfl
    simp only [List.cons.injEq, and_true] at h2
    subst h1 h2
    exact ⟨_, _, hr, hs, .snoc hr hc hs⟩

/-- nothing about a frame happens before it is received -/
theorem Run.recv_first {ext n rng L1 L2 i c f σ} (h : Run ext n rng (L1 ++ .recv i c f :: L2) σ) :
    ∀ l ∈ L1, l.about ≠ some i := by
  obtain ⟨σ1, σ2, h1, h2, _⟩ := h.at
  cases h2 with
  | recv i c f k =>
    have := h1.inv.handlers i
    rw [k] at this
    exact this

/-- the executed frames with their responses, in order -/
def execs (L : List Label) : List (Nat × Response) :=
  L.filterMap fun l => match l with
    | .exec _ i rsp => some (i, rsp)
    | _ => none

theorem mem_execs {L i rsp} : (i, rsp) ∈ execs L ↔ ∃ w, .exec w i rsp ∈ L := by
  simp only [execs, List.mem_filterMap]
  constructor
  · rintro ⟨l, hl, he⟩
    cases l <;> simp at he
    obtain ⟨rfl, rfl⟩ := he
    exact ⟨_, hl⟩
  · rintro ⟨w, h⟩; exact ⟨_, h, rfl⟩

theorem execs_snoc (L : List Label) (l : Label) : execs (L ++ [l]) = execs L ++ (match l with
    | .exec _ i rsp => [(i, rsp)]
    | _ => []) := by
  unfold execs
  rw [List.filterMap_append]
  cases l <;> rfl

theorem Run.execs_nodup {ext n rng L σ} (h : Run ext n rng L σ) : ((execs L).map (·.1)).Nodup := by
  induction h with
  | nil => simp [execs]
  | @snoc L σ l σ' hr hc hs ih =>
    rw [execs_snoc]
    cases hs with
    | exec w e snap s' it rsp k0 k1 k2 =>
      rw [List.map_append, List.nodup_append]
      refine ⟨ih, by simp, ?_⟩
      rintro a ha b hb rfl
      simp only [List.map_cons, List.map_nil, List.mem_singleton] at hb
      subst hb
      obtain ⟨⟨i, r⟩, hm, hi⟩ := List.mem_map.mp ha
      obtain ⟨v, hv⟩ := mem_execs.mp hm
      simp only at hi
      subst hi
      exact (hr.inv.pend w e (by rw [k1]; rfl)).2.2.1 v r hv
    | _ => simpa using ih

theorem Run.exec_unique {ext n rng L σ} (h : Run ext n rng L σ) {v w i r r'} (h1 : .exec v i r ∈ L) (h2 : .exec w i r' ∈ L) : r = r' := by
  have h := h.execs_nodup
  have a := mem_execs.mpr ⟨v, h1⟩
  have b := mem_execs.mpr ⟨w, h2⟩
  have := List.inj_on_of_nodup_map h a b rfl
  exact (Prod.mk.inj this).2

/-! ## one worker -/

/-- with one worker, a running command works on the current store -/
theorem Run.snapshot {ext rng L σ} (h : Run ext 1 rng L σ) :
    (∀ w, 1 ≤ w → σ.worker w = .idle) ∧ ∀ w e snap, σ.worker w = .running e snap → snap = σ.store := by
  induction h with
  | nil => simp [Sys.init]
  | snoc hr hc hs ih =>
    obtain ⟨ih1, ih2⟩ := ih
    constructor
    · intro w hw
      cases hs <;> simp only [upd_apply] <;> first | exact ih1 w hw | (rw [if_neg (by omega)]; exact ih1 w hw)
    · intro w e snap hw
      have hw0 : w = 0 := by
        rcases Nat.eq_zero_or_pos w with h | h
        · exact h
        · exfalso
          have hi := ih1 w h
          cases hs <;> simp only [upd_apply] at hw <;>
            first
            | (rw [hi] at hw; cases hw; done)
            | (rw [if_neg (by omega), hi] at hw; cases hw)
      subst hw0
      cases hs <;> simp only [upd_apply] at hw <;>
        first
        | exact ih2 0 e snap hw
        | (rename_i hlt _ _; 
           have hz := Nat.lt_one_iff.mp hlt; subst hz; rw [if_pos rfl] at hw; cases hw; done)
        | (rename_i hlt _;
           have hz := Nat.lt_one_iff.mp hlt; subst hz; rw [if_pos rfl] at hw; cases hw; rfl)
        | skip
      all_goals
        split at hw
        · cases hw
        · exact ih2 0 e snap hw

/-- requests executed one after the other: (frame, words, response) -/
inductive Serial (ext : Ext) (s0 : Store) : List (Nat × List Bytes × Response) → Store → Prop
  | nil : Serial ext s0 [] s0
  | snoc {ops s it i req rsp s'} : Serial ext s0 ops s → runRequest ext it s req = .ok (s', some rsp) →
      Serial ext s0 (ops ++ [(i, req, rsp)]) s'

/-- the frame `i` arrived and was decoded as the words `req` -/
def Asked (L : List Label) (i : Nat) (req : List Bytes) : Prop :=
  ∃ c f rec rest, .recv i c f ∈ L ∧ decodeFromReader f = .ok rec rest ∧ .log i rec.orgStr ∈ L ∧ rec.elements = req

theorem Asked.mono {L i req} (l : Label) (h : Asked L i req) : Asked (L ++ [l]) i req := by
  obtain ⟨c, f, rec, rest, h1, h2, h3, h4⟩ := h
  exact ⟨c, f, rec, rest, List.mem_append_left _ h1, h2, List.mem_append_left _ h3, h4⟩

theorem run_of_execute {ext it s req name args s' rsp} (h : newCommand ext req = some (name, args))
    (h2 : execute ext it s name args = .ok (s', rsp)) : runRequest ext it s req = .ok (s', some rsp) := by
  unfold runRequest
  rw [h]
  simp only [h2, bind, Except.bind]

/-- the work of one worker is a serial execution -/
theorem Run.serial {ext rng L σ} (h : Run ext 1 rng L σ) :
    ∃ ops, ops.map (fun o => (o.1, o.2.2)) = execs L ∧ Serial ext (Store.init rng) ops σ.store ∧
      ∀ o ∈ ops, Asked L o.1 o.2.1 := by
  induction h with
  | nil => exact ⟨[], rfl, .nil, by simp⟩
  | @snoc L σ l σ' hr hc hs ih =>
    obtain ⟨ops, h1, h2, h3⟩ := ih
    have h3' : ∀ o ∈ ops, Asked (L ++ [l]) o.1 o.2.1 := fun o ho => (h3 o ho).mono l
    cases hs with
    | exec w e snap s' it rsp k0 k1 k2 =>
      obtain ⟨⟨_, c, f, rec, rest, g1, g2, g3, g4⟩, _⟩ := hr.inv.pend w e (by rw [k1]; rfl)
      have hsnap := hr.snapshot.2 w e snap k1
      subst hsnap
      refine ⟨ops ++ [(e.id, rec.elements, rsp)], ?_, .snoc h2 (run_of_execute g4 k2), ?_⟩
      · rw [execs_snoc, List.map_append, h1]; rfl
      · intro o ho
        rcases List.mem_append.mp ho with ho | ho
        · exact h3' o ho
        · rw [List.mem_singleton] at ho
          subst ho
          exact ⟨c, f, rec, rest, List.mem_append_left _ g1, g2, List.mem_append_left _ g3, rfl⟩
    | _ => exact ⟨ops, by rw [execs_snoc]; simpa using h1, h2, h3'⟩

/-- the answered operations of a serial execution -/
def answered (ops : List (Nat × List Bytes × Response)) : List Op :=
  ops.filterMap fun o => o.2.2.reply.map fun m => ⟨o.1, o.2.1, m⟩

theorem answered_append (a b : List (Nat × List Bytes × Response)) : answered (a ++ b) = answered a ++ answered b :=
  List.filterMap_append ..

theorem Serial.trace {ext s0 ops s} (h : Serial ext s0 ops s) (ht : Typed s0) :
    Trace ext s0 ((answered ops).map fun o => (o.req, o.reply)) s ∧
      ∀ o ∈ ops, o.2.2.reply = none → o.2.2.encode = .error .typeAssertion := by
  induction h with
  | nil => exact ⟨.nil, by simp⟩
  | @snoc ops s it i req rsp s' h hr ih =>
    obtain ⟨ih, ih2⟩ := ih
    have hs := ih.typed ht
    rw [answered_append, List.map_append]
    rcases run_cases (ext := ext) (it := it) hs req with ⟨p, h1⟩ | ⟨_, h1⟩ | ⟨_, rsp', h1, h2, h3⟩ | ⟨_, m, s1, rsp', h1, h2⟩
    · rw [hr] at h1; cases h1
    · rw [hr] at h1; cases h1
    · rw [hr] at h1
      cases h1
      refine ⟨?_, ?_⟩
      · simpa [answered, h3] using ih
      · intro o ho hn
        rcases List.mem_append.mp ho with ho | ho
        · exact ih2 o ho hn
        · rw [List.mem_singleton] at ho; subst ho; exact h2
    · rw [hr] at h1
      cases h1
      refine ⟨?_, ?_⟩
      · have : answered [(i, req, rsp)] = [⟨i, req, m⟩] := by simp [answered, h2]
        rw [this]
        exact .snoc ih ⟨rsp, hr, h2⟩
      · intro o ho hn
        rcases List.mem_append.mp ho with ho | ho
        · exact ih2 o ho hn
        · rw [List.mem_singleton] at ho; subst ho; rw [h2] at hn; cases hn

/-! ## order -/

theorem Before.of_split {α : Type} {L : List α} {a b : α} {l1 l2 : List α} (h : L = l1 ++ l2) (ha : a ∈ l1) (hb : b ∈ l2) : Before L a b := by
  obtain ⟨x1, x2, rfl⟩ := List.append_of_mem ha
  obtain ⟨y1, y2, rfl⟩ := List.append_of_mem hb
  exact ⟨x1, x2 ++ y1, y2, by rw [h]; simp⟩

end Godis.Event
