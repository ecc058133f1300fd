import Verif.Proofs.V1
import Verif.Props.Concurrency
/-!
# The v1 server: what is taken, executed and answered on a connection, in which order
-/
namespace Godis.Event

/-- the requests put into the event channel, oldest first -/
def enqueued (L : List Label) : List Nat :=
  L.filterMap fun l => match l with
    | .enqueue i => some i
    | _ => none

theorem mem_enqueued {L i} : i ∈ enqueued L ↔ .enqueue i ∈ L := by
  simp only [enqueued, List.mem_filterMap]
  constructor
  · rintro ⟨l, hl, he⟩
    cases l <;> simp at he
    subst he
    exact hl
  · intro h; exact ⟨_, h, rfl⟩

theorem enqueued_append (A B : List Label) : enqueued (A ++ B) = enqueued A ++ enqueued B := List.filterMap_append ..

/-- with one worker the requests are executed in the order in which they were enqueued -/
theorem Run.fifo {ext rng L σ} (h : Run ext 1 rng L σ) :
    (execs L).map (·.1) ++ ((σ.worker 0).pending.toList.map (·.id)) ++ σ.chan.map (·.id) = enqueued L := by
  induction h with
  | nil => simp [Sys.init, execs, enqueued, Worker.pending]
  | @snoc L σ l σ' hr hc hs ih =>
    rw [enqueued_append, execs_snoc, ← ih]
    cases hs with
    | take w e rest h1 h2 h3 =>
      have : w = 0 := by omega
      subst this
      simp [enqueued, Worker.pending, h2, h3]
    | start w e h1 h2 =>
      have : w = 0 := by omega
      subst this
      simp [enqueued, Worker.pending, h2]
    | exec w e snap s' it rsp h1 h2 h3 =>
      have : w = 0 := by omega
      subst this
      simp [enqueued, Worker.pending, h2]
    | publish w e rsp h1 h2 =>
      have : w = 0 := by omega
      subst this
      simp [enqueued, Worker.pending, h2]
    | exitTold w h1 h2 | exitClosed w h1 h2 =>
      have : w = 0 := by omega
      subst this
      simp [enqueued, Worker.pending, h2]
    | enqueue => simp [enqueued]
    | _ => simp [enqueued]

theorem sublist_of_append_singleton {i : Nat} {X R : List Nat} (hX : i ∉ X) (hs : X.Sublist (R ++ [i])) : X.Sublist R := by
  obtain ⟨X1, X2, rfl, h1, h2⟩ := List.sublist_append_iff.mp hs
  cases X2 with
  | nil => simpa using h1
  | cons x X2 =>
    rw [List.sublist_singleton] at h2
    rcases h2 with h2 | h2
    · cases h2
    · rw [h2] at hX; simp at hX

theorem OneAtATime.enqueued {ext n rng L σ} (h : Run ext n rng L σ) {c : Nat} (hone : OneAtATime L c) :
    ((enqueued L).filter (· ∈ arrived L c)).Sublist (arrived L c) := by
  induction h with
  | nil => exact .slnil
  | @snoc L σ l σ' hr hc hs ih =>
    have ih := ih hone.prefix
    rw [enqueued_append, List.filter_append]
    -- the old part
    have hold : ∀ i ∈ Event.enqueued L, i ∈ arrived (L ++ [l]) c ↔ i ∈ arrived L c := by
      intro i hi
      rw [arrived_append, List.mem_append]
      refine ⟨fun hh => hh.resolve_right fun hh => ?_, .inl⟩
      obtain ⟨f, hm⟩ := mem_arrived.mp hh
      rw [List.mem_singleton] at hm
      subst hm
      cases hs with
      | recv i c f h1 =>
        have := hr.inv.enq i (mem_enqueued.mp hi)
        rw [h1] at this
        exact this
    have hf : (Event.enqueued L).filter (· ∈ arrived (L ++ [l]) c) = (Event.enqueued L).filter (· ∈ arrived L c) :=
      List.filter_congr fun i hi => by simp [hold i hi]
    rw [hf]
    cases hs with
    | enqueue i c' rec nm args h1 h2 h3 h4 =>
      have hk := hr.inv.handlers i
      rw [h1] at hk
      obtain ⟨⟨f, rest, hf1, hf2⟩, _, hearly⟩ := hk
      have hni : i ∉ Event.enqueued L := by
        intro hm
        have := hearly _ (mem_enqueued.mp hm) rfl
        cases this
      have he : arrived (L ++ [.enqueue i]) c = arrived L c := by rw [arrived_append]; simp [arrived]
      rw [he]
      by_cases hia : i ∈ arrived L c
      · obtain ⟨f', hf'⟩ := mem_arrived.mp hia
        obtain ⟨R, hR⟩ := arrived_last hr hone.prefix hf' (by rw [h1]; simp)
        rw [hR] at ih ⊢
        have h5 := sublist_of_append_singleton (fun hm => hni (List.mem_filter.mp hm).1) ih
        simpa [Event.enqueued] using h5.append (List.Sublist.refl [i])
      · have : (Event.enqueued [Label.enqueue i]).filter (· ∈ arrived L c) = [] := by simp [Event.enqueued, hia]
        rw [this, List.append_nil]
        exact ih
    | _ =>
      rw [arrived_append]
      simpa [Event.enqueued] using ih.trans (List.sublist_append_left _ _)

/-- C46 for clients that wait, on the inside: the requests of one connection are executed in the order in which they
arrived, also when the server gave up on some. -/
theorem OneAtATime.executed {ext rng L σ} (h : Run ext 1 rng L σ) {c : Nat} (hone : OneAtATime L c) :
    (((execs L).map (·.1)).filter (· ∈ arrived L c)).Sublist (arrived L c) := by
  refine List.Sublist.trans ?_ (OneAtATime.enqueued h hone)
  rw [← h.fifo]
  exact (List.Sublist.filter _ (by rw [List.append_assoc]; exact List.sublist_append_left _ _))

end Godis.Event

namespace Godis.V1
open Godis.Event (Sys Label Step Run Stopper upd upd_apply upd_same OneAtATime arrived arrived_append mem_arrived Decodes Asked execs writes)
open Resp (IsRequest)

/-- the request the reader holds -/
def heldRequest : Reader → List Receive
  | .hasRequest _ r => [r]
  | _ => []

theorem taken_append (A B : List VLabel) (c : Nat) : taken (A ++ B) c = taken A c ++ taken B c := List.filterMap_append ..

theorem taken_single (l : VLabel) (c : Nat) : taken [l] c = (match l with
    | .handle _ c' _ r => if c' = c then [r] else []
    | _ => []) := by
  cases l <;> simp [taken]
  split <;> simp_all

/-- what was taken from a connection, what is in its channel, what its reader holds and what was not yet read are, in this
order, what the peer sent -/
theorem finds {ext rng L v} (h : VRun ext rng L v) : ∀ c,
    ((v.conn c).loop = .absent → taken L c = [] ∧ ∀ s, .accept c s ∉ L) ∧
    ∀ s, .accept c s ∈ L →
      Finds (fresh s) (taken L c ++ (v.conn c).receive.map (·.2) ++ heldRequest (v.conn c).reader) (v.conn c).input := by
  induction h with
  | nil => intro c; simp [Srv.init, Conn.none, taken]
  | @snoc L w l w' h hc hc' hs ih =>
    intro c
    have ihh := ih c
    obtain ⟨ih1, ih2⟩ := ih c
    rw [taken_append, taken_single]
    cases hs with
    | accept c' b h1 h2 h3 =>
      by_cases hcc : c = c'
      · subst hcc
        obtain ⟨g1, g2⟩ := ih1 h3
        refine ⟨by simp [Conn.new], ?_⟩
        intro s hs
        have : s = b := by
          rcases List.mem_append.mp hs with hs | hs
          · exact absurd hs (g2 s)
          · simpa using hs
        subst this
        simp [Conn.new, heldRequest, g1]
        exact .nil _
      · simpa [upd_apply, hcc] using ihh
    | decode c' b r rest h1 h2 h3 h4 =>
      by_cases hcc : c = c'
      · subst hcc
        simp only [upd_same, List.mem_append, List.mem_singleton, reduceCtorEq, or_false, List.append_nil, heldRequest]
        refine ⟨ih1, fun s hs => ?_⟩
        have := ih2 s hs
        rw [h2] at this
        exact .ok (by simpa [heldRequest] using this) h3
      · simpa [upd_apply, hcc] using ihh
    | malformed c' e rest last h1 h2 h3 h4 =>
      by_cases hcc : c = c'
      · subst hcc
        simp only [upd_same, List.mem_append, List.mem_singleton, reduceCtorEq, or_false, List.append_nil, heldRequest]
        refine ⟨ih1, fun s hs => ?_⟩
        have := ih2 s hs
        rw [h2] at this
        exact .err (by simpa [heldRequest] using this) h3
      · simpa [upd_apply, hcc] using ihh
    | request c' b r h1 h2 =>
      by_cases hcc : c = c'
      · subst hcc
        simp only [upd_same, List.mem_append, List.mem_singleton, reduceCtorEq, or_false, List.append_nil, heldRequest]
        refine ⟨ih1, fun s hs => ?_⟩
        have := ih2 s hs
        rw [h1] at this
        simpa [heldRequest] using this
      · simpa [upd_apply, hcc] using ihh
    | error c' last h1 h2 =>
      by_cases hcc : c = c'
      · subst hcc
        rw [h1] at ihh
        cases last <;> simpa [heldRequest] using ihh
      · simpa [upd_apply, hcc] using ihh
    | handle c' i b r rest h1 h2 h3 =>
      by_cases hcc : c = c'
      · subst hcc
        refine ⟨by simp, fun s hs => ?_⟩
        have := ih2 s (by simpa using hs)
        rw [h2] at this
        simpa using this
      · have : c' ≠ c := fun e => hcc e.symm
        simpa [upd_apply, hcc, this] using ihh
    | readClosed c' | closeReceive c' | closeError c' | quit c' | gotError c' | next c' | writeFailed c' | closeConn c' | gone c' =>
      by_cases hcc : c = c'
      · subst hcc
        simp_all [heldRequest]
      · simpa [upd_apply, hcc] using ihh
    | _ => simpa using ihh

/-- the requests taken on a connection, with their numbers -/
theorem taken_arrived {ext rng L v} (h : VRun ext rng L v) (c : Nat) :
    List.Forall₂ (fun i r => ∃ b, .handle i c b r ∈ L) (arrived (sysLabels L) c) (taken L c) := by
  have key : ∀ L : List VLabel, (∀ l ∈ L, ∀ i c f, l ≠ .sys (.recv i c f)) →
      List.Forall₂ (fun i r => ∃ b, .handle i c b r ∈ L) (arrived (sysLabels L) c) (taken L c) := by
    intro L
    induction L using List.reverseRecOn with
    | nil => intro _; exact .nil
    | append_singleton L l ih =>
      intro hno
      rw [sysLabels_append, sysLabels_single, arrived_append, taken_append]
      refine List.rel_append (R := fun i r => _) ?_ ?_
      · exact (ih fun l hl => hno l (by simp [hl])).imp fun i r ⟨b, hm⟩ => ⟨b, List.mem_append_left _ hm⟩
      · cases l with
        | sys l => rw [arrived_steps _ _ (by simp) (hno _ (by simp))]; exact .nil
        | handle i c' b t =>
          by_cases hcc : c' = c
          · subst hcc; simp [VLabel.steps, arrived, taken]
          · simp [VLabel.steps, arrived, taken, hcc]
        | _ => exact .nil
  apply key
  clear key
  induction h with
  | nil => simp
  | @snoc L w l w' h hc hc' hs ih =>
    intro l' hl'
    rcases List.mem_append.mp hl' with hl' | hl'
    · exact ih l' hl'
    · rw [List.mem_singleton] at hl'
      subst hl'
      rintro i c f rfl
      cases hs with
      | sys l σ' _ _ hno => exact hno _ _ _ rfl

/-- no panic of a handler is survived -/
theorem no_died {ext rng L v} (h : VRun ext rng L v) (i : Nat) (p : Panic) : .died i p ∉ sysLabels L := by
  induction h with
  | nil => simp [sysLabels]
  | @snoc L w l w' h hc hc' hs ih =>
    rw [sysLabels_append, sysLabels_single]
    cases hs with
    | sys l σ' _ _ _ _ hno =>
      simp only [VLabel.steps, List.mem_append, List.mem_singleton, not_or]
      exact ⟨ih, fun e => hno i p e.symm⟩
    | _ => simp_all [VLabel.steps]

theorem encode_nonempty (r : Response) : r.encode ≠ .ok [] := by
  intro h
  unfold Response.encode at h
  split at h
  · split at h <;> cases h
  · next it its hits =>
    split at h
    · unfold Item.encode at h
      split at h <;> cases h
    · cases hj : encodeItems (it :: its) with
      | error p => rw [hj] at h; cases h
      | ok b => rw [hj] at h; cases h

/-- requests are decoded when they are taken -/
theorem submitted_never {ext rng L v} (h : VRun ext rng L v) : ∀ i c f, v.sys.handler i ≠ .submitted c f := by
  induction h with
  | nil => simp [Srv.init, Sys.init]
  | @snoc L w l w' h hc hc' hs ih =>
    intro i c f
    cases hs with
    | handle c' i' b' r rest h1 h2 h3 =>
      simp only [upd_apply]
      split
      · simp
      · exact ih i c f
    | stopPool σ' _ hst => cases hst; exact ih i c f
    | sys l σ' hst _ hno =>
      cases hst <;> simp_all only [upd_apply, ne_eq, not_true_eq_false, reduceCtorEq, not_false_eq_true, implies_true] <;>
        first | (exfalso; exact hno _ _ _ rfl) | exact ih i c f | (split <;> [simp; exact ih i c f])
    | _ => exact ih i c f

/-- a request is left without an answer only if it has no words -/
theorem quiet_empty {ext rng L v} (h : VRun ext rng L v) {i c b} (hr : .recv i c b ∈ sysLabels L) (hq : .quiet i ∈ sysLabels L) :
    Decodes b [] := by
  induction h with
  | nil => simp [sysLabels] at hq
  | @snoc L w l w' h hc hc' hs ih =>
    by_cases hq' : .quiet i ∈ sysLabels L
    · by_cases hr' : .recv i c b ∈ sysLabels L
      · exact ih hr' hq'
      · exfalso
        rw [sysLabels_append, sysLabels_single] at hr
        have hl := (List.mem_append.mp hr).resolve_left hr'
        have hk := h.run.inv.handlers i
        cases hs with
        | handle c' i' b' r rest h1 h2 h3 =>
          simp only [VLabel.steps, List.mem_cons, reduceCtorEq, List.not_mem_nil, or_false, Label.recv.injEq] at hl
          obtain ⟨rfl, _⟩ := hl
          rw [h3] at hk
          exact hk _ hq' rfl
        | sys l σ' _ _ hno =>
          simp only [VLabel.steps, List.mem_singleton] at hl
          exact hno _ _ _ hl.symm
        | _ => simp [VLabel.steps] at hl
    · rw [sysLabels_append, sysLabels_single] at hq hr
      have hl := (List.mem_append.mp hq).resolve_left hq'
      cases hs with
      | sys l σ' hst _ hno =>
        simp only [VLabel.steps, List.mem_singleton] at hl
        subst hl
        have hr' : .recv i c b ∈ sysLabels L := by simpa [VLabel.steps] using hr
        have hk := h.run.inv.handlers i
        cases hst with
        | drop i c' f h1 | badFrame i c' f e rest h1 h2 =>
          exfalso
          -- requests of the v1 server are decoded when they are taken
          exact submitted_never h _ _ _ h1
        | noCommand i c' rec h1 h2 =>
          rw [h1] at hk
          obtain ⟨⟨f, rest, h3, h4⟩, _⟩ := hk
          obtain ⟨rfl, rfl⟩ := h.run.recv_unique hr' h3
          refine ⟨rec, rest, h4, ?_⟩
          cases he : rec.elements with
          | nil => rfl
          | cons x xs => rw [he] at h2; simp [newCommand] at h2
        | writeNothing i c' rsp h1 h2 => exact absurd h2 (encode_nonempty rsp)
      | _ => simp [VLabel.steps] at hl

/-- the channel of a connection holds at most one request -/
theorem receive_length {ext rng L v} (h : VRun ext rng L v) (c : Nat) : (v.conn c).receive.length ≤ 1 := by
  induction h with
  | nil => simp [Srv.init, Conn.none]
  | @snoc L w l w' h hc hc' hs ih =>
    cases hs with
    | accept | decode | malformed | readClosed | closeReceive | closeError | quit | gotError | next | writeFailed | closeConn | gone | error =>
      simp only [upd_apply]
      split <;> [(subst_vars; first | exact ih | simp [Conn.new]); exact ih]
    | request c' b r h1 h2 =>
      simp only [upd_apply]
      split
      · subst_vars; simp only [List.length_append, List.length_singleton]; omega
      · exact ih
    | handle c' i b r rest h1 h2 h3 =>
      simp only [upd_apply]
      split
      · subst_vars; rw [h2] at ih; simp at ih ⊢; simp [ih]
      · exact ih
    | _ => exact ih

theorem arrived_nodup {ext n rng L σ} (h : Run ext n rng L σ) (c : Nat) : (arrived L c).Nodup := by
  refine List.Nodup.sublist ?_ h.received_nodup
  clear h
  induction L with
  | nil => exact .slnil
  | cons l L ih =>
    simp only [arrived, Event.received] at ih
    simp only [arrived, Event.received, List.filterMap_cons]
    cases l with
    | recv i c' f =>
      by_cases hcc : c' = c
      · simpa [hcc] using ih
      · simpa [hcc] using ih.cons i
    | _ => simpa using ih

/-- a sublist of `A ++ B` that contains all of `A`, where `B` has at most one element -/
theorem sublist_front {A B X : List Nat} (hs : X.Sublist (A ++ B)) (hn : (A ++ B).Nodup) (hB : B.length ≤ 1) (hA : ∀ a ∈ A, a ∈ X) :
    A.length ≤ X.length ∧ (A ++ B).take X.length = X := by
  obtain ⟨X1, X2, rfl, h1, h2⟩ := List.sublist_append_iff.mp hs
  rw [List.nodup_append] at hn
  obtain ⟨n1, n2, n3⟩ := hn
  have hX1 : X1 = A := by
    refine h1.eq_of_length_le ?_
    refine (List.subperm_of_subset n1 fun a ha => ?_).length_le
    rcases List.mem_append.mp (hA a ha) with hm | hm
    · exact hm
    · exact absurd rfl (n3 a ha a (h2.subset hm))
  subst hX1
  refine ⟨by simp, ?_⟩
  rw [List.length_append, List.take_length_add_append]
  congr 1
  cases B with
  | nil => rw [List.sublist_nil.mp h2]; rfl
  | cons b B =>
    cases B with
    | nil =>
      rcases List.sublist_singleton.mp h2 with rfl | rfl <;> rfl
    | cons b' B => simp at hB

end Godis.V1
