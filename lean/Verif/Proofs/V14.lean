import Verif.Proofs.V13
/-!
# The v1 server: how many steps there are
-/
namespace Godis.V1
open Godis.Event (Sys Label Step Run Stopper upd upd_apply upd_same sum_upd sum_upd_absent frames)

/-- the steps a connection has left -/
def Conn.weight (k : Conn) : Nat :=
  (match k.reader with
    | .loop => 4 * k.input.size + 5
    | .hasRequest _ _ => 4 * k.input.size + 8
    | .hasError false => 4 * k.input.size + 4
    | .hasError true => 4
    | .returning => 3
    | .closedReceive => 2
    | .gone => 1) + 2 * k.receive.length + 2 * (1 - k.errors) +
  (match k.loop with
    | .absent => 0
    | .selecting => 5
    | .handling _ => 6
    | .leaving => 2
    | .closed => 1
    | .gone => 0)

/-- the steps `Start` has left -/
def Starter.weight : Starter → Nat
  | .no => 5
  | .begun => 4
  | .listening => 3
  | .accepting => 2
  | .waiting => 1
  | .returned => 0
  | .failed => 0

/-- the steps `Stop` has left, besides those of `event.Stop` -/
def Closer.weight : Closer → Nat
  | .no => 3
  | .closedListener => 2
  | .stopping => 1
  | .returned => 0

/-- the steps that are not steps of `Model/Event` -/
def own (L : List VLabel) : Nat := L.countP fun l => match l with | .sys _ => false | _ => true

/-- the steps left, besides those of `Model/Event` -/
def Srv.left (L : List VLabel) (v : Srv) : Nat :=
  ((accepted L).map fun c => (v.conn c).weight).sum + v.starter.weight + v.closer.weight + (if v.crashed then 0 else 1)

theorem own_snoc (L : List VLabel) (l : VLabel) : own (L ++ [l]) = own L + (match l with | .sys _ => 0 | _ => 1) := by
  unfold own
  rw [List.countP_append]
  cases l <;> simp

theorem load_snoc (L : List VLabel) (l : VLabel) : load (L ++ [l]) = load L + (match l with
    | .accept _ segs => 4 * segs.flatten.length + 13
    | .acceptFailed => 1
    | _ => 0) := by
  unfold load
  simp only [List.map_append, List.map_cons, List.map_nil, List.sum_append, List.sum_cons, List.sum_nil, Nat.add_zero]
  cases l <;> rfl

theorem absent_reader {ext rng L v} (h : VRun ext rng L v) (c : Nat) (ha : (v.conn c).loop = .absent) :
    (v.conn c).reader = .loop ∧ (v.conn c).receive = [] := by
  induction h with
  | nil => simp [Srv.init, Conn.none]
  | @snoc L w l w' h hc hc' hs ih =>
    cases hs with
    | accept c' | decode c' | malformed c' | readClosed c' | request c' | error c' | closeReceive c' | closeError c' | quit c' | gotError c'
      | handle c' | next c' | writeFailed c' | closeConn c' | gone c' =>
      simp only [upd_apply] at ha ⊢
      split at ha
      · next e => subst e; simp_all [Conn.new]
      · next e => simp only [if_neg e]; exact ih ha
    | _ => exact ih ha

theorem own_bound {ext rng L v} (h : VRun ext rng L v) : own L + v.left L ≤ load L + 9 := by
  induction h with
  | nil => simp [own, Srv.left, load, Srv.init, accepted, Starter.weight, Closer.weight]
  | @snoc L w l w' h hc hc' hs ih =>
    have hcn := conns h
    rw [own_snoc, load_snoc]
    have hacc : ∀ l : VLabel, (∀ c b, l ≠ .accept c b) → accepted (L ++ [l]) = accepted L := by
      intro l hl
      rw [accepted_append]
      cases l <;> simp_all [accepted]
    have hmem : ∀ c, (w.conn c).loop ≠ .absent → c ∈ accepted L := by
      intro c hh
      by_contra hm
      exact hh ((hcn.absent c).mpr hm)
    have hin : ∀ c, (w.conn c).loop = .absent → (w.conn c).reader = .loop := fun c hh => (absent_reader h c hh).1
    -- one connection changes
    have conn : ∀ (c : Nat) (k : Conn) (hm : c ∈ accepted L), k.weight + 1 ≤ (w.conn c).weight →
        ((accepted L).map fun j => (upd w.conn c k j).weight).sum + 1 ≤ ((accepted L).map fun j => (w.conn j).weight).sum := by
      intro c k hm hk
      have := sum_upd Conn.weight w.conn c k hcn.nodup hm
      omega
    unfold Srv.left at ih ⊢
    cases hs with
    | accept c b h1 h2 h3 =>
      have hn := (hcn.absent c).mp h3
      have h4 : accepted (L ++ [.accept c b]) = accepted L ++ [c] := by rw [accepted_append]; rfl
      rw [h4]
      simp only [List.map_append, List.sum_append, List.map_cons, List.map_nil, List.sum_cons, List.sum_nil, upd_same]
      rw [sum_upd_absent Conn.weight w.conn c _ hn]
      have : (Conn.new b).weight = 4 * b.flatten.length + 12 := by simp [Conn.weight, Conn.new, Rd.size]
      omega
    | decode c b r rest h1 h2 h3 h3' =>
      rw [hacc _ (by simp)]
      have h4 : rest.size < (w.conn c).input.size := by
        have := rdDecode_fair (w.conn c).input
        rw [h3] at this
        rw [Rd.size_ahead, Rd.size_ahead]; exact this.2.1
      have := conn c (hm := hmem c h1) (k := { w.conn c with input := rest, reader := .hasRequest b r }) (by
        simp only [Conn.weight, h2]; omega)
      dsimp only at this ⊢; omega
    | malformed c e rest last h1 h2 h3 h5 =>
      rw [hacc _ (by simp)]
      have h4 : rest.size ≤ (w.conn c).input.size ∧ (e ≠ .eof → rest.size < (w.conn c).input.size) := by
        have := rdDecode_fair (w.conn c).input
        rw [h3] at this
        rw [Rd.size_ahead, Rd.size_ahead]; exact ⟨this.1.length_le, this.2⟩
      have := conn c (hm := hmem c h1) (k := { w.conn c with input := rest, reader := .hasError last }) (by
        simp only [Conn.weight, h2]
        have := h4.1
        cases last <;> dsimp only <;> omega)
      dsimp only at this ⊢; omega
    | readClosed c h1 h2 =>
      rw [hacc _ (by simp)]
      have := conn c (hm := hmem c (by rcases h1 with h1 | h1 <;> simp [h1])) (k := { w.conn c with reader := .hasError true }) (by
        simp only [Conn.weight, h2]; omega)
      dsimp only at this ⊢; omega
    | request c b r h1 h2 =>
      rw [hacc _ (by simp)]
      have := conn c (hm := hmem c (fun hh => by rw [hin c hh] at h1; cases h1)) (k := { w.conn c with reader := .loop, receive := (w.conn c).receive ++ [(b, r)] }) (by
        simp only [Conn.weight, h1, List.length_append, List.length_singleton]; omega)
      dsimp only at this ⊢; omega
    | error c last h1 h2 =>
      rw [hacc _ (by simp)]
      have := conn c (hm := hmem c (fun hh => by rw [hin c hh] at h1; cases h1))
        (k := { w.conn c with reader := if last then .returning else .loop, errors := (w.conn c).errors + 1 }) (by
        cases last <;> simp [Conn.weight, h1] <;> omega)
      dsimp only at this ⊢; omega
    | closeReceive c h1 =>
      rw [hacc _ (by simp)]
      have := conn c (hm := hmem c (fun hh => by rw [hin c hh] at h1; cases h1)) (k := { w.conn c with reader := .closedReceive, receiveClosed := true }) (by
        simp only [Conn.weight, h1]; omega)
      dsimp only at this ⊢; omega
    | closeError c h1 =>
      rw [hacc _ (by simp)]
      have := conn c (hm := hmem c (fun hh => by rw [hin c hh] at h1; cases h1)) (k := { w.conn c with reader := .gone, errorClosed := true }) (by
        simp only [Conn.weight, h1]; omega)
      dsimp only at this ⊢; omega
    | quit c h1 h2 =>
      rw [hacc _ (by simp)]
      have := conn c (hm := hmem c (by simp [h1])) (k := { w.conn c with loop := .leaving }) (by
        simp only [Conn.weight, h1]; omega)
      dsimp only at this ⊢; omega
    | gotError c h1 h2 =>
      rw [hacc _ (by simp)]
      have := conn c (hm := hmem c (by simp [h1])) (k := { w.conn c with loop := .leaving, errors := (w.conn c).errors - 1 }) (by
        simp only [Conn.weight, h1]; omega)
      dsimp only at this ⊢; omega
    | handle c i b r rest h1 h2 h3 =>
      rw [hacc _ (by simp)]
      have := conn c (hm := hmem c (by simp [h1])) (k := { w.conn c with loop := .handling i, receive := rest }) (by
        simp only [Conn.weight, h1, h2, List.length_cons]; omega)
      dsimp only at this ⊢; omega
    | next c i h1 h2 =>
      rw [hacc _ (by simp)]
      have := conn c (hm := hmem c (by simp [h1])) (k := { w.conn c with loop := .selecting }) (by
        simp only [Conn.weight, h1]; omega)
      dsimp only at this ⊢; omega
    | writeFailed c i c' rsp b h1 =>
      rw [hacc _ (by simp)]
      have := conn c (hm := hmem c (by simp [h1])) (k := { w.conn c with loop := .leaving }) (by
        simp only [Conn.weight, h1]; omega)
      dsimp only at this ⊢; omega
    | closeConn c h1 =>
      rw [hacc _ (by simp)]
      have := conn c (hm := hmem c (by simp [h1])) (k := { w.conn c with loop := .closed }) (by
        simp only [Conn.weight, h1]; omega)
      dsimp only at this ⊢; omega
    | gone c h1 h2 =>
      rw [hacc _ (by simp)]
      have := conn c (hm := hmem c (by simp [h1])) (k := { w.conn c with loop := .gone }) (by
        simp only [Conn.weight, h1]; omega)
      dsimp only at this ⊢; omega
    | sys l σ' => rw [hacc _ (by simp)]; exact ih
    | _ =>
      rw [hacc _ (by simp)]
      simp_all only [Starter.weight, Closer.weight, Bool.false_eq_true, if_false, if_true]
      omega

end Godis.V1
