import Verif.Proofs.V14
/-!
# The v1 server: what readers leave, what they have seen
-/
namespace Godis.V1
open Godis.Event (Sys Label Step Run Stopper upd upd_apply upd_same)

theorem Finds.suffix {rd rs rest} (h : Finds rd rs rest) : rest.ahead <:+ rd.ahead := by
  induction h with
  | nil => exact List.suffix_refl _
  | @ok rs rd' r rest _ hd ih =>
    have := rdDecode_fair rd'
    rw [hd] at this
    exact this.1.trans ih
  | @err rs rd' e rest _ hd ih =>
    have := rdDecode_fair rd'
    rw [hd] at this
    exact this.1.trans ih

/-- the reader has seen the end of the stream, or its connection was closed -/
def Over : Reader → Bool
  | .hasError true | .returning | .closedReceive | .gone => true
  | _ => false

theorem over {ext rng L v} (h : VRun ext rng L v) (c : Nat) :
    ((v.conn c).receiveClosed = true → Over (v.conn c).reader = true) ∧
    (Over (v.conn c).reader = true → (v.conn c).loop = .closed ∨ (v.conn c).loop = .gone ∨
      ∃ s bs b rest, .accept c s ∈ L ∧ Finds (fresh s) bs b ∧ rdDecode b = .err .eof rest) := by
  induction h with
  | nil => simp [Srv.init, Conn.none, Over]
  | @snoc L w l w' h hc hc' hs ih =>
    have hp := finds h c
    have hn := conns h
    have mono : (∃ s bs b rest, .accept c s ∈ L ∧ Finds (fresh s) bs b ∧ rdDecode b = .err .eof rest) →
        ∃ s bs b rest, .accept c s ∈ L ++ [l] ∧ Finds (fresh s) bs b ∧ rdDecode b = .err .eof rest := by
      rintro ⟨s, bs, b, rest, h1, h2⟩; exact ⟨s, bs, b, rest, List.mem_append_left _ h1, h2⟩
    have ih' := fun ho => (ih.2 ho).imp id (Or.imp id mono)
    cases hs with
    | malformed c' e rest last h1 h2 h3 h4 =>
      simp only [upd_apply]
      split
      · next ec =>
        subst ec
        refine ⟨fun hr => ?_, fun ho => ?_⟩
        · have := ih.1 hr; rw [h2] at this; cases this
        · obtain ⟨s, hs⟩ := mem_accepted.mp (by by_contra hm; exact h1 ((hn.absent c).mpr hm) : c ∈ accepted L)
          have he : e = .eof := by
            cases last with
            | true => exact h4 rfl
            | false => simp [Over] at ho
          subst he
          exact .inr (.inr ⟨s, _, _, rest, List.mem_append_left _ hs, hp.2 s hs, h3⟩)
      · exact ⟨ih.1, ih'⟩
    | readClosed c' h1 h2 =>
      simp only [upd_apply]
      split
      · next e => subst e; exact ⟨fun _ => rfl, fun _ => h1.imp id .inl⟩
      · exact ⟨ih.1, ih'⟩
    | error c' last h1 h2 =>
      simp only [upd_apply]
      split
      · next e =>
        subst e
        rw [h1] at ih ih'
        cases last
        · exact ⟨ih.1, fun ho => by cases ho⟩
        · exact ⟨fun _ => rfl, fun _ => ih' rfl⟩
      · exact ⟨ih.1, ih'⟩
    | accept c' | decode c' | request c' | closeReceive c' | closeError c' | quit c' | gotError c'
      | handle c' | next c' | writeFailed c' | closeConn c' | gone c' =>
      simp only [upd_apply]
      split
      · next e => subst e; simp_all [Conn.new, Over]
      · exact ⟨ih.1, ih'⟩
    | _ => exact ⟨ih.1, ih'⟩

/-- `ReceiveChan` is closed by the reader when it returns -/
theorem closed_after {ext rng L v} (h : VRun ext rng L v) (c : Nat) :
    ((v.conn c).receiveClosed = true → (v.conn c).reader = .closedReceive ∨ (v.conn c).reader = .gone) := by
  induction h with
  | nil => simp [Srv.init, Conn.none]
  | @snoc L w l w' h hc hc' hs ih =>
    cases hs with
    | accept c' | decode c' | malformed c' | readClosed c' | request c' | error c' | closeReceive c' | closeError c' | quit c' | gotError c'
      | handle c' | next c' | writeFailed c' | closeConn c' | gone c' =>
      simp only [upd_apply]
      split
      · next e => subst e; simp_all [Conn.new]
      · exact ih
    | _ => exact ih

/-- the loop of a connection has not left -/
def Active : Loop → Prop
  | .selecting | .handling _ => True
  | _ => False

/-- As long as the loop of a connection has not left: if no error was sent, every call of the decoder has found a request, but
for an error that the reader is about to send; if the reader has returned, it has met the end of the stream after only requests. -/
theorem clean {ext rng L v} (h : VRun ext rng L v) (c : Nat) (ha : Active (v.conn c).loop) :
    (∀ s, .accept c s ∈ L →
      ((v.conn c).errors = 0 → match (v.conn c).reader with
        | .loop | .hasRequest _ _ => ∃ rs, FindsAll (fresh s) rs (v.conn c).input
        | .hasError false => True
        | .hasError true => ∃ rs rd rest, FindsAll (fresh s) rs rd ∧ rdDecode rd = .err .eof rest
        | _ => False) ∧
      (match (v.conn c).reader with
        | .returning | .closedReceive | .gone => ∃ rs rd rest, FindsAll (fresh s) rs rd ∧ rdDecode rd = .err .eof rest
        | _ => True)) := by
  induction h with
  | nil => simp [Srv.init, Conn.none, Active] at ha
  | @snoc L w l w' h hc hc' hs ih =>
    have hn := conns h
    intro s hs'
    cases hs with
    | accept c' b h1 h2 h3 =>
      by_cases e : c = c'
      · subst e
        have : s = b := by
          rcases List.mem_append.mp hs' with hm | hm
          · exact absurd (mem_accepted.mpr ⟨s, hm⟩) ((hn.absent c).mp h3)
          · simpa using hm
        subst this
        simp only [upd_same, Conn.new]
        exact ⟨fun _ => ⟨[], .nil _⟩, trivial⟩
      · simp only [upd_apply, if_neg e] at ha ⊢
        exact ih ha s (by simpa [e] using hs')
    | decode c' b r rest h1 h2 h3 h4 =>
      by_cases e : c = c'
      · subst e
        simp only [upd_same] at ha ⊢
        have := ih ha s (by simpa using hs')
        rw [h2] at this
        exact ⟨fun he => by obtain ⟨rs, hf⟩ := this.1 he; exact ⟨_, hf.ok h3⟩, trivial⟩
      · simp only [upd_apply, if_neg e] at ha ⊢
        exact ih ha s (by simpa using hs')
    | malformed c' e' rest last h1 h2 h3 h4 =>
      by_cases e : c = c'
      · subst e
        simp only [upd_same] at ha ⊢
        have := ih ha s (by simpa using hs')
        rw [h2] at this
        refine ⟨fun he => ?_, trivial⟩
        cases last with
        | false => trivial
        | true => obtain ⟨rs, hf⟩ := this.1 he; have := h4 rfl; subst this; exact ⟨rs, _, rest, hf, h3⟩
      · simp only [upd_apply, if_neg e] at ha ⊢
        exact ih ha s (by simpa using hs')
    | readClosed c' h1 h2 =>
      by_cases e : c = c'
      · subst e
        simp only [upd_same] at ha
        rcases h1 with h1 | h1 <;> rw [h1] at ha <;> exact ha.elim
      · simp only [upd_apply, if_neg e] at ha ⊢
        exact ih ha s (by simpa using hs')
    | request c' b r h1 h2 =>
      by_cases e : c = c'
      · subst e
        simp only [upd_same] at ha ⊢
        have := ih ha s (by simpa using hs')
        rw [h1] at this
        exact ⟨this.1, trivial⟩
      · simp only [upd_apply, if_neg e] at ha ⊢
        exact ih ha s (by simpa using hs')
    | error c' last h1 h2 =>
      by_cases e : c = c'
      · subst e
        simp only [upd_same] at ha ⊢
        have := ih ha s (by simpa using hs')
        rw [h1] at this
        refine ⟨fun he => by simp at he, ?_⟩
        cases last with
        | false => trivial
        | true => exact this.1 (by omega)
      · simp only [upd_apply, if_neg e] at ha ⊢
        exact ih ha s (by simpa using hs')
    | closeReceive c' h1 =>
      by_cases e : c = c'
      · subst e
        simp only [upd_same] at ha ⊢
        have := ih ha s (by simpa using hs')
        rw [h1] at this
        exact ⟨this.1, this.2⟩
      · simp only [upd_apply, if_neg e] at ha ⊢
        exact ih ha s (by simpa using hs')
    | closeError c' h1 =>
      by_cases e : c = c'
      · subst e
        simp only [upd_same] at ha ⊢
        have := ih ha s (by simpa using hs')
        rw [h1] at this
        exact ⟨this.1, this.2⟩
      · simp only [upd_apply, if_neg e] at ha ⊢
        exact ih ha s (by simpa using hs')
    | handle c' i b r rest h1 =>
      by_cases e : c = c'
      · subst e
        simp only [upd_same] at ha ⊢
        exact ih (by rw [h1]; trivial) s (by simpa using hs')
      · simp only [upd_apply, if_neg e] at ha ⊢
        exact ih ha s (by simpa using hs')
    | next c' i h1 =>
      by_cases e : c = c'
      · subst e
        simp only [upd_same] at ha ⊢
        exact ih (by rw [h1]; trivial) s (by simpa using hs')
      · simp only [upd_apply, if_neg e] at ha ⊢
        exact ih ha s (by simpa using hs')
    | quit c' | gotError c' | writeFailed c' | closeConn c' | gone c' =>
      by_cases e : c = c'
      · subst e
        simp [upd_same, Active] at ha
      · simp only [upd_apply, if_neg e] at ha ⊢
        exact ih ha s (by simpa using hs')
    | _ => exact ih ha s (by simpa using hs')

end Godis.V1
