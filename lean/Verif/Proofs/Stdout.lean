import Verif.Model.Stdout
import Verif.Proofs.LogText
import Verif.Proofs.Event3
/-! Standard output: the log with other lines in it can still be read in one way only. -/
namespace Godis
open Resp

theorem isRequest_head {t : Str} {req : List Str} (h : IsRequest t req) : ∃ r, t = 42 :: r := by
  obtain ⟨d, b, _, _, rfl⟩ := h
  exact ⟨d ++ [13, 10] ++ b, by simp⟩

theorem line_head {x y : Str} (h : x.head? ≠ some 42) {r : Str} (e : x ++ 10 :: y = 42 :: r) : False := by
  cases x with
  | nil => simp at e
  | cons c x => simp at e; simp [e.1] at h

theorem line_unique {x x' y y' : Str} (h : 10 ∉ x) (h' : 10 ∉ x') (e : x ++ 10 :: y = x' ++ 10 :: y') : x = x' ∧ y = y' := by
  induction x generalizing x' with
  | nil =>
    cases x' with
    | nil => exact ⟨rfl, by simpa using e⟩
    | cons c x' => simp at e; simp [← e.1] at h'
  | cons c x ih =>
    cases x' with
    | nil => simp at e; simp [e.1] at h
    | cons c' x' =>
      simp only [List.cons_append, List.cons.injEq] at e
      obtain ⟨rfl, e⟩ := e
      obtain ⟨rfl, rfl⟩ := ih (fun hh => h (by simp [hh])) (fun hh => h' (by simp [hh])) e
      exact ⟨rfl, rfl⟩

/-- two readings of the beginning of a text: one is a prefix of the other -/
theorem isMixed_prefix {p q x y : Str} {rp rq : List (List Str)} (hp : IsMixed p rp) (hq : IsMixed q rq) (h : p ++ x = q ++ y)
    (hl : p.length ≤ q.length) : ∃ k, rp = rq.take k ∧ k ≤ rq.length := by
  induction hp generalizing q rq with
  | nil => exact ⟨0, by simp, by omega⟩
  | @entry t req rest reqs h1 h2 ih =>
    obtain ⟨r, hr⟩ := isRequest_head h1
    cases hq with
    | nil => simp at hl
    | @entry t' req' rest' reqs' g1 g2 =>
      simp only [List.append_assoc, List.cons_append] at h
      obtain ⟨rfl, e, rfl⟩ := isRequest_unique h1 g1 h
      simp only [List.cons.injEq, true_and] at e
      obtain ⟨k, rfl, hk⟩ := ih g2 e (by simpa using hl)
      exact ⟨k + 1, by simp, by simpa using hk⟩
    | @line z rest' _ g1 g2 g3 =>
      exfalso
      simp only [List.append_assoc, List.cons_append, hr] at h
      exact line_head g2 h.symm
  | @line z rest reqs h1 h2 h3 ih =>
    cases hq with
    | nil => simp at hl
    | @entry t' req' rest' reqs' g1 g2 =>
      exfalso
      obtain ⟨r, hr⟩ := isRequest_head g1
      simp only [List.append_assoc, List.cons_append, hr] at h
      exact line_head h2 h
    | @line z' rest' _ g1 g2 g3 =>
      simp only [List.append_assoc, List.cons_append] at h
      obtain ⟨rfl, e⟩ := line_unique h1 g1 h
      exact ih g3 e (by simpa using hl)

theorem isMixed_append {p q : Str} {rp rq : List (List Str)} (hp : IsMixed p rp) (hq : IsMixed q rq) : IsMixed (p ++ q) (rp ++ rq) := by
  induction hp with
  | nil => exact hq
  | entry h1 h2 ih => simp only [List.append_assoc, List.cons_append]; exact .entry h1 ih
  | line h1 h2 h3 ih => simp only [List.append_assoc, List.cons_append]; exact .line h1 h2 ih

theorem formatInt_head (i : Int) (r : Bytes) : (formatInt i ++ r).head? ≠ some 42 := by
  unfold formatInt
  split
  · simp
  · have h1 := formatNat_ne_nil i.natAbs
    have h2 := formatNat_digits i.natAbs
    cases hf : formatNat i.natAbs with
    | nil => exact absurd hf h1
    | cons c cs =>
      have := h2 c (by rw [hf]; simp)
      simp only [List.cons_append, List.head?_cons, ne_eq, Option.some.injEq]
      rintro rfl
      exact absurd this (by decide)

/-- what a command prints is nothing or one line -/
theorem printed_mixed (ext : Ext) (s : Store) (name : Bytes) (args : List Bytes) : IsMixed (printed ext s name args) [] := by
  have key : ∀ k a b, IsMixed (s.rankLine ext k a b) [] := by
    intro k a b
    unfold Store.rankLine
    split
    · split
      · unfold ZSL.rankLine
        split
        · exact .nil
        · split
          · next x y _ _ =>
            have e : formatInt x ++ 32 :: formatInt y ++ [10] = (formatInt x ++ 32 :: formatInt y) ++ 10 :: [] := by simp
            rw [e]
            refine .line ?_ (formatInt_head _ _) .nil
            simp [formatInt_noLF]
          · exact .nil
      · exact .nil
    · exact .nil
  unfold printed
  split
  · exact key _ _ _
  · split
    · exact key _ _ _
    · exact .nil
  · exact key _ _ _
  · exact .nil

namespace Event

theorem Output.run {ext n rng L σ t} (h : Output ext n rng L σ t) : Run ext n rng L σ := by
  induction h with
  | nil => exact .nil
  | snoc _ hc hs ih => exact .snoc ih hc hs

theorem Run.output {ext n rng L σ} (h : Run ext n rng L σ) : ∃ t, Output ext n rng L σ t := by
  induction h with
  | nil => exact ⟨_, .nil⟩
  | snoc _ hc hs ih =>
    obtain ⟨t, ht⟩ := ih
    exact ⟨_, .snoc ht hc hs⟩

end Event
end Godis
