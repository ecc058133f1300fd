import Verif.Proofs.Encode
import Verif.Proofs.Decode
import Verif.Spec.LogText
/-! Requests in wire form are read back by the RESP parser; logs are unambiguous. -/
namespace Godis
open Resp

theorem foldl_digit_none2 (d : Str) : d.foldl digit none = none := by
  induction d with
  | nil => rfl
  | cons c cs ih => simpa [digit] using ih

theorem dec_digits {d : Str} {n : Nat} (h : dec d = some n) : ∀ c ∈ d, isDigit c := by
  unfold dec at h
  split at h
  · cases h
  · revert h
    generalize (0 : Nat) = acc
    rename_i hd
    clear hd
    induction d generalizing acc with
    | nil => intro _; simp
    | cons c cs ih =>
      intro h
      simp only [List.foldl_cons, digit] at h
      split at h
      · next hc =>
        intro x hx
        rcases List.mem_cons.mp hx with rfl | hx
        · unfold isDigit
          exact ⟨UInt8.le_iff_toNat_le.mpr hc.1, UInt8.le_iff_toNat_le.mpr hc.2⟩
        · exact ih _ h x hx
      · rw [foldl_digit_none2] at h; cases h

theorem parse_bulk {d a : Str} (h : dec d = some a.length) (fuel : Nat) (rest : Str) :
    parse (fuel + 1) (36 :: d ++ [13, 10] ++ a ++ [13, 10] ++ rest) = some (.bulk (some a), rest) := by
  have hd := dec_digits h
  have hs : sdec d = some (a.length : Int) := by rw [sdec_of_digits d hd, h]; rfl
  have hl : line (d ++ 13 :: 10 :: (a ++ 13 :: 10 :: rest)) = some (d, a ++ 13 :: 10 :: rest) :=
    line_of_noLF d _ (digits_noLF hd)
  have e : 36 :: d ++ [13, 10] ++ a ++ [13, 10] ++ rest = 36 :: (d ++ 13 :: 10 :: (a ++ 13 :: 10 :: rest)) := by simp
  rw [e]
  simp only [parse, hl, hs]
  rw [if_neg (by decide), if_neg (by decide), if_neg (by decide), if_pos trivial, if_neg (by omega), if_neg (by omega)]
  rw [if_neg (by simp), if_neg (by simp)]
  have h2 : List.drop (a.length + 2) (a ++ 13 :: 10 :: rest) = rest := by
    rw [show a ++ 13 :: 10 :: rest = (a ++ [13, 10]) ++ rest by simp]
    rw [List.drop_left' (by simp)]
  have h1 : (a ++ 13 :: 10 :: rest).take a.length = a := by simp
  simp only [Int.toNat_natCast, h1, h2]

theorem parse_bulks {b : Str} {args : List Str} (h : IsBulks b args) (fuel : Nat) (hf : args.length < fuel) (rest : Str) :
    parseN fuel args.length (b ++ rest) = some (args.map (fun a => .bulk (some a)), rest) := by
  induction h generalizing fuel with
  | nil => cases fuel <;> simp [parseN]
  | @cons d a s as h1 h2 ih =>
    match fuel, hf with
    | fuel + 2, hf =>
      have e : 36 :: d ++ [13, 10] ++ a ++ [13, 10] ++ s ++ rest = 36 :: d ++ [13, 10] ++ a ++ [13, 10] ++ (s ++ rest) := by simp
      rw [e]
      simp only [List.length_cons, parseN, parse_bulk h1 fuel]
      rw [ih (fuel + 1) (by simp at hf; omega)]
      simp
    | 1, hf => simp at hf

/-- a request in wire form is one RESP value -/
theorem isRequest_denotes {s : Str} {args : List Str} (h : IsRequest s args) : Denotes s (bulks args) := by
  obtain ⟨d, b, h1, h2, rfl⟩ := h
  refine ⟨args.length + 2, fun fuel hf rest => ?_⟩
  obtain ⟨f, rfl⟩ : ∃ f, fuel = f + 1 := ⟨fuel - 1, by omega⟩
  have hd := dec_digits h1
  have hl : line (d ++ 13 :: 10 :: (b ++ rest)) = some (d, b ++ rest) := line_of_noLF d _ (digits_noLF hd)
  have e : 42 :: d ++ [13, 10] ++ b ++ rest = 42 :: (d ++ 13 :: 10 :: (b ++ rest)) := by simp
  rw [e]
  simp only [parse, hl, h1]
  rw [if_neg (by decide), if_neg (by decide), if_neg (by decide), if_neg (by decide), if_pos trivial, parse_bulks h2 f (by omega)]
  rfl

theorem bulks_inj2 {a b : List Str} (h : bulks a = bulks b) : a = b := by
  unfold bulks at h
  injection h with h
  induction a generalizing b with
  | nil => cases b with
    | nil => rfl
    | cons => simp at h
  | cons x a ih => cases b with
    | nil => simp at h
    | cons y b =>
      simp only [List.map_cons, List.cons.injEq, Reply.bulk.injEq, Option.some.injEq] at h
      rw [h.1, ih h.2]

/-- requests in wire form are self-delimiting -/
theorem isRequest_unique {a b x y : Str} {ra rb : List Str} (ha : IsRequest a ra) (hb : IsRequest b rb)
    (h : a ++ x = b ++ y) : a = b ∧ x = y ∧ ra = rb := by
  obtain ⟨f, hf⟩ := isRequest_denotes ha
  obtain ⟨g, hg⟩ := isRequest_denotes hb
  have h1 := hf (max f g) (by omega) x
  have h2 := hg (max f g) (by omega) y
  rw [h, h2] at h1
  injection h1 with h1
  injection h1 with h3 h4
  subst h4
  exact ⟨List.append_cancel_right h, rfl, (bulks_inj2 h3).symm⟩

/-- two readings of the beginning of a text: one is a prefix of the other -/
theorem isLog_prefix {p q x y : Str} {rp rq : List (List Str)} (hp : IsLog p rp) (hq : IsLog q rq) (h : p ++ x = q ++ y)
    (hl : p.length ≤ q.length) : ∃ k, rp = rq.take k ∧ k ≤ rq.length := by
  induction hp generalizing q rq with
  | nil => exact ⟨0, by simp, by omega⟩
  | @cons t req rest reqs h1 h2 ih =>
    cases hq with
    | nil => simp at hl
    | @cons t' req' rest' reqs' g1 g2 =>
      simp only [List.append_assoc, List.cons_append] at h
      obtain ⟨rfl, e, rfl⟩ := isRequest_unique h1 g1 h
      simp only [List.cons.injEq, true_and] at e
      obtain ⟨k, rfl, hk⟩ := ih g2 e (by simpa using hl)
      exact ⟨k + 1, by simp, by simpa using hk⟩

/-- the same requests, read from the beginning of the same text, are the same part of the text -/
theorem isLog_same {p q x y : Str} {reqs : List (List Str)} (hp : IsLog p reqs) (hq : IsLog q reqs) (h : p ++ x = q ++ y) : p = q := by
  induction hp generalizing q with
  | nil => cases hq; rfl
  | @cons t req rest reqs h1 h2 ih =>
    cases hq with
    | @cons t' req' rest' reqs' g1 g2 =>
      simp only [List.append_assoc, List.cons_append] at h
      obtain ⟨rfl, e, _⟩ := isRequest_unique h1 g1 h
      simp only [List.cons.injEq, true_and] at e
      rw [ih g2 e]

theorem isLog_append {p q : Str} {rp rq : List (List Str)} (hp : IsLog p rp) (hq : IsLog q rq) : IsLog (p ++ q) (rp ++ rq) := by
  induction hp with
  | nil => exact hq
  | cons h1 h2 ih => simp only [List.append_assoc, List.cons_append]; exact .cons h1 ih

end Godis
