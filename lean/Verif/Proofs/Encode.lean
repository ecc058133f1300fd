import Verif.Model.Protocol
import Verif.Spec.Resp
import Verif.Spec.Wire
import Verif.Proofs.Strconv
/-! Encoded replies are read back by the RESP specification parser. -/
namespace Godis
open Resp

theorem dec_eq_digitsVal (s : Str) (h : ∀ c ∈ s, isDigit c) (acc : Nat) :
    s.foldl digit (some acc) = digitsVal s acc := by
  induction s generalizing acc with
  | nil => simp [digitsVal]
  | cons c cs ih =>
    have hc : isDigit c := h c (by simp)
    have hc' : 48 ≤ c.toNat ∧ c.toNat ≤ 57 := by
      unfold isDigit at hc
      exact ⟨UInt8.le_iff_toNat_le.mp hc.1, UInt8.le_iff_toNat_le.mp hc.2⟩
    simp only [List.foldl_cons, digit, if_pos hc', digitsVal]
    unfold isDigit at hc
    rw [if_pos hc, ih (fun c hc => h c (by simp [hc]))]
    congr 1
    omega

theorem dec_formatNat (n : Nat) : dec (formatNat n) = some n := by
  have h := dec_eq_digitsVal (formatNat n) (formatNat_digits n) 0
  unfold dec
  rw [if_neg (formatNat_ne_nil n), h, digitsVal_formatNat]

theorem sdec_of_digits (s : Str) (h : ∀ c ∈ s, isDigit c) : sdec s = (dec s).map (fun (n : Nat) => (n : Int)) := by
  unfold sdec
  split
  · next cs =>
    exact absurd (h 45 (by simp)) (by decide)
  · rfl

theorem sdec_formatNat (n : Nat) : sdec (formatNat n) = some (n : Int) := by
  rw [sdec_of_digits _ (formatNat_digits n), dec_formatNat]; rfl

theorem sdec_formatInt (i : Int) : sdec (formatInt i) = some i := by
  unfold formatInt
  split
  · show (dec (formatNat i.natAbs)).map (fun (n : Nat) => -(n : Int)) = some i
    rw [dec_formatNat, Option.map_some, Option.some.injEq]
    omega
  · rw [sdec_formatNat, Option.some.injEq]; omega

theorem line_of_noLF (s rest : Str) (h : 10 ∉ s) : line (s ++ 13 :: 10 :: rest) = some (s, rest) := by
  induction s with
  | nil => simp [line]
  | cons c cs ih =>
    have h' : 10 ∉ cs := fun hh => h (by simp [hh])
    have ih := ih h'
    cases cs with
    | nil =>
      simp only [List.cons_append, List.nil_append] at ih ⊢
      unfold line
      split
      · next h0 => simp at h0
      · next h0 => simp at h0
      · next a b c d he =>
        simp only [List.cons.injEq] at he
        obtain ⟨rfl, rfl⟩ := he
        rw [ih]
    | cons d ds =>
      simp only [List.cons_append] at ih ⊢
      unfold line
      split
      · next h0 => simp at h0
      · next h0 =>
        simp only [List.cons.injEq] at h0
        exact absurd (by simp [h0.2.1]) h'
      · next a b c' d' he =>
        simp only [List.cons.injEq] at he
        obtain ⟨rfl, rfl⟩ := he
        rw [ih]

theorem digits_noLF {s : Str} (h : ∀ c ∈ s, isDigit c) : 10 ∉ s := fun hh => absurd (h 10 hh) (by decide)

theorem formatInt_noLF (i : Int) : 10 ∉ formatInt i := by
  unfold formatInt
  split
  · simp only [List.mem_cons, not_or]
    exact ⟨by decide, digits_noLF (formatNat_digits _)⟩
  · exact digits_noLF (formatNat_digits _)

theorem parse_item (i : Item) (r : Reply) (h : i.reply = some r) :
    ∃ b, i.encode = .ok b ∧ ∀ fuel rest, parse (fuel + 1) (b ++ rest) = some (r, rest) := by
  obtain ⟨v, t⟩ := i
  unfold Item.reply at h
  unfold Item.encode
  cases t <;> cases v <;> simp only [reduceCtorEq] at h ⊢
  · next s =>
    split at h
    · simp at h
    · next hs =>
      simp only [Option.some.injEq] at h; subst h
      refine ⟨_, rfl, fun fuel rest => ?_⟩
      simp only [CRLF, List.cons_append, List.append_assoc, List.nil_append, parse]
      rw [line_of_noLF _ _ hs]
      simp
  · next s =>
    split at h
    · simp at h
    · next hs =>
      simp only [Option.some.injEq] at h; subst h
      refine ⟨_, rfl, fun fuel rest => ?_⟩
      simp only [CRLF, List.cons_append, List.append_assoc, List.nil_append, parse]
      rw [line_of_noLF _ _ hs]
      simp
  · next n =>
    simp only [Option.some.injEq] at h; subst h
    refine ⟨_, rfl, fun fuel rest => ?_⟩
    simp only [CRLF, List.cons_append, List.append_assoc, List.nil_append, parse]
    rw [line_of_noLF _ _ (formatInt_noLF n)]
    simp [sdec_formatInt]
  · simp only [Option.some.injEq] at h; subst h
    refine ⟨_, rfl, fun fuel rest => ?_⟩
    simp only [List.cons_append, List.nil_append, parse]
    have := line_of_noLF [45, 49] rest (by decide)
    simp only [List.cons_append, List.nil_append] at this
    rw [this]
    simp [sdec, dec, digit]
  · next s =>
    simp only [Option.some.injEq] at h; subst h
    refine ⟨_, rfl, fun fuel rest => ?_⟩
    simp only [CRLF, List.cons_append, List.append_assoc, List.nil_append, parse]
    rw [line_of_noLF _ _ (digits_noLF (formatNat_digits _))]
    simp only [sdec_formatNat]
    have e1 : ¬ ((s.length : Int) = -1) := by omega
    have e2 : ¬ ((s.length : Int) < 0) := by omega
    simp [e1, e2]

theorem parse_items (is : List Item) (rs : List Reply) (h : itemReplies is = some rs) :
    ∃ b, encodeItems is = .ok b ∧
      ∀ fuel rest, is.length + 1 ≤ fuel → parseN fuel is.length (b ++ rest) = some (rs, rest) := by
  induction is generalizing rs with
  | nil =>
    simp only [itemReplies, Option.some.injEq] at h; subst h
    exact ⟨[], rfl, fun fuel rest _ => by simp [parseN]⟩
  | cons i is ih =>
    unfold itemReplies at h
    split at h
    · next r rs' hr hrs =>
      simp only [Option.some.injEq] at h; subst h
      obtain ⟨b1, hb1, hp1⟩ := parse_item i r hr
      obtain ⟨b2, hb2, hp2⟩ := ih rs' hrs
      refine ⟨b1 ++ b2, ?_, ?_⟩
      · simp only [encodeItems, hb1, hb2, bind, Except.bind]
      · intro fuel rest hf
        match fuel, hf with
        | f + 2, hf =>
          simp only [List.length_cons, parseN, List.append_assoc]
          rw [hp1]
          simp only
          rw [hp2 _ _ (by simp at hf; omega)]
          rfl
    · simp at h

/-- The encoding of a meaningful response denotes its reply. -/
theorem encode_denotes (r : Response) (m : Reply) (h : r.reply = some m) :
    ∃ b, r.encode = .ok b ∧ Denotes b m := by
  obtain ⟨items, arr⟩ := r
  unfold Response.reply at h
  simp only at h
  cases items with
  | nil =>
    cases arr with
    | true =>
      simp only [if_true, itemReplies, Option.map, Option.some.injEq] at h; subst h
      refine ⟨_, rfl, 2, fun fuel hf rest => ?_⟩
      obtain ⟨f, rfl⟩ : ∃ f, fuel = f + 1 := ⟨fuel - 1, by omega⟩
      simp only [List.cons_append, List.nil_append, parse]
      have := line_of_noLF [48] rest (by decide)
      simp only [List.cons_append, List.nil_append] at this
      rw [this]
      simp [dec, digit, parseN]
    | false =>
      simp only [Bool.false_eq_true, if_false, Option.some.injEq] at h; subst h
      obtain ⟨b, hb, hp⟩ := parse_item ⟨.nil, .bulkStrings⟩ (.bulk none) rfl
      refine ⟨b, ?_, 1, fun fuel hf rest => ?_⟩
      · rw [← hb]; rfl
      · obtain ⟨f, rfl⟩ : ∃ f, fuel = f + 1 := ⟨fuel - 1, by omega⟩
        exact hp f rest
  | cons i is =>
    cases arr with
    | false =>
      simp only [Bool.false_eq_true, if_false] at h
      obtain ⟨b, hb, hp⟩ := parse_item i m h
      refine ⟨b, ?_, 1, fun fuel hf rest => ?_⟩
      · rw [← hb]; rfl
      · obtain ⟨f, rfl⟩ : ∃ f, fuel = f + 1 := ⟨fuel - 1, by omega⟩
        exact hp f rest
    | true =>
      simp only [if_true] at h
      cases hr : itemReplies (i :: is) with
      | none => simp [hr] at h
      | some rs =>
        simp only [hr, Option.map, Option.some.injEq] at h; subst h
        obtain ⟨b, hb, hp⟩ := parse_items (i :: is) rs hr
        refine ⟨42 :: formatNat (i :: is).length ++ CRLF ++ b, ?_, (i :: is).length + 2,
          fun fuel hf rest => ?_⟩
        · simp only [Response.encode, hb, bind, Except.bind]; rfl
        · obtain ⟨f, rfl⟩ : ∃ f, fuel = f + 1 := ⟨fuel - 1, by omega⟩
          simp only [CRLF, List.cons_append, List.append_assoc, List.nil_append, parse]
          rw [line_of_noLF _ _ (digits_noLF (formatNat_digits _))]
          simp only [dec_formatNat]
          rw [hp f rest (by omega)]
          simp

end Godis
