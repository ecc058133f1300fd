import Verif.Model.Protocol
import Verif.Spec.Resp
import Verif.Spec.Wire
import Verif.Proofs.Strconv
/-! Facts about the request decoder. -/
namespace Godis
open Resp

theorem readLine_append (b rest : Bytes) (h : 10 ∉ b) : readLine (b ++ 10 :: rest) = .ok (b ++ [10]) rest := by
  induction b with
  | nil => simp [readLine]
  | cons c cs ih =>
    have hc : c ≠ 10 := fun hh => h (by simp [hh])
    have ih := ih (fun hh => h (by simp [hh]))
    simp only [List.cons_append, readLine, if_neg hc, ih]

theorem readLine_ok {buf line rest : Bytes} (h : readLine buf = .ok line rest) :
    buf = line ++ rest ∧ IsLine line := by
  induction buf generalizing line rest with
  | nil => simp [readLine] at h
  | cons c cs ih =>
    unfold readLine at h
    split at h
    · next hc =>
      simp only [DRes.ok.injEq] at h
      obtain ⟨rfl, rfl⟩ := h
      exact ⟨by simp [hc], [], by simp, by simp⟩
    · next hc =>
      split at h
      · next l r hl =>
        simp only [DRes.ok.injEq] at h
        obtain ⟨rfl, rfl⟩ := h
        obtain ⟨e, b, hb, hn⟩ := ih hl
        refine ⟨by simp [e], c :: b, by simp [hb], ?_⟩
        simp only [List.mem_cons, not_or]
        exact ⟨fun hh => hc hh.symm, hn⟩
      · simp at h
      · simp at h

theorem readLine_not_panic {buf : Bytes} {p : Panic} : readLine buf ≠ .panic p := by
  induction buf with
  | nil => simp [readLine]
  | cons c cs ih =>
    unfold readLine
    split
    · simp
    · split
      · simp
      · simp
      · next q hq => intro h; simp only [DRes.panic.injEq] at h; subst h; exact ih hq

/-! ## headers -/

theorem digit_foldl_none (d : Str) : d.foldl digit none = none := by
  induction d with
  | nil => rfl
  | cons c cs ih => simpa [digit] using ih

theorem lengthLoop_digits (d t : Str) (acc n : Nat) (h : d.foldl digit (some acc) = some n)
    (hn : n < 2 ^ 63) : acc ≤ n ∧ lengthLoop (d ++ 13 :: t) acc = .ok (n : Int) := by
  induction d generalizing acc with
  | nil =>
    simp only [List.foldl_nil, Option.some.injEq] at h; subst h
    simp [lengthLoop]
  | cons c cs ih =>
    simp only [List.foldl_cons, digit] at h
    split at h
    · next hc =>
      obtain ⟨hle, hl⟩ := ih _ h
      have hne : c ≠ 13 := by
        rintro rfl; simp at hc
      refine ⟨by omega, ?_⟩
      simp only [List.cons_append, lengthLoop, if_neg hne]
      have e : (c - 48).toNat = c.toNat - 48 := by
        rw [UInt8.toNat_sub_of_le _ _ (UInt8.le_iff_toNat_le.mpr (by simpa using hc.1))]; rfl
      have hw : ((acc : Int) * 10 + ((c.toNat - 48 : Nat) : Int)) = ((10 * acc + (c.toNat - 48) : Nat) : Int) := by
        omega
      rw [e, hw, wrap64_of_range _ (by omega) (by omega)]
      exact hl
    · rw [digit_foldl_none] at h; simp at h

theorem header_digits (ty : UInt8) (hty : ty ≠ 45) (d : Str) (n : Nat) (h : dec d = some n) (hn : n < 2 ^ 63) :
    readBulkOrArrayLength (ty :: d ++ [13, 10]) = .ok (n : Int) := by
  unfold dec at h
  split at h
  · simp at h
  · have := (lengthLoop_digits d [10] 0 n h hn).2
    simp only [readBulkOrArrayLength, List.cons_append, if_neg hty]
    exact this

theorem dec_ne_nil {d : Str} {n : Nat} (h : dec d = some n) : d ≠ [] := by
  rintro rfl; simp [dec] at h

theorem dec_noLF {d : Str} {n : Nat} (h : dec d = some n) : 10 ∉ d := by
  unfold dec at h
  split at h
  · simp at h
  · have : ∀ acc, d.foldl digit acc = some n → 10 ∉ d := by
      clear h
      intro acc
      induction d generalizing acc with
      | nil => simp
      | cons c cs ih =>
        intro h
        simp only [List.foldl_cons] at h
        simp only [List.mem_cons, not_or]
        refine ⟨?_, ?_⟩
        · rintro rfl
          have : digit acc 10 = none := by cases acc <;> simp [digit]
          rw [this, digit_foldl_none] at h; simp at h
        · by_cases hcs : cs = []
          · simp [hcs]
          · exact ih hcs _ h
    exact this _ h

/-- the header line of a bulk string or array -/
theorem readLine_header (ty : UInt8) (hty : ty ≠ 10) (d rest : Str) (n : Nat) (h : dec d = some n) :
    readLine (ty :: d ++ [13, 10] ++ rest) = .ok (ty :: d ++ [13, 10]) rest := by
  have : ty :: d ++ [13, 10] ++ rest = (ty :: d ++ [13]) ++ 10 :: rest := by simp
  rw [this, readLine_append]
  · simp
  · have := dec_noLF h
    simp only [List.cons_append, List.mem_cons, List.mem_append, List.not_mem_nil, or_false, not_or]
    exact ⟨fun hh => hty hh.symm, this, by decide⟩

theorem readBulk_exact (r : Receive) (a rest : Bytes) (h : a.length + 2 ≤ 2 ^ 48) :
    readBulkStrings r (a ++ [13, 10] ++ rest) (a.length : Int)
      = .ok ⟨r.elements ++ [a], r.orgStr ++ (a ++ [13, 10])⟩ rest := by
  unfold readBulkStrings
  have hw : wrap64 ((a.length : Int) + 2) = a.length + 2 := wrap64_of_range _ (by omega) (by omega)
  rw [if_neg (by omega), hw, if_neg (by unfold maxAlloc; omega), if_neg (by simp)]
  have h2 : List.take (a.length + 2) a = a := List.take_of_length_le (by omega)
  simp [Receive.append, List.take_append, List.drop_append, h2]

theorem dsl_header (r : Receive) (ty : UInt8) (hty : ty = 36 ∨ ty = 42) (d : Str) (n : Nat) (h : dec d = some n)
    (hn : n < 2 ^ 63) :
    decodeSingleLine r (ty :: d ++ [13, 10])
      = .ok (.ok (⟨r.elements, r.orgStr ++ (ty :: d ++ [13, 10])⟩, (n : Int), ty)) := by
  have h45 : ty ≠ 45 := by rcases hty with rfl | rfl <;> decide
  have hh := header_digits ty h45 d n h hn
  simp only [List.cons_append] at hh
  unfold decodeSingleLine
  simp only [List.cons_append, List.length_cons, List.length_append, List.length_nil, List.headD_cons]
  rw [if_neg (by omega), if_pos hty, hh]
  simp [bind, Except.bind, Receive.addOrg]

/-- decoding the bulk strings of a request -/
theorem readArray_bulks (b : Str) (args : List Str) (hb : IsBulks b args) (fuel : Nat) (r : Receive) (rest : Str)
    (hf : args.length < fuel) (hlen : ∀ a ∈ args, a.length + 2 ≤ 2 ^ 48) :
    readArray fuel r (b ++ rest) (args.length : Int) = .ok ⟨r.elements ++ args, r.orgStr ++ b⟩ rest := by
  induction hb generalizing fuel r with
  | nil =>
    obtain ⟨f, rfl⟩ : ∃ f, fuel = f + 1 := ⟨fuel - 1, by simp at hf; omega⟩
    simp [readArray]
  | @cons d a s as hd hs ih =>
    obtain ⟨f, rfl⟩ : ∃ f, fuel = f + 1 := ⟨fuel - 1, by omega⟩
    have ha : a.length + 2 ≤ 2 ^ 48 := hlen a (by simp)
    unfold readArray
    rw [if_neg (by simp only [List.length_cons]; omega)]
    have e : 36 :: d ++ [13, 10] ++ a ++ [13, 10] ++ s ++ rest
        = 36 :: d ++ [13, 10] ++ (a ++ [13, 10] ++ (s ++ rest)) := by simp
    rw [e, readLine_header 36 (by decide) d _ _ hd]
    have h36 : ¬ (List.headD (36 :: d ++ [13, 10]) (0 : UInt8) = 42) := by simp
    simp only [if_neg h36]
    rw [dsl_header r 36 (Or.inl rfl) d a.length hd (by omega)]
    simp only [if_true]
    rw [readBulk_exact _ _ _ ha]
    simp only
    have : ((a :: as).length : Int) - 1 = (as.length : Int) := by simp
    rw [this, ih f _ (by simp at hf; omega) (fun x hx => hlen x (by simp [hx]))]
    simp

theorem isBulks_length {b : Str} {args : List Str} (h : IsBulks b args) : args.length ≤ b.length := by
  induction h with
  | nil => simp
  | cons hd hs ih => simp; omega

/-- C02 core: a request is decoded to its arguments, consuming exactly its bytes. -/
theorem decode_request (s : Str) (args : List Str) (h : IsRequest s args) (rest : Str)
    (hn : args.length < 2 ^ 63) (hlen : ∀ a ∈ args, a.length + 2 ≤ 2 ^ 48) :
    decodeFromReader (s ++ rest) = .ok ⟨args, s⟩ rest := by
  obtain ⟨d, b, hd, hb, rfl⟩ := h
  unfold decodeFromReader
  have e : 42 :: d ++ [13, 10] ++ b ++ rest = 42 :: d ++ [13, 10] ++ (b ++ rest) := by simp
  rw [e, readLine_header 42 (by decide) d _ _ hd]
  simp only
  rw [dsl_header _ 42 (Or.inr rfl) d _ hd hn]
  simp only [if_neg (show ¬ ((42 : UInt8) = 36) by decide), if_true]
  rw [readArray_bulks b args hb _ _ _ _ hlen]
  · simp
  · have := isBulks_length hb
    simp; omega

/-! ## arbitrary input -/

/-- `e` is a piece of `buf`, possibly padded with zero bytes if nothing of the input is left. -/
def Piece (buf rest e : Bytes) : Prop :=
  ∃ w k, e = w ++ List.replicate k 0 ∧ w <:+: buf ∧ (rest ≠ [] → k = 0)

structure Good (r : Receive) (buf : Bytes) (r' : Receive) (rest : Bytes) : Prop where
  suffix : rest <:+ buf
  elems : ∃ new, r'.elements = r.elements ++ new ∧ ∀ e ∈ new, Piece buf rest e
  org : rest ≠ [] → 42 ∉ buf → ¬ (b! "PING\r\n") <:+: buf → r'.orgStr ++ rest = r.orgStr ++ buf

theorem Piece.mono {buf rest e buf' rest' : Bytes} (h : Piece buf rest e) (hb : buf <:+: buf')
    (hr : rest' ≠ [] → rest ≠ []) : Piece buf' rest' e := by
  obtain ⟨w, k, he, hw, hk⟩ := h
  exact ⟨w, k, he, hw.trans hb, fun h => hk (hr h)⟩

theorem suffix_ne_nil {a b : Bytes} (h : a <:+ b) (ha : a ≠ []) : b ≠ [] := by
  rintro rfl; exact ha (List.suffix_nil.mp h)

theorem not_mem_of_suffix {a b : Bytes} {c : UInt8} (h : a <:+ b) (hc : c ∉ b) : c ∉ a :=
  fun hh => hc (h.mem hh)

theorem BadHeader.mono {a b : Bytes} (h : BadHeader a) (hab : a <:+: b) : BadHeader b := by
  obtain ⟨l, hl, hi, hc⟩ := h
  exact ⟨l, hl, hi.trans hab, hc⟩

theorem Good.trans {r r1 r2 : Receive} {buf b1 b2 : Bytes} (h1 : Good r buf r1 b1) (h2 : Good r1 b1 r2 b2) :
    Good r buf r2 b2 := by
  obtain ⟨n1, e1, p1⟩ := h1.elems
  obtain ⟨n2, e2, p2⟩ := h2.elems
  refine ⟨h2.suffix.trans h1.suffix, ⟨n1 ++ n2, by simp [e2, e1], ?_⟩, ?_⟩
  · intro e he
    rcases List.mem_append.mp he with he | he
    · exact (p1 e he).mono (List.infix_refl _) (fun h => suffix_ne_nil h2.suffix h)
    · exact (p2 e he).mono h1.suffix.isInfix (fun h => h)
  · intro hr hs hp
    rw [h2.org hr (not_mem_of_suffix h1.suffix hs) (fun h => hp (h.trans h1.suffix.isInfix)),
      h1.org (suffix_ne_nil h2.suffix hr) hs hp]

theorem lengthLoop_error {cs : Bytes} {acc : Int} {p : Panic} (h : lengthLoop cs acc = .error p) :
    13 ∉ cs ∧ p = .indexOutOfRange := by
  induction cs generalizing acc with
  | nil => simp [lengthLoop] at h; simp [h]
  | cons c cs ih =>
    unfold lengthLoop at h
    split at h
    · simp at h
    · next hc =>
      obtain ⟨h1, h2⟩ := ih h
      refine ⟨?_, h2⟩
      simp only [List.mem_cons, not_or]
      exact ⟨fun hh => hc hh.symm, h1⟩

theorem lengthLoop_bound {cs : Bytes} {acc v : Int} (h : lengthLoop cs acc = .ok v) (h0 : 0 ≤ acc)
    (hb : (acc + 29) * 10 ^ cs.length < 2 ^ 63) : 0 ≤ v ∧ v + 29 ≤ (acc + 29) * 10 ^ (cs.length - 1) := by
  induction cs generalizing acc with
  | nil => simp [lengthLoop] at h
  | cons c cs ih =>
    unfold lengthLoop at h
    have hpos : (1 : Int) ≤ 10 ^ cs.length := Int.le_of_lt_add_one (by
      have : (0 : Int) < 10 ^ cs.length := Int.pow_pos (by decide)
      omega)
    split at h
    · simp only [Except.ok.injEq] at h; subst h
      refine ⟨h0, ?_⟩
      simp only [List.length_cons, Nat.add_sub_cancel]
      calc acc + 29 = (acc + 29) * 1 := by omega
        _ ≤ (acc + 29) * 10 ^ cs.length := Int.mul_le_mul_of_nonneg_left hpos (by omega)
    · next hc =>
      have hd : (c - 48).toNat ≤ 255 := by
        have := UInt8.toNat_lt (c - 48); omega
      have hstep : (acc * 10 + ((c - 48).toNat : Int)) + 29 ≤ (acc + 29) * 10 := by omega
      have e10 : (acc + 29) * 10 ^ (c :: cs).length = (acc + 29) * 10 * 10 ^ cs.length := by
        rw [List.length_cons, Int.pow_succ, Int.mul_comm (10 ^ cs.length) 10, Int.mul_assoc]
      have hmul : ((acc * 10 + ((c - 48).toNat : Int)) + 29) * 10 ^ cs.length ≤ (acc + 29) * 10 * 10 ^ cs.length :=
        Int.mul_le_mul_of_nonneg_right hstep (by omega)
      have hbig : (acc * 10 + ((c - 48).toNat : Int)) + 29 < 2 ^ 63 := by
        have : ((acc * 10 + ((c - 48).toNat : Int)) + 29) * 1 ≤
            ((acc * 10 + ((c - 48).toNat : Int)) + 29) * 10 ^ cs.length :=
          Int.mul_le_mul_of_nonneg_left hpos (by omega)
        omega
      rw [wrap64_of_range _ (by omega) (by omega)] at h
      obtain ⟨hv, hle⟩ := ih h (by omega) (by omega)
      refine ⟨hv, Int.le_trans hle ?_⟩
      cases cs with
      | nil => simp [lengthLoop] at h
      | cons c' cs' =>
        simp only [List.length_cons, Nat.add_sub_cancel]
        have hpos' : (0 : Int) ≤ 10 ^ cs'.length := Int.pow_nonneg (by decide)
        calc ((acc * 10 + ((c - 48).toNat : Int)) + 29) * 10 ^ cs'.length
            ≤ (acc + 29) * 10 * 10 ^ cs'.length := Int.mul_le_mul_of_nonneg_right hstep hpos'
          _ = (acc + 29) * 10 ^ (cs'.length + 1) := by
            rw [Int.pow_succ, Int.mul_comm (10 ^ cs'.length) 10, Int.mul_assoc]

theorem header_bound {line : Bytes} {n : Int} (h : readBulkOrArrayLength line = .ok n) (hl : line.length ≤ 14) :
    n < 2 ^ 48 - 2 := by
  unfold readBulkOrArrayLength at h
  split at h
  · simp at h
  · next c cs =>
    split at h
    · simp only [Except.ok.injEq] at h; omega
    · have h13 : cs.length ≤ 13 := by simp at hl; omega
      have hp1 : (10 : Int) ^ cs.length ≤ 10 ^ 13 := by
        exact_mod_cast Nat.pow_le_pow_right (by decide) h13
      have hp2 : (10 : Int) ^ (cs.length - 1) ≤ 10 ^ 12 := by
        exact_mod_cast Nat.pow_le_pow_right (n := 10) (by decide) (show cs.length - 1 ≤ 12 by omega)
      have hb := lengthLoop_bound h (by omega) (by omega)
      omega

theorem readBulk_good {r r' : Receive} {buf rest : Bytes} {ln : Int}
    (h : readBulkStrings r buf ln = .ok r' rest) : Good r buf r' rest := by
  unfold readBulkStrings at h
  split at h
  · simp at h
  · split at h
    · simp at h
    · split at h
      · simp at h
      · simp only [DRes.ok.injEq] at h
        obtain ⟨rfl, rfl⟩ := h
        generalize ln.toNat = n
        refine ⟨List.drop_suffix _ _, ⟨_, rfl, ?_⟩, ?_⟩
        · intro e he
          simp only [List.mem_singleton] at he
          subst he
          rw [List.take_append]
          simp only [List.take_take, List.length_take, List.take_replicate]
          refine ⟨_, _, rfl, (List.take_prefix _ _).isInfix, ?_⟩
          intro hne
          have : n + 2 < buf.length := by
            rcases Nat.lt_or_ge (n + 2) buf.length with h | h
            · exact h
            · exact absurd (List.drop_of_length_le h) hne
          omega
        · intro hne _ _
          have : n + 2 < buf.length := by
            rcases Nat.lt_or_ge (n + 2) buf.length with h | h
            · exact h
            · exact absurd (List.drop_of_length_le h) hne
          simp only [Receive.append, List.length_take]
          have : n + 2 - min (n + 2) buf.length = 0 := by omega
          rw [this]
          simp [List.take_append_drop]

theorem readBulk_panic {r : Receive} {buf : Bytes} {ln : Int} {p : Panic}
    (h : readBulkStrings r buf ln = .panic p) : 2 ^ 48 - 2 < ln ∧ p = .makeSlice := by
  unfold readBulkStrings at h
  split at h
  · simp at h
  · split at h
    · next h2 =>
      simp only [DRes.panic.injEq] at h
      refine ⟨?_, h.symm⟩
      unfold maxAlloc at h2
      by_cases hb : ln + 2 < 2 ^ 63
      · rw [wrap64_of_range _ (by omega) hb] at h2; omega
      · omega
    · split at h <;> simp at h

/-- what a successfully decoded line is -/
theorem dsl_ok {r r' : Receive} {line : Bytes} {len : Int} {desc : UInt8}
    (h : decodeSingleLine r line = .ok (.ok (r', len, desc))) :
    ((desc = 36 ∨ desc = 42) ∧ line.head? = some desc ∧ r' = r.addOrg line ∧
        readBulkOrArrayLength line = .ok len) ∨
    (desc ≠ 36 ∧ desc ≠ 42 ∧ ∃ e, r'.elements = r.elements ++ [e] ∧ e <:+: line ∧
        (line ≠ b! "PING\r\n" → r'.orgStr = r.orgStr ++ line)) := by
  unfold decodeSingleLine at h
  split at h
  · simp at h
  · next hlen =>
    have hh : line.head? = some (line.headD 0) := by
      cases line with
      | nil => simp at hlen
      | cons c cs => rfl
    simp only at h
    split at h
    · next hd =>
      cases hr : readBulkOrArrayLength line with
      | error p => rw [hr] at h; simp [bind, Except.bind] at h
      | ok n =>
        rw [hr] at h
        simp only [bind, Except.bind, Except.ok.injEq, Prod.mk.injEq] at h
        obtain ⟨rfl, rfl, rfl⟩ := h
        exact Or.inl ⟨hd, hh, rfl, rfl⟩
    · next hd =>
      split at h
      · next hd2 =>
        simp only [Except.ok.injEq, Prod.mk.injEq] at h
        obtain ⟨rfl, rfl, rfl⟩ := h
        refine Or.inr ⟨fun hh => hd (Or.inl hh), fun hh => hd (Or.inr hh), _, rfl, ?_, ?_⟩
        · exact (List.take_prefix _ _).isInfix.trans (List.drop_suffix _ _).isInfix
        · intro _; simp [Receive.append, Receive.addOrg]
      · split at h
        · next hp =>
          simp only [Except.ok.injEq, Prod.mk.injEq] at h
          obtain ⟨rfl, rfl, rfl⟩ := h
          refine Or.inr ⟨by decide, by decide, _, rfl, ?_, ?_⟩
          · rw [hp]; exact ⟨[], [13, 10], rfl⟩
          · intro hne; exact absurd hp hne
        · simp at h

theorem dsl_panic {r : Receive} {line : Bytes} {p : Panic} (h : decodeSingleLine r line = .error p) :
    (line.head? = some 36 ∨ line.head? = some 42) ∧ 13 ∉ line ∧ p = .indexOutOfRange := by
  unfold decodeSingleLine at h
  split at h
  · simp at h
  · next hlen =>
    simp only at h
    split at h
    · next hd =>
      cases line with
      | nil => simp at hlen
      | cons c cs =>
        simp only [List.headD_cons] at hd
        refine ⟨by simpa using hd, ?_⟩
        have h45 : c ≠ 45 := by rcases hd with rfl | rfl <;> decide
        have h13 : c ≠ 13 := by rcases hd with rfl | rfl <;> decide
        simp only [readBulkOrArrayLength, if_neg h45] at h
        cases hl : lengthLoop cs 0 with
        | ok v => rw [hl] at h; simp [bind, Except.bind] at h
        | error q =>
          rw [hl] at h
          simp only [bind, Except.bind, Except.error.injEq] at h
          subst h
          obtain ⟨h1, h2⟩ := lengthLoop_error hl
          refine ⟨?_, h2⟩
          simp only [List.mem_cons, not_or]
          exact ⟨fun hh => h13 hh.symm, h1⟩
    · split at h
      · simp at h
      · split at h <;> simp at h

/-- a line of the input, followed by a step on the rest -/
theorem good_line {r r' : Receive} {line rest : Bytes} {len : Int} {desc : UInt8}
    (hd : decodeSingleLine r line = .ok (.ok (r', len, desc))) : Good r (line ++ rest) r' rest := by
  refine ⟨⟨line, rfl⟩, ?_, ?_⟩
  · rcases dsl_ok hd with ⟨_, _, rfl, _⟩ | ⟨_, _, e, he, hi, _⟩
    · exact ⟨[], by simp [Receive.addOrg], by simp⟩
    · refine ⟨[e], he, ?_⟩
      intro x hx
      simp only [List.mem_singleton] at hx; subst hx
      exact ⟨x, 0, by simp, hi.trans ⟨[], rest, by simp⟩, fun _ => rfl⟩
  · intro _ _ hp
    have hne : line ≠ b! "PING\r\n" := by
      rintro rfl; exact hp ⟨[], rest, by simp⟩
    rcases dsl_ok hd with ⟨_, _, rfl, _⟩ | ⟨_, _, e, _, _, ho⟩
    · simp [Receive.addOrg]
    · rw [ho hne]; simp

/-- the outcome of `readArray` on arbitrary input -/
theorem readArray_spec (fuel : Nat) : ∀ (r : Receive) (buf : Bytes) (todo : Int), buf.length < fuel →
    (∀ r' rest, readArray fuel r buf todo = .ok r' rest → Good r buf r' rest) ∧
    (∀ p, readArray fuel r buf todo = .panic p → BadHeader buf ∧ (p = .indexOutOfRange ∨ p = .makeSlice)) := by
  induction fuel with
  | zero => intro r buf todo h; omega
  | succ f ih =>
    intro r buf todo hf
    unfold readArray
    by_cases ht : todo ≤ 0
    · simp only [if_pos ht]
      refine ⟨?_, by simp⟩
      intro r' rest h
      simp only [DRes.ok.injEq] at h
      obtain ⟨rfl, rfl⟩ := h
      exact ⟨List.suffix_refl _, ⟨[], by simp, by simp⟩, fun _ _ _ => rfl⟩
    · simp only [if_neg ht]
      cases hl : readLine buf with
      | err e rest => simp
      | panic p => exact absurd hl readLine_not_panic
      | ok line buf1 =>
        obtain ⟨hbuf, hline⟩ := readLine_ok hl
        have hlpos : 0 < line.length := by
          obtain ⟨b, rfl, _⟩ := hline; simp
        have hlen1 : buf1.length < f := by
          have : buf.length = line.length + buf1.length := by rw [hbuf, List.length_append]
          omega
        have hinf : line <:+: buf := ⟨[], buf1, by simp [hbuf]⟩
        have hsuf1 : buf1 <:+ buf := ⟨line, hbuf.symm⟩
        simp only
        -- the tail of the iteration, for any state reached after the nested array
        have tail : ∀ (r1 : Receive) (buf2 : Bytes), buf2 <:+ buf1 →
            (line.head? ≠ some 42 → r1 = r ∧ buf2 = buf1) →
            (∃ new, r1.elements = r.elements ++ new ∧ ∀ e ∈ new, Piece buf1 buf2 e) →
            let res : DRes Receive := match decodeSingleLine r1 line with
              | .error p => .panic p
              | .ok (.error e) => .err e buf2
              | .ok (.ok (r, length, desc)) =>
                if desc = 36 then
                  match readBulkStrings r buf2 length with
                  | .err e rest => .err e rest
                  | .panic p => .panic p
                  | .ok r buf => readArray f r buf (todo - 1)
                else readArray f r buf2 (todo - 1)
            (∀ r' rest, res = .ok r' rest → Good r buf r' rest) ∧
            (∀ p, res = .panic p → BadHeader buf ∧ (p = .indexOutOfRange ∨ p = .makeSlice)) := by
          intro r1 buf2 hs2 hnest hnew
          have hs2' : buf2 <:+ buf := hs2.trans hsuf1
          have hlen2 : buf2.length < f := Nat.lt_of_le_of_lt hs2.length_le hlen1
          -- glue: a good continuation after the line
          have glue : ∀ (r2 r' : Receive) (rest : Bytes) len desc,
              decodeSingleLine r1 line = .ok (.ok (r2, len, desc)) → Good r2 buf2 r' rest →
              Good r buf r' rest := by
            intro r2 r' rest len desc hd hg
            have h1 := (good_line (rest := buf2) hd).trans hg
            by_cases h42 : line.head? = some 42
            · -- nested array: only suffix and elements
              obtain ⟨new, en, pn⟩ := hnew
              obtain ⟨n1, e1, p1⟩ := h1.elems
              refine ⟨hg.suffix.trans hs2', ⟨new ++ n1, by simp [e1, en], ?_⟩, ?_⟩
              · intro e he
                rcases List.mem_append.mp he with he | he
                · exact (pn e he).mono hsuf1.isInfix (fun h => suffix_ne_nil hg.suffix h)
                · -- pieces of line ++ buf2: recover from the two parts
                  obtain ⟨n2, e2, p2⟩ := hg.elems
                  rcases dsl_ok hd with ⟨_, _, rfl, _⟩ | ⟨_, _, e', he', hi', _⟩
                  · have hn12 : n1 = n2 := by
                      have := e1.symm.trans e2
                      simp only [Receive.addOrg] at this
                      exact List.append_cancel_left this
                    exact (p2 e (hn12 ▸ he)).mono hs2'.isInfix (fun h => h)
                  · have hn12 : n1 = e' :: n2 := by
                      have := e1.symm.trans e2
                      rw [he', List.append_assoc] at this
                      exact List.append_cancel_left this
                    rw [hn12] at he
                    rcases List.mem_cons.mp he with rfl | he
                    · exact ⟨e, 0, by simp, hi'.trans hinf, fun _ => rfl⟩
                    · exact (p2 e he).mono hs2'.isInfix (fun h => h)
              · intro _ hs _
                have : (42 : UInt8) ∈ buf := by
                  cases line with
                  | nil => simp at h42
                  | cons c cs => simp at h42; subst h42; rw [hbuf]; simp
                exact absurd this hs
            · obtain ⟨rfl, rfl⟩ := hnest h42
              rw [hbuf]; exact h1
          intro res
          refine ⟨?_, ?_⟩
          · intro r' rest hres
            simp only [res] at hres
            cases hd : decodeSingleLine r1 line with
            | error p => rw [hd] at hres; simp at hres
            | ok x =>
              rw [hd] at hres
              cases x with
              | error e => simp at hres
              | ok y =>
                obtain ⟨r2, len, desc⟩ := y
                simp only at hres
                split at hres
                · cases hb : readBulkStrings r2 buf2 len with
                  | err e rest => rw [hb] at hres; simp at hres
                  | panic p => rw [hb] at hres; simp at hres
                  | ok r3 buf3 =>
                    rw [hb] at hres
                    simp only at hres
                    have hg := readBulk_good hb
                    have := (ih r3 buf3 (todo - 1) (Nat.lt_of_le_of_lt hg.suffix.length_le hlen2)).1 _ _ hres
                    exact glue _ _ _ _ _ hd (hg.trans this)
                · exact glue _ _ _ _ _ hd ((ih r2 buf2 (todo - 1) hlen2).1 _ _ hres)
          · intro p hres
            simp only [res] at hres
            cases hd : decodeSingleLine r1 line with
            | error q =>
              rw [hd] at hres
              simp only [DRes.panic.injEq] at hres; subst hres
              obtain ⟨h1, h2, h3⟩ := dsl_panic hd
              exact ⟨⟨line, hline, hinf, Or.inl ⟨h1, h2⟩⟩, Or.inl h3⟩
            | ok x =>
              rw [hd] at hres
              cases x with
              | error e => simp at hres
              | ok y =>
                obtain ⟨r2, len, desc⟩ := y
                simp only at hres
                split at hres
                · next h36 =>
                  cases hb : readBulkStrings r2 buf2 len with
                  | err e rest => rw [hb] at hres; simp at hres
                  | panic q =>
                    rw [hb] at hres
                    simp only [DRes.panic.injEq] at hres; subst hres
                    obtain ⟨h1, h2⟩ := readBulk_panic hb
                    refine ⟨⟨line, hline, hinf, Or.inr ?_⟩, Or.inr h2⟩
                    rcases dsl_ok hd with ⟨_, hh, _, hlen⟩ | ⟨hne, _⟩
                    · refine ⟨by rw [hh, h36], ?_⟩
                      rcases Nat.lt_or_ge 14 line.length with h | h
                      · exact h
                      · have := header_bound hlen h; omega
                    · exact absurd h36 hne
                  | ok r3 buf3 =>
                    rw [hb] at hres
                    simp only at hres
                    have hg := readBulk_good hb
                    have := (ih r3 buf3 (todo - 1) (Nat.lt_of_le_of_lt hg.suffix.length_le hlen2)).2 _ hres
                    exact ⟨this.1.mono (hg.suffix.trans hs2').isInfix, this.2⟩
                · have := (ih r2 buf2 (todo - 1) hlen2).2 _ hres
                  exact ⟨this.1.mono hs2'.isInfix, this.2⟩
        by_cases h42 : line.headD 0 = 42
        · rw [if_pos h42]
          have hh : line.head? = some 42 := by
            cases line with
            | nil => simp at hlpos
            | cons c cs => simpa using h42
          cases hn : readBulkOrArrayLength line with
          | error p =>
            simp only
            refine ⟨by simp, ?_⟩
            intro q hq
            simp only [DRes.panic.injEq] at hq; subst hq
            cases line with
            | nil => simp at hlpos
            | cons c cs =>
              simp only [List.headD_cons] at h42
              subst h42
              simp only [readBulkOrArrayLength, if_neg (show ¬ ((42 : UInt8) = 45) by decide)] at hn
              obtain ⟨h1, h2⟩ := lengthLoop_error hn
              refine ⟨⟨_, hline, hinf, Or.inl ⟨Or.inr rfl, ?_⟩⟩, Or.inl h2⟩
              simp only [List.mem_cons, not_or]
              exact ⟨by decide, h1⟩
          | ok n =>
            simp only
            have hsub := ih r buf1 n hlen1
            cases hs : readArray f r buf1 n with
            | err e rest => simp
            | panic p =>
              simp only
              refine ⟨by simp, ?_⟩
              intro q hq
              simp only [DRes.panic.injEq] at hq; subst hq
              obtain ⟨h1, h2⟩ := hsub.2 _ hs
              exact ⟨h1.mono hsuf1.isInfix, h2⟩
            | ok r1 buf2 =>
              have hg := hsub.1 _ _ hs
              exact tail r1 buf2 hg.suffix (fun h => absurd hh h) hg.elems
        · rw [if_neg h42]
          exact tail r buf1 (List.suffix_refl _) (fun _ => ⟨rfl, rfl⟩) ⟨[], by simp, by simp⟩

/-- the outcome of the decoder on arbitrary input -/
theorem decode_spec (buf : Bytes) :
    (∀ r rest, decodeFromReader buf = .ok r rest →
      rest <:+ buf ∧ (∀ e ∈ r.elements, Piece buf rest e) ∧
      (rest ≠ [] → 42 ∉ buf.tail → ¬ (b! "PING\r\n") <:+: buf → r.orgStr ++ rest = buf)) ∧
    (∀ p, decodeFromReader buf = .panic p → BadHeader buf ∧ (p = .indexOutOfRange ∨ p = .makeSlice)) := by
  unfold decodeFromReader
  cases hl : readLine buf with
  | err e rest => simp
  | panic p => exact absurd hl readLine_not_panic
  | ok line buf1 =>
    obtain ⟨hbuf, hline⟩ := readLine_ok hl
    have hlpos : line ≠ [] := by obtain ⟨b, rfl, _⟩ := hline; simp
    have hinf : line <:+: buf := ⟨[], buf1, by simp [hbuf]⟩
    have hsuf : buf1 <:+ buf := ⟨line, hbuf.symm⟩
    have hstar : 42 ∉ buf.tail → 42 ∉ buf1 := by
      intro h hh
      apply h
      rw [hbuf]
      cases line with
      | nil => exact absurd rfl hlpos
      | cons c cs => simp [hh]
    simp only
    cases hd : decodeSingleLine ⟨[], []⟩ line with
    | error p =>
      refine ⟨by simp, ?_⟩
      intro q hq
      simp only [DRes.panic.injEq] at hq; subst hq
      obtain ⟨h1, h2, h3⟩ := dsl_panic hd
      exact ⟨⟨line, hline, hinf, Or.inl ⟨h1, h2⟩⟩, Or.inl h3⟩
    | ok x =>
      cases x with
      | error e => simp
      | ok y =>
        obtain ⟨r, len, desc⟩ := y
        simp only
        have key : ∀ r' rest, Good r buf1 r' rest →
            rest <:+ buf ∧ (∀ e ∈ r'.elements, Piece buf rest e) ∧
            (rest ≠ [] → 42 ∉ buf.tail → ¬ (b! "PING\r\n") <:+: buf → r'.orgStr ++ rest = buf) := by
          intro r' rest hg
          obtain ⟨new, he, hp⟩ := ((good_line (rest := buf1) hd).trans hg).elems
          refine ⟨hg.suffix.trans hsuf, ?_, ?_⟩
          · intro e hm
            rw [he] at hm
            rw [hbuf]
            exact hp e (by simpa using hm)
          · intro hr hs hping
            have h1 := hg.org hr (hstar hs) (fun h => hping (h.trans hsuf.isInfix))
            rw [h1]
            have hne : line ≠ b! "PING\r\n" := by
              rintro rfl; exact hping hinf
            rcases dsl_ok hd with ⟨_, _, rfl, _⟩ | ⟨_, _, e, _, _, ho⟩
            · simp [Receive.addOrg, hbuf]
            · rw [ho hne]; simp [hbuf]
        split
        · next h36 =>
          refine ⟨fun r' rest h => key _ _ (readBulk_good h), ?_⟩
          intro p h
          obtain ⟨h1, h2⟩ := readBulk_panic h
          refine ⟨⟨line, hline, hinf, Or.inr ?_⟩, Or.inr h2⟩
          rcases dsl_ok hd with ⟨_, hh, _, hlen⟩ | ⟨hne, _⟩
          · refine ⟨by rw [hh, h36], ?_⟩
            rcases Nat.lt_or_ge 14 line.length with h | h
            · exact h
            · have := header_bound hlen h; omega
          · exact absurd h36 hne
        · split
          · have hs := readArray_spec (buf1.length + 1) r buf1 len (by omega)
            refine ⟨fun r' rest h => key _ _ (hs.1 _ _ h), fun p h => ?_⟩
            obtain ⟨h1, h2⟩ := hs.2 _ h
            exact ⟨h1.mono hsuf.isInfix, h2⟩
          · refine ⟨fun r' rest h => ?_, by simp⟩
            simp only [DRes.ok.injEq] at h
            obtain ⟨rfl, rfl⟩ := h
            exact key _ _ ⟨List.suffix_refl _, ⟨[], by simp, by simp⟩, fun _ _ _ => rfl⟩

end Godis
