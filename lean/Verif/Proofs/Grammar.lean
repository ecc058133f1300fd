import Verif.Proofs.Decode
import Verif.Spec.Grammar
import Mathlib.Tactic.NormNum
/-! The request decoder reads exactly the grammar of `Spec/Grammar.lean`. -/
namespace Godis
open Resp Grammar

/-! ## lines and headers -/

theorem readLine_line {l : Bytes} (h : Line l) (s : Bytes) : readLine (l ++ s) = .ok l s := by
  obtain ⟨b, rfl, hb⟩ := h
  rw [show b ++ [10] ++ s = b ++ 10 :: s by simp, readLine_append b s hb]

theorem readLine_noLF {s : Bytes} (h : 10 ∉ s) : readLine s = .err .eof [] := by
  induction s with
  | nil => rfl
  | cons c cs ih =>
    simp only [List.mem_cons, not_or] at h
    unfold readLine
    rw [if_neg (fun e => h.1 e.symm), ih h.2]

theorem readLine_err {s rest : Bytes} {e : DecErr} (h : readLine s = .err e rest) :
    10 ∉ s ∧ e = .eof ∧ rest = [] := by
  by_cases h10 : 10 ∈ s
  · obtain ⟨a, b, rfl, ha⟩ := List.eq_append_cons_of_mem h10
    rw [readLine_append a b ha] at h
    cases h
  · rw [readLine_noLF h10] at h
    simp only [DRes.err.injEq] at h
    exact ⟨h10, h.1.symm, h.2.symm⟩

theorem wrap64_bmod (i : Int) : wrap64 i = Int.bmod i (2 ^ 64) := by
  unfold wrap64
  rw [Int.bmod_def]
  norm_num
  split <;> omega

theorem weight_eq (c : UInt8) : (c - 48).toNat = weight c := by
  unfold weight
  rw [UInt8.toNat_sub]
  have := UInt8.toNat_lt c
  simp; omega

theorem wrap64_step (a : Nat) (w : Nat) : wrap64 (wrap64 (a : Int) * 10 + w) = wrap64 ((10 * a + w : Nat) : Int) := by
  unfold wrap64
  push_cast
  omega

theorem lengthLoop_number (d j : Bytes) (h : 13 ∉ d) (a : Nat) :
    lengthLoop (d ++ 13 :: j) (wrap64 (a : Int))
      = .ok (wrap64 ((d.foldl (fun n c => 10 * n + weight c) a : Nat) : Int)) := by
  induction d generalizing a with
  | nil => simp [lengthLoop]
  | cons c cs ih =>
    simp only [List.mem_cons, not_or] at h
    simp only [List.cons_append, lengthLoop, if_neg (fun e : c = 13 => h.1 e.symm), weight_eq, wrap64_step]
    rw [ih h.2]
    rfl

theorem number_eq (d : Bytes) :
    number d = wrap64 ((d.foldl (fun n c => 10 * n + weight c) 0 : Nat) : Int) := by
  rw [wrap64_bmod]
  unfold number
  exact Eq.refl _

theorem header_number {t : UInt8} {n : Int} {l : Bytes} (h : Header t n l) (ht : t ≠ 45) :
    readBulkOrArrayLength l = .ok n := by
  obtain ⟨d, j, hl, h13, h10, hj, hn⟩ := h
  have := lengthLoop_number d (j ++ [10]) h13 0
  rw [hn, hl, number_eq]
  simp only [readBulkOrArrayLength, List.cons_append, if_neg ht, List.append_assoc]
  rw [show wrap64 ((0 : Nat) : Int) = 0 by decide] at this
  exact this

theorem header_line {t : UInt8} {n : Int} {l : Bytes} (h : Header t n l) (ht : t ≠ 10) :
    Line l ∧ 3 ≤ l.length ∧ ∃ b, l = t :: b := by
  obtain ⟨d, j, rfl, h13, h10, hj, _⟩ := h
  refine ⟨⟨t :: d ++ 13 :: j, by simp, ?_⟩, by simp; omega, d ++ 13 :: j ++ [10], by simp⟩
  simp only [List.cons_append, List.mem_cons, List.mem_append, not_or]
  exact ⟨fun e => ht e.symm, h10, by decide, hj⟩

/-- a line with a carriage return after its type byte is a header line -/
theorem header_of {t : UInt8} {b : Bytes} (h : Line (t :: b)) (h13 : 13 ∈ b) :
    ∃ n, Header t n (t :: b) := by
  obtain ⟨c, e, hc⟩ := h
  obtain ⟨d, j, rfl, hd⟩ := List.eq_append_cons_of_mem h13
  rcases List.eq_nil_or_concat j with rfl | ⟨j', x, rfl⟩
  · have : (t :: (d ++ [13])).getLast? = (c ++ [10]).getLast? := by rw [← e]
    rw [List.getLast?_append, show t :: (d ++ [13]) = (t :: d) ++ [13] by simp, List.getLast?_append] at this
    simp at this
  · have e' : (t :: d ++ 13 :: j') ++ [x] = c ++ [10] := by rw [← e]; simp
    obtain ⟨rfl, hx⟩ := List.append_inj' e' rfl
    simp only [List.cons.injEq, and_true] at hx
    subst hx
    simp only [List.cons_append, List.mem_cons, List.mem_append, not_or] at hc
    exact ⟨_, d, j', by simp, hd, hc.2.1, hc.2.2.2, rfl⟩

theorem lengthLoop_noCR {b : Bytes} (h : 13 ∉ b) (a : Int) : lengthLoop b a = .error .indexOutOfRange := by
  induction b generalizing a with
  | nil => rfl
  | cons c cs ih =>
    simp only [List.mem_cons, not_or] at h
    unfold lengthLoop
    rw [if_neg (fun e => h.1 e.symm), ih h.2]

theorem length_noCR {t : UInt8} {b : Bytes} (ht : t ≠ 45) (h : 13 ∉ b) :
    readBulkOrArrayLength (t :: b) = .error .indexOutOfRange := by
  simp only [readBulkOrArrayLength, if_neg ht, lengthLoop_noCR h]

/-! ## one line -/

theorem dsl_head {t : UInt8} {n : Int} {l : Bytes} (h : Header t n l) (ht : t = 36 ∨ t = 42) (r : Receive) :
    decodeSingleLine r l = .ok (.ok (⟨r.elements, r.orgStr ++ l⟩, n, t)) := by
  have t45 : t ≠ 45 := by rcases ht with rfl | rfl <;> decide
  have t10 : t ≠ 10 := by rcases ht with rfl | rfl <;> decide
  obtain ⟨_, h3, b, e⟩ := header_line h t10
  have hn := header_number h t45
  unfold decodeSingleLine
  have hd : l.headD 0 = t := by rw [e]; rfl
  rw [if_neg (by omega)]
  simp only [hd, if_pos ht, hn]
  rfl

theorem dsl_noCR {t : UInt8} {b : Bytes} (ht : t = 36 ∨ t = 42) (hl : 2 ≤ b.length) (h : 13 ∉ b) (r : Receive) :
    decodeSingleLine r (t :: b) = .error .indexOutOfRange := by
  have t45 : t ≠ 45 := by rcases ht with rfl | rfl <;> decide
  unfold decodeSingleLine
  rw [if_neg (by simp; omega)]
  simp only [List.headD_cons, if_pos ht, length_noCR t45 h]
  rfl

theorem dsl_tiny {l : Bytes} (h : l.length < 3) (r : Receive) : decodeSingleLine r l = .ok (.error .unsupported) := by
  unfold decodeSingleLine
  rw [if_pos h]

theorem dsl_word {c x : UInt8} {b : Bytes} (hc : c ∈ [43, 45, 58]) (r : Receive) :
    decodeSingleLine r (c :: b ++ [x, 10])
      = .ok (.ok (⟨r.elements ++ [b], r.orgStr ++ (c :: b ++ [x, 10])⟩, 0, c)) := by
  have h1 : ¬ (c = 36 ∨ c = 42) := by
    simp only [List.mem_cons, List.not_mem_nil, or_false] at hc
    rcases hc with rfl | rfl | rfl <;> decide
  have h2 : c = 43 ∨ c = 45 ∨ c = 58 := by simpa using hc
  unfold decodeSingleLine
  rw [if_neg (by simp)]
  simp only [List.cons_append, List.headD_cons, if_neg h1, if_pos h2]
  simp [Receive.append, Receive.addOrg, lineBody]

theorem dsl_ping (r : Receive) : decodeSingleLine r pingLine
    = .ok (.ok (⟨r.elements ++ [[80, 73, 78, 71]], r.orgStr ++ pingLine ++ pingLine⟩, 0, 43)) := by
  unfold decodeSingleLine
  rw [if_neg (by decide)]
  have e : (pingLine = b! "PING\r\n") := rfl
  have e1 : pingLine.headD 0 = 80 := rfl
  simp only [e1, if_neg (show ¬ ((80 : UInt8) = 36 ∨ (80 : UInt8) = 42) by decide),
    if_neg (show ¬ ((80 : UInt8) = 43 ∨ (80 : UInt8) = 45 ∨ (80 : UInt8) = 58) by decide), if_pos e]
  rfl

theorem dsl_unknown {c : UInt8} {b : Bytes} (hc : c ∉ [36, 42, 43, 45, 58]) (hp : c :: b ≠ pingLine)
    (r : Receive) : decodeSingleLine r (c :: b) = .ok (.error .unsupported) := by
  simp only [List.mem_cons, List.not_mem_nil, or_false, not_or] at hc
  unfold decodeSingleLine
  split
  · rfl
  · have h1 : ¬ ((c :: b).headD 0 = 36 ∨ (c :: b).headD 0 = 42) := by simp; tauto
    have h2 : ¬ ((c :: b).headD 0 = 43 ∨ (c :: b).headD 0 = 45 ∨ (c :: b).headD 0 = 58) := by simp; tauto
    have h3 : ¬ (c :: b = b! "PING\r\n") := hp
    simp only [if_neg h1, if_neg h2, if_neg h3]

/-! ## bulk data -/

theorem bulk_sound {n : Int} {w s a z : Bytes} (h : Data n w s a z) (r : Receive) :
    readBulkStrings r (w ++ s) n = .ok ⟨r.elements ++ [a], r.orgStr ++ a ++ z⟩ s := by
  obtain ⟨hw, hs, hz, ⟨k, hk, hks⟩, hf⟩ := h
  unfold readBulkStrings
  have hwr : wrap64 (n + 2) = n + 2 := wrap64_of_range _ (by omega) (by omega)
  rw [if_neg (by omega), hwr, if_neg (by unfold maxAlloc; omega), if_neg (by simp [hw])]
  have hn : n.toNat = a.length := by omega
  have hlen : a.length + 2 = w.length + k := by
    have := congrArg List.length hk
    simp [hz] at this; omega
  have hfill : (w ++ s).take (a.length + 2) ++ List.replicate (a.length + 2 - ((w ++ s).take (a.length + 2)).length) 0
      = a ++ z := by
    rw [hk]
    rcases hks with rfl | rfl
    · have : (w ++ s).take (a.length + 2) = w := by rw [hlen]; simp
      rw [this, hlen]; simp
    · have : (w ++ []).take (a.length + 2) = w := by
        rw [List.append_nil]; exact List.take_of_length_le (by omega)
      rw [this, hlen]; simp
  have hdrop : (w ++ s).drop (a.length + 2) = s := by
    rcases hks with rfl | rfl
    · rw [hlen]; simp
    · rw [List.append_nil]; exact List.drop_of_length_le (by omega)
  simp only [hn, hfill, hdrop]
  simp [Receive.append]

theorem bulk_complete {r r' : Receive} {buf rest : Bytes} {n : Int} (hn : n < 2 ^ 63)
    (h : readBulkStrings r buf n = .ok r' rest) :
    ∃ w a z, buf = w ++ rest ∧ Data n w rest a z ∧ r' = ⟨r.elements ++ [a], r.orgStr ++ a ++ z⟩ := by
  unfold readBulkStrings at h
  split at h
  · cases h
  · next h0 =>
    split at h
    · cases h
    · next hm =>
      split at h
      · cases h
      · next hb =>
        have hfit : n + 2 ≤ 2 ^ 48 := by
          unfold maxAlloc wrap64 at hm
          omega
        simp only [DRes.ok.injEq] at h
        obtain ⟨rfl, rfl⟩ := h
        obtain ⟨m, rfl⟩ : ∃ m : Nat, n = m := ⟨n.toNat, by omega⟩
        simp only [Int.toNat_natCast]
        generalize hv : buf.take (m + 2) ++ List.replicate (m + 2 - (buf.take (m + 2)).length) 0 = val
        have hvl : val.length = m + 2 := by
          rw [← hv]; simp only [List.length_append, List.length_take, List.length_replicate]; omega
        refine ⟨buf.take (m + 2), val.take m, val.drop m, by simp, ⟨?_, ?_, ?_, ?_, hfit⟩, ?_⟩
        · cases buf with
          | nil => exact absurd rfl hb
          | cons c cs => simp
        · simp [hvl]
        · simp [hvl]
        · refine ⟨m + 2 - (buf.take (m + 2)).length, by rw [List.take_append_drop]; exact hv.symm, ?_⟩
          by_cases hc : m + 2 ≤ buf.length
          · left; simp; omega
          · right; exact List.drop_of_length_le (by omega)
        · simp [Receive.append]

theorem bulk_negative {r : Receive} {buf : Bytes} {n : Int} (h : n < 0) :
    readBulkStrings r buf n = .err .invalidLength buf := by
  unfold readBulkStrings; rw [if_pos h]

theorem bulk_huge {r : Receive} {buf : Bytes} {n : Int} (h : 2 ^ 48 < n + 2) (hn : n < 2 ^ 63) :
    readBulkStrings r buf n = .panic .makeSlice := by
  unfold readBulkStrings
  rw [if_neg (by omega), if_pos (by unfold maxAlloc wrap64; omega)]

theorem bulk_nothing {r : Receive} {n : Int} (h0 : 0 ≤ n) (h : n + 2 ≤ 2 ^ 48) :
    readBulkStrings r [] n = .err .eof [] := by
  unfold readBulkStrings
  rw [if_neg (by omega), if_neg (by unfold maxAlloc wrap64; omega), if_pos rfl]

theorem number_lt (d : Bytes) : number d < 2 ^ 63 := by
  unfold number
  rw [← wrap64_bmod]
  exact (wrap64_range _).2

theorem header_lt {t : UInt8} {n : Int} {l : Bytes} (h : Header t n l) : n < 2 ^ 63 := by
  obtain ⟨d, j, rfl, _, _, _, hn⟩ := h
  rw [hn]
  exact number_lt d

/-! ## one element -/

/-- one turn of the loop of `readArray` -/
def readElem (fuel : Nat) (r : Receive) (buf : Bytes) : DRes Receive :=
  match readLine buf with
  | .err e rest => .err e rest
  | .panic p => .panic p
  | .ok line buf =>
    let sub : DRes Receive :=
      if line.headD 0 = 42 then
        match readBulkOrArrayLength line with
        | .error p => .panic p
        | .ok n => readArray fuel r buf n
      else .ok r buf
    match sub with
    | .err e rest => .err e rest
    | .panic p => .panic p
    | .ok r buf =>
      match decodeSingleLine r line with
      | .error p => .panic p
      | .ok (.error e) => .err e buf
      | .ok (.ok (r, length, desc)) =>
        if desc = 36 then readBulkStrings r buf length else .ok r buf

theorem readArray_succ (fuel : Nat) (r : Receive) (buf : Bytes) (n : Int) :
    readArray (fuel + 1) r buf n =
      if n ≤ 0 then .ok r buf
      else match readElem fuel r buf with
        | .ok r buf => readArray fuel r buf (n - 1)
        | .err e rest => .err e rest
        | .panic p => .panic p := by
  rw [readArray]
  unfold readElem
  by_cases h0 : n ≤ 0
  · rw [if_pos h0, if_pos h0]
  · rw [if_neg h0, if_neg h0]
    cases readLine buf with
    | err e rest => rfl
    | panic p => rfl
    | ok line buf =>
      simp only
      generalize (if line.headD 0 = 42 then
        match readBulkOrArrayLength line with
        | .error p => DRes.panic p
        | .ok n => readArray fuel r buf n
      else DRes.ok r buf) = sub
      cases sub with
      | err e rest => rfl
      | panic p => rfl
      | ok r buf =>
        simp only
        rcases decodeSingleLine r line with p | (e | ⟨r, len, desc⟩)
        · rfl
        · rfl
        · simp only
          by_cases hd : desc = 36
          · simp only [if_pos hd]
            cases readBulkStrings r buf len <;> rfl
          · simp only [if_neg hd]

theorem elem_word {c x : UInt8} {b s : Bytes} (hc : c ∈ [43, 45, 58]) (hb : 10 ∉ b) (hx : x ≠ 10) (fuel : Nat)
    (r : Receive) : readElem fuel r (c :: b ++ [x, 10] ++ s)
      = .ok ⟨r.elements ++ [b], r.orgStr ++ (c :: b ++ [x, 10])⟩ s := by
  have hl : Line (c :: b ++ [x, 10]) := by
    refine ⟨c :: b ++ [x], by simp, ?_⟩
    simp only [List.mem_cons, List.not_mem_nil, or_false] at hc
    simp only [List.cons_append, List.mem_cons, List.mem_append, List.not_mem_nil, or_false, not_or]
    refine ⟨?_, hb, fun e => hx e.symm⟩
    rcases hc with rfl | rfl | rfl <;> decide
  have h42 : ¬ ((c :: b ++ [x, 10]).headD 0 = 42) := by
    simp only [List.mem_cons, List.not_mem_nil, or_false] at hc
    rcases hc with rfl | rfl | rfl <;> simp
  have h36 : ¬ (c = 36) := by
    simp only [List.mem_cons, List.not_mem_nil, or_false] at hc
    rcases hc with rfl | rfl | rfl <;> decide
  unfold readElem
  rw [readLine_line hl]
  simp only [if_neg h42, dsl_word hc, if_neg h36]

theorem elem_ping (s : Bytes) (fuel : Nat) (r : Receive) : readElem fuel r (pingLine ++ s)
      = .ok ⟨r.elements ++ [[80, 73, 78, 71]], r.orgStr ++ pingLine ++ pingLine⟩ s := by
  have hl : Line pingLine := ⟨[80, 73, 78, 71, 13], rfl, by decide⟩
  unfold readElem
  rw [readLine_line hl]
  simp only [if_neg (show ¬ (pingLine.headD 0 = 42) by decide), dsl_ping, if_neg (show ¬ ((43 : UInt8) = 36) by decide)]

theorem elem_bulk {m : Int} {l s : Bytes} (h : Header 36 m l) (fuel : Nat) (r : Receive) :
    readElem fuel r (l ++ s) = readBulkStrings ⟨r.elements, r.orgStr ++ l⟩ s m := by
  obtain ⟨hl, _, b, e⟩ := header_line h (by decide)
  have h42 : ¬ (l.headD 0 = 42) := by rw [e]; simp
  unfold readElem
  rw [readLine_line hl]
  simp only [if_neg h42, dsl_head h (Or.inl rfl), if_true]

theorem elem_nested {m : Int} {l s : Bytes} (h : Header 42 m l) (fuel : Nat) (r : Receive) :
    readElem fuel r (l ++ s) = match readArray fuel r s m with
      | .ok r s => .ok ⟨r.elements, r.orgStr ++ l⟩ s
      | .err e rest => .err e rest
      | .panic p => .panic p := by
  obtain ⟨hl, _, b, e⟩ := header_line h (by decide)
  have h42 : l.headD 0 = 42 := by rw [e]; rfl
  unfold readElem
  rw [readLine_line hl]
  simp only [if_pos h42, header_number h (by decide)]
  cases readArray fuel r s m with
  | err e rest => rfl
  | panic p => rfl
  | ok r s =>
    simp only [dsl_head h (Or.inr rfl), if_neg (show ¬ ((42 : UInt8) = 36) by decide)]

/-- how the decoder reports a fault -/
def Reports (f : Fault) (d : DRes Receive) : Prop :=
  match f with
  | .short => ∃ rest, d = .err .eof rest
  | .unknown => ∃ rest, d = .err .unsupported rest
  | .negative => ∃ rest, d = .err .invalidLength rest
  | .index => d = .panic .indexOutOfRange
  | .alloc => d = .panic .makeSlice

theorem Reports.pass {f : Fault} {d : DRes Receive} (k : Receive → Bytes → DRes Receive) :
    Reports f d → Reports f (match d with
      | .ok r s => k r s
      | .err e rest => .err e rest
      | .panic p => .panic p) := by
  intro h
  cases f <;> simp only [Reports] at h ⊢
  · obtain ⟨rest, h⟩ := h; subst h; exact ⟨rest, rfl⟩
  · obtain ⟨rest, h⟩ := h; subst h; exact ⟨rest, rfl⟩
  · obtain ⟨rest, h⟩ := h; subst h; exact ⟨rest, rfl⟩
  · subst h; rfl
  · subst h; rfl

theorem not_ok_of_reports {f : Fault} {r : Receive} {s : Bytes} : ¬ Reports f (.ok r s) := by
  cases f <;> simp [Reports]

theorem bad_elem {s : Bytes} {f : Fault} (h : Bad s f) (fuel : Nat) (r : Receive) :
    Reports f (readElem fuel r s) := by
  cases h with
  | noLine h => exact ⟨[], by unfold readElem; rw [readLine_noLF h]⟩
  | @tiny l s hl h3 h42 =>
    refine ⟨s, ?_⟩
    unfold readElem
    rw [readLine_line hl]
    have : ¬ (l.headD 0 = 42) := by
      cases l with
      | nil => simp
      | cons c cs => simpa using h42
    simp only [if_neg this, dsl_tiny h3]
  | @unknown c b s hl hc hp =>
    refine ⟨s, ?_⟩
    unfold readElem
    rw [readLine_line hl]
    have : ¬ ((c :: b).headD 0 = 42) := by
      simp only [List.mem_cons, List.not_mem_nil, or_false, not_or] at hc
      simpa using hc.2.1
    simp only [if_neg this, dsl_unknown hc hp]
  | @negative m l s hh hm => exact ⟨s, by rw [elem_bulk hh, bulk_negative hm]⟩
  | @nothing m _ hh h0 hm =>
    refine ⟨[], ?_⟩
    have := elem_bulk hh fuel r (s := [])
    rw [List.append_nil] at this
    rw [this, bulk_nothing h0 hm]
  | @noCR b s hl h2 h13 =>
    show _ = _
    unfold readElem
    rw [readLine_line hl]
    simp only [if_neg (show ¬ ((36 :: b).headD (0 : UInt8) = 42) by simp), dsl_noCR (Or.inl rfl) h2 h13]
  | @huge m l s hh hm =>
    show _ = _
    rw [elem_bulk hh, bulk_huge hm (header_lt hh)]

/-! ## soundness -/

theorem elems_length {n : Int} {s : Bytes} {as : List Bytes} {t rest : Bytes} (h : Elems n s as t rest) :
    rest.length ≤ s.length := by
  induction h with
  | done => exact Nat.le_refl _
  | word _ _ _ _ _ ih => simp; omega
  | ping _ _ ih => simp; omega
  | bulk _ _ _ _ ih => simp; omega
  | nested _ _ _ _ ih1 ih2 => simp; omega

theorem elems_sound {n : Int} {s : Bytes} {as : List Bytes} {t rest : Bytes} (h : Elems n s as t rest)
    (fuel : Nat) (hf : s.length < fuel) (r : Receive) :
    readArray fuel r s n = .ok ⟨r.elements ++ as, r.orgStr ++ t⟩ rest := by
  induction h generalizing fuel r with
  | done s hn =>
    obtain ⟨f, rfl⟩ : ∃ f, fuel = f + 1 := ⟨fuel - 1, by omega⟩
    rw [readArray_succ, if_pos hn]; simp
  | word hn hc hb hx _ ih =>
    obtain ⟨f, rfl⟩ : ∃ f, fuel = f + 1 := ⟨fuel - 1, by omega⟩
    rw [readArray_succ, if_neg (by omega), elem_word hc hb hx]
    simp only
    rw [ih f (by simp at hf; omega)]
    simp
  | ping hn _ ih =>
    obtain ⟨f, rfl⟩ : ∃ f, fuel = f + 1 := ⟨fuel - 1, by omega⟩
    rw [readArray_succ, if_neg (by omega), elem_ping]
    simp only
    rw [ih f (by simp [pingLine] at hf; omega)]
    simp
  | @bulk n m l w s a z rest t as hn hh hd _ ih =>
    obtain ⟨f, rfl⟩ : ∃ f, fuel = f + 1 := ⟨fuel - 1, by omega⟩
    rw [readArray_succ, if_neg (by omega), List.append_assoc, elem_bulk hh, bulk_sound hd]
    simp only
    have := (header_line hh (by decide)).2.1
    rw [ih f (by simp at hf; omega)]
    simp
  | @nested n m l s s' rest t t' as as' hn hh h1 _ ih1 ih2 =>
    obtain ⟨f, rfl⟩ : ∃ f, fuel = f + 1 := ⟨fuel - 1, by omega⟩
    have h3 := (header_line hh (by decide)).2.1
    have hle := elems_length h1
    rw [readArray_succ, if_neg (by omega), elem_nested hh, ih1 f (by simp at hf; omega)]
    simp only
    rw [ih2 f (by simp at hf; omega)]
    simp

theorem elem_sound {s : Bytes} {as : List Bytes} {t rest : Bytes} (h : Elems 1 s as t rest)
    (fuel : Nat) (hf : s.length ≤ fuel) (h1 : 0 < fuel) (r : Receive) :
    readElem fuel r s = .ok ⟨r.elements ++ as, r.orgStr ++ t⟩ rest := by
  have := elems_sound h (fuel + 1) (by omega) r
  rw [readArray_succ, if_neg (by omega)] at this
  obtain ⟨f, rfl⟩ : ∃ f, fuel = f + 1 := ⟨fuel - 1, by omega⟩
  cases he : readElem (f + 1) r s with
  | ok r' s' =>
    rw [he] at this
    simp only at this
    rw [readArray_succ, if_pos (by omega)] at this
    exact this
  | err e x => rw [he] at this; simp at this
  | panic p => rw [he] at this; simp at this

theorem elems_shorter {n : Int} {s : Bytes} {as : List Bytes} {t rest : Bytes} (h : Elems n s as t rest)
    (hn : 0 < n) : rest.length < s.length := by
  cases h with
  | done _ h => omega
  | word _ _ _ _ h => have := elems_length h; simp; omega
  | ping _ h => have := elems_length h; simp [pingLine]; omega
  | bulk _ hh _ h => have := elems_length h; have := (header_line hh (by decide)).2.1; simp; omega
  | nested _ hh h1 h2 =>
    have := elems_length h1; have := elems_length h2; have := (header_line hh (by decide)).2.1; simp; omega

theorem fails_sound {n : Int} {s : Bytes} {f : Fault} (h : Fails n s f) (fuel : Nat) (hf : s.length < fuel)
    (r : Receive) : Reports f (readArray fuel r s n) := by
  induction h generalizing fuel r with
  | here hn hb =>
    obtain ⟨k, rfl⟩ : ∃ k, fuel = k + 1 := ⟨fuel - 1, by omega⟩
    rw [readArray_succ, if_neg (by omega)]
    exact (bad_elem hb k r).pass (fun r buf => readArray k r buf (_ - 1))
  | @noCR n b s hn hl h13 =>
    obtain ⟨k, rfl⟩ : ∃ k, fuel = k + 1 := ⟨fuel - 1, by omega⟩
    rw [readArray_succ, if_neg (by omega)]
    have : readElem k r (42 :: b ++ s) = .panic .indexOutOfRange := by
      unfold readElem
      rw [readLine_line hl]
      simp only [List.headD_cons, if_true, length_noCR (show (42 : UInt8) ≠ 45 by decide) h13]
    rw [this]
    rfl
  | @inside n m l s f hn hh _ ih =>
    obtain ⟨k, rfl⟩ : ∃ k, fuel = k + 1 := ⟨fuel - 1, by omega⟩
    have h3 := (header_line hh (by decide)).2.1
    rw [readArray_succ, if_neg (by omega), elem_nested hh]
    exact ((ih k (by simp at hf; omega) r).pass
      (fun r s => .ok ⟨r.elements, r.orgStr ++ l⟩ s)).pass (fun r buf => readArray k r buf (n - 1))
  | @later n s s' t as f hn he _ ih =>
    obtain ⟨k, rfl⟩ : ∃ k, fuel = k + 1 := ⟨fuel - 1, by omega⟩
    have hlt := elems_shorter he (by omega)
    rw [readArray_succ, if_neg (by omega), elem_sound he k (by omega) (by omega)]
    exact ih k (by omega) _

end Godis
