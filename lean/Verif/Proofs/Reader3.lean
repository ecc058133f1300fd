import Verif.Proofs.Reader
/-!
# The decoder over a connection, for any bytes that arrive in any segments
-/
namespace Godis

/-- the bytes to come -/
def Rd.ahead (rd : Rd) : Bytes := rd.buf ++ rd.segs.flatten

theorem Rd.size_ahead (rd : Rd) : rd.size = rd.ahead.length := by simp [Rd.size, Rd.ahead]

theorem readBytes_cases (rd : Rd) : rd.readBytes = .err .eof ⟨[], []⟩ ∨
    ∃ l rd', rd.readBytes = .ok l rd' ∧ rd.ahead = l ++ rd'.ahead ∧ IsLine l := by
  have h := readBytes_spec rd
  cases hl : readLine (rd.buf ++ rd.segs.flatten) with
  | ok l r =>
    rw [hl] at h
    obtain ⟨rd', h1, h2⟩ := h
    obtain ⟨e, hline⟩ := readLine_ok hl
    refine .inr ⟨l, rd', h1, ?_, hline⟩
    unfold Rd.ahead
    rw [h2, e]
  | err e r => rw [hl] at h; exact .inl h
  | panic p => rw [hl] at h; exact h.elim

theorem read_ahead {rd rd' : Rd} {n : Nat} {got : Bytes} (hn : 0 < n) (h : rd.read n = some (got, rd')) :
    rd.ahead = got ++ rd'.ahead ∧ got.length ≤ n := by
  obtain ⟨buf, segs⟩ := rd
  unfold Rd.read at h
  simp only at h
  split at h
  · next hb =>
    subst hb
    split at h
    · cases hc : connRead n segs with
      | none => rw [hc] at h; cases h
      | some x =>
        obtain ⟨g, s⟩ := x
        rw [hc] at h
        cases h
        obtain ⟨_, h1, h2⟩ := connRead_some hn hc
        exact ⟨by simp [Rd.ahead, h2], h1⟩
    · cases hc : connRead bufSize segs with
      | none => rw [hc] at h; cases h
      | some x =>
        obtain ⟨g, s⟩ := x
        rw [hc] at h
        cases h
        obtain ⟨_, _, h2⟩ := connRead_some (by decide) hc
        refine ⟨?_, List.length_take_le ..⟩
        simp only [Rd.ahead, List.nil_append]
        rw [← List.append_assoc, List.take_append_drop, h2]
  · cases h
    refine ⟨?_, List.length_take_le ..⟩
    simp only [Rd.ahead]
    rw [← List.append_assoc, List.take_append_drop]


theorem rdBulk_fair (r : Receive) (rd : Rd) (ln : Int) :
    match rdBulkStrings r rd ln with
    | .ok r' rd' => rd'.ahead <:+ rd.ahead ∧ ∃ b, ∀ rest, readBulkStrings r (b ++ rest) ln = .ok r' rest
    | .err _ rd' => rd'.ahead <:+ rd.ahead
    | .panic p => p = .makeSlice ∧ ∀ buf, readBulkStrings r buf ln = .panic p := by
  by_cases h0 : ln < 0
  · simp only [rdBulkStrings, if_pos h0]; exact List.suffix_refl _
  · by_cases h1 : wrap64 (ln + 2) < 0 ∨ maxAlloc < wrap64 (ln + 2)
    · simp only [rdBulkStrings, if_neg h0, if_pos h1]
      exact ⟨trivial, fun buf => by simp only [readBulkStrings, if_neg h0, if_pos h1]⟩
    · simp only [rdBulkStrings, if_neg h0, if_neg h1]
      cases hr : rd.read (ln.toNat + 2) with
      | none => simp [Rd.ahead]
      | some x =>
        obtain ⟨got, rd'⟩ := x
        obtain ⟨e, hl⟩ := read_ahead (by omega) hr
        simp only
        refine ⟨⟨got, e.symm⟩, got ++ List.replicate (ln.toNat + 2 - got.length) 0, fun rest => ?_⟩
        generalize hv : got ++ List.replicate (ln.toNat + 2 - got.length) 0 = val
        have hvl : val.length = ln.toNat + 2 := by rw [← hv]; simp; omega
        have hne : val ++ rest ≠ [] := by
          intro hh
          have := congrArg List.length hh
          simp only [List.length_append, List.length_nil] at this
          omega
        simp only [readBulkStrings, if_neg h0, if_neg h1, if_neg hne]
        rw [← hvl, List.take_left, List.drop_left]
        simp

theorem BadHeader.suffix {a b : Bytes} (h : BadHeader a) (hs : a <:+ b) : BadHeader b := h.mono hs.isInfix

theorem bulk_bad {line : Bytes} {r r2 : Receive} {len : Int} {desc : UInt8}
    (hd : decodeSingleLine r line = .ok (.ok (r2, len, desc))) (h36 : desc = 36)
    (hp : readBulkStrings r2 [] len = .panic .makeSlice) : line.head? = some 36 ∧ 14 < line.length := by
  obtain ⟨h1, h2⟩ := readBulk_panic hp
  rcases dsl_ok hd with ⟨_, hh, _, hlen⟩ | ⟨hne, _⟩
  · refine ⟨by rw [hh, h36], ?_⟩
    rcases Nat.lt_or_ge 14 line.length with h | h
    · exact h
    · have := header_bound hlen h; omega
  · exact absurd h36 hne

theorem rdArray_fair : ∀ (fuel : Nat) (r : Receive) (rd : Rd) (n : Int), rd.size < fuel →
    match rdArray fuel r rd n with
    | .ok r' rd' => rd'.ahead <:+ rd.ahead ∧ ∃ b, ∀ F rest, b.length < F → readArray F r (b ++ rest) n = .ok r' rest
    | .err _ rd' => rd'.ahead <:+ rd.ahead
    | .panic p => BadHeader rd.ahead ∧ (p = .indexOutOfRange ∨ p = .makeSlice)
  | 0, r, rd, n, hf => by omega
  | fuel + 1, r, rd, n, hf => by
    unfold rdArray
    by_cases hn : n ≤ 0
    · rw [if_pos hn]
      refine ⟨List.suffix_refl _, [], fun F rest hF => ?_⟩
      cases F with
      | zero => simp at hF
      | succ F => simp [readArray, hn]
    · rw [if_neg hn]
      rcases readBytes_cases rd with hr | ⟨line, rd1, hr, e1, hline⟩
      · rw [hr]; simp [Rd.ahead]
      · rw [hr]
        have hs1 : rd1.ahead <:+ rd.ahead := ⟨line, e1.symm⟩
        have hlpos : 0 < line.length := by obtain ⟨b, rfl, _⟩ := hline; simp
        have hz1 : rd1.size < fuel := by
          rw [Rd.size_ahead] at hf ⊢
          rw [e1, List.length_append] at hf
          omega
        have hinf : line <:+: rd.ahead := ⟨[], rd1.ahead, by simp [e1]⟩
        simp only
        have tail : ∀ (r1 : Receive) (rd2 : Rd) (b1 : Bytes), rd2.ahead <:+ rd1.ahead →
            (line.headD 0 = 42 → ∃ m, readBulkOrArrayLength line = .ok m ∧
              ∀ F rest, b1.length < F → readArray F r (b1 ++ rest) m = .ok r1 rest) →
            (line.headD 0 ≠ 42 → r1 = r ∧ b1 = []) →
            match (match decodeSingleLine r1 line with
              | .error p => (.panic p : RRes Receive)
              | .ok (.error e) => .err e rd2
              | .ok (.ok (r, length, desc)) =>
                if desc = 36 then
                  match rdBulkStrings r rd2 length with
                  | .err e rd => .err e rd
                  | .panic p => .panic p
                  | .ok r rd => rdArray fuel r rd (n - 1)
                else rdArray fuel r rd2 (n - 1)) with
            | .ok r' rd' => rd'.ahead <:+ rd.ahead ∧ ∃ b, ∀ F rest, b.length < F → readArray F r (b ++ rest) n = .ok r' rest
            | .err _ rd' => rd'.ahead <:+ rd.ahead
            | .panic p => BadHeader rd.ahead ∧ (p = .indexOutOfRange ∨ p = .makeSlice) := by
          intro r1 rd2 b1 hs2 hsub hsub'
          have hs2' := hs2.trans hs1
          have hz2 : rd2.size < fuel := by
            have := hs2.length_le
            rw [Rd.size_ahead] at hz1 ⊢
            omega
          -- the rest of the array, after the bytes `b2` of a bulk string
          have more : ∀ (b2 : Bytes) (r3 : Receive) (rd3 : Rd), rd3.ahead <:+ rd2.ahead →
              (∀ F rest, (line ++ (b1 ++ b2)).length < F + 1 → readArray (F + 1) r (line ++ (b1 ++ (b2 ++ rest))) n =
                readArray F r3 rest (n - 1)) →
              match rdArray fuel r3 rd3 (n - 1) with
              | .ok r' rd' => rd'.ahead <:+ rd.ahead ∧ ∃ b, ∀ F rest, b.length < F → readArray F r (b ++ rest) n = .ok r' rest
              | .err _ rd' => rd'.ahead <:+ rd.ahead
              | .panic p => BadHeader rd.ahead ∧ (p = .indexOutOfRange ∨ p = .makeSlice) := by
            intro b2 r3 rd3 hs3 hstep
            have hz3 : rd3.size < fuel := by
              have := hs3.length_le
              rw [Rd.size_ahead] at hz2 ⊢
              omega
            have ih := rdArray_fair fuel r3 rd3 (n - 1) hz3
            have hs3' := hs3.trans hs2'
            cases hx : rdArray fuel r3 rd3 (n - 1) with
            | ok r' rd' =>
              rw [hx] at ih
              obtain ⟨i1, b3, i2⟩ := ih
              refine ⟨i1.trans hs3', line ++ (b1 ++ (b2 ++ b3)), fun F rest hF => ?_⟩
              simp only [List.length_append] at hF
              cases F with
              | zero => omega
              | succ F =>
                have := hstep F (b3 ++ rest) (by simp only [List.length_append]; omega)
                simp only [List.append_assoc] at this ⊢
                rw [this]
                exact i2 F rest (by omega)
            | err e rd' => rw [hx] at ih; exact ih.trans hs3'
            | panic p => rw [hx] at ih; exact ⟨ih.1.suffix hs3', ih.2⟩
          cases hd : decodeSingleLine r1 line with
          | error p =>
            obtain ⟨h1, h2, h3⟩ := dsl_panic hd
            exact ⟨⟨line, hline, hinf, Or.inl ⟨h1, h2⟩⟩, Or.inl h3⟩
          | ok x =>
            cases x with
            | error e => exact hs2'
            | ok y =>
              obtain ⟨r2, len, desc⟩ := y
              simp only
              by_cases h36 : desc = 36
              · rw [if_pos h36]
                have hb := rdBulk_fair r2 rd2 len
                cases hk : rdBulkStrings r2 rd2 len with
                | err e rd' => rw [hk] at hb; exact hb.trans hs2'
                | panic p =>
                  rw [hk] at hb
                  obtain ⟨rfl, hb⟩ := hb
                  obtain ⟨k1, k2⟩ := bulk_bad hd h36 (hb [])
                  exact ⟨⟨line, hline, hinf, Or.inr ⟨k1, k2⟩⟩, Or.inr rfl⟩
                | ok r3 rd3 =>
                  rw [hk] at hb
                  obtain ⟨k1, b2, k2⟩ := hb
                  refine more b2 r3 rd3 k1 fun F rest hF => ?_
                  simp only [List.length_append] at hF
                  rw [readArray, if_neg hn, readLine_line hline]
                  simp only
                  by_cases h42 : line.headD 0 = 42
                  · obtain ⟨m, hm, hsub⟩ := hsub h42
                    simp only [if_pos h42, hm, hsub F (b2 ++ rest) (by omega), hd, if_pos h36, k2 rest]
                  · obtain ⟨rfl, rfl⟩ := hsub' h42
                    simp only [if_neg h42, List.nil_append, hd, if_pos h36, k2 rest]
              · rw [if_neg h36]
                refine more [] r2 rd2 (List.suffix_refl _) fun F rest hF => ?_
                simp only [List.length_append, List.length_nil] at hF
                rw [readArray, if_neg hn, readLine_line hline]
                simp only [List.nil_append]
                by_cases h42 : line.headD 0 = 42
                · obtain ⟨m, hm, hsub⟩ := hsub h42
                  simp only [if_pos h42, hm, hsub F rest (by omega), hd, if_neg h36]
                · obtain ⟨rfl, rfl⟩ := hsub' h42
                  simp only [if_neg h42, List.nil_append, hd, if_neg h36]
        by_cases h42 : line.headD 0 = 42
        · simp only [if_pos h42]
          have hh : line.head? = some 42 := by
            cases line with
            | nil => simp at hlpos
            | cons c cs => simpa using h42
          cases hm : readBulkOrArrayLength line with
          | error p =>
            simp only
            cases line with
            | nil => simp at hlpos
            | cons c cs =>
              simp only [List.headD_cons] at h42
              subst h42
              simp only [readBulkOrArrayLength, if_neg (show ¬ ((42 : UInt8) = 45) by decide)] at hm
              obtain ⟨h1, h2⟩ := lengthLoop_error hm
              refine ⟨⟨_, hline, hinf, Or.inl ⟨Or.inr rfl, ?_⟩⟩, Or.inl h2⟩
              simp only [List.mem_cons, not_or]
              exact ⟨by decide, h1⟩
          | ok m =>
            simp only
            have ih := rdArray_fair fuel r rd1 m hz1
            cases hx : rdArray fuel r rd1 m with
            | err e rd' => rw [hx] at ih; exact ih.trans hs1
            | panic p => rw [hx] at ih; exact ⟨ih.1.suffix hs1, ih.2⟩
            | ok r1 rd2 =>
              rw [hx] at ih
              obtain ⟨i1, b1, i2⟩ := ih
              exact tail r1 rd2 b1 i1 (fun _ => ⟨m, hm, i2⟩) (fun h => absurd h42 h)
        · simp only [if_neg h42]
          exact tail r rd1 [] (List.suffix_refl _) (fun h => absurd h h42) (fun _ => ⟨rfl, rfl⟩)

/-- what a call of the decoder over a connection can do: it takes bytes from the front, at least one unless the connection
is at its end; the request it finds would also be found in some byte string (missing data being zero bytes); it panics only
on a bad header. -/
theorem rdDecode_fair (rd : Rd) : match rdDecode rd with
    | .ok r' rd' => rd'.ahead <:+ rd.ahead ∧ rd'.ahead.length < rd.ahead.length ∧ ∃ b, decodeFromReader b = .ok r' []
    | .err e rd' => rd'.ahead <:+ rd.ahead ∧ (e ≠ .eof → rd'.ahead.length < rd.ahead.length)
    | .panic p => BadHeader rd.ahead ∧ (p = .indexOutOfRange ∨ p = .makeSlice) := by
  unfold rdDecode
  rcases readBytes_cases rd with hr | ⟨line, rd1, hr, e1, hline⟩
  · rw [hr]; simp [Rd.ahead]
  · rw [hr]
    have hs1 : rd1.ahead <:+ rd.ahead := ⟨line, e1.symm⟩
    have hlpos : 0 < line.length := by obtain ⟨b, rfl, _⟩ := hline; simp
    have hl1 : rd1.ahead.length < rd.ahead.length := by rw [e1, List.length_append]; omega
    have hinf : line <:+: rd.ahead := ⟨[], rd1.ahead, by simp [e1]⟩
    simp only
    cases hd : decodeSingleLine ⟨[], []⟩ line with
    | error p =>
      obtain ⟨h1, h2, h3⟩ := dsl_panic hd
      exact ⟨⟨line, hline, hinf, Or.inl ⟨h1, h2⟩⟩, Or.inl h3⟩
    | ok x =>
      cases x with
      | error e => exact ⟨hs1, fun _ => hl1⟩
      | ok y =>
        obtain ⟨r2, len, desc⟩ := y
        simp only
        by_cases h36 : desc = 36
        · rw [if_pos h36]
          have hb := rdBulk_fair r2 rd1 len
          cases hk : rdBulkStrings r2 rd1 len with
          | err e rd' => rw [hk] at hb; exact ⟨hb.trans hs1, fun _ => lt_of_le_of_lt hb.length_le hl1⟩
          | panic p =>
            rw [hk] at hb
            obtain ⟨rfl, hb⟩ := hb
            obtain ⟨k1, k2⟩ := bulk_bad hd h36 (hb [])
            exact ⟨⟨line, hline, hinf, Or.inr ⟨k1, k2⟩⟩, Or.inr rfl⟩
          | ok r3 rd3 =>
            rw [hk] at hb
            obtain ⟨k1, b2, k2⟩ := hb
            refine ⟨k1.trans hs1, lt_of_le_of_lt k1.length_le hl1, line ++ b2, ?_⟩
            unfold decodeFromReader
            rw [readLine_line hline]
            simp only [hd, if_pos h36]
            simpa using k2 []
        · rw [if_neg h36]
          by_cases h42 : desc = 42
          · rw [if_pos h42]
            have ih := rdArray_fair (rd1.size + 1) r2 rd1 len (by omega)
            cases hx : rdArray (rd1.size + 1) r2 rd1 len with
            | err e rd' => rw [hx] at ih; exact ⟨ih.trans hs1, fun _ => lt_of_le_of_lt ih.length_le hl1⟩
            | panic p => rw [hx] at ih; exact ⟨ih.1.suffix hs1, ih.2⟩
            | ok r3 rd3 =>
              rw [hx] at ih
              obtain ⟨i1, b2, i2⟩ := ih
              refine ⟨i1.trans hs1, lt_of_le_of_lt i1.length_le hl1, line ++ b2, ?_⟩
              unfold decodeFromReader
              rw [readLine_line hline]
              simp only [hd, if_neg h36, if_pos h42]
              simpa using i2 (b2.length + 1) [] (by omega)
          · rw [if_neg h42]
            refine ⟨hs1, hl1, line, ?_⟩
            unfold decodeFromReader
            have := readLine_line hline []
            rw [List.append_nil] at this
            rw [this]
            simp only [hd, if_neg h36, if_neg h42]

end Godis
