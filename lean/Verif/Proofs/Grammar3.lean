import Verif.Proofs.Grammar2
/-! Requests that arrive in pieces, and requests with more text behind them. -/
namespace Godis
open Resp Grammar

theorem header_dec {t : UInt8} (ht : t ≠ 45) {d : Str} {n : Nat} (h : dec d = some n) (hn : n < 2 ^ 63) :
    Header t n (t :: d ++ [13, 10]) := by
  have h13 : 13 ∉ d := by
    unfold dec at h
    split at h
    · simp at h
    · have : ∀ acc, d.foldl digit acc = some n → 13 ∉ d := by
        clear h
        intro acc
        induction d generalizing acc with
        | nil => simp
        | cons c cs ih =>
          intro h
          simp only [List.foldl_cons] at h
          simp only [List.mem_cons, not_or]
          refine ⟨?_, ?_⟩
          · rintro rfl
            have : digit acc 13 = none := by cases acc <;> simp [digit]
            rw [this, digit_foldl_none] at h; simp at h
          · by_cases hcs : cs = []
            · simp [hcs]
            · exact ih hcs _ h
      exact this _ h
  have hd := header_digits t ht d n h hn
  have hh : Header t (number d) (t :: d ++ [13, 10]) := ⟨d, [], by simp, h13, dec_noLF h, by simp, rfl⟩
  have := header_number hh ht
  rw [hd] at this
  simp only [Except.ok.injEq] at this
  rw [this]
  exact hh

theorem data_full (a s : Bytes) (h : a.length + 2 ≤ 2 ^ 48) : Data (a.length : Int) (a ++ [13, 10]) s a [13, 10] :=
  ⟨by simp, rfl, rfl, ⟨0, by simp, Or.inl rfl⟩, by omega⟩

/-- the bulk strings of a request, followed by anything -/
theorem elems_bulks {b : Str} {as : List Str} (h : IsBulks b as) (hlen : ∀ a ∈ as, a.length + 2 ≤ 2 ^ 48)
    (k : Int) (hk : 0 ≤ k) {s : Str} {es : List Str} {t rest : Str} (h' : Elems k s es t rest) :
    Elems (as.length + k) (b ++ s) (as ++ es) (b ++ t) rest := by
  induction h with
  | nil => simpa using h'
  | @cons d a b as hd hb ih =>
    have ha : a.length + 2 ≤ 2 ^ 48 := hlen a (by simp)
    have hh : Header 36 a.length (36 :: d ++ [13, 10]) := header_dec (by decide) hd (by omega)
    have := ih (fun x hx => hlen x (by simp [hx]))
    have e : ((a :: as).length : Int) + k - 1 = as.length + k := by simp; omega
    have := Elems.bulk (n := ((a :: as).length : Int) + k) (by simp; omega) hh (data_full a (b ++ s) ha)
      (by rw [e]; exact this)
    simpa using this

/-- `w` and enough zero bytes -/
theorem data_cut (a w q : Bytes) (hw : w ≠ []) (h : w ++ q = a ++ [13, 10]) (ha : a.length + 2 ≤ 2 ^ 48) :
    Data (a.length : Int) w [] ((w ++ List.replicate q.length 0).take a.length)
      ((w ++ List.replicate q.length 0).drop a.length) := by
  have hl : w.length + q.length = a.length + 2 := by
    have := congrArg List.length h; simpa using this
  refine ⟨hw, ?_, ?_, ⟨q.length, by rw [List.take_append_drop], Or.inr rfl⟩, by omega⟩
  · simp; omega
  · simp; omega

theorem fails_empty {n : Int} (h : 0 < n) : Fails n [] .short := .here h (.noLine (by simp))

/-- A text of bulk strings that breaks off before the data of the last one has begun is too short. -/
theorem fails_bulks {b : Str} {as : List Str} (h : IsBulks b as) (hlen : ∀ a ∈ as, a.length + 2 ≤ 2 ^ 48)
    (p q : Str) (e : p ++ q = b) (hq : q ≠ []) (hlast : ∀ a, as.getLast? = some a → a.length + 2 ≤ q.length) :
    Fails as.length p .short := by
  induction h generalizing p with
  | nil => simp only [List.append_eq_nil_iff] at e; exact absurd e.2 hq
  | @cons d a b as hd hb ih =>
    have ha : a.length + 2 ≤ 2 ^ 48 := hlen a (by simp)
    have hh : Header 36 a.length (36 :: d ++ [13, 10]) := header_dec (by decide) hd (by omega)
    have hpos : (0 : Int) < ((a :: as).length : Int) := by simp
    have e1 : p ++ q = (36 :: d ++ [13, 10]) ++ (a ++ [13, 10] ++ b) := by rw [e]; simp
    rcases List.append_eq_append_iff.mp e1 with ⟨m, hm, _⟩ | ⟨m, hm, hq1⟩
    · -- p is a part of the header
      by_cases hm0 : m = []
      · subst hm0
        rw [List.append_nil] at hm
        rw [← hm]
        exact .here hpos (.nothing hh (by omega) (by omega))
      · obtain ⟨m', x, rfl⟩ := List.eq_nil_or_concat m |>.resolve_left hm0
        rw [List.concat_eq_append, ← List.append_assoc] at hm
        have h2 : 36 :: d ++ [13, 10] = (36 :: d ++ [13]) ++ [10] := by simp
        rw [h2] at hm
        have hpm := (List.append_inj' hm rfl).1
        refine .here hpos (.noLine ?_)
        intro h10
        have : (10 : UInt8) ∈ 36 :: d ++ [13] := by rw [hpm]; simp [h10]
        simp only [List.cons_append, List.mem_cons, List.mem_append, List.not_mem_nil, or_false] at this
        rcases this with h | h | h
        · exact absurd h (by decide)
        · exact dec_noLF hd h
        · exact absurd h (by decide)
    · -- p = header ++ m
      subst hm
      rcases List.append_eq_append_iff.mp hq1 with ⟨m2, hm2, hq2⟩ | ⟨m2, hm2, hb2⟩
      · -- the data is complete: m = a ++ CRLF ++ m2
        subst hm2
        have hb2 : m2 ++ q = b := hq2.symm
        have has : as ≠ [] := by
          rintro rfl
          cases hb
          simp only [List.append_eq_nil_iff] at hb2
          exact hq hb2.2
        have := ih (fun x hx => hlen x (by simp [hx])) m2 hb2 (fun x hx => hlast x (by
          rw [List.getLast?_cons, hx]; rfl))
        have he : Elems 1 (36 :: d ++ [13, 10] ++ (a ++ [13, 10]) ++ m2) [a]
            (36 :: d ++ [13, 10] ++ a ++ [13, 10] ++ []) m2 :=
          Elems.bulk (by omega) hh (data_full a m2 ha) (.done _ (by omega))
        rw [← List.append_assoc]
        refine .later hpos he ?_
        have e2 : ((a :: as).length : Int) - 1 = as.length := by simp
        rw [e2]; exact this
      · -- inside the data
        by_cases hm0 : m = []
        · subst hm0
          rw [List.append_nil]
          exact .here hpos (.nothing hh (by omega) (by omega))
        have has : as ≠ [] := by
          rintro rfl
          cases hb
          have := hlast a (by simp)
          simp only [List.append_nil] at hb2
          have hl := congrArg List.length hm2
          rw [hb2] at this
          simp only [List.length_append, List.length_cons, List.length_nil] at hl
          exact hm0 (List.length_eq_zero_iff.mp (by omega))
        have he : Elems 1 (36 :: d ++ [13, 10] ++ m ++ []) _ _ [] :=
            Elems.bulk (by omega) hh (data_cut a m m2 hm0 hm2.symm ha) (.done _ (by omega))
        rw [List.append_nil] at he
        refine .later hpos he (fails_empty ?_)
        have : 0 < as.length := List.length_pos_iff.mpr has
        simp; omega

/-- The whole request: cut off before the data of its last argument it is too short. -/
theorem faults_cut {s : Str} {args : List Str} (h : IsRequest s args) (hn : args.length < 2 ^ 63)
    (hlen : ∀ a ∈ args, a.length + 2 ≤ 2 ^ 48) (p q : Str) (e : p ++ q = s) (hq : q ≠ [])
    (hlast : ∀ a, args.getLast? = some a → a.length + 2 ≤ q.length) : Faults p .short := by
  obtain ⟨d, b, hd, hb, rfl⟩ := h
  have hh : Header 42 args.length (42 :: d ++ [13, 10]) := header_dec (by decide) hd hn
  rcases List.append_eq_append_iff.mp e with ⟨m, hm, hb'⟩ | ⟨m, hm, hb'⟩
  · by_cases hm0 : m = []
    · subst hm0
      rw [List.append_nil] at hm
      rw [← hm]
      have hpos : 0 < args.length := by
        rcases Nat.eq_zero_or_pos args.length with h0 | h0
        · have : args = [] := List.length_eq_zero_iff.mp h0
          subst this
          cases hb
          exact absurd hb' hq
        · exact h0
      have := Faults.array hh (fails_empty (n := args.length) (by omega))
      rwa [List.append_nil] at this
    · obtain ⟨m', x, rfl⟩ := List.eq_nil_or_concat m |>.resolve_left hm0
      rw [List.concat_eq_append, ← List.append_assoc] at hm
      have h2 : 42 :: d ++ [13, 10] = (42 :: d ++ [13]) ++ [10] := by simp
      rw [h2] at hm
      have hpm := (List.append_inj' hm rfl).1
      have h10 : (10 : UInt8) ∉ p := by
        intro h10
        have : (10 : UInt8) ∈ 42 :: d ++ [13] := by rw [hpm]; simp [h10]
        simp only [List.cons_append, List.mem_cons, List.mem_append, List.not_mem_nil, or_false] at this
        rcases this with h | h | h
        · exact absurd h (by decide)
        · exact dec_noLF hd h
        · exact absurd h (by decide)
      exact .single (fun h => absurd h h10) (.noLine h10)
  · subst hm
    exact .array hh (fails_bulks hb hlen m q hb'.symm hq hlast)

theorem isBulks_snoc {b : Str} {as : List Str} {a : Str} (h : IsBulks b (as ++ [a])) :
    ∃ b' d, IsBulks b' as ∧ dec d = some a.length ∧ b = b' ++ (36 :: d ++ [13, 10] ++ a ++ [13, 10]) := by
  induction as generalizing b with
  | nil =>
    cases h with
    | @cons d _ s _ hd hs =>
      cases hs
      exact ⟨[], d, .nil, hd, by simp⟩
  | cons x xs ih =>
    cases h with
    | @cons d _ s _ hd hs =>
      obtain ⟨b', d', hb', hd', rfl⟩ := ih hs
      exact ⟨_, d', .cons hd hb', hd', by simp⟩

/-- Cut off inside the data of its last argument, the request is read with zero bytes in place of what is
missing. -/
theorem reads_cut {s : Str} {args : List Str} {a : Str} (h : IsRequest s (args ++ [a]))
    (hn : (args ++ [a]).length < 2 ^ 63) (hlen : ∀ x ∈ args ++ [a], x.length + 2 ≤ 2 ^ 48) (p q : Str)
    (e : p ++ q = s) (hq : q.length < a.length + 2) :
    Understood p (args ++ [((a ++ [13, 10]).take (a.length + 2 - q.length) ++ List.replicate q.length 0).take
      a.length]) (p ++ List.replicate q.length 0) [] := by
  obtain ⟨d, b, hd, hb, rfl⟩ := h
  have ha : a.length + 2 ≤ 2 ^ 48 := hlen a (by simp)
  have hh : Header 42 (args ++ [a]).length (42 :: d ++ [13, 10]) := header_dec (by decide) hd hn
  obtain ⟨b', d', hb', hd', rfl⟩ := isBulks_snoc hb
  have hh' : Header 36 a.length (36 :: d' ++ [13, 10]) := header_dec (by decide) hd' (by omega)
  have e1 : p ++ q = (42 :: d ++ [13, 10] ++ b' ++ (36 :: d' ++ [13, 10])) ++ (a ++ [13, 10]) := by
    rw [e]; simp
  obtain ⟨w, hp, hw⟩ : ∃ w, p = (42 :: d ++ [13, 10] ++ b' ++ (36 :: d' ++ [13, 10])) ++ w
      ∧ a ++ [13, 10] = w ++ q := by
    rcases List.append_eq_append_iff.mp e1 with ⟨m, hm, hb'⟩ | ⟨m, hm, hb'⟩
    · exfalso
      have := congrArg List.length hb'
      simp only [List.length_append, List.length_cons, List.length_nil] at this
      have h0 : m.length = 0 := by omega
      omega
    · exact ⟨m, hm, hb'⟩
  have hwl : w.length + q.length = a.length + 2 := by
    have := congrArg List.length hw; simp at this; omega
  have hw0 : w ≠ [] := by
    rintro rfl
    simp at hwl; omega
  have htake : (a ++ [13, 10]).take (a.length + 2 - q.length) = w := by
    rw [hw, show a.length + 2 - q.length = w.length by omega]; simp
  have hd1 := data_cut a w q hw0 hw.symm ha
  have he := Elems.bulk (n := 1) (by omega) hh' hd1 (.done _ (by omega))
  have he' := elems_bulks hb' (fun x hx => hlen x (by simp [hx])) 1 (by omega) he
  have el : ((args ++ [a]).length : Int) = args.length + 1 := by simp
  rw [← el] at he'
  have := Understood.array hh he'
  rw [htake]
  subst hp
  have e3 : (w ++ List.replicate q.length (0 : UInt8)).take a.length
      ++ (w ++ List.replicate q.length 0).drop a.length = w ++ List.replicate q.length 0 :=
    List.take_append_drop _ _
  simp only [List.append_assoc, List.append_nil] at this e3 ⊢
  rw [e3] at this
  simpa using this

/-- More text behind a request that has been read completely changes nothing. -/
theorem data_more {n : Int} {w s a z : Bytes} (h : Data n w s a z) (hs : s ≠ []) (u : Bytes) :
    Data n w (s ++ u) a z := by
  obtain ⟨h1, h2, h3, ⟨k, hk, hks⟩, h5⟩ := h
  exact ⟨h1, h2, h3, ⟨k, hk, Or.inl (hks.resolve_right hs)⟩, h5⟩

theorem elems_more {n : Int} {s : Bytes} {as : List Bytes} {t rest : Bytes} (h : Elems n s as t rest)
    (hr : rest ≠ []) (u : Bytes) : Elems n (s ++ u) as t (rest ++ u) := by
  induction h with
  | done s hn => exact .done _ hn
  | word hn hc hb hx _ ih => simpa using Elems.word hn hc hb hx (ih hr)
  | ping hn _ ih => simpa using Elems.ping hn (ih hr)
  | @bulk n m l w s a z rest t as hn hh hd h' ih =>
    have hs : s ≠ [] := by
      rintro rfl
      have := elems_length h'
      exact hr (List.length_eq_zero_iff.mp (by simpa using this))
    simpa using Elems.bulk hn hh (data_more hd hs u) (ih hr)
  | @nested n m l s s' rest t t' as as' hn hh h1 h2 ih1 ih2 =>
    have hs : s' ≠ [] := by
      rintro rfl
      have := elems_length h2
      exact hr (List.length_eq_zero_iff.mp (by simpa using this))
    simpa using Elems.nested hn hh (ih1 hs) (ih2 hr)

theorem elems_suffix {n : Int} {s : Bytes} {as : List Bytes} {t rest : Bytes} (h : Elems n s as t rest) :
    rest <:+ s := by
  induction h with
  | done => exact List.suffix_refl _
  | word _ _ _ _ _ ih => exact ih.trans (List.suffix_append _ _)
  | ping _ _ ih => exact ih.trans (List.suffix_append _ _)
  | bulk _ _ _ _ ih => exact ih.trans (List.suffix_append _ _)
  | nested _ _ _ _ ih1 ih2 => exact (ih2.trans ih1).trans (List.suffix_append _ _)

theorem reads_more {s : Bytes} {as : List Bytes} {t rest : Bytes} (h : Understood s as t rest) (hr : rest ≠ [])
    (u : Bytes) : Understood (s ++ u) as t (rest ++ u) := by
  cases h with
  | array hh he => simpa using Understood.array hh (elems_more he hr u)
  | single h42 he =>
    refine .single ?_ (elems_more he hr u)
    cases s with
    | nil =>
      have := elems_shorter he (by omega)
      simp at this
    | cons c cs => simpa using h42

end Godis
