import Verif.Proofs.Grammar
/-! Every byte string is either read or not, by the grammar of `Spec/Grammar.lean`. -/
namespace Godis
open Resp Grammar

theorem elems_one {n : Int} {s s' rest t t' : Bytes} {as as' : List Bytes} (hn : 0 < n)
    (h : Elems 1 s as t s') (h' : Elems (n - 1) s' as' t' rest) : Elems n s (as ++ as') (t ++ t') rest := by
  cases h with
  | done _ h => omega
  | word _ hc hb hx h =>
    cases h with
    | done => simpa using Elems.word hn hc hb hx h'
    | word h => omega
    | ping h => omega
    | bulk h => omega
    | nested h => omega
  | ping _ h =>
    cases h with
    | done => simpa using Elems.ping hn h'
    | word h => omega
    | ping h => omega
    | bulk h => omega
    | nested h => omega
  | bulk _ hh hd h =>
    cases h with
    | done => simpa using Elems.bulk hn hh hd h'
    | word h => omega
    | ping h => omega
    | bulk h => omega
    | nested h => omega
  | nested _ hh h1 h =>
    cases h with
    | done => simpa using Elems.nested hn hh h1 h'
    | word h => omega
    | ping h => omega
    | bulk h => omega
    | nested h => omega

theorem bulk_data {m : Int} {s : Bytes} (h0 : 0 ≤ m) (hf : m + 2 ≤ 2 ^ 48) (hs : s ≠ []) :
    ∃ w s' a z, s = w ++ s' ∧ Data m w s' a z := by
  cases hr : readBulkStrings ⟨[], []⟩ s m with
  | ok r' rest =>
    obtain ⟨w, a, z, e, hd, _⟩ := bulk_complete (by omega) hr
    exact ⟨w, rest, a, z, e, hd⟩
  | err e rest =>
    unfold readBulkStrings at hr
    rw [if_neg (by omega), if_neg (by unfold maxAlloc wrap64; omega), if_neg hs] at hr
    cases hr
  | panic p =>
    unfold readBulkStrings at hr
    rw [if_neg (by omega), if_neg (by unfold maxAlloc wrap64; omega), if_neg hs] at hr
    cases hr

theorem line_split {s : Bytes} (h : 10 ∈ s) : ∃ c b r, s = c :: b ++ r ∧ Line (c :: b) := by
  obtain ⟨a, r, rfl, ha⟩ := List.eq_append_cons_of_mem h
  cases a with
  | nil => exact ⟨10, [], r, by simp, [], by simp, by simp⟩
  | cons c b => exact ⟨c, b ++ [10], r, by simp, c :: b, by simp, ha⟩

/-- a line of at least three bytes has a first byte, a body and two last bytes -/
theorem line_word {c : UInt8} {b : Bytes} (hl : Line (c :: b)) (h3 : 2 ≤ b.length) :
    ∃ b' x, b = b' ++ [x, 10] ∧ 10 ∉ b' ∧ x ≠ 10 := by
  obtain ⟨d, e, hd⟩ := hl
  cases d with
  | nil => simp only [List.nil_append, List.cons.injEq] at e; rw [e.2] at h3; simp at h3
  | cons c' d =>
    simp only [List.cons_append, List.cons.injEq] at e
    obtain ⟨rfl, rfl⟩ := e
    rcases List.eq_nil_or_concat d with rfl | ⟨b', x, rfl⟩
    · simp at h3
    · simp only [List.concat_eq_append, List.mem_cons, List.mem_append, List.not_mem_nil, or_false, not_or] at hd
      exact ⟨b', x, by simp, hd.2.1, fun e => hd.2.2 e.symm⟩

theorem front_total (s : Bytes)
    (ih : ∀ s', s'.length < s.length → ∀ m, (∃ as t rest, Elems m s' as t rest) ∨ ∃ f, Fails m s' f) :
    (∃ as t rest, Elems 1 s as t rest) ∨
      (∃ f, Bad s f) ∨ ∃ l s', s = l ++ s' ∧ ((∃ m f, Header 42 m l ∧ Fails m s' f) ∨
        ∃ b, l = 42 :: b ∧ Line (42 :: b) ∧ 13 ∉ b) := by
  by_cases h10 : 10 ∈ s
  swap
  · exact Or.inr (Or.inl ⟨_, .noLine h10⟩)
  obtain ⟨c, b, r, rfl, hl⟩ := line_split h10
  by_cases h42 : c = 42
  · subst h42
    by_cases h13 : 13 ∈ b
    · obtain ⟨m, hh⟩ := header_of hl h13
      rcases ih r (by simp; omega) m with ⟨as, t, rest, he⟩ | ⟨f, hf⟩
      · exact Or.inl ⟨_, _, _, .nested (by omega) hh he (.done _ (by omega))⟩
      · exact Or.inr (Or.inr ⟨_, _, rfl, Or.inl ⟨m, f, hh, hf⟩⟩)
    · exact Or.inr (Or.inr ⟨_, _, rfl, Or.inr ⟨b, rfl, hl, h13⟩⟩)
  by_cases h3 : (c :: b).length < 3
  · exact Or.inr (Or.inl ⟨_, .tiny hl h3 (by simpa using h42)⟩)
  have h2 : 2 ≤ b.length := by simp at h3; omega
  by_cases h36 : c = 36
  · subst h36
    by_cases h13 : 13 ∈ b
    · obtain ⟨m, hh⟩ := header_of hl h13
      by_cases hm : m < 0
      · exact Or.inr (Or.inl ⟨_, .negative hh hm⟩)
      by_cases hm2 : 2 ^ 48 < m + 2
      · exact Or.inr (Or.inl ⟨_, .huge hh hm2⟩)
      by_cases hr : r = []
      · subst hr
        rw [List.append_nil]
        exact Or.inr (Or.inl ⟨_, .nothing hh (by omega) (by omega)⟩)
      · obtain ⟨w, s', a, z, rfl, hd⟩ := bulk_data (m := m) (by omega) (by omega) hr
        refine Or.inl ⟨[a], 36 :: b ++ a ++ z ++ [], s', ?_⟩
        rw [← List.append_assoc]
        exact .bulk (by omega) hh hd (.done _ (by omega))
    · exact Or.inr (Or.inl ⟨_, .noCR hl h2 h13⟩)
  by_cases hw : c ∈ [43, 45, 58]
  · obtain ⟨b', x, rfl, hb, hx⟩ := line_word hl h2
    exact Or.inl ⟨_, _, _, .word (by omega) hw hb hx (.done _ (by omega))⟩
  · by_cases hp : c :: b = pingLine
    · rw [hp]
      exact Or.inl ⟨_, _, _, .ping (by omega) (.done _ (by omega))⟩
    · refine Or.inr (Or.inl ⟨_, .unknown hl ?_ hp⟩)
      simp only [List.mem_cons, List.not_mem_nil, or_false, not_or] at hw ⊢
      exact ⟨h36, h42, hw⟩

theorem elems_total (L : Nat) : ∀ s : Bytes, s.length ≤ L → ∀ n : Int,
    (∃ as t rest, Elems n s as t rest) ∨ ∃ f, Fails n s f := by
  induction L with
  | zero =>
    intro s hs n
    by_cases hn : n ≤ 0
    · exact Or.inl ⟨_, _, _, .done _ hn⟩
    · have : s = [] := List.length_eq_zero_iff.mp (by omega)
      subst this
      exact Or.inr ⟨_, .here (by omega) (.noLine (by simp))⟩
  | succ L ih =>
    intro s hs n
    by_cases hn : n ≤ 0
    · exact Or.inl ⟨_, _, _, .done _ hn⟩
    rcases front_total s (fun s' h' => ih s' (by omega)) with ⟨as, t, s', he⟩ | ⟨f, hb⟩ | ⟨l, s', rfl, h⟩
    · have := elems_shorter he (by omega)
      rcases ih s' (by omega) (n - 1) with ⟨as', t', rest, h'⟩ | ⟨f, hf⟩
      · exact Or.inl ⟨_, _, _, elems_one (by omega) he h'⟩
      · exact Or.inr ⟨f, .later (by omega) he hf⟩
    · exact Or.inr ⟨f, .here (by omega) hb⟩
    · rcases h with ⟨m, f, hh, hf⟩ | ⟨b, rfl, hl, h13⟩
      · exact Or.inr ⟨f, .inside (by omega) hh hf⟩
      · exact Or.inr ⟨_, .noCR (by omega) hl h13⟩

theorem reads_total (s : Bytes) : (∃ as t rest, Understood s as t rest) ∨ ∃ f, Faults s f := by
  by_cases h10 : 10 ∈ s
  swap
  · exact Or.inr ⟨_, .single (fun h => absurd h h10) (.noLine h10)⟩
  by_cases h42 : s.head? = some 42
  · obtain ⟨c, b, r, rfl, hl⟩ := line_split h10
    simp only [List.cons_append, List.head?_cons, Option.some.injEq] at h42
    subst h42
    by_cases h13 : 13 ∈ b
    · obtain ⟨m, hh⟩ := header_of hl h13
      rcases elems_total r.length r (Nat.le_refl _) m with ⟨as, t, rest, he⟩ | ⟨f, hf⟩
      · exact Or.inl ⟨_, _, _, .array hh he⟩
      · exact Or.inr ⟨_, .array hh hf⟩
    · by_cases h2 : 2 ≤ b.length
      · exact Or.inr ⟨_, .noCR hl h2 h13⟩
      · obtain ⟨d, e, hd⟩ := hl
        cases d with
        | nil => simp at e
        | cons c' d =>
          simp only [List.cons_append, List.cons.injEq] at e
          have hd0 : d = [] := by
            rw [e.2] at h2; simp at h2; exact h2
          rw [e.2, hd0]
          exact Or.inr ⟨_, .tiny⟩
  · rcases front_total s (fun s' h' => elems_total s'.length s' (Nat.le_refl _)) with
      ⟨as, t, s', he⟩ | ⟨f, hb⟩ | ⟨l, s', rfl, h⟩
    · exact Or.inl ⟨_, _, _, .single h42 he⟩
    · exact Or.inr ⟨_, .single (fun _ => h42) hb⟩
    · exfalso
      rcases h with ⟨m, f, hh, _⟩ | ⟨b, rfl, _, _⟩
      · obtain ⟨_, _, b, rfl⟩ := header_line hh (by decide)
        exact h42 rfl
      · exact h42 rfl

/-! ## the decoder -/

theorem decode_single {s : Bytes} (h : 10 ∈ s → s.head? ≠ some 42) (fuel : Nat) :
    decodeFromReader s = readElem fuel ⟨[], []⟩ s := by
  unfold decodeFromReader readElem
  by_cases h10 : 10 ∈ s
  swap
  · rw [readLine_noLF h10]
  obtain ⟨c, b, r, rfl, hl⟩ := line_split h10
  have hc : c ≠ 42 := by
    have := h h10
    simpa using this
  rw [readLine_line hl]
  have hd42 : ¬ ((c :: b).headD 0 = 42) := hc
  simp only [if_neg hd42]
  rcases hd : decodeSingleLine ⟨[], []⟩ (c :: b) with p | (e | ⟨r', len, desc⟩)
  · rfl
  · rfl
  · simp only
    have h42 : desc ≠ 42 := by
      unfold decodeSingleLine at hd
      split at hd
      · simp at hd
      · dsimp only at hd
        split at hd
        · cases hx : readBulkOrArrayLength (c :: b) with
          | error p => rw [hx] at hd; cases hd
          | ok n =>
            rw [hx] at hd
            simp only [bind, Except.bind, Except.ok.injEq, Prod.mk.injEq] at hd
            rw [← hd.2.2]; simpa using hc
        · split at hd
          · simp only [Except.ok.injEq, Prod.mk.injEq] at hd
            rw [← hd.2.2]; simpa using hc
          · split at hd
            · simp only [Except.ok.injEq, Prod.mk.injEq] at hd
              rw [← hd.2.2]; decide
            · simp at hd
    by_cases h36 : desc = 36
    · rw [if_pos h36, if_pos h36]
    · rw [if_neg h36, if_neg h36, if_neg h42]

theorem decode_array {m : Int} {l : Bytes} (h : Header 42 m l) (s : Bytes) :
    decodeFromReader (l ++ s) = readArray (s.length + 1) ⟨[], l⟩ s m := by
  obtain ⟨hl, _, b, e⟩ := header_line h (by decide)
  unfold decodeFromReader
  rw [readLine_line hl]
  simp only [dsl_head h (Or.inr rfl), if_neg (show ¬ ((42 : UInt8) = 36) by decide), if_true, List.nil_append]

theorem decode_reads {s : Bytes} {as : List Bytes} {t rest : Bytes} (h : Understood s as t rest) :
    decodeFromReader s = .ok ⟨as, t⟩ rest := by
  cases h with
  | array hh he =>
    rw [decode_array hh, elems_sound he _ (Nat.lt_succ_self _)]
    simp
  | single h42 he =>
    rw [decode_single (fun _ => h42) (s.length + 1), elem_sound he _ (by omega) (by omega)]
    simp

theorem decode_faults {s : Bytes} {f : Fault} (h : Faults s f) : Reports f (decodeFromReader s) := by
  cases h with
  | array hh hf =>
    rw [decode_array hh]
    exact fails_sound hf _ (Nat.lt_succ_self _) _
  | @noCR b s hl h2 h13 =>
    show _ = _
    unfold decodeFromReader
    rw [readLine_line hl]
    simp only [dsl_noCR (Or.inr rfl) h2 h13]
  | @tiny s =>
    refine ⟨s, ?_⟩
    have hl : Line [42, 10] := ⟨[42], rfl, by decide⟩
    unfold decodeFromReader
    rw [show (42 :: 10 :: s : Bytes) = [42, 10] ++ s from rfl, readLine_line hl]
    simp only [dsl_tiny (show ([42, 10] : Bytes).length < 3 by decide)]
  | single h42 hb =>
    rw [decode_single h42 0]
    exact bad_elem hb _ _

theorem Reports.unique {f g : Fault} {d : DRes Receive} (hf : Reports f d) (hg : Reports g d) : f = g := by
  cases f <;> cases g <;> simp only [Reports] at hf hg <;> first
    | rfl
    | (obtain ⟨_, rfl⟩ := hf; obtain ⟨_, hg⟩ := hg; simp at hg)
    | (obtain ⟨_, rfl⟩ := hf; simp at hg)

theorem reads_iff (s : Bytes) (as : List Bytes) (t rest : Bytes) :
    decodeFromReader s = .ok ⟨as, t⟩ rest ↔ Understood s as t rest := by
  refine ⟨fun h => ?_, decode_reads⟩
  rcases reads_total s with ⟨as', t', rest', h'⟩ | ⟨f, hf⟩
  · have := decode_reads h'
    rw [h] at this
    simp only [DRes.ok.injEq, Receive.mk.injEq] at this
    obtain ⟨⟨rfl, rfl⟩, rfl⟩ := this
    exact h'
  · have := decode_faults hf
    rw [h] at this
    exact absurd this not_ok_of_reports

theorem faults_iff (s : Bytes) (f : Fault) : Reports f (decodeFromReader s) ↔ Faults s f := by
  refine ⟨fun h => ?_, decode_faults⟩
  rcases reads_total s with ⟨as', t', rest', h'⟩ | ⟨g, hg⟩
  · rw [decode_reads h'] at h
    exact absurd h not_ok_of_reports
  · rw [h.unique (decode_faults hg)]; exact hg

end Godis
