import Verif.Proofs.SkipOrder
import Verif.Proofs.Strconv
/-! Queries on a skip list: rank, score intervals, ranges by position. -/
namespace Godis
namespace ZSL

variable {z : ZSL} {q : List Elem}

/-- at or before (score, value) -/
def boa (score : F64) (value : Bytes) (e : Elem) : Bool := e.sc.lt score || (e.sc.eq score && !bytesLt value e.v)

theorem boa_iff {score : F64} {value : Bytes} {e : Elem} : boa score value e = true ↔
    e.sc.isNaN = false ∧ score.isNaN = false ∧ (e.sc.key < score.key ∨ e.sc.key = score.key ∧ bytesLt value e.v = false) := by
  simp only [boa, Bool.or_eq_true, Bool.and_eq_true, F64.lt_iff, F64.eq_iff, Bool.not_eq_true']
  constructor
  · rintro (⟨h1, h2, h3⟩ | ⟨⟨h1, h2, h3⟩, h4⟩)
    · exact ⟨h1, h2, .inl h3⟩
    · exact ⟨h1, h2, .inr ⟨h3, h4⟩⟩
  · rintro ⟨h1, h2, h3 | ⟨h3, h4⟩⟩
    · exact .inl ⟨h1, h2, h3⟩
    · exact .inr ⟨⟨h1, h2, h3⟩, h4⟩

theorem boa_mono (score : F64) (value : Bytes) (a b : Elem) (h1 : bf b.sc b.v a = true) (h2 : boa score value b = true) : boa score value a = true := by
  rw [boa_iff] at *
  rw [bf_iff] at h1
  obtain ⟨h3, h4, h5⟩ := h1
  obtain ⟨h6, h7, h8⟩ := h2
  refine ⟨h3, h7, ?_⟩
  rcases h5 with h5 | ⟨h5, h5'⟩ <;> rcases h8 with h8 | ⟨h8, h8'⟩
  · left; omega
  · left; omega
  · left; omega
  · right
    refine ⟨by omega, ?_⟩
    cases hc : bytesLt value a.v with
    | false => rfl
    | true => rw [bytesLt_trans hc h5'] at h8'; cases h8'

theorem le_mono (score : F64) (a b : Elem) (h1 : bf b.sc b.v a = true) (h2 : b.sc.le score = true) : a.sc.le score = true := by
  rw [F64.le_iff] at *
  rw [bf_iff] at h1
  obtain ⟨h3, h4, h5⟩ := h1
  refine ⟨h3, h2.2.1, ?_⟩
  rcases h5 with h5 | ⟨h5, _⟩ <;> omega

theorem lt_mono (score : F64) (a b : Elem) (h1 : bf b.sc b.v a = true) (h2 : b.sc.lt score = true) : a.sc.lt score = true := by
  rw [F64.lt_iff] at *
  rw [bf_iff] at h1
  obtain ⟨h3, h4, h5⟩ := h1
  refine ⟨h3, h2.2.1, ?_⟩
  rcases h5 with h5 | ⟨h5, _⟩ <;> omega

/-- in a cut sequence the number of elements satisfying the condition is the length of the first part -/
theorem filter_cut {P S : List Elem} {c : Elem → Bool} (h1 : ∀ e ∈ P, c e = true) (h2 : ∀ e ∈ S, c e = false) :
    (P ++ S).filter c = P := by
  rw [List.filter_append, List.filter_eq_self.mpr h1, List.filter_eq_nil_iff.mpr (fun e he => by simp [h2 e he])]
  simp

/-- `rank` counts the elements at or before -/
theorem rank_eq (R : Rep z q) (O : Ordered q) (score : F64) (value : Bytes) :
    z.rank score value = .ok (q.filter (boa score value)).length := by
  obtain ⟨h1, h2⟩ := cut O.sorted (boa_mono score value)
  have hsplit : q = q.takeWhile (boa score value) ++ q.dropWhile (boa score value) := List.takeWhile_append_dropWhile.symm
  unfold rank
  rw [rankLoop_gloop]
  generalize hP : q.takeWhile (boa score value) = P at *
  generalize hS : q.dropWhile (boa score value) = S at *
  have hlen : q.filter (boa score value) = P := by rw [hsplit]; exact filter_cut h1 h2
  rw [hlen]
  by_cases hex : ∃ e ∈ P, (e.sc.eq score && e.v == value) = true
  · obtain ⟨e, he, hev⟩ := hex
    obtain ⟨P1, P2, rfl⟩ := List.append_of_mem he
    simp only [Bool.and_eq_true, beq_iff_eq] at hev
    -- nothing follows `e` in `P`
    have hO' : Ordered (P1 ++ e :: (P2 ++ S)) := by rw [hsplit] at O; simpa using O
    have hP2 : P2 = [] := by
      cases P2 with
      | nil => rfl
      | cons f P2 =>
        exfalso
        have hf := h1 f (by simp)
        have hs := hO'.sorted
        unfold Sorted at hs
        rw [List.pairwise_append] at hs
        have hef := (List.pairwise_cons.mp hs.2.1).1 f (by simp)
        rw [boa_iff] at hf
        rw [bf_iff] at hef
        rw [F64.eq_iff] at hev
        obtain ⟨_, _, hf⟩ := hf
        obtain ⟨_, _, hef⟩ := hef
        rw [hev.2] at hef
        rcases hf with hf | ⟨hf, hf'⟩ <;> rcases hef with hef | ⟨hef, hef'⟩
        · omega
        · omega
        · omega
        · rw [hef'] at hf'; cases hf'
    subst hP2
    have hne : ∀ f ∈ P1, f.v ≠ value := by
      intro f hf hc
      have ho := hO'.once
      simp only [List.map_append, List.map_cons, List.nodup_append, List.nodup_cons] at ho
      exact ho.2.2 f.v (List.mem_map_of_mem hf) e.v (by simp) (by rw [hc, hev.2])
    have hg := gloop_top R (P := P1) (Q := [e]) (S := S) (by rw [hsplit]; simp)
      (R.goStop (Q := [e]) (S := S) (by rw [hsplit]; simp) (cond := (beforeOrAt · score value)) (stop := fun n => n.score.eq score && n.value == value) (c := fun v sc => sc.lt score || (sc.eq score && !bytesLt value v)) (s := fun v sc => sc.eq score && v == value) (fun _ => rfl) (fun _ => rfl)
        (fun f hf => ⟨h1 f (by simp [hf]), by simp [hne f hf]⟩)
        (fun f hf => by simp only [List.mem_singleton] at hf; subst hf; exact ⟨h1 f (by simp), by simp [hev]⟩) h2)
    rcases hg with ⟨hg, _⟩ | ⟨Q1, f, Q2, hg1, hg2⟩
    · cases hg
    · have : Q1 = [] := by
        cases Q1 with
        | nil => rfl
        | cons a Q1 => simp at hg1
      subst this
      rw [hg2]; simp [Except.map]
  · have hno : ∀ e ∈ P, (e.sc.eq score && e.v == value) = false := fun e he => by
      cases h : (e.sc.eq score && e.v == value) with
      | false => rfl
      | true => exact absurd ⟨e, he, h⟩ hex
    have hg := gloop_top R (P := P) (Q := []) (S := S) (by rw [hsplit]; simp)
      (R.goStop (P := P) (Q := []) (S := S) (by rw [hsplit]; simp) (cond := (beforeOrAt · score value)) (stop := fun n => n.score.eq score && n.value == value) (c := fun v sc => sc.lt score || (sc.eq score && !bytesLt value v)) (s := fun v sc => sc.eq score && v == value) (fun _ => rfl) (fun _ => rfl) (fun f hf => ⟨h1 f hf, hno f hf⟩) (by simp) h2)
    rcases hg with ⟨_, hg⟩ | ⟨Q1, f, Q2, hg1, _⟩
    · rw [hg]; rfl
    · simp at hg1

/-- where a search by score ends: the number of elements passed, `none` if it does not stop on an equal score,
otherwise how many equal scores have been passed or reached -/
theorem scoreLoop_eq (R : Rep z q) (O : Ordered q) (score : F64) (o : Bool) :
    (∃ x, gloop z.nodes (ZSL.goStop z.nodes (·.score.le score) (fun n => o && n.score.eq score)) z.level 0 0 =
        .ok (x, (q.filter (·.sc.le score)).length, false) ∧ (o = true → ∀ e ∈ q, e.sc.eq score = false)) ∨
    (o = true ∧ ∃ x j, 1 ≤ j ∧ j ≤ (q.filter (·.sc.eq score)).length ∧
      gloop z.nodes (ZSL.goStop z.nodes (·.score.le score) (fun n => o && n.score.eq score)) z.level 0 0 =
        .ok (x, (q.filter (·.sc.lt score)).length + j, true)) := by
  obtain ⟨h1, h2⟩ := cut O.sorted (le_mono score)
  have hsplit : q = q.takeWhile (·.sc.le score) ++ q.dropWhile (·.sc.le score) := List.takeWhile_append_dropWhile.symm
  generalize hP : q.takeWhile (·.sc.le score) = P at *
  generalize hS : q.dropWhile (·.sc.le score) = S at *
  have hlen : q.filter (·.sc.le score) = P := by rw [hsplit]; exact filter_cut h1 h2
  cases o with
  | false =>
    left
    have hg := gloop_top R (P := P) (Q := []) (S := S) (by rw [hsplit]; simp)
      (R.goStop (P := P) (Q := []) (S := S) (by rw [hsplit]; simp) (c := fun _ sc => sc.le score) (s := fun _ sc => false && sc.eq score) (fun _ => rfl) (fun _ => rfl) (fun f hf => ⟨h1 f hf, rfl⟩) (by simp) h2)
    rcases hg with ⟨_, hg⟩ | ⟨Q1, f, Q2, hg1, _⟩
    · exact ⟨_, by rw [hlen]; exact hg, by simp⟩
    · simp at hg1
  | true =>
    have OP : Ordered P := O.sub (by rw [hsplit]; exact List.sublist_append_left _ _)
    obtain ⟨g1, g2⟩ := cut OP.sorted (lt_mono score)
    have hsp2 : P = P.takeWhile (·.sc.lt score) ++ P.dropWhile (·.sc.lt score) := List.takeWhile_append_dropWhile.symm
    generalize hA : P.takeWhile (·.sc.lt score) = A at *
    generalize hQ : P.dropWhile (·.sc.lt score) = Q at *
    have hAeq : ∀ e ∈ A, e.sc.eq score = false := fun e he => by
      have := g1 e he
      cases h : e.sc.eq score with
      | false => rfl
      | true => simp only [F64.lt_iff, F64.eq_iff] at *; omega
    have hQeq : ∀ e ∈ Q, e.sc.eq score = true := fun e he => by
      have a1 := h1 e (by rw [hsp2]; simp [he])
      have a2 := g2 e he
      have a2' : ¬ e.sc.lt score = true := by simp [a2]
      simp only [F64.lt_iff, F64.eq_iff, F64.le_iff] at *
      refine ⟨a1.1, a1.2.1, ?_⟩
      have : ¬ e.sc.key < score.key := fun h => a2' ⟨a1.1, a1.2.1, h⟩
      omega
    have hSeq : ∀ e ∈ S, e.sc.eq score = false ∧ e.sc.lt score = false := fun e he => by
      have a1 := h2 e he
      have a1' : ¬ e.sc.le score = true := by simp [a1]
      constructor
      · cases h : e.sc.eq score with
        | false => rfl
        | true => exfalso; apply a1'; simp only [F64.eq_iff, F64.le_iff] at *; exact ⟨h.1, h.2.1, by omega⟩
      · cases h : e.sc.lt score with
        | false => rfl
        | true => exfalso; apply a1'; simp only [F64.lt_iff, F64.le_iff] at *; exact ⟨h.1, h.2.1, by omega⟩
    have hq3 : q = A ++ (Q ++ S) := by rw [hsplit, hsp2]; simp
    have hfl : q.filter (·.sc.lt score) = A := by
      rw [hq3]; apply filter_cut g1
      intro e he
      rcases List.mem_append.mp he with h | h
      · exact g2 e h
      · exact (hSeq e h).2
    have hfe : q.filter (·.sc.eq score) = Q := by
      rw [hq3, List.filter_append, filter_cut hQeq (fun e he => (hSeq e he).1), List.filter_eq_nil_iff.mpr (fun e he => by simp [hAeq e he])]; simp
    have hg := gloop_top R (P := A) (Q := Q) (S := S) hq3
      (R.goStop (P := A) (Q := Q) (S := S) hq3 (c := fun _ sc => sc.le score) (s := fun _ sc => true && sc.eq score) (fun _ => rfl) (fun _ => rfl) (fun f hf => ⟨h1 f (by rw [hsp2]; simp [hf]), by simp [hAeq f hf]⟩)
        (fun f hf => ⟨h1 f (by rw [hsp2]; simp [hf]), by simp [hQeq f hf]⟩) h2)
    rcases hg with ⟨hQn, hg⟩ | ⟨Q1, f, Q2, hg1, hg2⟩
    · left
      subst hQn
      refine ⟨cur A, ?_, fun _ e he => ?_⟩
      · rw [hlen, hsp2, List.append_nil]; exact hg
      · rw [hq3] at he
        simp only [List.nil_append] at he
        rcases List.mem_append.mp he with h | h
        · exact hAeq e h
        · exact (hSeq e h).1
    · right
      refine ⟨rfl, f.a, Q1.length + 1, by omega, by rw [hfe, hg1]; simp, ?_⟩
      rw [hfl, hg2, Nat.add_assoc]

theorem ofUint_small {n : Nat} (h : n < 2 ^ 63) : ofUint n = n := by
  unfold ofUint; exact wrap64_of_range _ (by omega) (by omega)

/-- `minScoreRank` -/
theorem minScoreRank_eq (R : Rep z q) (O : Ordered q) (hsm : q.length + 1 < 2 ^ 63) (score : F64) (o : Bool) (hi : score.isInf = false) :
    (z.minScoreRank score o = .ok ((q.filter (·.sc.le score)).length : Int) ∧ (o = true → ∀ e ∈ q, e.sc.eq score = false)) ∨
    (o = true ∧ ∃ j : Nat, 1 ≤ j ∧ j ≤ (q.filter (·.sc.eq score)).length ∧
      z.minScoreRank score o = .ok (((q.filter (·.sc.lt score)).length : Int) + j + 1)) := by
  have hf1 := List.length_filter_le (·.sc.le score) q
  have hle : (q.filter (·.sc.lt score)).length + (q.filter (·.sc.eq score)).length ≤ q.length := by
    clear hsm hf1 R O
    induction q with
    | nil => simp
    | cons e q ih =>
      simp only [List.filter_cons]
      have : ¬ (e.sc.lt score = true ∧ e.sc.eq score = true) := by
        simp only [F64.lt_iff, F64.eq_iff]; omega
      cases h1 : e.sc.lt score <;> cases h2 : e.sc.eq score <;> simp_all <;> omega
  unfold minScoreRank
  rw [hi, minLoop_gloop]
  rcases scoreLoop_eq R O score o with ⟨x, h1, h2⟩ | ⟨h0, x, j, h1, h2, h3⟩
  · left
    refine ⟨?_, h2⟩
    simp only [h1, bind, Except.bind, Except.map, Bool.false_eq_true, if_false]
    rw [ofUint_small (by omega)]
  · right
    refine ⟨h0, j, h1, h2, ?_⟩
    simp only [h3, bind, Except.bind, Except.map, Bool.false_eq_true, if_false, if_true]
    rw [uadd_small (by omega), ofUint_small (by omega)]
    congr 1

/-- `maxScoreRank` -/
theorem maxScoreRank_eq (R : Rep z q) (O : Ordered q) (score : F64) (o : Bool) (hi : score.isInf = false) :
    (z.maxScoreRank score o = .ok ((q.filter (·.sc.le score)).length : Int) ∧ (o = true → ∀ e ∈ q, e.sc.eq score = false)) ∨
    (o = true ∧ ∃ j : Nat, 1 ≤ j ∧ j ≤ (q.filter (·.sc.eq score)).length ∧
      z.maxScoreRank score o = .ok (((q.filter (·.sc.lt score)).length : Int) + j - 1)) := by
  have hsm := R.small
  have hf1 := List.length_filter_le (·.sc.le score) q
  have hle : (q.filter (·.sc.lt score)).length + (q.filter (·.sc.eq score)).length ≤ q.length := by
    clear hsm hf1 R O
    induction q with
    | nil => simp
    | cons e q ih =>
      simp only [List.filter_cons]
      have : ¬ (e.sc.lt score = true ∧ e.sc.eq score = true) := by
        simp only [F64.lt_iff, F64.eq_iff]; omega
      cases h1 : e.sc.lt score <;> cases h2 : e.sc.eq score <;> simp_all <;> omega
  unfold maxScoreRank
  rw [hi, maxLoop_gloop]
  rcases scoreLoop_eq R O score o with ⟨x, h1, h2⟩ | ⟨h0, x, j, h1, h2, h3⟩
  · left
    refine ⟨?_, h2⟩
    simp only [h1, bind, Except.bind, Except.map, Bool.false_eq_true, if_false]
    rw [ofUint_small (by omega)]
  · right
    refine ⟨h0, j, h1, h2, ?_⟩
    simp only [h3, bind, Except.bind, Except.map, Bool.false_eq_true, if_false, if_true]
    rw [usub_small (by omega) (by omega), ofUint_small (by omega)]
    congr 1; omega

/-- a member with (if asked) its score -/
def show1 (ext : Ext) (ws : Bool) (e : Elem) : List Bytes := e.v :: (if ws then [ext.formatFloat e.sc] else [])

theorem collectFwd_eq (ext : Ext) (R : Rep z q) (ws : Bool) : ∀ (k : Nat) (A B : List Elem), q = A ++ B → k ≤ B.length →
    collectFwd ext z.nodes ws k (B.head?.map (·.a)) = .ok ((B.take k).flatMap (show1 ext ws))
  | 0, _, _, _, _ => by simp [collectFwd]
  | k + 1, A, [], _, h => by simp at h
  | k + 1, A, e :: B, hq, h => by
    obtain ⟨nd, n1, n2, n3, _⟩ := R.load hq
    obtain ⟨l, l1, l2⟩ := R.next0 (P := A ++ [e]) (S := B) (by simp [hq])
    rw [cur_concat] at l1
    have ih := collectFwd_eq ext R ws k (A ++ [e]) B (by simp [hq]) (by simpa using h)
    simp only [List.head?_cons, Option.map_some, collectFwd, n1, l1, l2, ih, bind, Except.bind, n2, n3]
    cases ws <;> simp [show1]

theorem collectBwd_eq (ext : Ext) (R : Rep z q) (ws : Bool) : ∀ (k : Nat) (A B : List Elem), q = A ++ B → k ≤ A.length →
    collectBwd ext z.nodes ws k (A.getLast?.map (·.a)) = .ok ((A.reverse.take k).flatMap (show1 ext ws))
  | 0, _, _, _, _ => by simp [collectBwd]
  | k + 1, A, B, hq, h => by
    rcases nil_or_snoc A with rfl | ⟨A', e, rfl⟩
    · simp at h
    · obtain ⟨nd, n1, n2, n3, n4, _⟩ := R.load (A := A') (e := e) (B := B) (by simp [hq])
      have ih := collectBwd_eq ext R ws k A' (e :: B) (by simp [hq]) (by simpa using h)
      simp only [List.getLast?_concat, Option.map_some, collectBwd, n1, n4, ih, bind, Except.bind, n2, n3]
      cases ws <;> simp [show1]

theorem toUint_small {i : Int} (h1 : 0 ≤ i) (h2 : i < 2 ^ 63) : toUint i = i.toNat := by
  unfold toUint; omega

theorem normRange_bounds {len start stop a b : Int} (hlen : 0 ≤ len) (h : normRange len start stop = some (a, b)) : 0 ≤ a ∧ a ≤ b ∧ b < len := by
  unfold normRange at h
  simp only at h
  generalize hs : (if start < 0 then (if start + len < 0 then 0 else start + len) else start) = s at h
  generalize ht : (if stop < 0 then stop + len else stop) = t at h
  have hs0 : 0 ≤ s := by rw [← hs]; split <;> (try split) <;> omega
  by_cases hn : s > t ∨ s ≥ len
  · rw [if_pos hn] at h; cases h
  · rw [if_neg hn] at h
    simp only [Option.some.injEq, Prod.mk.injEq] at h
    obtain ⟨rfl, rfl⟩ := h
    split <;> omega

/-- the elements between two positions -/
def slice (q : List Elem) (a b : Int) : List Elem := (q.drop a.toNat).take (b - a + 1).toNat

theorem zRange_eq (ext : Ext) (R : Rep z q) (start stop : Int) (ws : Bool) : z.zRange ext start stop ws = .ok (
    match normRange q.length start stop with
    | none => []
    | some (a, b) => (slice q a b).flatMap (show1 ext ws)) := by
  have hsm := R.small
  unfold zRange
  rw [R.len]
  cases hn : normRange q.length start stop with
  | none => rfl
  | some ab =>
    obtain ⟨a, b⟩ := ab
    obtain ⟨h1, h2, h3⟩ := normRange_bounds (by omega) hn
    have hlt : a.toNat < q.length := by omega
    have hq : q = q.take a.toNat ++ q[a.toNat] :: q.drop (a.toNat + 1) := by
      rw [← List.drop_eq_getElem_cons hlt, List.take_append_drop]
    have hf := findElementByRank_eq R hq
    have hlen : (q.take a.toNat).length = a.toNat := by simp; omega
    rw [hlen] at hf
    simp only [bind, Except.bind]
    rw [toUint_small h1 (by omega), uadd_small (by omega), hf]
    have hc := collectFwd_eq ext R ws (b - a + 1).toNat (q.take a.toNat) (q.drop a.toNat) (List.take_append_drop _ _).symm (by simp; omega)
    rw [List.drop_eq_getElem_cons hlt] at hc
    simp only [List.head?_cons, Option.map_some] at hc
    simp only [hc, slice]
    rw [List.drop_eq_getElem_cons hlt]

theorem zRevRange_eq (ext : Ext) (R : Rep z q) (start stop : Int) (ws : Bool) : z.zRevRange ext start stop ws = .ok (
    match normRange q.length start stop with
    | none => []
    | some (a, b) => (slice q a b).reverse.flatMap (show1 ext ws)) := by
  have hsm := R.small
  unfold zRevRange
  rw [R.len]
  cases hn : normRange q.length start stop with
  | none => rfl
  | some ab =>
    obtain ⟨a, b⟩ := ab
    obtain ⟨h1, h2, h3⟩ := normRange_bounds (by omega) hn
    have hlt : b.toNat < q.length := by omega
    have hq : q = q.take b.toNat ++ q[b.toNat] :: q.drop (b.toNat + 1) := by
      rw [← List.drop_eq_getElem_cons hlt, List.take_append_drop]
    have hf := findElementByRank_eq R hq
    have hlen : (q.take b.toNat).length = b.toNat := by simp; omega
    rw [hlen] at hf
    simp only [bind, Except.bind]
    rw [toUint_small (by omega) (by omega), uadd_small (by omega), hf]
    have hc := collectBwd_eq ext R ws (b - a + 1).toNat (q.take b.toNat ++ [q[b.toNat]]) (q.drop (b.toNat + 1)) (by rw [List.append_assoc]; exact hq) (by simp; omega)
    simp only [List.getLast?_concat, Option.map_some] at hc
    simp only [hc, slice]
    congr 2
    have h5 : q.take b.toNat ++ [q[b.toNat]] = q.take (b.toNat + 1) := by simp
    rw [h5, List.take_reverse, List.reverse_inj]
    have h6 : (q.take (b.toNat + 1)).length - (b - a + 1).toNat = a.toNat := by simp; omega
    rw [h6, List.drop_take]
    congr 1; omega

end ZSL
end Godis
