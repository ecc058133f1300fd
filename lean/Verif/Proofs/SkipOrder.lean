import Verif.Proofs.SkipDelete
/-! The order of the elements and the searches by score. -/
namespace Godis

theorem bytesLt_irrefl : ∀ a : Bytes, bytesLt a a = false
  | [] => rfl
  | x :: a => by simp [bytesLt, bytesLt_irrefl a]

theorem bytesLt_iff : ∀ a b : Bytes, bytesLt a b = true ↔ a < b
  | [], [] => by simp [bytesLt]
  | [], _ :: _ => by simp [bytesLt]
  | _ :: _, [] => by simp [bytesLt]
  | x :: a, y :: b => by
    rw [List.cons_lt_cons_iff, ← bytesLt_iff a b]
    simp [bytesLt]

theorem bytesLt_trans : ∀ {a b c : Bytes}, bytesLt a b = true → bytesLt b c = true → bytesLt a c = true
  | [], [], _, h, _ => by simp [bytesLt] at h
  | [], _ :: _, [], _, h => by simp [bytesLt] at h
  | [], _ :: _, _ :: _, _, _ => by simp [bytesLt]
  | _ :: _, [], _, h, _ => by simp [bytesLt] at h
  | _ :: _, _ :: _, [], _, h => by simp [bytesLt] at h
  | x :: a, y :: b, w :: c, h1, h2 => by
    simp only [bytesLt, Bool.or_eq_true, decide_eq_true_eq, Bool.and_eq_true, beq_iff_eq] at *
    rcases h1 with h1 | ⟨rfl, h1⟩
    · rcases h2 with h2 | ⟨rfl, h2⟩
      · left; exact UInt8.lt_trans h1 h2
      · left; exact h1
    · rcases h2 with h2 | ⟨rfl, h2⟩
      · left; exact h2
      · right; exact ⟨rfl, bytesLt_trans h1 h2⟩

theorem bytesLt_total : ∀ {a b : Bytes}, bytesLt a b = false → a ≠ b → bytesLt b a = true
  | [], [], _, h => absurd rfl h
  | [], _ :: _, h, _ => by simp [bytesLt] at h
  | _ :: _, [], _, _ => by simp [bytesLt]
  | x :: a, y :: b, h1, h2 => by
    simp only [bytesLt, Bool.or_eq_false_iff, decide_eq_false_iff_not, Bool.and_eq_false_iff, beq_eq_false_iff_ne] at h1
    simp only [bytesLt, Bool.or_eq_true, decide_eq_true_eq, Bool.and_eq_true, beq_iff_eq]
    obtain ⟨h3, h4⟩ := h1
    rcases h4 with h4 | h4
    · left
      rcases UInt8.lt_or_lt_of_ne h4 with h | h
      · exact absurd h h3
      · exact h
    · by_cases hxy : x = y
      · subst hxy
        right; exact ⟨rfl, bytesLt_total h4 (by rintro rfl; exact h2 rfl)⟩
      · left
        rcases UInt8.lt_or_lt_of_ne hxy with h | h
        · exact absurd h h3
        · exact h

theorem bytesLt_asymm {a b : Bytes} (h : bytesLt a b = true) : bytesLt b a = false := by
  cases h' : bytesLt b a with
  | false => rfl
  | true => have := bytesLt_trans h h'; rw [bytesLt_irrefl] at this; cases this

namespace F64

theorem lt_iff {a b : F64} : a.lt b = true ↔ a.isNaN = false ∧ b.isNaN = false ∧ a.key < b.key := by
  simp [lt, and_assoc]
theorem le_iff {a b : F64} : a.le b = true ↔ a.isNaN = false ∧ b.isNaN = false ∧ a.key ≤ b.key := by
  simp [le, and_assoc]
theorem eq_iff {a b : F64} : a.eq b = true ↔ a.isNaN = false ∧ b.isNaN = false ∧ a.key = b.key := by
  simp [eq, and_assoc]

end F64

namespace ZSL

/-- the element is before (score, value) -/
def bf (score : F64) (value : Bytes) (e : Elem) : Bool := e.sc.lt score || (e.sc.eq score && bytesLt e.v value)

/-- strictly ascending -/
def Sorted (q : List Elem) : Prop := q.Pairwise (fun a b => bf b.sc b.v a = true)

/-- a sequence of members of a sorted set: numbers, strictly ascending, each member once -/
structure Ordered (q : List Elem) : Prop where
  num : ∀ e ∈ q, e.sc.isNaN = false
  sorted : Sorted q
  once : (q.map (·.v)).Nodup

theorem bf_iff {score : F64} {value : Bytes} {e : Elem} : bf score value e = true ↔
    e.sc.isNaN = false ∧ score.isNaN = false ∧ (e.sc.key < score.key ∨ e.sc.key = score.key ∧ bytesLt e.v value = true) := by
  simp only [bf, Bool.or_eq_true, Bool.and_eq_true, F64.lt_iff, F64.eq_iff]
  constructor
  · rintro (⟨h1, h2, h3⟩ | ⟨⟨h1, h2, h3⟩, h4⟩)
    · exact ⟨h1, h2, .inl h3⟩
    · exact ⟨h1, h2, .inr ⟨h3, h4⟩⟩
  · rintro ⟨h1, h2, h3 | ⟨h3, h4⟩⟩
    · exact .inl ⟨h1, h2, h3⟩
    · exact .inr ⟨⟨h1, h2, h3⟩, h4⟩

theorem bf_trans {score : F64} {value : Bytes} {a b : Elem} (h1 : bf b.sc b.v a = true) (h2 : bf score value b = true) : bf score value a = true := by
  rw [bf_iff] at *
  obtain ⟨h3, h4, h5⟩ := h1
  obtain ⟨h6, h7, h8⟩ := h2
  refine ⟨h3, h7, ?_⟩
  rcases h5 with h5 | ⟨h5, h5'⟩ <;> rcases h8 with h8 | ⟨h8, h8'⟩
  · left; omega
  · left; omega
  · left; omega
  · right; exact ⟨by omega, bytesLt_trans h5' h8'⟩

theorem bf_irrefl (e : Elem) : bf e.sc e.v e = false := by
  cases h : bf e.sc e.v e with
  | false => rfl
  | true =>
    rw [bf_iff] at h
    obtain ⟨_, _, h | ⟨_, h⟩⟩ := h
    · omega
    · rw [bytesLt_irrefl] at h; cases h

theorem bf_total {a b : Elem} (ha : a.sc.isNaN = false) (hb : b.sc.isNaN = false) (hne : a.v ≠ b.v) (h : bf b.sc b.v a = false) : bf a.sc a.v b = true := by
  rw [bf_iff]
  refine ⟨hb, ha, ?_⟩
  have h' : ¬ bf b.sc b.v a = true := by simp [h]
  rw [bf_iff] at h'
  rcases Int.lt_trichotomy b.sc.key a.sc.key with h1 | h1 | h1
  · left; exact h1
  · right
    refine ⟨h1, ?_⟩
    apply bytesLt_total
    · cases hl : bytesLt a.v b.v with
      | false => rfl
      | true => exact absurd ⟨ha, hb, .inr ⟨by omega, hl⟩⟩ h'
    · exact hne
  · exact absurd ⟨ha, hb, .inl h1⟩ h'

/-- a monotone condition cuts a sorted sequence in two -/
theorem cut {q : List Elem} (hs : Sorted q) {c : Elem → Bool} (hc : ∀ a b, bf b.sc b.v a = true → c b = true → c a = true) :
    (∀ e ∈ q.takeWhile c, c e = true) ∧ (∀ e ∈ q.dropWhile c, c e = false) := by
  induction q with
  | nil => simp
  | cons x q ih =>
    obtain ⟨h1, h2⟩ := List.pairwise_cons.mp hs
    cases hx : c x with
    | true =>
      simp only [List.takeWhile_cons, hx, if_true, List.dropWhile_cons]
      obtain ⟨h3, h4⟩ := ih h2
      refine ⟨?_, h4⟩
      intro e he
      rcases List.mem_cons.mp he with rfl | he
      · exact hx
      · exact h3 e he
    | false =>
      simp only [List.takeWhile_cons, hx, List.dropWhile_cons]
      refine ⟨by simp, ?_⟩
      intro e he
      simp only [Bool.false_eq_true, if_false] at he
      rcases List.mem_cons.mp he with rfl | he
      · exact hx
      · cases hce : c e with
        | false => rfl
        | true => rw [hc x e (h1 e he) hce] at hx; cases hx

theorem cut_bf {q : List Elem} (hs : Sorted q) (score : F64) (value : Bytes) :
    q = q.takeWhile (bf score value) ++ q.dropWhile (bf score value) ∧
    (∀ e ∈ q.takeWhile (bf score value), bf score value e = true) ∧ (∀ e ∈ q.dropWhile (bf score value), bf score value e = false) :=
  ⟨List.takeWhile_append_dropWhile.symm, cut hs (fun _ _ h1 h2 => bf_trans h1 h2)⟩

theorem Ordered.sub {q : List Elem} (h : Ordered q) {q'} (hs : q'.Sublist q) : Ordered q' :=
  ⟨fun e he => h.num e (hs.subset he), h.sorted.sublist hs, h.once.sublist (hs.map _)⟩

/-- a new element put at its place keeps the order -/
theorem Ordered.place {P S : List Elem} {n : Elem} (h : Ordered (P ++ S)) (hn : n.sc.isNaN = false) (hv : ∀ e ∈ P ++ S, e.v ≠ n.v)
    (hP : ∀ e ∈ P, bf n.sc n.v e = true) (hS : ∀ e ∈ S, bf n.sc n.v e = false) : Ordered (P ++ n :: S) := by
  have hs := h.sorted
  refine ⟨?_, ?_, ?_⟩
  · intro e he
    rcases List.mem_append.mp he with he | he
    · exact h.num e (by simp [he])
    · rcases List.mem_cons.mp he with rfl | he
      · exact hn
      · exact h.num e (by simp [he])
  · unfold Sorted at *
    rw [List.pairwise_append] at hs ⊢
    refine ⟨hs.1, List.pairwise_cons.mpr ⟨fun e he => ?_, hs.2.1⟩, ?_⟩
    · exact bf_total (h.num e (by simp [he])) hn (hv e (by simp [he])) (hS e he)
    · intro a ha b hb
      rcases List.mem_cons.mp hb with rfl | hb
      · exact hP a ha
      · exact hs.2.2 a ha b hb
  · have ho := h.once
    simp only [List.map_append, List.map_cons, List.nodup_append, List.nodup_cons] at ho ⊢
    refine ⟨ho.1, ⟨?_, ho.2.1⟩, ?_⟩
    · intro hm
      obtain ⟨e, he, hev⟩ := List.mem_map.mp hm
      exact hv e (by simp [he]) hev
    · intro a ha b hb
      rcases List.mem_cons.mp hb with rfl | hb
      · rintro rfl
        obtain ⟨e, he, hev⟩ := List.mem_map.mp ha
        exact hv e (by simp [he]) hev
      · exact ho.2.2 a ha b hb

/-- in an ordered sequence the elements around one are before and after it -/
theorem Ordered.around {P S : List Elem} {n : Elem} (h : Ordered (P ++ n :: S)) :
    (∀ e ∈ P, bf n.sc n.v e = true) ∧ (∀ e ∈ n :: S, bf n.sc n.v e = false) := by
  have hs := h.sorted
  unfold Sorted at hs
  rw [List.pairwise_append] at hs
  obtain ⟨_, h2, h3⟩ := hs
  refine ⟨fun e he => h3 e he n (by simp), fun e he => ?_⟩
  rcases List.mem_cons.mp he with rfl | he
  · exact bf_irrefl _
  · have h4 := (List.pairwise_cons.mp h2).1 e he
    cases h5 : bf n.sc n.v e with
    | false => rfl
    | true => have := bf_trans h4 h5; rw [bf_irrefl] at this; cases this

variable {z : ZSL} {q : List Elem}

theorem short_nil (i : Nat) : Short i [] := by intro e he; cases he

/-- `delete` finds an element at the first two positions -/
theorem deleteDescent_eq (R : Rep z q) {P S : List Elem} (hq : q = P ++ S) (hP1 : P.length ≤ 1) {score : F64} {value : Bytes}
    (hP : ∀ e ∈ P, bf score value e = true) (hS : ∀ e ∈ S, bf score value e = false) :
    ∀ (k : Nat) (A M : List Elem) (u : Nat → Option Nat), k + 1 ≤ z.level → P = A ++ M → Tall k A →
      ∃ u', deleteDescent z.nodes score value (k + 1) (cur A) u = .ok (cur P, u') ∧
        (∀ i < k + 1, ∃ A', Stop i P A' ∧ u' i = some (cur A')) := by
  have step : ∀ (k : Nat) (A M : List Elem) (u : Nat → Option Nat), k + 1 ≤ z.level → P = A ++ M → Tall k A →
      ∃ A' M', M = A' ++ M' ∧ Tall k (A ++ A') ∧ Short k M' ∧
        deleteDescent z.nodes score value (k + 1) (cur A) u = deleteDescent z.nodes score value k (cur (A ++ A')) (upd u k (some (cur (A ++ A')))) := by
    intro k A M u hk hPA hT
    have hqA : q = A ++ (M ++ S) := by rw [hq, hPA]; simp
    have hlev := R.links A _ hqA k (by omega) hT
    rcases short_or k (M ++ S) with hs | ⟨B, e, X, hB, hBs, he⟩
    · refine ⟨[], M, rfl, by simpa using hT, fun e he => hs e (by simp [he]), ?_⟩
      conv => lhs; unfold deleteDescent
      simp only [level?_eq hlev, nxt_nil_of_short hs, bind, Except.bind, List.append_nil]
    · have hqe : q = (A ++ B) ++ e :: X := by rw [hqA, hB]; simp
      obtain ⟨nd, n1, n2, n3, _⟩ := R.load hqe
      have hbe : before nd score value = bf score value e := by simp [before, bf, n2, n3]
      rcases split4 (e := e) hB with ⟨C, c1, c2⟩ | ⟨C, c1, c2⟩
      · -- the next tall node is in M: as P has at most one element, M = [e]
        have hl := congrArg List.length hPA
        have hl2 := congrArg List.length c1
        simp at hl hl2
        have hBn : B = [] := List.length_eq_zero_iff.mp (by omega)
        have hC : C = [] := List.length_eq_zero_iff.mp (by omega)
        subst hBn hC
        simp only [List.nil_append] at c1 hB
        refine ⟨[e], [], by simp [c1], tall_concat.mpr he, short_nil _, ?_⟩
        conv => lhs; unfold deleteDescent
        rw [hB] at hlev
        have hnx := nxt_tall (A := []) (short_nil _) he X
        simp only [List.nil_append] at hnx
        rw [hnx] at hlev
        simp only [level?_eq hlev, n1, bind, Except.bind, hbe, hP e (by rw [hPA, c1]; simp), if_true, cur_concat]
      · refine ⟨[], M, rfl, by simpa using hT, fun x hx => hBs x (by rw [c1]; simp [hx]), ?_⟩
        conv => lhs; unfold deleteDescent
        rw [hB, nxt_tall hBs he] at hlev
        simp only [level?_eq hlev, n1, bind, Except.bind, hbe, hS e (by rw [c2]; simp), List.append_nil, Bool.false_eq_true, if_false]
  have frame : ∀ (k x : Nat) (u u' : Nat → Option Nat) (y : Nat), deleteDescent z.nodes score value k x u = .ok (y, u') → ∀ i, k ≤ i → u' i = u i := by
    intro k
    induction k with
    | zero => intro x u u' y h i _; simp [deleteDescent] at h; rw [h.2]
    | succ k ih =>
      intro x u u' y h i hi
      simp only [deleteDescent, bind, Except.bind] at h
      split at h
      · cases h
      · split at h
        · have := ih _ _ _ _ h i (by omega)
          rw [this]; simp [upd, show i ≠ k by omega]
        · split at h
          · cases h
          · have := ih _ _ _ _ h i (by omega)
            rw [this]; simp [upd, show i ≠ k by omega]
  intro k
  induction k with
  | zero =>
    intro A M u hk hPA hT
    obtain ⟨A', M', h1, h2, h3, h4⟩ := step 0 A M u hk hPA hT
    have hM' : M' = [] := R.short0 (A := A ++ A') (B := S) (by rw [hq, hPA, h1]; simp) h3
    subst hM'
    have hA : A ++ A' = P := by rw [hPA, h1]; simp
    rw [hA] at h4 h2
    refine ⟨upd u 0 (some (cur P)), ?_, fun i hi => ?_⟩
    · rw [h4]; rfl
    · have : i = 0 := by omega
      subst this
      exact ⟨P, ⟨[], by simp, h3, h2⟩, by simp [upd]⟩
  | succ k ih =>
    intro A M u hk hPA hT
    obtain ⟨A', M', h1, h2, h3, h4⟩ := step (k + 1) A M u hk hPA hT
    obtain ⟨u', g1, g2⟩ := ih (A ++ A') M' (upd u (k + 1) (some (cur (A ++ A')))) (by omega) (by rw [hPA, h1]; simp) (h2.mono (by omega))
    refine ⟨u', by rw [h4]; exact g1, fun i hi => ?_⟩
    by_cases hik : i = k + 1
    · subst hik
      refine ⟨A ++ A', ⟨M', by rw [hPA, h1]; simp, h3, h2⟩, ?_⟩
      rw [frame _ _ _ _ _ g1 (k + 1) (by omega)]; simp [upd]
    · exact g2 i (by omega)

/-- the search for an element that is there stops just before it -/
theorem found {P S : List Elem} {e : Elem} (R : Rep z (P ++ e :: S)) :
    level? z.nodes (cur P) 0 = .ok (nxt 0 (e :: S)) ∧ (nxt 0 (e :: S)).forward = some e.a ∨ ¬ Tall 0 P := by
  by_cases hT : Tall 0 P
  · left
    have hl := R.level
    refine ⟨level?_eq (R.links P _ rfl 0 (by omega) hT), ?_⟩
    have := (R.ht e (by simp)).1
    simp [nxt, show 0 < e.ht by omega]
  · exact .inr hT

theorem Rep.tall0 (R : Rep z q) {P S : List Elem} (hq : q = P ++ S) : Tall 0 P := by
  intro e he
  have := (R.ht e (by rw [hq]; simp [List.mem_of_getLast? he])).1
  omega

theorem Rep.next0 (R : Rep z q) {P S : List Elem} (hq : q = P ++ S) :
    ∃ l, level? z.nodes (cur P) 0 = .ok l ∧ l.forward = S.head?.map (·.a) := by
  have hl := R.level
  refine ⟨nxt 0 S, level?_eq (R.links P S hq 0 (by omega) (R.tall0 hq)), ?_⟩
  cases S with
  | nil => rfl
  | cons s S =>
    have := (R.ht s (by rw [hq]; simp)).1
    simp [nxt, show 0 < s.ht by omega]

/-- two elements with the same score and value are the same -/
theorem eq_of_eq {e : Elem} {score : F64} {value : Bytes} (h1 : e.sc.eq score = true) (h2 : e.v = value) (f : Elem) :
    bf score value f = bf e.sc e.v f := by
  have hi : ∀ g, bf score value g = true ↔ bf e.sc e.v g = true := by
    intro g
    rw [F64.eq_iff] at h1
    rw [bf_iff, bf_iff, h1.2.2, ← h2]
    simp [h1.1, h1.2.1]
  have := hi f
  cases h3 : bf score value f <;> cases h4 : bf e.sc e.v f <;> simp_all

/-- `delete` at the first two positions -/
theorem delete_eq {P S : List Elem} {e : Elem} (R : Rep z (P ++ e :: S)) (O : Ordered (P ++ e :: S)) (hP1 : P.length ≤ 1) :
    ∃ z', z.delete e.sc e.v = .ok (z', 1) ∧ Rep z' (P ++ S) ∧ z'.nodes.length = z.nodes.length ∧ (∀ y, vs z'.nodes y = vs z.nodes y) ∧ z'.level ≤ z.level := by
  obtain ⟨h1, h2⟩ := O.around
  have hl := R.level
  obtain ⟨k, hk⟩ : ∃ k, z.level = k + 1 := ⟨z.level - 1, by omega⟩
  obtain ⟨u, u1, u2⟩ := deleteDescent_eq R rfl hP1 h1 h2 k [] P (fun _ => none) (by omega) rfl (tall_nil _)
  obtain ⟨z', d1, d2⟩ := deleteNode_eq R u (by rw [hk]; exact u2)
  obtain ⟨l, l1, l2⟩ := R.next0 (P := P) (S := e :: S) rfl
  obtain ⟨nd, n1, n2, n3, _⟩ := R.load (A := P) (B := S) rfl
  refine ⟨z', ?_, d2⟩
  have heq : e.sc.eq e.sc = true := by rw [F64.eq_iff]; have := O.num e (by simp); simp [this]
  unfold delete
  rw [hk]
  rw [cur_nil] at u1
  simp only [u1, l1, l2, bind, Except.bind, List.head?_cons, Option.map_some, n1, n2, n3, heq, beq_self_eq_true, Bool.and_self, if_true, d1]

/-- nothing is deleted when the element is not there and the search can be trusted -/
theorem delete_none (R : Rep z []) (score : F64) (value : Bytes) : z.delete score value = .ok (z, 0) := by
  have hl := R.level
  obtain ⟨k, hk⟩ : ∃ k, z.level = k + 1 := ⟨z.level - 1, by omega⟩
  obtain ⟨u, u1, u2⟩ := deleteDescent_eq R (P := []) (S := []) rfl (by simp) (score := score) (value := value) (by simp) (by simp) k [] [] (fun _ => none) (by omega) rfl (tall_nil _)
  obtain ⟨l, l1, l2⟩ := R.next0 (P := []) (S := []) rfl
  unfold delete
  rw [hk]
  rw [cur_nil] at u1 l1
  simp only [u1, l1, l2, bind, Except.bind, List.head?_nil, Option.map_none]

/-- changing the score of one element in place -/
theorem nxt_sc (i : Nat) (C : List Elem) (e : Elem) (sc : F64) (S : List Elem) : nxt i (C ++ { e with sc := sc } :: S) = nxt i (C ++ e :: S) := by
  induction C with
  | nil => rfl
  | cons c C ih => simp only [List.cons_append, nxt, ih]

theorem setScore_rep {P S : List Elem} {e : Elem} (R : Rep z (P ++ e :: S)) (sc : F64) :
    ∃ h, setScore z.nodes e.a sc = .ok h ∧ Rep { z with nodes := h } (P ++ { e with sc := sc } :: S) ∧ h.length = z.nodes.length ∧
      (∀ y, vs h y = if y = e.a then some (e.v, sc) else vs z.nodes y) := by
  have hst := R.node P e S rfl
  obtain ⟨h, b1, b2, b3, b4⟩ := setScore_eq hst sc
  refine ⟨h, b1, ?_, b2, ?_⟩
  · constructor
    · show stat h 0 = _
      rw [b4, if_neg (Ne.symm (R.ne0 e (by simp)))]; exact R.head
    · intro i h1 h2
      show ∃ sp, lev h 0 i = _
      rw [b3]; exact R.top i h1 h2
    · intro A B hAB i hi hT
      show lev h (cur A) i = _
      rw [b3]
      rcases split2' hAB with ⟨C, c1, c2⟩ | ⟨C, c1, c2⟩
      · rw [c2, nxt_sc]
        exact R.links A _ (by rw [c1]; simp) i hi hT
      · have hc : cur A = cur (P ++ e :: C) ∧ (Tall i A → Tall i (P ++ e :: C)) := by
          rw [c1]
          by_cases hC : C = []
          · subst hC
            rw [cur_concat, cur_concat, tall_concat, tall_concat]
            exact ⟨rfl, fun h => h⟩
          · rw [show P ++ ({ e with sc := sc } : Elem) :: C = (P ++ [{ e with sc := sc }]) ++ C by simp,
              show P ++ e :: C = (P ++ [e]) ++ C by simp, cur_append hC, cur_append hC, tall_append hC, tall_append hC]
            exact ⟨rfl, fun h => h⟩
        rw [hc.1]
        exact R.links _ _ (by rw [c2]; simp) i hi (hc.2 hT)
    · intro A f B hAB
      show stat h f.a = _
      rw [b4]
      rcases split3 hAB with ⟨C, c1, c2⟩ | ⟨rfl, rfl, rfl⟩ | ⟨C, c1, c2⟩
      · have hqf : P ++ e :: S = A ++ f :: (C ++ e :: S) := by rw [c1]; simp
        rw [if_neg ?_]
        · exact R.node _ _ _ hqf
        · intro hc
          have h5 := congrArg List.length (R.elem_inj hqf rfl hc)
          have h3 := congrArg List.length c1
          simp at h5 h3; omega
      · rw [if_pos rfl]
      · have hqf : P ++ e :: S = (P ++ e :: C) ++ f :: B := by rw [c2]; simp
        rw [if_neg ?_]
        · rw [R.node _ _ _ hqf, c1]
          cases hC : C.getLast? with
          | none => simp [List.getLast?_append, List.getLast?_cons, hC]
          | some g => simp [List.getLast?_append, List.getLast?_cons, hC]
        · intro hc
          have h5 := congrArg List.length (R.elem_inj hqf rfl hc)
          simp at h5
    · intro f hf
      rcases List.mem_append.mp hf with h | h
      · exact R.ne0 f (by simp [h])
      · rcases List.mem_cons.mp h with rfl | h
        · exact R.ne0 e (by simp)
        · exact R.ne0 f (by simp [h])
    · have := R.nodup; simpa using this
    · intro f hf
      rcases List.mem_append.mp hf with h | h
      · exact R.ht f (by simp [h])
      · rcases List.mem_cons.mp h with rfl | h
        · exact R.ht e (by simp)
        · exact R.ht f (by simp [h])
    · exact R.level
    · have := R.len; simpa using this
    · have := R.small; simpa using this
    · have := R.room
      show _ < h.length
      rw [b2]; simpa using this
  · intro y
    rw [vs_stat, b4, vs_stat]; split <;> rfl

/-- `updateScore` moves an element to its new place -/
theorem updateScore_eq {P S : List Elem} {e : Elem} (R : Rep z (P ++ e :: S)) (O : Ordered (P ++ e :: S)) (sc : F64) (hsc : sc.isNaN = false)
    (rng : Rng) {r} (hr : z.updateScore e.sc sc e.v rng = r) (hok : ∀ err, r ≠ .error err) :
    ∃ z' a ht P' S' rng', r = .ok (z', some a, rng') ∧ P ++ S = P' ++ S' ∧ Rep z' (P' ++ ⟨a, e.v, sc, ht⟩ :: S') ∧
      Ordered (P' ++ ⟨a, e.v, sc, ht⟩ :: S') ∧ (∀ f ∈ P', bf sc e.v f = true) ∧ (∀ f ∈ S', bf sc e.v f = false) ∧
      z.nodes.length ≤ z'.nodes.length ∧ (a = e.a ∨ a = z.nodes.length) ∧
      (∀ y, y ≠ e.a → y < z.nodes.length → vs z'.nodes y = vs z.nodes y) := by
  obtain ⟨h1, h2⟩ := O.around
  have hl := R.level
  have hsm := R.small
  obtain ⟨k, hk⟩ : ∃ k, z.level = k + 1 := ⟨z.level - 1, by omega⟩
  obtain ⟨u, u1, u2⟩ := searchDescent_eq R rfl h1 h2 k [] P (fun _ => none) (by omega) rfl (tall_nil _)
  obtain ⟨l, l1, l2⟩ := R.next0 (P := P) (S := e :: S) rfl
  obtain ⟨nd, n1, n2, n3, n4, _⟩ := R.load (A := P) (B := S) rfl
  obtain ⟨l', l1', l2'⟩ := R.next0 (P := P ++ [e]) (S := S) (by simp)
  rw [cur_concat] at l1'
  have heq : e.sc.eq e.sc = true := by rw [F64.eq_iff]; have := O.num e (by simp); simp [this]
  have OPS : Ordered (P ++ S) := O.sub (List.Sublist.append_left (List.sublist_cons_self _ _) _)
  have hvne : ∀ f ∈ P ++ S, f.v ≠ e.v := by
    have ho := O.once
    simp only [List.map_append, List.map_cons, List.nodup_append, List.nodup_cons] at ho
    intro f hf hc
    rcases List.mem_append.mp hf with h | h
    · exact ho.2.2 f.v (List.mem_map_of_mem h) e.v (by simp) hc
    · exact ho.2.1.1 (hc ▸ List.mem_map_of_mem h)
  rw [cur_nil] at u1
  -- the two neighbour tests
  have hb : ∃ b, (match nd.backward with
      | none => Except.ok true
      | some b => (do let nb ← ZSL.load z.nodes b; .ok (nb.score.lt sc) : Go Bool)) = .ok b ∧ (b = true → ∀ f ∈ P, bf sc e.v f = true) := by
    rw [n4]
    rcases nil_or_snoc P with rfl | ⟨P', p, rfl⟩
    · exact ⟨true, rfl, by simp⟩
    · obtain ⟨np, p1, p2, p3, _⟩ := R.load (A := P') (e := p) (B := e :: S) (by simp)
      refine ⟨p.sc.lt sc, by simp [p1, bind, Except.bind, p3], fun hlt f hf => ?_⟩
      have hp : bf sc e.v p = true := by simp [bf, hlt]
      rcases List.mem_append.mp hf with h | h
      · have hs := O.sorted
        unfold Sorted at hs
        rw [List.append_assoc, List.pairwise_append] at hs
        exact bf_trans (hs.2.2 f h p (by simp)) hp
      · simp at h; rw [h]; exact hp
  have hf : ∃ b, (match l'.forward with
      | none => Except.ok true
      | some b => (do let nb ← ZSL.load z.nodes b; .ok (sc.lt nb.score) : Go Bool)) = .ok b ∧ (b = true → ∀ f ∈ S, bf sc e.v f = false) := by
    rw [l2']
    cases S with
    | nil => exact ⟨true, rfl, by simp⟩
    | cons s S =>
      obtain ⟨np, p1, p2, p3, _⟩ := R.load (A := P ++ [e]) (e := s) (B := S) (by simp)
      refine ⟨sc.lt s.sc, by simp [p1, bind, Except.bind, p3], fun hlt f hf => ?_⟩
      have hs := O.sorted
      unfold Sorted at hs
      rw [show P ++ e :: s :: S = (P ++ [e]) ++ s :: S by simp, List.pairwise_append] at hs
      have hsf : f = s ∨ bf f.sc f.v s = true := by
        rcases List.mem_cons.mp hf with h | h
        · exact .inl h
        · exact .inr ((List.pairwise_cons.mp hs.2.1).1 f h)
      have hp : bf sc e.v s = false := by
        cases hc : bf sc e.v s with
        | false => rfl
        | true =>
          rw [bf_iff] at hc
          rw [F64.lt_iff] at hlt
          obtain ⟨_, _, h | ⟨h, _⟩⟩ := hc <;> omega
      rcases hsf with rfl | hsf
      · exact hp
      · cases hc : bf sc e.v f with
        | false => rfl
        | true => rw [bf_trans hsf hc] at hp; cases hp
  obtain ⟨bB, hb1, hb2⟩ := hb
  obtain ⟨bF, hf1, hf2⟩ := hf
  have hrun : z.updateScore e.sc sc e.v rng = (if bB && bF then do
        let h ← setScore z.nodes e.a sc
        .ok ({ z with nodes := h }, some e.a, rng)
      else do
        let z ← deleteNode z e.a u
        let (z, y) ← insert z sc e.v (rng 0)
        .ok (z, some y, fun i => rng (i + 1))) := by
    unfold updateScore
    rw [hk]
    simp only [u1, l1, l2, bind, Except.bind, List.head?_cons, Option.map_some, n1, n2, n3, heq, Bool.not_true, l1']
    simp only [bind, Except.bind] at hb1 hf1
    rw [if_neg (by simp)]
    cases hnb : nd.backward with
    | none =>
      rw [hnb] at hb1; cases hb1
      cases hlf : l'.forward with
      | none => rw [hlf] at hf1; cases hf1; rfl
      | some f =>
        rw [hlf] at hf1
        simp only at hf1 ⊢
        cases hlo : ZSL.load z.nodes f with
        | error e => rw [hlo] at hf1; cases hf1
        | ok nf => rw [hlo] at hf1; simp only [Except.ok.injEq] at hf1; simp only [hf1]
    | some b =>
      rw [hnb] at hb1
      simp only at hb1 ⊢
      cases hlob : ZSL.load z.nodes b with
      | error e => rw [hlob] at hb1; cases hb1
      | ok nb =>
        rw [hlob] at hb1; simp only [Except.ok.injEq] at hb1; simp only [hb1]
        cases hlf : l'.forward with
        | none => rw [hlf] at hf1; cases hf1; rfl
        | some f =>
          rw [hlf] at hf1
          simp only at hf1 ⊢
          cases hlo : ZSL.load z.nodes f with
          | error e => rw [hlo] at hf1; cases hf1
          | ok nf => rw [hlo] at hf1; simp only [Except.ok.injEq] at hf1; simp only [hf1]
  rw [hrun] at hr
  cases hbb : bB && bF with
  | true =>
    rw [hbb, if_pos rfl] at hr
    simp only [Bool.and_eq_true] at hbb
    obtain ⟨h, s1, s2, s3, s4⟩ := setScore_rep R sc
    simp only [s1, bind, Except.bind] at hr
    have o1 := hb2 hbb.1
    have o2 := hf2 hbb.2
    refine ⟨_, e.a, e.ht, P, S, _, hr.symm, rfl, s2, ?_, o1, o2, by show _ ≤ h.length; omega, .inl rfl, ?_⟩
    · exact OPS.place (n := { e with sc := sc }) hsc hvne o1 o2
    · intro y hy hlt
      show vs h y = _
      rw [s4, if_neg hy]
  | false =>
    rw [hbb, if_neg (by simp)] at hr
    obtain ⟨z1, d1, R1, d3, d4, d5⟩ := deleteNode_eq R u (by rw [hk]; exact u2)
    simp only [d1, bind, Except.bind] at hr
    obtain ⟨c1, c2, c3⟩ := cut_bf OPS.sorted sc e.v
    by_cases hlv : z1.level < 32
    · obtain ⟨z2, i1, i2, i3, i4, _⟩ := insert_eq R1 hlv c1 (score := sc) (value := e.v) c2 c3 (by simp at hsm ⊢; omega) (rng 0)
      simp only [i1] at hr
      refine ⟨z2, _, _, _, _, _, hr.symm, c1, i2, ?_, c2, c3, by omega, .inr d3, ?_⟩
      · exact Ordered.place (n := ⟨z1.nodes.length, e.v, sc, _⟩) (c1 ▸ OPS) hsc (fun f hf => hvne f (c1 ▸ hf)) c2 c3
      · intro y hy hlt
        rw [i4, if_neg (by omega), d4]
    · have := R1.level
      have h32 : z1.level = 32 := by omega
      unfold insert at hr
      rw [insertDescent_full h32] at hr
      simp only [bind, Except.bind] at hr
      exact absurd hr.symm (hok _)

/-- `updateScore` of an element that is not there does nothing -/
theorem updateScore_none (R : Rep z q) (O : Ordered q) {cs : F64} {v : Bytes} (hno : ∀ e ∈ q, e.v ≠ v) (sc : F64) (rng : Rng) :
    z.updateScore cs sc v rng = .ok (z, none, rng) := by
  have hl := R.level
  obtain ⟨k, hk⟩ : ∃ k, z.level = k + 1 := ⟨z.level - 1, by omega⟩
  obtain ⟨c1, c2, c3⟩ := cut_bf O.sorted cs v
  obtain ⟨u, u1, u2⟩ := searchDescent_eq R c1 c2 c3 k [] _ (fun _ => none) (by omega) rfl (tall_nil _)
  obtain ⟨l, l1, l2⟩ := R.next0 c1
  rw [cur_nil] at u1
  unfold updateScore
  rw [hk]
  simp only [u1, l1, l2, bind, Except.bind]
  cases hS : q.dropWhile (bf cs v) with
  | nil => simp
  | cons s S =>
    obtain ⟨nd, n1, n2, n3, _⟩ := R.load (A := q.takeWhile (bf cs v)) (e := s) (B := S) (by rw [← hS]; exact c1)
    have : s.v ≠ v := hno s (by rw [c1, hS]; simp)
    simp only [List.head?_cons, Option.map_some, n1, n2]
    rw [if_pos (by simp [this])]

end ZSL
end Godis
