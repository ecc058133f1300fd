import Verif.Proofs.ZHeap
/-! The skip list invariant and the walks over it. -/
namespace Godis
namespace ZSL

/-- a member of the sequence a skip list represents: node address, value, score, height -/
structure Elem where
  a : Nat
  v : Bytes
  sc : F64
  ht : Nat

/-- what level `i` of a node has to hold when `l` follows the node -/
def nxt (i : Nat) : List Elem → ZLevel
  | [] => ⟨none, 0⟩
  | e :: l => if i < e.ht then ⟨some e.a, 1⟩ else ⟨(nxt i l).forward, (nxt i l).span + 1⟩

/-- the address of the last node of a prefix (the head for the empty one) -/
def cur (A : List Elem) : Nat :=
  match A.getLast? with
  | none => 0
  | some e => e.a

/-- the last node of the prefix (if any) has level `i` -/
def Tall (i : Nat) (A : List Elem) : Prop := ∀ e, A.getLast? = some e → i < e.ht

/-- none has level `i` -/
def Short (i : Nat) (A : List Elem) : Prop := ∀ e ∈ A, e.ht ≤ i

theorem nxt_short {i : Nat} : ∀ {A : List Elem}, Short i A → ∀ B, nxt i (A ++ B) = ⟨(nxt i B).forward, A.length + (nxt i B).span⟩
  | [], _, B => by simp
  | e :: A, h, B => by
    have h1 : ¬ i < e.ht := Nat.not_lt.mpr (h e (by simp))
    have h2 := nxt_short (A := A) (fun x hx => h x (by simp [hx])) B
    simp only [List.cons_append, nxt, if_neg h1, h2, List.length_cons]
    congr 1; omega

theorem nxt_tall {i : Nat} {A : List Elem} {e : Elem} (h : Short i A) (he : i < e.ht) (B : List Elem) :
    nxt i (A ++ e :: B) = ⟨some e.a, A.length + 1⟩ := by
  rw [nxt_short h]; simp [nxt, he]

/-- the next tall element, if there is one -/
theorem short_or (i : Nat) : ∀ (B : List Elem), Short i B ∨ ∃ M e R, B = M ++ e :: R ∧ Short i M ∧ i < e.ht
  | [] => .inl (by intro e he; cases he)
  | b :: B => by
    by_cases hb : i < b.ht
    · exact .inr ⟨[], b, B, rfl, ⟨fun e (he : e ∈ []) => absurd he (by simp), hb⟩⟩
    · rcases short_or i B with h | ⟨M, e, R, h1, h2, h3⟩
      · refine .inl (fun e he => ?_)
        rcases List.mem_cons.mp he with rfl | he
        · omega
        · exact h e he
      · refine .inr ⟨b :: M, e, R, by simp [h1], fun e' he => ?_, h3⟩
        rcases List.mem_cons.mp he with rfl | he
        · omega
        · exact h2 e' he

theorem nxt_nil_of_short {i : Nat} {B : List Elem} (h : Short i B) : nxt i B = ⟨none, B.length⟩ := by
  have := nxt_short h []
  simpa [nxt] using this

theorem nxt_span_le (i : Nat) : ∀ B, (nxt i B).span ≤ B.length
  | [] => by simp [nxt]
  | e :: B => by
    have := nxt_span_le i B
    simp only [nxt]; split <;> simp; omega

theorem nxt_forward_mem {i : Nat} : ∀ {B : List Elem} {y}, (nxt i B).forward = some y → ∃ e ∈ B, e.a = y
  | [], y, h => by cases h
  | e :: B, y, h => by
    simp only [nxt] at h
    split at h
    · exact ⟨e, by simp, by simpa using h⟩
    · obtain ⟨e', h1, h2⟩ := nxt_forward_mem h
      exact ⟨e', by simp [h1], h2⟩

theorem nxt_not_short {i : Nat} : ∀ {C : List Elem}, ¬ Short i C → ∀ X Y, nxt i (C ++ X) = nxt i (C ++ Y) := by
  intro C h X Y
  rcases short_or i C with h' | ⟨M, e, R, h1, h2, h3⟩
  · exact absurd h' h
  · rw [h1]; simp only [List.append_assoc, List.cons_append]
    rw [nxt_tall h2 h3, nxt_tall h2 h3]

@[simp] theorem cur_nil : cur [] = 0 := rfl
@[simp] theorem cur_concat (A : List Elem) (e : Elem) : cur (A ++ [e]) = e.a := by simp [cur]
theorem cur_append {A B : List Elem} (h : B ≠ []) : cur (A ++ B) = cur B := by
  simp [cur, List.getLast?_append]
  cases hB : B.getLast? with
  | none => exact absurd (List.getLast?_eq_none_iff.mp hB) h
  | some e => simp

theorem tall_nil (i : Nat) : Tall i [] := by intro e he; cases he
theorem tall_concat {i : Nat} {A : List Elem} {e : Elem} : Tall i (A ++ [e]) ↔ i < e.ht := by
  simp [Tall]
theorem tall_append {i : Nat} {A B : List Elem} (h : B ≠ []) : Tall i (A ++ B) ↔ Tall i B := by
  simp only [Tall, List.getLast?_append]
  cases hB : B.getLast? with
  | none => exact absurd (List.getLast?_eq_none_iff.mp hB) h
  | some e => simp

/-- the skip list `z` represents the sequence `q` -/
structure Rep (z : ZSL) (q : List Elem) : Prop where
  head : stat z.nodes 0 = some ([], 0, none, 32)
  top : ∀ i, z.level ≤ i → i < 32 → ∃ sp, lev z.nodes 0 i = some ⟨none, sp⟩
  links : ∀ A B, q = A ++ B → ∀ i, i < z.level → Tall i A → lev z.nodes (cur A) i = some (nxt i B)
  node : ∀ A e B, q = A ++ e :: B → stat z.nodes e.a = some (e.v, e.sc, A.getLast?.map (·.a), e.ht)
  ne0 : ∀ e ∈ q, e.a ≠ 0
  nodup : (q.map (·.a)).Nodup
  ht : ∀ e ∈ q, 1 ≤ e.ht ∧ e.ht ≤ z.level
  level : 1 ≤ z.level ∧ z.level ≤ 32
  len : z.length = q.length
  small : q.length < 2 ^ 63
  room : q.length < z.nodes.length

theorem rep_empty : Rep ZSL.empty [] where
  head := rfl
  top := by
    intro i _ hi
    refine ⟨0, ?_⟩
    show (List.replicate 32 (⟨none, 0⟩ : ZLevel))[i]? = _
    rw [List.getElem?_replicate, if_pos hi]
  links := by
    intro A B h i hi _
    obtain ⟨rfl, rfl⟩ := List.append_eq_nil_iff.mp h.symm
    simp only [empty] at hi
    have : i = 0 := by omega
    subst this; rfl
  node := by intro A e B h; simp at h
  ne0 := by simp
  nodup := by simp
  ht := by simp
  level := by simp [empty]
  len := rfl
  small := by simp
  room := by simp [empty]

variable {z : ZSL} {q : List Elem}

theorem cur_mem {A : List Elem} : cur A = 0 ∨ ∃ e ∈ A, e.a = cur A := by
  unfold cur
  cases h : A.getLast? with
  | none => exact .inl rfl
  | some e => exact .inr ⟨e, List.mem_of_getLast? h, rfl⟩

/-- different prefixes end at different nodes -/
theorem Rep.cur_inj (R : Rep z q) {A B C D : List Elem} (h1 : q = A ++ B) (h2 : q = C ++ D) (h : cur A = cur C) : A = C := by
  have aux : ∀ {A B M : List Elem}, q = A ++ M ++ B → M ≠ [] → cur A ≠ cur (A ++ M) := by
    intro A B M hq hM hc
    rw [cur_append hM] at hc
    obtain ⟨M', e, rfl⟩ : ∃ M' e, M = M' ++ [e] := ⟨M.dropLast, M.getLast hM, (List.dropLast_concat_getLast hM).symm⟩
    rw [cur_concat] at hc
    rcases cur_mem (A := A) with h0 | ⟨x, hx, hxe⟩
    · exact R.ne0 e (by rw [hq]; simp) (by omega)
    · have := R.nodup
      rw [hq] at this
      simp only [List.map_append, List.nodup_append, List.mem_append, List.append_assoc] at this
      exact this.2.2 x.a (List.mem_map_of_mem hx) e.a (.inr (.inl (by simp))) (by omega)
  rcases Nat.lt_trichotomy A.length C.length with hl | hl | hl
  · obtain ⟨M, hM⟩ : ∃ M, C = A ++ M := by
      rw [h1] at h2
      rcases List.append_eq_append_iff.mp h2 with ⟨M, h, _⟩ | ⟨M, h, _⟩
      · exact ⟨M, h⟩
      · rw [h] at hl; simp at hl; omega
    subst hM
    exact absurd h (aux h2 (by rintro rfl; simp at hl))
  · rw [h1] at h2; exact (List.append_inj h2 hl).1
  · obtain ⟨M, hM⟩ : ∃ M, A = C ++ M := by
      rw [h1] at h2
      rcases List.append_eq_append_iff.mp h2 with ⟨M, h, _⟩ | ⟨M, h, _⟩
      · rw [h] at hl; simp at hl; omega
      · exact ⟨M, h⟩
    subst hM
    exact absurd h.symm (aux h1 (by rintro rfl; simp at hl))

/-- the generic inner loop: `c y r` says whether to move to `y` at position `r` (`some`), and whether the
search ends there (`some true`) -/
def gwalk (h : List ZNode) (i : Nat) (c : Nat → Nat → Go (Option Bool)) : (fuel : Nat) → (x rank : Nat) → Go (Nat × Nat × Bool)
  | 0, _, _ => .error .diverge
  | fuel + 1, x, rank => do
    let l ← level? h x i
    match l.forward with
    | none => .ok (x, rank, false)
    | some y => do
      match ← c y (uadd rank l.span) with
      | none => .ok (x, rank, false)
      | some false => gwalk h i c fuel y (uadd rank l.span)
      | some true => .ok (y, uadd rank l.span, true)

/-- the generic outer loop -/
def gloop (h : List ZNode) (c : Nat → Nat → Go (Option Bool)) : (k x rank : Nat) → Go (Nat × Nat × Bool)
  | 0, x, rank => .ok (x, rank, false)
  | i + 1, x, rank => do
    let (x, rank, b) ← gwalk h i c (h.length + 1) x rank
    if b then .ok (x, rank, true) else gloop h c i x rank

/-- the verdict at a position: first `p` elements are passed, the next `k` end the search -/
def region (p k n : Nat) : Option Bool := if n < p then some false else if n < p + k then some true else none

theorem uadd_small {a b : Nat} (h : a + b < 2 ^ 64) : uadd a b = a + b := Nat.mod_eq_of_lt h

theorem gwalk_eq (R : Rep z q) {i : Nat} (hi : i < z.level) {P Q S : List Elem} (hq : q = P ++ (Q ++ S))
    {c : Nat → Nat → Go (Option Bool)} (hc : ∀ A e B, q = A ++ e :: B → c e.a (A.length + 1) = .ok (region P.length Q.length A.length)) :
    ∀ (fuel : Nat) (A M : List Elem), P = A ++ M → Tall i A → M.length < fuel →
      (∃ A' M', M = A' ++ M' ∧ Tall i (A ++ A') ∧ Short i M' ∧ Short i Q ∧
        gwalk z.nodes i c fuel (cur A) A.length = .ok (cur (A ++ A'), (A ++ A').length, false)) ∨
      (∃ Q1 e Q2, Q = Q1 ++ e :: Q2 ∧ gwalk z.nodes i c fuel (cur A) A.length = .ok (e.a, P.length + Q1.length + 1, true)) := by
  intro fuel
  induction fuel with
  | zero => intro A M _ _ h; omega
  | succ fuel ih =>
    intro A M hP hT hf
    have hqA : q = A ++ (M ++ (Q ++ S)) := by rw [hq, hP, List.append_assoc]
    have hlev := R.links A _ hqA i hi hT
    simp only [gwalk, level?_eq hlev, bind, Except.bind]
    have hsmall := R.small
    rcases short_or i (M ++ (Q ++ S)) with hs | ⟨B, e, X, hB, hBs, he⟩
    · refine .inl ⟨[], M, rfl, by simpa using hT, fun e he => hs e (by simp [he]), fun e he => hs e (by simp [he]), ?_⟩
      rw [nxt_nil_of_short hs]; simp
    · rw [hB, nxt_tall hBs he]
      have hqe : q = (A ++ B) ++ e :: X := by rw [hqA, hB]; simp
      have hpos : A.length + (B.length + 1) = (A ++ B).length + 1 := by simp; omega
      have hlt : (A ++ B).length + 1 < 2 ^ 64 := by
        have : q.length = (A ++ B).length + 1 + X.length := by rw [hqe]; simp; omega
        omega
      simp only
      rw [uadd_small (by omega), hpos, hc _ _ _ hqe]
      have hPl : P.length = A.length + M.length := by rw [hP]; simp
      have hABl : (A ++ B).length = A.length + B.length := by simp
      simp only [region]
      by_cases h1 : (A ++ B).length < P.length
      · -- move on
        rw [if_pos h1]
        obtain ⟨M1, hM1⟩ : ∃ M1, M = B ++ e :: M1 := by
          rcases List.append_eq_append_iff.mp hB with ⟨Y, h3, h4⟩ | ⟨Y, h3, h4⟩
          · have := congrArg List.length h3; simp at this; omega
          · cases Y with
            | nil => simp at h3; rw [h3] at hPl; omega
            | cons y Y =>
              simp only [List.cons_append, List.cons.injEq] at h4
              exact ⟨Y, by rw [h3, h4.1]⟩
        have hcur : e.a = cur (A ++ B ++ [e]) := (cur_concat _ _).symm
        have hlen : (A ++ B).length + 1 = (A ++ B ++ [e]).length := by simp only [List.length_append, List.length_cons, List.length_nil]
        simp only
        rw [hcur, hlen]
        rcases ih (A ++ B ++ [e]) M1 (by rw [hP, hM1]; simp) (tall_concat.mpr he) (by rw [hM1] at hf; simp at hf; omega) with
          ⟨A', M', g1, g2, g3, g4, g5⟩ | ⟨Q1, e', Q2, g1, g2⟩
        · refine .inl ⟨B ++ e :: A', M', by rw [hM1, g1]; simp, ?_, g3, g4, ?_⟩
          · have : A ++ (B ++ e :: A') = A ++ B ++ [e] ++ A' := by simp
            rw [this]; exact g2
          · have : A ++ (B ++ e :: A') = A ++ B ++ [e] ++ A' := by simp
            rw [g5, this]
        · exact .inr ⟨Q1, e', Q2, g1, g2⟩
      · rw [if_neg h1]
        by_cases h2 : (A ++ B).length < P.length + Q.length
        · -- found
          rw [if_pos h2]
          obtain ⟨Q1, hQ1, Q2, hQ2⟩ : ∃ Q1, B = M ++ Q1 ∧ ∃ Q2, Q = Q1 ++ e :: Q2 := by
            rcases List.append_eq_append_iff.mp hB with ⟨Y, h3, h4⟩ | ⟨Y, h3, h4⟩
            · refine ⟨Y, h3, ?_⟩
              rcases List.append_eq_append_iff.mp h4 with ⟨Z, h5, h6⟩ | ⟨Z, h5, h6⟩
              · have := congrArg List.length h3; have := congrArg List.length h5; simp at *; omega
              · cases Z with
                | nil => have := congrArg List.length h3; have := congrArg List.length h5; simp at *; omega
                | cons y Z =>
                  simp only [List.cons_append, List.cons.injEq] at h6
                  exact ⟨Z, by rw [h5, h6.1]⟩
            · have : Y = [] := by
                have : M.length = B.length + Y.length := by rw [h3]; simp
                exact List.length_eq_zero_iff.mp (by omega)
              subst this
              simp only [List.append_nil, List.nil_append] at h3 h4
              refine ⟨[], by simp [h3], ?_⟩
              cases Q with
              | nil => simp at h2; omega
              | cons q0 Q => simp only [List.cons_append, List.cons.injEq] at h4; exact ⟨Q, by simp [h4.1]⟩
          refine .inr ⟨Q1, e, Q2, hQ2, ?_⟩
          have : (A ++ B).length = P.length + Q1.length := by have := congrArg List.length hQ1; simp at this; omega
          simp only [this]
        · rw [if_neg h2]
          refine .inl ⟨[], M, rfl, by simpa using hT, ?_, ?_, by simp⟩
          · rcases List.append_eq_append_iff.mp hB with ⟨Y, h3, h4⟩ | ⟨Y, h3, h4⟩
            · intro x hx; exact hBs x (by rw [h3]; simp [hx])
            · have : Y = [] := by
                have : M.length = B.length + Y.length := by rw [h3]; simp
                exact List.length_eq_zero_iff.mp (by omega)
              subst this
              simp at h3; rw [h3]; exact hBs
          · have hB' : (M ++ Q) ++ S = B ++ e :: X := by rw [← hB]; simp
            rcases List.append_eq_append_iff.mp hB' with ⟨Y, h3, h4⟩ | ⟨Y, h3, h4⟩
            · intro x hx; exact hBs x (by rw [h3]; simp [hx])
            · have : Y = [] := by
                have : (M ++ Q).length = B.length + Y.length := by rw [h3]; simp
                simp at this
                exact List.length_eq_zero_iff.mp (by omega)
              subst this
              simp at h3; intro x hx; exact hBs x (by rw [← h3]; simp [hx])

/-- where a descent stands at level `i` when everything in `P` is before the target -/
def Stop (i : Nat) (P : List Elem) (A : List Elem) : Prop := ∃ A', P = A ++ A' ∧ Short i A' ∧ Tall i A

theorem Stop.unique {i : Nat} {P A C : List Elem} (h1 : Stop i P A) (h2 : Stop i P C) : A = C := by
  have aux : ∀ {A C X : List Elem}, Stop i P A → C = A ++ X → Stop i P C → X = [] := by
    rintro A C X ⟨A', e1, e2, e3⟩ rfl ⟨C', f1, f2, f3⟩
    cases hX : X.getLast? with
    | none => exact List.getLast?_eq_none_iff.mp hX
    | some e =>
      exfalso
      have hne : X ≠ [] := by rintro rfl; cases hX
      have h1 := (tall_append hne).mp f3 e hX
      rw [e1, List.append_assoc] at f1
      have h2 := List.append_cancel_left f1
      have := e2 e (by rw [h2]; simp [List.mem_of_getLast? hX])
      omega
  have h1' := h1; have h2' := h2
  obtain ⟨A', e1, _⟩ := h1'
  obtain ⟨C', f1, _⟩ := h2'
  rw [e1] at f1
  rcases List.append_eq_append_iff.mp f1 with ⟨X, h, _⟩ | ⟨X, h, _⟩
  · have := aux h1 h h2; simp [h, this]
  · have := aux h2 h h1; simp [h, this]

end ZSL
end Godis
