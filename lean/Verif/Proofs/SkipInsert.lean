import Verif.Proofs.SkipWalk
/-! Insertion and removal keep the skip list a representation of the right sequence. -/
namespace Godis
namespace ZSL

variable {z : ZSL} {q : List Elem}

/-- value and score of a node -/
def vs (h : List ZNode) (y : Nat) : Option (Bytes × F64) := (h[y]?).map (fun n => (n.value, n.score))

theorem vs_stat (h : List ZNode) (y : Nat) : vs h y = (stat h y).map (fun t => (t.1, t.2.1)) := by
  unfold vs stat; cases h[y]? <;> rfl

theorem split2 {P S A B : List Elem} (h : P ++ S = A ++ B) :
    (∃ C, P = A ++ C ∧ B = C ++ S) ∨ (∃ C, C ≠ [] ∧ A = P ++ C ∧ S = C ++ B) := by
  rcases List.append_eq_append_iff.mp h with ⟨C, h1, h2⟩ | ⟨C, h1, h2⟩
  · cases C with
    | nil => exact .inl ⟨[], by simp_all, by simp_all⟩
    | cons c C => exact .inr ⟨c :: C, by simp, h1, h2⟩
  · exact .inl ⟨C, h1, h2⟩

theorem split2' {P S A B : List Elem} {n : Elem} (h : P ++ n :: S = A ++ B) :
    (∃ C, P = A ++ C ∧ B = C ++ n :: S) ∨ (∃ C, A = P ++ n :: C ∧ S = C ++ B) := by
  rcases split2 h with h1 | ⟨C, h1, h2, h3⟩
  · exact .inl h1
  · cases C with
    | nil => exact absurd rfl h1
    | cons c C =>
      simp only [List.cons_append, List.cons.injEq] at h3
      obtain ⟨rfl, rfl⟩ := h3
      exact .inr ⟨C, h2, rfl⟩

theorem split3 {P S A B : List Elem} {n e : Elem} (h : P ++ n :: S = A ++ e :: B) :
    (∃ C, P = A ++ e :: C ∧ B = C ++ n :: S) ∨ (A = P ∧ e = n ∧ B = S) ∨ (∃ C, A = P ++ n :: C ∧ S = C ++ e :: B) := by
  rcases split2' h with ⟨C, h1, h2⟩ | ⟨C, h1, h2⟩
  · cases C with
    | nil => simp at h1 h2; exact .inr (.inl ⟨h1.symm, h2.1, h2.2⟩)
    | cons c C => simp at h2; exact .inl ⟨C, by rw [h1, h2.1], h2.2⟩
  · exact .inr (.inr ⟨C, h1, h2⟩)

theorem split4 {P S A B : List Elem} {e : Elem} (h : P ++ S = A ++ e :: B) :
    (∃ C, P = A ++ e :: C ∧ B = C ++ S) ∨ (∃ C, A = P ++ C ∧ S = C ++ e :: B) := by
  rcases split2 h with ⟨C, h1, h2⟩ | ⟨C, h0, h1, h2⟩
  · cases C with
    | nil => simp at h1 h2; exact .inr ⟨[], by simp [h1], by simp [h2]⟩
    | cons c C => simp at h2; exact .inl ⟨C, by rw [h1, h2.1], h2.2⟩
  · exact .inr ⟨C, h1, h2⟩

theorem nil_or_snoc (A : List Elem) : A = [] ∨ ∃ B e, A = B ++ [e] := by
  rcases List.eq_nil_or_concat A with h | ⟨B, e, h⟩
  · exact .inl h
  · exact .inr ⟨B, e, by rw [h, List.concat_eq_append]⟩

theorem choice {p : Nat → List Elem → Prop} {n : Nat} (h : ∀ i < n, ∃ A, p i A) : ∃ F : Nat → List Elem, ∀ i, i < n → p i (F i) := by
  have : ∀ i, ∃ A, i < n → p i A := fun i => by
    by_cases hi : i < n
    · obtain ⟨A, hA⟩ := h i hi; exact ⟨A, fun _ => hA⟩
    · exact ⟨[], fun h => absurd h hi⟩
  exact ⟨fun i => Classical.choose (this i), fun i => Classical.choose_spec (this i)⟩

theorem Rep.cur_stat (R : Rep z q) {A B : List Elem} (hq : q = A ++ B) : ∃ t, stat z.nodes (cur A) = some t := by
  rcases nil_or_snoc A with rfl | ⟨A', e, rfl⟩
  · exact ⟨_, R.head⟩
  · rw [cur_concat]; exact ⟨_, R.node A' e B (by rw [hq]; simp)⟩

theorem Rep.cur_lt (R : Rep z q) {A B : List Elem} (hq : q = A ++ B) : cur A < z.nodes.length := by
  obtain ⟨t, ht⟩ := R.cur_stat hq; exact stat_lt ht

theorem Rep.elem_lt (R : Rep z q) {A B : List Elem} {e : Elem} (hq : q = A ++ e :: B) : e.a < z.nodes.length :=
  stat_lt (R.node A e B hq)

theorem Rep.elem_inj (R : Rep z q) {A B C D : List Elem} {e f : Elem} (h1 : q = A ++ e :: B) (h2 : q = C ++ f :: D) (h : e.a = f.a) : A = C := by
  have := R.cur_inj (A := A ++ [e]) (B := B) (C := C ++ [f]) (D := D) (by simp [h1]) (by simp [h2]) (by simp [h])
  exact (List.append_inj' this rfl).1

theorem Rep.stop0 (R : Rep z q) {P S A : List Elem} (hq : q = P ++ S) (h : Stop 0 P A) : A = P := by
  obtain ⟨A', h1, h2, _⟩ := h
  have := R.short0 (A := A) (M := A') (B := S) (by rw [hq, h1]; simp) h2
  rw [h1, this]; simp

theorem usub_small {a b : Nat} (h : b ≤ a) (ha : a < 2 ^ 64) : usub a b = a - b := by
  unfold usub
  rw [Nat.mod_eq_of_lt (show b < 2 ^ 64 by omega)]
  have : a + (2 ^ 64 - b) = (a - b) + 2 ^ 64 := by omega
  rw [this, Nat.add_mod_right, Nat.mod_eq_of_lt (by omega)]

/-- start new levels at the head -/
theorem raise_eq (R : Rep z q) {P S : List Elem} (hq : q = P ++ S) (lvl : Nat) (hl : lvl ≤ 32) (d : Descent)
    (hd : ∀ i < z.level, ∃ A, Stop i P A ∧ d.update i = some (cur A) ∧ d.rank i = A.length) :
    ∃ h d', raiseLevels z.length (lvl - z.level) z.level z.nodes d = .ok (h, d') ∧ h.length = z.nodes.length ∧
      Rep ⟨h, z.tail, z.length, if lvl > z.level then lvl else z.level⟩ q ∧ (∀ y, stat h y = stat z.nodes y) ∧
      (∀ i < (if lvl > z.level then lvl else z.level), ∃ A, Stop i P A ∧ d'.update i = some (cur A) ∧ d'.rank i = A.length) := by
  have hlv := R.level
  obtain ⟨h, d', e1, e2, e3, e4, e5, e6⟩ := raiseLevels_eq z.length (lvl - z.level) z.level z.nodes d
    (fun j h1 h2 => R.top j h1 (by omega))
  have hu : toUint z.length = q.length := by
    rw [R.len]; unfold toUint
    have := R.small
    omega
  have hge : ∀ i, z.level ≤ i → ∀ A : List Elem, (∀ e ∈ A, e ∈ q) → Short i A := fun i hi A hA e he => by
    have := (R.ht e (hA e he)).2; omega
  refine ⟨h, d', e1, e2, ?_, e4, ?_⟩
  · refine ⟨by rw [e4]; exact R.head, ?_, ?_, fun A e B hq => by rw [e4]; exact R.node A e B hq, R.ne0, R.nodup, ?_, ?_, R.len, R.small, by rw [e2]; exact R.room⟩
    · intro i h1 h2
      simp only at h1
      rw [e3, if_neg (by split at h1 <;> omega)]
      exact R.top i (by split at h1 <;> omega) h2
    · intro A B hq i hi hT
      simp only at hi
      show lev h (cur A) i = _
      rw [e3]
      by_cases hil : i < z.level
      · rw [if_neg (by omega)]; exact R.links A B hq i hil hT
      · have hA : A = [] := by
          cases hA : A.getLast? with
          | none => exact List.getLast?_eq_none_iff.mp hA
          | some e =>
            have h1 := hT e hA
            have h2 := (R.ht e (by rw [hq]; simp [List.mem_of_getLast? hA])).2
            omega
        subst hA
        rw [if_pos (by split at hi <;> simp <;> omega), hu]
        have : B = q := by simpa using hq.symm
        rw [this, nxt_nil_of_short (hge i (by omega) q (fun _ h => h))]
    · intro e he
      have := R.ht e he
      simp only
      split <;> omega
    · simp only; split <;> omega
  · intro i hi
    by_cases hil : i < z.level
    · obtain ⟨A, h1, h2, h3⟩ := hd i hil
      exact ⟨A, h1, by rw [e5, if_neg (by omega)]; exact h2, by rw [e6, if_neg (by omega)]; exact h3⟩
    · refine ⟨[], ⟨P, rfl, hge i (by omega) P (fun e he => by rw [hq]; simp [he]), tall_nil _⟩, ?_, ?_⟩
      · rw [e5, if_pos (by split at hi <;> omega)]; rfl
      · rw [e6, if_pos (by split at hi <;> omega)]; rfl

/-- link the new node into a list whose levels are already there -/
theorem link_eq (R : Rep z q) {P S : List Elem} (hq : q = P ++ S) (lvl : Nat) (hl1 : 1 ≤ lvl) (hl : lvl ≤ z.level) (d : Descent)
    (hd : ∀ i < z.level, ∃ A, Stop i P A ∧ d.update i = some (cur A) ∧ d.rank i = A.length) (score : F64) (value : Bytes) (hsm : q.length + 1 < 2 ^ 63) :
    ∃ h1 h2 h3, linkLevels z.nodes.length d lvl 0 (z.nodes ++ [newZslNode lvl score value]) = .ok h1 ∧
      widenLevels d (z.level - lvl) lvl h1 = .ok h2 ∧ updAt d 0 = .ok (cur P) ∧
      (if cur P ≠ 0 then setBackward h2 z.nodes.length (some (cur P)) else .ok h2) = .ok h3 ∧
      level? h3 z.nodes.length 0 = .ok (nxt 0 S) ∧ h3.length = z.nodes.length + 1 ∧
      (∀ y, stat h3 y = if y = z.nodes.length then some (value, score, P.getLast?.map (·.a), lvl) else stat z.nodes y) ∧
      (∀ A C, P = A ++ C → ∀ i < z.level, Tall i A → lev h3 (cur A) i = some (nxt i (C ++ ⟨z.nodes.length, value, score, lvl⟩ :: S))) ∧
      (∀ i < lvl, lev h3 z.nodes.length i = some (nxt i S)) ∧
      (∀ A B C, A = P ++ C → C ≠ [] → S = C ++ B → ∀ i < z.level, Tall i A → lev h3 (cur A) i = some (nxt i B)) ∧
      (∀ i, z.level ≤ i → i < 32 → ∃ sp, lev h3 0 i = some ⟨none, sp⟩) := by
  have hsm' := R.small
  obtain ⟨F, hF⟩ : ∃ F : Nat → List Elem, ∀ i, i < z.level → Stop i P (F i) ∧ d.update i = some (cur (F i)) ∧ d.rank i = (F i).length := choice hd
  obtain ⟨G, hG⟩ : ∃ G : Nat → List Elem, ∀ i, i < z.level → P = F i ++ G i ∧ Short i (G i) ∧ Tall i (F i) := choice (fun i hi => (hF i hi).1)
  have hx0 : z.nodes.length ≠ 0 := by have := R.room; omega
  have hFq : ∀ i, i < z.level → q = F i ++ (G i ++ S) := fun i hi => by rw [hq, (hG i hi).1]; simp
  have hFlt : ∀ i, i < z.level → cur (F i) < z.nodes.length := fun i hi => R.cur_lt (hFq i hi)
  have hFlev : ∀ i, i < z.level → lev z.nodes (cur (F i)) i = some (nxt i (G i ++ S)) := fun i hi => R.links _ _ (hFq i hi) i hi (hG i hi).2.2
  have hF0 : F 0 = P := R.stop0 hq (hF 0 (by omega)).1
  have hnew : ∀ j, j < lvl → (newZslNode lvl score value).levels[j]? = some ⟨none, 0⟩ := fun j hj => by
    simp [newZslNode, hj]
  obtain ⟨h1, l1, l2, l3, l4⟩ := linkLevels_eq z.nodes.length d (fun j => cur (F j)) (fun j => nxt j (G j ++ S)) lvl 0
    (z.nodes ++ [newZslNode lvl score value]) (by
      intro j _ hj
      have hjl : j < z.level := by omega
      have := hFlt j hjl
      refine ⟨(hF j hjl).2.1, by omega, ?_, ⟨none, 0⟩, ?_⟩
      · rw [append_lev, if_neg (by omega)]; exact hFlev j hjl
      · rw [append_lev, if_pos rfl]; exact hnew j (by omega))
  obtain ⟨h2, w1, w2, w3, w4⟩ := widenLevels_eq d (fun j => cur (F j)) (fun j => nxt j (G j ++ S)) (z.level - lvl) lvl h1 (by
      intro j hj1 hj
      have hjl : j < z.level := by omega
      have := hFlt j hjl
      refine ⟨(hF j hjl).2.1, ?_⟩
      rw [l3, if_neg (by omega), append_lev, if_neg (by omega)]; exact hFlev j hjl)
  have hrank : ∀ j, j < z.level → usub (d.rank 0) (d.rank j) = (G j).length := by
    intro j hj
    rw [(hF 0 (by omega)).2.2, (hF j hj).2.2, hF0]
    have h3 := congrArg List.length (hG j hj).1
    have h4 := congrArg List.length hq
    simp at h3 h4
    rw [usub_small (by omega) (by omega)]; omega
  have hlen : ∀ j, j < z.level → (G j).length + (nxt j S).span + 1 < 2 ^ 64 ∧ (G j).length + 1 < 2 ^ 64 := by
    intro j hj
    have h3 := congrArg List.length (hFq j hj)
    have h5 := nxt_span_le j S
    simp at h3
    omega
  -- the levels after linking and widening
  have L : ∀ y j, j < z.level → lev h2 y j =
      if y = cur (F j) then some (nxt j (G j ++ ⟨z.nodes.length, value, score, lvl⟩ :: S))
      else if y = z.nodes.length then (if j < lvl then some (nxt j S) else none) else lev z.nodes y j := by
    intro y j hj
    have hlt := hFlt j hj
    obtain ⟨hs1, hs2⟩ := hlen j hj
    have hn := nxt_short (hG j hj).2.1 S
    rw [w3]
    by_cases hjl : j < lvl
    · rw [if_neg (by omega), l3, if_pos (by omega), append_lev]
      by_cases hy : y = cur (F j)
      · rw [if_neg (show y ≠ z.nodes.length by omega), if_pos hy, if_pos hy, nxt_tall (hG j hj).2.1 (show j < Elem.ht ⟨z.nodes.length, value, score, lvl⟩ from hjl),
          hrank j hj, uadd_small (by omega)]
      · rw [if_neg hy, if_neg hy]
        by_cases hyx : y = z.nodes.length
        · rw [if_pos hyx, if_pos hyx, if_pos hjl, hn, hrank j hj]
          simp only
          rw [usub_small (by omega) (by omega), show (G j).length + (nxt j S).span - (G j).length = (nxt j S).span by omega]
        · rw [if_neg hyx, if_neg hyx, if_neg hyx]
    · have hl3 : lev h1 y j = lev (z.nodes ++ [newZslNode lvl score value]) y j := by rw [l3, if_neg (by omega)]
      by_cases hy : y = cur (F j)
      · rw [if_pos (show lvl ≤ j ∧ j < lvl + (z.level - lvl) ∧ y = cur (F j) by omega), if_pos hy, hn, nxt_short (hG j hj).2.1]
        simp only [nxt]
        rw [if_neg hjl, uadd_small (by omega)]
        simp only; rw [Nat.add_assoc]
      · rw [if_neg (by omega), if_neg hy, hl3, append_lev]
        by_cases hyx : y = z.nodes.length
        · rw [if_pos hyx, if_pos hyx, if_neg hjl]; simp [newZslNode, hjl]
        · rw [if_neg hyx, if_neg hyx]
  have Ltop : ∀ j, z.level ≤ j → lev h2 0 j = lev z.nodes 0 j := by
    intro j hj
    rw [w3, if_neg (by omega), l3, if_neg (by omega), append_lev, if_neg (by omega)]
  have hstat2 : ∀ y, stat h2 y = if y = z.nodes.length then some (value, score, none, lvl) else stat z.nodes y := by
    intro y; rw [w4, l4, append_stat]
    simp [newZslNode]
  have hup : updAt d 0 = .ok (cur P) := by
    simp only [updAt, (hF 0 (by omega)).2.1, hF0]
  -- the backward pointer of the new node
  have hback : ∃ h3, (if cur P ≠ 0 then setBackward h2 z.nodes.length (some (cur P)) else .ok h2) = .ok h3 ∧ h3.length = h2.length ∧
      (∀ y j, lev h3 y j = lev h2 y j) ∧ (∀ y, stat h3 y = if y = z.nodes.length then some (value, score, P.getLast?.map (·.a), lvl) else stat z.nodes y) := by
    rcases nil_or_snoc P with hP | ⟨P', e, hP⟩
    · refine ⟨h2, by rw [hP]; simp, rfl, fun _ _ => rfl, fun y => ?_⟩
      rw [hstat2, hP]; simp
    · have hce : cur P = e.a := by rw [hP]; simp
      have he0 : e.a ≠ 0 := R.ne0 e (by rw [hq, hP]; simp)
      obtain ⟨h3, b1, b2, b3, b4⟩ := setBackward_eq (by rw [hstat2, if_pos rfl]) (some (cur P)) (h := h2) (x := z.nodes.length) (v := value) (sc := score) (b := none) (n := lvl)
      refine ⟨h3, by rw [if_pos (by omega)]; exact b1, b2, b3, fun y => ?_⟩
      rw [b4, hstat2]
      by_cases hy : y = z.nodes.length
      · rw [if_pos hy, if_pos hy, hce, hP]; simp
      · rw [if_neg hy, if_neg hy, if_neg hy]
  obtain ⟨h3, b1, b2, b3, b4⟩ := hback
  have hxlev : ∀ i < lvl, lev h3 z.nodes.length i = some (nxt i S) := by
    intro i hi
    have := hFlt i (by omega)
    rw [b3, L _ i (by omega), if_neg (by omega), if_pos rfl, if_pos hi]
  refine ⟨h1, h2, h3, l1, w1, hup, b1, level?_eq (hxlev 0 (by omega)), by rw [b2, w2, l2]; simp, b4, ?_, hxlev, ?_, ?_⟩
  · intro A C hPA i hi hT
    rw [b3, L _ i hi]
    have hqA : q = A ++ (C ++ S) := by rw [hq, hPA]; simp
    by_cases hs : Short i C
    · have hAF : A = F i := Stop.unique ⟨C, hPA, hs, hT⟩ (hF i hi).1
      have hCG : C = G i := by
        have h3 := (hG i hi).1
        rw [hPA, hAF] at h3
        exact List.append_cancel_left h3
      rw [if_pos (by rw [hAF]), hCG]
    · have hne : cur A ≠ cur (F i) := by
        intro hc
        have := R.cur_inj hqA (hFq i hi) hc
        have h3 := (hG i hi).1
        rw [hPA, this] at h3
        have h4 := List.append_cancel_left h3
        exact hs (h4 ▸ (hG i hi).2.1)
      have := R.cur_lt hqA
      rw [if_neg hne, if_neg (by omega), R.links A _ hqA i hi hT]
      congr 1; exact nxt_not_short hs _ _
  · intro A B C hA hC hS i hi hT
    have hqA : q = A ++ B := by rw [hq, hA, hS]; simp
    have hne : cur A ≠ cur (F i) := by
      intro hc
      have := R.cur_inj hqA (hFq i hi) hc
      have h3 := congrArg List.length (hG i hi).1
      have h4 := congrArg List.length hA
      rw [this] at h4
      have h5 : C.length ≠ 0 := fun h => hC (List.length_eq_zero_iff.mp h)
      simp at h3 h4; omega
    have := R.cur_lt hqA
    rw [b3, L _ i hi, if_neg hne, if_neg (by omega)]
    exact R.links A B hqA i hi hT
  · intro i hi h32
    rw [b3, Ltop i hi]
    exact R.top i hi h32

theorem zslRandomLevel_le (n : Nat) : 1 ≤ zslRandomLevel n ∧ zslRandomLevel n ≤ 32 := by
  unfold zslRandomLevel maxLevel; split <;> omega

/-- `insert` adds the element at its place -/
theorem insert_eq (R : Rep z q) (hlv : z.level < 32) {P S : List Elem} (hq : q = P ++ S) {score : F64} {value : Bytes}
    (hP : ∀ e ∈ P, (e.sc.lt score || (e.sc.eq score && bytesLt e.v value)) = true)
    (hS : ∀ e ∈ S, (e.sc.lt score || (e.sc.eq score && bytesLt e.v value)) = false) (hsm : q.length + 1 < 2 ^ 63) (draw : Nat) :
    ∃ z', insert z score value draw = .ok (z', z.nodes.length) ∧
      Rep z' (P ++ ⟨z.nodes.length, value, score, zslRandomLevel draw⟩ :: S) ∧
      z'.nodes.length = z.nodes.length + 1 ∧
      (∀ y, vs z'.nodes y = if y = z.nodes.length then some (value, score) else vs z.nodes y) ∧
      z'.level = (if zslRandomLevel draw > z.level then zslRandomLevel draw else z.level) := by
  obtain ⟨hl1, hl2⟩ := zslRandomLevel_le draw
  generalize hlvl : zslRandomLevel draw = lvl at *
  obtain ⟨d, ⟨x0, d1⟩, d2, _⟩ := insertDescent_eq R hlv hq hP hS z.level [] P ⟨fun _ => none, fun _ => 0⟩ (by omega) rfl (tall_nil _) (.inl ⟨rfl, rfl⟩)
  obtain ⟨h, d', r1, r2, R1, r4, r5⟩ := raise_eq R hq lvl hl2 d d2
  obtain ⟨h1, h2, h3, k1, k2, k3, k4, k5, k6, k7, k8, k9, k10, k11⟩ := link_eq R1 hq lvl hl1 (by simp only; split <;> omega) d' r5 score value hsm
  simp only at k1 k2 k3 k4 k5 k6 k7 k8 k9 k10 k11
  rw [r2] at k1 k4 k5 k6 k7 k8 k9
  generalize hnl : (if lvl > z.level then lvl else z.level) = nl at *
  have hnl2 : lvl ≤ nl ∧ 1 ≤ nl ∧ nl ≤ 32 := by
    have := R.level
    rw [← hnl]; split <;> omega
  have hx0 : z.nodes.length ≠ 0 := by have := R.room; omega
  generalize hx : z.nodes.length = x at *
  -- the last step: the successor's backward pointer
  have hlast : ∃ h4 t, (match (nxt 0 S).forward with
      | some y => (do let h ← setBackward h3 y (some x); Except.ok ((⟨h, z.tail, z.length + 1, nl⟩ : ZSL), x) : Go (ZSL × Nat))
      | none => Except.ok (⟨h3, some x, z.length + 1, nl⟩, x)) = .ok (⟨h4, t, z.length + 1, nl⟩, x) ∧ h4.length = h3.length ∧
      (∀ y j, lev h4 y j = lev h3 y j) ∧
      (∀ y, stat h4 y = match S with
        | s :: _ => if y = s.a then some (s.v, s.sc, some x, s.ht) else stat h3 y
        | [] => stat h3 y) := by
    cases S with
    | nil => exact ⟨h3, some x, rfl, rfl, fun _ _ => rfl, fun _ => rfl⟩
    | cons s S =>
      have hsht := (R.ht s (by rw [hq]; simp)).1
      have hf : (nxt 0 (s :: S)).forward = some s.a := by simp [nxt, show 0 < s.ht by omega]
      have hsa : s.a < x := by rw [← hx]; exact R.elem_lt (A := P) (B := S) hq
      have hst : stat h3 s.a = some (s.v, s.sc, P.getLast?.map (·.a), s.ht) := by
        rw [k7, if_neg (by omega), r4]; exact R.node P s S hq
      obtain ⟨h4, b1, b2, b3, b4⟩ := setBackward_eq hst (some x)
      refine ⟨h4, z.tail, ?_, b2, b3, b4⟩
      rw [hf]; simp only [b1, bind, Except.bind]
  obtain ⟨h4, t, c1, c2, c3, c4⟩ := hlast
  refine ⟨⟨h4, t, z.length + 1, nl⟩, ?_, ?_, by rw [c2]; exact k6, ?_, ?_⟩
  · unfold insert
    rw [cur_nil] at d1
    simp only [bind, Except.bind] at c1
    simp only [d1, r1, hlvl, hnl, bind, Except.bind, r2, k1, k2, k3]
    by_cases hc : cur P ≠ 0
    · rw [if_pos hc] at k4 ⊢
      simp only [k4, k5]; exact c1
    · rw [if_neg hc] at k4 ⊢
      cases k4
      simp only [k5]; exact c1
  · have hstat : ∀ y, stat h3 y = if y = x then some (value, score, P.getLast?.map (·.a), lvl) else stat z.nodes y := by
      intro y; rw [k7, r4]
    have hself : ∀ A e B, q = A ++ e :: B → e.a ≠ x := fun A e B h => by have := R.elem_lt h; omega
    constructor
    · show stat h4 0 = _
      rw [c4]
      have h0 : stat h3 0 = some ([], 0, none, 32) := by rw [hstat, if_neg (by omega)]; exact R.head
      cases S with
      | nil => exact h0
      | cons s S =>
        simp only
        rw [if_neg (by have := R.ne0 s (by rw [hq]; simp); omega)]; exact h0
    · intro i hi1 hi2
      show ∃ sp, lev h4 0 i = _
      rw [c3]; exact k11 i hi1 hi2
    · intro A B hAB i hi hT
      show lev h4 (cur A) i = _
      rw [c3]
      rcases split2' hAB with ⟨C, e1, e2⟩ | ⟨C, e1, e2⟩
      · rw [e2]; exact k8 A C e1 i hi hT
      · by_cases hC : C = []
        · subst hC
          simp only [List.nil_append] at e2
          rw [e1] at hT ⊢
          rw [tall_concat] at hT
          rw [cur_concat, ← e2]; exact k9 i hT
        · have hA : cur A = cur (P ++ C) := by
            rw [e1, show P ++ (⟨x, value, score, lvl⟩ : Elem) :: C = (P ++ [⟨x, value, score, lvl⟩]) ++ C by simp, cur_append hC, cur_append hC]
          rw [hA]
          refine k10 (P ++ C) B C rfl hC e2 i hi ?_
          rw [e1, show P ++ (⟨x, value, score, lvl⟩ : Elem) :: C = (P ++ [⟨x, value, score, lvl⟩]) ++ C by simp, tall_append hC] at hT
          rw [tall_append hC]; exact hT
    · intro A e B hAB
      show stat h4 e.a = _
      rcases split3 hAB with ⟨C, e1, e2⟩ | ⟨rfl, rfl, rfl⟩ | ⟨C, e1, e2⟩
      · have hqe : q = A ++ e :: (C ++ S) := by rw [hq, e1]; simp
        have h0 : stat h3 e.a = some (e.v, e.sc, A.getLast?.map (·.a), e.ht) := by
          rw [hstat, if_neg (hself _ _ _ hqe)]; exact R.node _ _ _ hqe
        rw [c4]
        cases S with
        | nil => exact h0
        | cons s S =>
          simp only
          rw [if_neg ?_]
          · exact h0
          · intro hc
            have := congrArg List.length (R.elem_inj hqe hq hc)
            have h5 := congrArg List.length e1
            simp at h5; omega
      · have h0 : stat h3 x = some (value, score, A.getLast?.map (·.a), lvl) := by rw [hstat, if_pos rfl]
        rw [c4]
        cases B with
        | nil => exact h0
        | cons s S =>
          simp only
          rw [if_neg (Ne.symm (hself _ _ _ hq))]; exact h0
      · have hqe : q = (P ++ C) ++ e :: B := by rw [hq, e2]; simp
        rw [c4, e2]
        cases C with
        | nil =>
          simp only [List.nil_append, if_true]
          rw [e1]; simp
        | cons s C =>
          simp only [List.cons_append]
          have hqs : q = P ++ s :: (C ++ e :: B) := by rw [hq, e2]; simp
          rw [if_neg ?_]
          · rw [hstat, if_neg (hself _ _ _ hqe), R.node _ _ _ hqe, e1]
            simp [List.getLast?_append, List.getLast?_cons]
          · intro hc
            have := congrArg List.length (R.elem_inj hqe hqs hc)
            simp at this
    · intro e he
      rcases List.mem_append.mp he with h | h
      · exact R.ne0 e (by rw [hq]; simp [h])
      · rcases List.mem_cons.mp h with rfl | h
        · exact hx0
        · exact R.ne0 e (by rw [hq]; simp [h])
    · have hnd := R.nodup
      rw [hq] at hnd
      simp only [List.map_append, List.map_cons]
      have hnot : x ∉ (P ++ S).map (·.a) := by
        intro hm
        obtain ⟨e, he, hea⟩ := List.mem_map.mp hm
        rw [← hq] at he
        obtain ⟨A, B, hAB⟩ := List.append_of_mem he
        exact hself _ _ _ hAB hea
      rw [List.map_append] at hnot hnd
      rw [List.nodup_append] at hnd ⊢
      simp only [List.mem_append, not_or] at hnot
      refine ⟨hnd.1, List.nodup_cons.mpr ⟨hnot.2, hnd.2.1⟩, ?_⟩
      intro a ha b hb
      rcases List.mem_cons.mp hb with rfl | hb
      · rintro rfl; exact hnot.1 ha
      · exact hnd.2.2 a ha b hb
    · intro e he
      show 1 ≤ e.ht ∧ e.ht ≤ nl
      have hle : z.level ≤ nl := by rw [← hnl]; split <;> omega
      have old : ∀ e ∈ q, 1 ≤ e.ht ∧ e.ht ≤ nl := fun e he => by have := R.ht e he; omega
      rcases List.mem_append.mp he with h | h
      · exact old e (by rw [hq]; simp [h])
      · rcases List.mem_cons.mp h with rfl | h
        · exact ⟨hl1, hnl2.1⟩
        · exact old e (by rw [hq]; simp [h])
    · exact ⟨hnl2.2.1, hnl2.2.2⟩
    · show z.length + 1 = _
      rw [R.len, hq]; simp; omega
    · rw [hq] at hsm; simp at hsm ⊢; omega
    · show _ < h4.length
      have := R.room
      rw [c2, k6]; rw [hq] at this; simp at this ⊢; omega
  · intro y
    show vs h4 y = _
    rw [vs_stat, c4]
    have h0 : (stat h3 y).map (fun t => (t.1, t.2.1)) = if y = x then some (value, score) else vs z.nodes y := by
      rw [k7, r4, vs_stat]; split <;> rfl
    cases S with
    | nil => exact h0
    | cons s S =>
      simp only
      by_cases hy : y = s.a
      · have := R.elem_lt hq
        rw [if_pos hy, if_neg (by omega), vs_stat, hy, R.node _ _ _ hq]; rfl
      · rw [if_neg hy]; exact h0
  · rfl

end ZSL
end Godis
