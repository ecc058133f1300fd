import Verif.Proofs.SkipInsert
/-! Removal of a node from the skip list; `delete`, `updateScore`. -/
namespace Godis
namespace ZSL

variable {z : ZSL} {q : List Elem}

theorem short_of_forward {i : Nat} {B : List Elem} (h : (nxt i B).forward = none) : Short i B := by
  rcases short_or i B with h' | ⟨M, e, R, h1, h2, h3⟩
  · exact h'
  · rw [h1, nxt_tall h2 h3] at h; cases h

theorem wrap_sub (g s : Nat) (h : g + s < 2 ^ 64) : uadd (g + 1) (usub s 1) = g + s := by
  unfold uadd usub
  omega

theorem deleteNode_eq {P S : List Elem} {n : Elem} (R : Rep z (P ++ n :: S)) (u : Nat → Option Nat)
    (hu : ∀ i < z.level, ∃ A, Stop i P A ∧ u i = some (cur A)) :
    ∃ z', deleteNode z n.a u = .ok z' ∧ Rep z' (P ++ S) ∧ z'.nodes.length = z.nodes.length ∧ (∀ y, vs z'.nodes y = vs z.nodes y) ∧
      z'.level ≤ z.level := by
  have hsm := R.small
  obtain ⟨F, hF⟩ : ∃ F : Nat → List Elem, ∀ i, i < z.level → Stop i P (F i) ∧ u i = some (cur (F i)) := choice hu
  obtain ⟨G, hG⟩ : ∃ G : Nat → List Elem, ∀ i, i < z.level → P = F i ++ G i ∧ Short i (G i) ∧ Tall i (F i) := choice (fun i hi => (hF i hi).1)
  have hFq : ∀ i, i < z.level → P ++ n :: S = F i ++ (G i ++ n :: S) := fun i hi => by
    conv => lhs; rw [(hG i hi).1]
    simp
  have hFlev : ∀ i, i < z.level → lev z.nodes (cur (F i)) i = some (nxt i (G i ++ n :: S)) := fun i hi => R.links _ _ (hFq i hi) i hi (hG i hi).2.2
  have hqn : P ++ n :: S = (P ++ [n]) ++ S := by simp
  have hnlev : ∀ i, i < n.ht → lev z.nodes n.a i = some (nxt i S) := fun i hi => by
    have h1 := (R.ht n (by simp)).2
    have := R.links (P ++ [n]) S hqn i (by omega) (tall_concat.mpr hi)
    rwa [cur_concat] at this
  have hne : ∀ i, i < z.level → cur (F i) ≠ n.a := fun i hi hc => by
    have h1 := R.cur_inj (hFq i hi) hqn (by rw [hc, cur_concat])
    have h2 := congrArg List.length h1
    have h3 := congrArg List.length (hG i hi).1
    simp at h2 h3; omega
  have hnS : ∀ e ∈ S, e.a ≠ n.a := fun e he hc => by
    obtain ⟨C, D, rfl⟩ := List.append_of_mem he
    have := congrArg List.length (R.elem_inj (A := P ++ n :: C) (B := D) (e := e) (by simp) (rfl : P ++ n :: (C ++ e :: D) = P ++ n :: (C ++ e :: D)) hc)
    simp at this
  have hfwd : ∀ j, j < z.level → ((nxt j (G j ++ n :: S)).forward = some n.a ↔ j < n.ht) := fun j hj => by
    rw [nxt_short (hG j hj).2.1]
    simp only [nxt]
    by_cases h : j < n.ht
    · simp [h]
    · rw [if_neg h]
      simp only [h, iff_false]
      intro hc
      obtain ⟨e, he, hea⟩ := nxt_forward_mem hc
      exact hnS e he hea
  obtain ⟨h1, e1, e2, e3, e4⟩ := unlinkLevels_eq n.a u (fun j => cur (F j)) (fun j => nxt j (G j ++ n :: S)) (fun j => nxt j S) z.level 0 z.nodes (by
    intro j _ hj
    have hj : j < z.level := by omega
    exact ⟨(hF j hj).2, hne j hj, hFlev j hj, fun hf => hnlev j ((hfwd j hj).mp hf)⟩)
  have L : ∀ y j, j < z.level → lev h1 y j = if y = cur (F j) then some (nxt j (G j ++ S)) else lev z.nodes y j := by
    intro y j hj
    rw [e3]
    by_cases hy : y = cur (F j)
    · rw [if_pos (show 0 ≤ j ∧ j < 0 + z.level ∧ y = cur (F j) by omega), if_pos hy]
      have hlen : (G j).length + (nxt j S).span + 1 < 2 ^ 64 := by
        have h1 := congrArg List.length (hFq j hj)
        have h2 := nxt_span_le j S
        simp at h1 hsm; omega
      have hlen2 : (G j).length + 1 < 2 ^ 64 := by
        have h1 := congrArg List.length (hFq j hj)
        simp at h1 hsm; omega
      by_cases hjn : j < n.ht
      · rw [if_pos ((hfwd j hj).mpr hjn), nxt_tall (hG j hj).2.1 hjn, nxt_short (hG j hj).2.1]
        simp only
        rw [wrap_sub _ _ (by omega)]
      · rw [if_neg (fun h => hjn ((hfwd j hj).mp h)), nxt_short (hG j hj).2.1, nxt_short (hG j hj).2.1]
        simp only [nxt, if_neg hjn]
        rw [usub_small (by omega) (by omega)]
        simp only [show (G j).length + ((nxt j S).span + 1) - 1 = (G j).length + (nxt j S).span by omega]
    · rw [if_neg (by omega), if_neg hy]
  have Ltop : ∀ y j, z.level ≤ j → lev h1 y j = lev z.nodes y j := by
    intro y j hj; rw [e3, if_neg (by omega)]
  have hn0 : lev h1 n.a 0 = some (nxt 0 S) := by
    have hl := R.level
    rw [L _ 0 (by omega), if_neg (Ne.symm (hne 0 (by omega)))]
    exact hnlev 0 (R.ht n (by simp)).1
  have hns : stat h1 n.a = some (n.v, n.sc, P.getLast?.map (·.a), n.ht) := by rw [e4]; exact R.node P n S rfl
  obtain ⟨nd, m1, _, _, m4, _⟩ := load_eq hns
  have hback : ∃ h2, (match (nxt 0 S).forward with
      | some y => setBackward h1 y nd.backward
      | none => Except.ok h1) = .ok h2 ∧ h2.length = h1.length ∧ (∀ y j, lev h2 y j = lev h1 y j) ∧
      (∀ y, stat h2 y = match (generalizing := false) S with
        | s :: _ => if y = s.a then some (s.v, s.sc, P.getLast?.map (·.a), s.ht) else stat z.nodes y
        | [] => stat z.nodes y) := by
    cases S with
    | nil => exact ⟨h1, rfl, rfl, fun _ _ => rfl, e4⟩
    | cons s S =>
      have hf : (nxt 0 (s :: S)).forward = some s.a := by
        have := (R.ht s (by simp)).1
        simp [nxt, show 0 < s.ht by omega]
      have hst : stat h1 s.a = some (s.v, s.sc, (P ++ [n]).getLast?.map (·.a), s.ht) := by
        rw [e4]; exact R.node (P ++ [n]) s S (by simp)
      obtain ⟨h2, b1, b2, b3, b4⟩ := setBackward_eq hst nd.backward
      refine ⟨h2, by rw [hf]; exact b1, b2, b3, fun y => ?_⟩
      rw [b4, e4, m4]
  obtain ⟨h2, b1, b2, b3, b4⟩ := hback
  have hhead : stat h2 0 = some ([], 0, none, 32) := by
    rw [b4]
    cases S with
    | nil => exact R.head
    | cons s S => simp only; rw [if_neg (Ne.symm (R.ne0 s (by simp)))]; exact R.head
  obtain ⟨lv, s1, s2, s3, s4⟩ := shrinkLevel_eq ⟨none, hhead⟩ z.level R.level.1 R.level.2
  have hlinks : ∀ A B, P ++ S = A ++ B → ∀ i, i < z.level → Tall i A → lev h2 (cur A) i = some (nxt i B) := by
    intro A B hAB i hi hT
    rw [b3, L _ i hi]
    rcases split2 hAB with ⟨C, c1, c2⟩ | ⟨C, c0, c1, c2⟩
    · have hqA : P ++ n :: S = A ++ (C ++ n :: S) := by rw [c1]; simp
      by_cases hs : Short i C
      · have hAF : A = F i := Stop.unique ⟨C, c1, hs, hT⟩ (hF i hi).1
        have hCG : C = G i := by
          have h3 := (hG i hi).1
          rw [c1, hAF] at h3
          exact List.append_cancel_left h3
        rw [if_pos (by rw [hAF]), c2, hCG]
      · rw [if_neg ?_]
        · rw [R.links A _ hqA i hi hT, c2]
          congr 1; exact nxt_not_short hs _ _
        · intro hc
          have := R.cur_inj hqA (hFq i hi) hc
          have h3 := (hG i hi).1
          rw [c1, this] at h3
          exact hs (List.append_cancel_left h3 ▸ (hG i hi).2.1)
    · have hqA : P ++ n :: S = (P ++ [n] ++ C) ++ B := by rw [c2]; simp
      have hcur : cur A = cur (P ++ [n] ++ C) := by rw [c1, cur_append c0, cur_append c0]
      rw [if_neg ?_]
      · rw [hcur]
        refine R.links _ _ hqA i hi ?_
        rw [tall_append c0]; rw [c1, tall_append c0] at hT; exact hT
      · intro hc
        rw [hcur] at hc
        have h5 := congrArg List.length (R.cur_inj hqA (hFq i hi) hc)
        have h3 := congrArg List.length (hG i hi).1
        simp at h5 h3; omega
  refine ⟨⟨h2, z.tail, z.length - 1, lv⟩, ?_, ?_, by show h2.length = _; omega, ?_, s3⟩
  · simp only [deleteNode, e1, level?_eq hn0, m1, bind, Except.bind]
    cases hf : (nxt 0 S).forward with
    | none => rw [hf] at b1; cases b1; simp only [s1]
    | some y => rw [hf] at b1; simp only at b1; simp only [b1, s1]
  · have hlv := R.level
    constructor
    · exact hhead
    · intro i hi1 hi2
      show ∃ sp, lev h2 0 i = _
      simp only at hi1
      by_cases hi : i < z.level
      · exact s4 i hi1 hi
      · rw [b3, Ltop _ _ (by omega)]; exact R.top i (by omega) hi2
    · intro A B hAB i hi hT
      simp only at hi
      exact hlinks A B hAB i (by omega) hT
    · intro A e B hAB
      show stat h2 e.a = _
      rcases split4 hAB with ⟨C, c1, c2⟩ | ⟨C, c1, c2⟩
      · have hqe : P ++ n :: S = A ++ e :: (C ++ n :: S) := by rw [c1]; simp
        have h0 := R.node _ _ _ hqe
        rw [b4]
        cases S with
        | nil => exact h0
        | cons s S =>
          simp only
          rw [if_neg ?_]
          · exact h0
          · intro hc
            have h5 := congrArg List.length (R.elem_inj (C := P ++ [n]) (D := S) (f := s) hqe (by simp) hc)
            have h3 := congrArg List.length c1
            simp at h5 h3; omega
      · rw [b4, c2]
        cases C with
        | nil => simp only [List.nil_append, if_true]; rw [c1]; simp
        | cons s C =>
          simp only [List.cons_append]
          have hqe : P ++ n :: S = (P ++ n :: s :: C) ++ e :: B := by rw [c2]; simp
          have hqs : P ++ n :: S = (P ++ [n]) ++ s :: (C ++ e :: B) := by rw [c2]; simp
          rw [if_neg ?_]
          · rw [R.node _ _ _ hqe, c1]
            simp [List.getLast?_append, List.getLast?_cons]
          · intro hc
            have := congrArg List.length (R.elem_inj hqe hqs hc)
            simp at this
    · intro e he; exact R.ne0 e (by simp at he ⊢; rcases he with h | h <;> simp [h])
    · have := R.nodup
      simp only [List.map_append, List.map_cons, List.nodup_append, List.nodup_cons] at this ⊢
      exact ⟨this.1, this.2.1.2, fun a ha b hb => this.2.2 a ha b (by simp [hb])⟩
    · intro e he
      show 1 ≤ e.ht ∧ e.ht ≤ lv
      have h1 := R.ht e (by simp at he ⊢; rcases he with h | h <;> simp [h])
      refine ⟨h1.1, Nat.le_of_not_lt fun hlt => ?_⟩
      obtain ⟨sp, hsp⟩ := s4 (e.ht - 1) (by omega) (by omega)
      have hl := hlinks [] (P ++ S) rfl (e.ht - 1) (by omega) (tall_nil _)
      rw [cur_nil, hsp] at hl
      simp only [Option.some.injEq] at hl
      have := short_of_forward (i := e.ht - 1) (B := P ++ S) (by rw [← hl]) e he
      omega
    · show 1 ≤ lv ∧ lv ≤ 32
      omega
    · show z.length - 1 = _
      rw [R.len]; simp; omega
    · have := R.small; simp at this ⊢; omega
    · have := R.room
      show _ < h2.length
      simp at this ⊢; omega
  · intro y
    show vs h2 y = _
    rw [vs_stat, vs_stat, b4]
    cases S with
    | nil => rfl
    | cons s S =>
      simp only
      by_cases hy : y = s.a
      · rw [if_pos hy, hy, R.node (P ++ [n]) s S (by simp)]; rfl
      · rw [if_neg hy]

end ZSL
end Godis
