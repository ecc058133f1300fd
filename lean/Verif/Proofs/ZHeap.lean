import Verif.Model.SkipList
/-! Effects of the elementary operations on skip list nodes. -/
namespace Godis
namespace ZSL

/-- level `i` of the node at `x` -/
def lev (h : List ZNode) (x i : Nat) : Option ZLevel := (h[x]?).bind (fun n => n.levels[i]?)

/-- everything but the levels: value, score, backward, height -/
def stat (h : List ZNode) (x : Nat) : Option (Bytes × F64 × Option Nat × Nat) :=
  (h[x]?).map (fun n => (n.value, n.score, n.backward, n.levels.length))

variable {h h' : List ZNode} {x y i j : Nat} {l : ZLevel}

theorem level?_eq (hl : lev h x i = some l) : level? h x i = .ok l := by
  unfold lev at hl
  cases hx : h[x]? with
  | none => rw [hx] at hl; cases hl
  | some n =>
    rw [hx] at hl
    simp only [Option.bind_some] at hl
    simp [level?, load, hx, hl, bind, Except.bind]

theorem stat_node {v sc b n} (hs : stat h x = some (v, sc, b, n)) :
    ∃ nd, h[x]? = some nd ∧ nd.value = v ∧ nd.score = sc ∧ nd.backward = b ∧ nd.levels.length = n := by
  unfold stat at hs
  cases hx : h[x]? with
  | none => rw [hx] at hs; cases hs
  | some nd =>
    rw [hx] at hs
    simp only [Option.map_some, Option.some.injEq, Prod.mk.injEq] at hs
    exact ⟨nd, rfl, hs.1, hs.2.1, hs.2.2.1, hs.2.2.2⟩

theorem load_eq {v sc b n} (hs : stat h x = some (v, sc, b, n)) :
    ∃ nd, load h x = .ok nd ∧ nd.value = v ∧ nd.score = sc ∧ nd.backward = b ∧ nd.levels.length = n := by
  obtain ⟨nd, h1, h2⟩ := stat_node hs
  exact ⟨nd, by simp [load, h1], h2⟩

theorem stat_lt {t} (hs : stat h x = some t) : x < h.length := by
  obtain ⟨v, sc, b, n⟩ := t
  obtain ⟨nd, hx, _⟩ := stat_node hs
  exact (List.getElem?_eq_some_iff.mp hx).1

theorem lev_some (hs : stat h x = some (v, sc, b, n)) (hi : i < n) : ∃ l, lev h x i = some l := by
  obtain ⟨nd, h1, _, _, _, h2⟩ := stat_node hs
  refine ⟨nd.levels[i]'(by omega), ?_⟩
  unfold lev
  rw [h1]
  simp

/-- two heaps with the same views are equal at an address -/
theorem node_eq (hs : stat h x = some (v, sc, b, n)) (hl : ∀ i < n, lev h x i = some (L i)) :
    h[x]? = some ⟨v, sc, b, (List.range n).map L⟩ := by
  obtain ⟨nd, h1, h2, h3, h4, h5⟩ := stat_node hs
  rw [h1]
  obtain ⟨a1, a2, a3, ls⟩ := nd
  simp only at h2 h3 h4 h5
  subst h2 h3 h4
  have : ls = (List.range n).map L := by
    apply List.ext_getElem?
    intro i
    by_cases hi : i < n
    · have := hl i hi
      unfold lev at this
      rw [h1] at this
      simp only [Option.bind_some] at this
      rw [this]; simp [hi]
    · rw [List.getElem?_eq_none (by omega), List.getElem?_eq_none (by simp; omega)]
  rw [this]

/-- `x.levels[i] = l` -/
theorem setLevel_eq (hl : lev h x i = some l0) (l : ZLevel) : ∃ h', setLevel h x i l = .ok h' ∧ h'.length = h.length ∧
    (∀ y j, lev h' y j = if y = x ∧ j = i then some l else lev h y j) ∧ (∀ y, stat h' y = stat h y) := by
  unfold lev at hl
  cases hx : h[x]? with
  | none => rw [hx] at hl; cases hl
  | some n =>
    rw [hx] at hl
    simp only [Option.bind_some] at hl
    have hlt : x < h.length := (List.getElem?_eq_some_iff.mp hx).1
    have hil : i < n.levels.length := (List.getElem?_eq_some_iff.mp hl).1
    refine ⟨h.set x { n with levels := n.levels.set i l }, by simp [setLevel, load, hx, hl, bind, Except.bind], by simp, ?_, ?_⟩
    · intro y j
      unfold lev
      by_cases hy : y = x
      · subst hy
        rw [List.getElem?_set_self hlt, hx]
        by_cases hj : j = i
        · subst hj; simp [hil]
        · simp [hj, List.getElem?_set_ne (Ne.symm hj)]
      · rw [List.getElem?_set_ne (Ne.symm hy)]; simp [hy]
    · intro y
      unfold stat
      by_cases hy : y = x
      · subst hy
        rw [List.getElem?_set_self hlt, hx]; simp
      · rw [List.getElem?_set_ne (Ne.symm hy)]

/-- `x.backward = p` -/
theorem setBackward_eq {v sc b n} (hs : stat h x = some (v, sc, b, n)) (p : Option Nat) :
    ∃ h', setBackward h x p = .ok h' ∧ h'.length = h.length ∧
    (∀ y j, lev h' y j = lev h y j) ∧ (∀ y, stat h' y = if y = x then some (v, sc, p, n) else stat h y) := by
  obtain ⟨nd, hx, h2, h3, h4, h5⟩ := stat_node hs
  have hlt : x < h.length := (List.getElem?_eq_some_iff.mp hx).1
  refine ⟨h.set x { nd with backward := p }, by simp [setBackward, load, hx, bind, Except.bind], by simp, ?_, ?_⟩
  · intro y j
    unfold lev
    by_cases hy : y = x
    · subst hy; rw [List.getElem?_set_self hlt, hx]; simp
    · rw [List.getElem?_set_ne (Ne.symm hy)]
  · intro y
    unfold stat
    by_cases hy : y = x
    · subst hy; rw [List.getElem?_set_self hlt]; simp [h2, h3, h5]
    · rw [List.getElem?_set_ne (Ne.symm hy)]; simp [hy]

/-- `x.score = s` -/
theorem setScore_eq {v sc b n} (hs : stat h x = some (v, sc, b, n)) (sc' : F64) :
    ∃ h', setScore h x sc' = .ok h' ∧ h'.length = h.length ∧
    (∀ y j, lev h' y j = lev h y j) ∧ (∀ y, stat h' y = if y = x then some (v, sc', b, n) else stat h y) := by
  obtain ⟨nd, hx, h2, h3, h4, h5⟩ := stat_node hs
  have hlt : x < h.length := (List.getElem?_eq_some_iff.mp hx).1
  refine ⟨h.set x { nd with score := sc' }, by simp [setScore, load, hx, bind, Except.bind], by simp, ?_, ?_⟩
  · intro y j
    unfold lev
    by_cases hy : y = x
    · subst hy; rw [List.getElem?_set_self hlt, hx]; simp
    · rw [List.getElem?_set_ne (Ne.symm hy)]
  · intro y
    unfold stat
    by_cases hy : y = x
    · subst hy; rw [List.getElem?_set_self hlt]; simp [h2, h4, h5]
    · rw [List.getElem?_set_ne (Ne.symm hy)]; simp [hy]

/-- allocation of a new node -/
theorem append_lev (n : ZNode) (y j : Nat) : lev (h ++ [n]) y j = if y = h.length then n.levels[j]? else lev h y j := by
  unfold lev
  by_cases hy : y = h.length
  · subst hy; simp
  · by_cases hlt : y < h.length
    · rw [List.getElem?_append_left hlt]; simp [hy]
    · rw [List.getElem?_eq_none (l := h ++ [n]) (by simp; omega), List.getElem?_eq_none (l := h) (by omega)]; simp [hy]

theorem append_stat (n : ZNode) (y : Nat) : stat (h ++ [n]) y =
    if y = h.length then some (n.value, n.score, n.backward, n.levels.length) else stat h y := by
  unfold stat
  by_cases hy : y = h.length
  · subst hy; simp
  · by_cases hlt : y < h.length
    · rw [List.getElem?_append_left hlt]; simp [hy]
    · rw [List.getElem?_eq_none (by simp; omega), List.getElem?_eq_none (by omega)]; simp [hy]

/-- the loop that starts new levels at the head -/
theorem raiseLevels_eq (len : Int) : ∀ (k i : Nat) (h : List ZNode) (d : Descent),
    (∀ j, i ≤ j → j < i + k → ∃ sp, lev h 0 j = some ⟨none, sp⟩) →
    ∃ h' d', raiseLevels len k i h d = .ok (h', d') ∧ h'.length = h.length ∧
      (∀ y j, lev h' y j = if y = 0 ∧ i ≤ j ∧ j < i + k then some ⟨none, toUint len⟩ else lev h y j) ∧
      (∀ y, stat h' y = stat h y) ∧
      (∀ j, d'.update j = if i ≤ j ∧ j < i + k then some 0 else d.update j) ∧
      (∀ j, d'.rank j = if i ≤ j ∧ j < i + k then 0 else d.rank j)
  | 0, i, h, d, _ => ⟨h, d, rfl, rfl, fun y j => by rw [if_neg (by omega)], fun _ => rfl,
      fun j => by rw [if_neg (by omega)], fun j => by rw [if_neg (by omega)]⟩
  | k + 1, i, h, d, hl => by
    obtain ⟨sp, hsp⟩ := hl i (by omega) (by omega)
    obtain ⟨h1, e1, e2, e3, e4⟩ := setLevel_eq hsp ⟨none, toUint len⟩
    have hl' : ∀ j, i + 1 ≤ j → j < i + 1 + k → ∃ sp, lev h1 0 j = some ⟨none, sp⟩ := by
      intro j h1 h2
      rw [e3, if_neg (by omega)]
      exact hl j (by omega) (by omega)
    obtain ⟨h', d', f1, f2, f3, f4, f5, f6⟩ := raiseLevels_eq len k (i + 1) h1 ⟨upd d.update i (some 0), upd d.rank i 0⟩ hl'
    refine ⟨h', d', ?_, by omega, ?_, ?_, ?_, ?_⟩
    · simp only [raiseLevels, level?_eq hsp, e1, bind, Except.bind]; exact f1
    · intro y j
      rw [f3, e3]
      by_cases hy : y = 0
      · by_cases hj : i + 1 ≤ j ∧ j < i + 1 + k
        · rw [if_pos ⟨hy, hj⟩, if_pos (by omega)]
        · rw [if_neg (by omega)]
          by_cases hji : j = i
          · rw [if_pos ⟨hy, hji⟩, if_pos (by omega)]
          · rw [if_neg (by omega), if_neg (by omega)]
      · simp [hy]
    · intro y; rw [f4, e4]
    · intro j
      rw [f5]; simp only [upd]
      by_cases hj : i + 1 ≤ j ∧ j < i + 1 + k
      · rw [if_pos hj, if_pos (by omega)]
      · rw [if_neg hj]
        by_cases hji : j = i
        · rw [if_pos hji, if_pos (by omega)]
        · rw [if_neg hji, if_neg (by omega)]
    · intro j
      rw [f6]; simp only [upd]
      by_cases hj : i + 1 ≤ j ∧ j < i + 1 + k
      · rw [if_pos hj, if_pos (by omega)]
      · rw [if_neg hj]
        by_cases hji : j = i
        · rw [if_pos hji, if_pos (by omega)]
        · rw [if_neg hji, if_neg (by omega)]

/-- the loop that links the new node -/
theorem linkLevels_eq (x : Nat) (d : Descent) (U : Nat → Nat) (L : Nat → ZLevel) : ∀ (k i : Nat) (h : List ZNode),
    (∀ j, i ≤ j → j < i + k → d.update j = some (U j) ∧ U j ≠ x ∧ lev h (U j) j = some (L j) ∧ ∃ l, lev h x j = some l) →
    ∃ h', linkLevels x d k i h = .ok h' ∧ h'.length = h.length ∧
      (∀ y j, lev h' y j = if i ≤ j ∧ j < i + k then
          (if y = x then some ⟨(L j).forward, usub (L j).span (usub (d.rank 0) (d.rank j))⟩
           else if y = U j then some ⟨some x, uadd (usub (d.rank 0) (d.rank j)) 1⟩ else lev h y j) else lev h y j) ∧
      (∀ y, stat h' y = stat h y)
  | 0, i, h, _ => ⟨h, rfl, rfl, fun y j => by rw [if_neg (by omega)], fun _ => rfl⟩
  | k + 1, i, h, hl => by
    obtain ⟨hu, hne, hlu, l0, hlx⟩ := hl i (by omega) (by omega)
    obtain ⟨h1, e1, e2, e3, e4⟩ := setLevel_eq hlx ⟨(L i).forward, usub (L i).span (usub (d.rank 0) (d.rank i))⟩
    have hlu1 : lev h1 (U i) i = some (L i) := by rw [e3, if_neg (by omega)]; exact hlu
    obtain ⟨h2, g1, g2, g3, g4⟩ := setLevel_eq hlu1 ⟨some x, uadd (usub (d.rank 0) (d.rank i)) 1⟩
    have hl' : ∀ j, i + 1 ≤ j → j < i + 1 + k → d.update j = some (U j) ∧ U j ≠ x ∧ lev h2 (U j) j = some (L j) ∧ ∃ l, lev h2 x j = some l := by
      intro j h1 h2
      obtain ⟨a1, a2, a3, a4⟩ := hl j (by omega) (by omega)
      rw [g3, if_neg (by omega), e3, if_neg (by omega), g3, if_neg (by omega), e3, if_neg (by omega)]
      exact ⟨a1, a2, a3, a4⟩
    obtain ⟨h', f1, f2, f3, f4⟩ := linkLevels_eq x d U L k (i + 1) h2 hl'
    refine ⟨h', ?_, by omega, ?_, ?_⟩
    · simp only [linkLevels, updAt, hu, level?_eq hlu, e1, g1, bind, Except.bind]; exact f1
    · intro y j
      rw [f3]
      by_cases hj : i + 1 ≤ j ∧ j < i + 1 + k
      · rw [if_pos hj, if_pos (show i ≤ j ∧ j < i + (k + 1) by omega)]
        have hk : lev h2 y j = lev h y j := by rw [g3, if_neg (by omega), e3, if_neg (by omega)]
        rw [hk]
      · rw [if_neg hj, g3, e3]
        by_cases hji : j = i
        · subst hji
          rw [if_pos (show j ≤ j ∧ j < j + (k + 1) by omega)]
          by_cases hyx : y = x
          · subst hyx
            rw [if_neg (show ¬ (y = U j ∧ j = j) from fun h => hne h.1.symm), if_pos ⟨rfl, rfl⟩, if_pos rfl]
          · by_cases hyu : y = U j
            · rw [if_pos ⟨hyu, rfl⟩, if_neg hyx, if_pos hyu]
            · rw [if_neg (show ¬ (y = U j ∧ j = j) from fun h => hyu h.1), if_neg (show ¬ (y = x ∧ j = j) from fun h => hyx h.1), if_neg hyx, if_neg hyu]
        · rw [if_neg (show ¬ (y = U i ∧ j = i) from fun h => hji h.2), if_neg (show ¬ (y = x ∧ j = i) from fun h => hji h.2), if_neg (by omega)]
    · intro y; rw [f4, g4, e4]

/-- the loop that widens the levels above the new node -/
theorem widenLevels_eq (d : Descent) (U : Nat → Nat) (L : Nat → ZLevel) : ∀ (k i : Nat) (h : List ZNode),
    (∀ j, i ≤ j → j < i + k → d.update j = some (U j) ∧ lev h (U j) j = some (L j)) →
    ∃ h', widenLevels d k i h = .ok h' ∧ h'.length = h.length ∧
      (∀ y j, lev h' y j = if i ≤ j ∧ j < i + k ∧ y = U j then some ⟨(L j).forward, uadd (L j).span 1⟩ else lev h y j) ∧
      (∀ y, stat h' y = stat h y)
  | 0, i, h, _ => ⟨h, rfl, rfl, fun y j => by rw [if_neg (by omega)], fun _ => rfl⟩
  | k + 1, i, h, hl => by
    obtain ⟨hu, hlu⟩ := hl i (by omega) (by omega)
    obtain ⟨h1, e1, e2, e3, e4⟩ := setLevel_eq hlu ⟨(L i).forward, uadd (L i).span 1⟩
    have hl' : ∀ j, i + 1 ≤ j → j < i + 1 + k → d.update j = some (U j) ∧ lev h1 (U j) j = some (L j) := by
      intro j h1 h2
      obtain ⟨a1, a3⟩ := hl j (by omega) (by omega)
      rw [e3, if_neg (by omega)]
      exact ⟨a1, a3⟩
    obtain ⟨h', f1, f2, f3, f4⟩ := widenLevels_eq d U L k (i + 1) h1 hl'
    refine ⟨h', ?_, by omega, ?_, ?_⟩
    · simp only [widenLevels, updAt, hu, level?_eq hlu, e1, bind, Except.bind]; exact f1
    · intro y j
      rw [f3]
      by_cases hj : i + 1 ≤ j ∧ j < i + 1 + k ∧ y = U j
      · rw [if_pos hj, if_pos (by omega)]
      · rw [if_neg hj, e3]
        by_cases hji : j = i
        · subst hji
          by_cases hyu : y = U j
          · rw [if_pos ⟨hyu, rfl⟩, if_pos (by omega)]
          · rw [if_neg (by omega), if_neg (by omega)]
        · rw [if_neg (by omega), if_neg (by omega)]
    · intro y; rw [f4, e4]

/-- the loop that unlinks a node -/
theorem unlinkLevels_eq (node : Nat) (update : Nat → Option Nat) (U : Nat → Nat) (L N : Nat → ZLevel) : ∀ (k i : Nat) (h : List ZNode),
    (∀ j, i ≤ j → j < i + k → update j = some (U j) ∧ U j ≠ node ∧ lev h (U j) j = some (L j) ∧
      ((L j).forward = some node → lev h node j = some (N j))) →
    ∃ h', unlinkLevels node update k i h = .ok h' ∧ h'.length = h.length ∧
      (∀ y j, lev h' y j = if i ≤ j ∧ j < i + k ∧ y = U j then
          (if (L j).forward = some node then some ⟨(N j).forward, uadd (L j).span (usub (N j).span 1)⟩
           else some ⟨(L j).forward, usub (L j).span 1⟩) else lev h y j) ∧
      (∀ y, stat h' y = stat h y)
  | 0, i, h, _ => ⟨h, rfl, rfl, fun y j => by rw [if_neg (by omega)], fun _ => rfl⟩
  | k + 1, i, h, hl => by
    obtain ⟨hu, hne, hlu, hln⟩ := hl i (by omega) (by omega)
    have key : ∃ l, setLevel h (U i) i l = setLevel h (U i) i l ∧
        l = (if (L i).forward = some node then ⟨(N i).forward, uadd (L i).span (usub (N i).span 1)⟩
           else ⟨(L i).forward, usub (L i).span 1⟩) ∧
        unlinkLevels node update (k + 1) i h = (setLevel h (U i) i l).bind (fun h => unlinkLevels node update k (i + 1) h) := by
      by_cases hf : (L i).forward = some node
      · refine ⟨_, rfl, (if_pos hf).symm, ?_⟩
        simp only [unlinkLevels, updAt, hu, level?_eq hlu, hf, level?_eq (hln hf), bind, Except.bind, if_true]
      · refine ⟨_, rfl, (if_neg hf).symm, ?_⟩
        simp only [unlinkLevels, updAt, hu, level?_eq hlu, if_neg hf, bind, Except.bind]
    obtain ⟨l, _, hl2, hrun⟩ := key
    obtain ⟨h1, e1, e2, e3, e4⟩ := setLevel_eq hlu l
    have hl' : ∀ j, i + 1 ≤ j → j < i + 1 + k → update j = some (U j) ∧ U j ≠ node ∧ lev h1 (U j) j = some (L j) ∧
      ((L j).forward = some node → lev h1 node j = some (N j)) := by
      intro j h1 h2
      obtain ⟨a1, a2, a3, a4⟩ := hl j (by omega) (by omega)
      refine ⟨a1, a2, ?_, fun hf => ?_⟩
      · rw [e3, if_neg (by omega)]; exact a3
      · rw [e3, if_neg (by omega)]; exact a4 hf
    obtain ⟨h', f1, f2, f3, f4⟩ := unlinkLevels_eq node update U L N k (i + 1) h1 hl'
    refine ⟨h', ?_, by omega, ?_, ?_⟩
    · rw [hrun, e1]; exact f1
    · intro y j
      rw [f3]
      by_cases hj : i + 1 ≤ j ∧ j < i + 1 + k ∧ y = U j
      · rw [if_pos hj, if_pos (show i ≤ j ∧ j < i + (k + 1) ∧ y = U j by omega)]
      · rw [if_neg hj, e3]
        by_cases hji : j = i
        · subst hji
          by_cases hyu : y = U j
          · rw [if_pos ⟨hyu, rfl⟩, if_pos (show j ≤ j ∧ j < j + (k + 1) ∧ y = U j by omega), hl2]
            split <;> rfl
          · rw [if_neg (by omega), if_neg (by omega)]
        · rw [if_neg (by omega), if_neg (by omega)]
    · intro y; rw [f4, e4]

/-- the loop that drops empty top levels -/
theorem shrinkLevel_eq (hh : ∃ t, stat h 0 = some ([], 0, t, 32)) : ∀ (n : Nat), 1 ≤ n → n ≤ 32 →
    ∃ n', shrinkLevel h n = .ok n' ∧ 1 ≤ n' ∧ n' ≤ n ∧ (∀ i, n' ≤ i → i < n → ∃ sp, lev h 0 i = some ⟨none, sp⟩)
  | 0, h1, _ => absurd h1 (by omega)
  | 1, _, _ => ⟨1, rfl, by omega, by omega, fun i h1 h2 => by omega⟩
  | n + 2, _, h2 => by
    obtain ⟨t, hh'⟩ := hh
    obtain ⟨l, hl⟩ := lev_some hh' (show n + 1 < 32 by omega)
    simp only [shrinkLevel, level?_eq hl, bind, Except.bind]
    by_cases hf : l.forward = none
    · rw [if_pos hf]
      obtain ⟨n', e1, e2, e3, e4⟩ := shrinkLevel_eq ⟨t, hh'⟩ (n + 1) (by omega) (by omega)
      refine ⟨n', e1, e2, by omega, fun i h3 h4 => ?_⟩
      by_cases hi : i = n + 1
      · subst hi
        obtain ⟨f, sp⟩ := l
        simp only at hf; subst hf
        exact ⟨sp, hl⟩
      · exact e4 i h3 (by omega)
    · rw [if_neg hf]
      exact ⟨n + 2, rfl, by omega, by omega, fun i h1 h2 => by omega⟩

end ZSL
end Godis
