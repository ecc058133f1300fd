import Verif.Proofs.Order
/-!
# The links of a skip list have no cycles; no command loops for ever
-/
namespace Godis
namespace ZSL

/-- the forward pointer of node `a` at level `i` -/
def fwd (h : List ZNode) (a i : Nat) : Option Nat := ((h[a]?).bind (·.levels[i]?)).bind (·.forward)

/-- at every level `i` the links follow the order `R i` -/
def Linked (R : Nat → Nat → Int) (h : List ZNode) : Prop := ∀ i a b, fwd h a i = some b → R i a < R i b ∧ b < h.length

/-- the links follow some order at each level -/
def Ok (z : ZSL) : Prop := ∃ R, Linked R z.nodes

theorem load_ok {h : List ZNode} {x n} (hl : load h x = .ok n) : h[x]? = some n := by
  unfold load at hl
  split at hl
  · next m hm => cases hl; exact hm
  · cases hl

theorem level?_ok {h : List ZNode} {x i l} (hl : level? h x i = .ok l) : ∃ n, h[x]? = some n ∧ n.levels[i]? = some l := by
  obtain ⟨n, h1, h2⟩ := bind_ok hl
  refine ⟨n, load_ok h1, ?_⟩
  split at h2
  · next m hm => cases h2; exact hm
  · cases h2

theorem level?_fwd {h : List ZNode} {x i l} (hl : level? h x i = .ok l) : fwd h x i = l.forward := by
  obtain ⟨n, h1, h2⟩ := level?_ok hl
  unfold fwd; rw [h1]; simp [h2]

theorem setLevel_fwd {h h' : List ZNode} {x i l} (hl : setLevel h x i l = .ok h') :
    (∀ a j, fwd h' a j = if a = x ∧ j = i then l.forward else fwd h a j) ∧ h'.length = h.length := by
  obtain ⟨n, h1, h2⟩ := bind_ok hl
  have h1 := load_ok h1
  have hlt := (List.getElem?_eq_some_iff.mp h1).1
  split at h2
  · next m hm =>
    cases h2
    refine ⟨fun a j => ?_, List.length_set⟩
    unfold fwd
    by_cases hx : x = a
    · subst hx
      rw [List.getElem?_set_self hlt, h1]
      by_cases hj : i = j
      · subst hj
        have := (List.getElem?_eq_some_iff.mp hm).1
        simp [List.getElem?_set_self this]
      · simp [List.getElem?_set_ne hj, Ne.symm hj]
    · rw [List.getElem?_set_ne hx, if_neg (fun hh => hx hh.1.symm)]
  · cases h2

theorem fwd_set {h : List ZNode} {x : Nat} {n m : ZNode} (hn : h[x]? = some n) (hm : m.levels = n.levels) (a j : Nat) :
    fwd (h.set x m) a j = fwd h a j := by
  have hlt := (List.getElem?_eq_some_iff.mp hn).1
  unfold fwd
  by_cases hx : x = a
  · subst hx; rw [List.getElem?_set_self hlt, hn]; simp [hm]
  · rw [List.getElem?_set_ne hx]

theorem setBackward_fwd {h h' : List ZNode} {x p} (hl : setBackward h x p = .ok h') :
    (∀ a j, fwd h' a j = fwd h a j) ∧ h'.length = h.length := by
  obtain ⟨n, h1, h2⟩ := bind_ok hl
  cases h2
  exact ⟨fwd_set (m := { n with backward := p }) (load_ok h1) rfl, List.length_set⟩

theorem setScore_fwd {h h' : List ZNode} {x p} (hl : setScore h x p = .ok h') :
    (∀ a j, fwd h' a j = fwd h a j) ∧ h'.length = h.length := by
  obtain ⟨n, h1, h2⟩ := bind_ok hl
  cases h2
  exact ⟨fwd_set (m := { n with score := p }) (load_ok h1) rfl, List.length_set⟩

theorem Linked.same {R h h'} (ho : Linked R h) (hf : ∀ a j, fwd h' a j = fwd h a j) (hl : h'.length = h.length) : Linked R h' := by
  intro i a b hb
  rw [hf] at hb
  rw [hl]
  exact ho i a b hb

theorem Linked.setLevel {R h h' x i l} (ho : Linked R h) (hs : ZSL.setLevel h x i l = .ok h')
    (hl : ∀ b, l.forward = some b → R i x < R i b ∧ b < h.length) : Linked R h' := by
  obtain ⟨h1, h2⟩ := setLevel_fwd hs
  intro j a b hb
  rw [h1] at hb
  rw [h2]
  split at hb
  · next he => obtain ⟨rfl, rfl⟩ := he; exact hl b hb
  · exact ho j a b hb

/-! ### nothing here loops -/

theorem nd_load (h : List ZNode) (x : Nat) : ND (load h x) := by
  unfold load ND
  split <;> simp

theorem nd_level? (h : List ZNode) (x i : Nat) : ND (level? h x i) := by
  unfold level?
  refine (nd_load _ _).bind (fun n _ => ?_)
  split
  · exact .ok _
  · intro h; cases h

theorem nd_setLevel (h : List ZNode) (x i l) : ND (setLevel h x i l) := by
  unfold setLevel
  refine (nd_load _ _).bind (fun n _ => ?_)
  split
  · exact .ok _
  · intro h; cases h

theorem nd_setBackward (h : List ZNode) (x p) : ND (setBackward h x p) := by
  unfold setBackward
  exact (nd_load _ _).bind (fun n _ => .ok _)

theorem nd_setScore (h : List ZNode) (x p) : ND (setScore h x p) := by
  unfold setScore
  exact (nd_load _ _).bind (fun n _ => .ok _)

theorem nd_updAt (d : Descent) (i) : ND (updAt d i) := by
  unfold updAt ND
  split <;> simp

variable {R : Nat → Nat → Int} {h : List ZNode}

/-- one more step along level `i` -/
theorem Linked.shrinks (ho : Linked R h) {x i l y fuel} (hl : level? h x i = .ok l) (hy : l.forward = some y)
    (hf : above (R i) h.length x < fuel + 1) : above (R i) h.length y < fuel := by
  obtain ⟨h1, h2⟩ := ho i x y (by rw [level?_fwd hl, hy])
  have := above_lt h1 h2
  omega

theorem nd_walk (ho : Linked R h) (i cond) : ∀ fuel x rank, above (R i) h.length x < fuel → ND (walk h i cond fuel x rank)
  | 0, _, _, hf => absurd hf (Nat.not_lt_zero _)
  | fuel + 1, x, rank, hf => by
    unfold walk
    refine (nd_level? _ _ _).bind (fun l hl => ?_)
    split
    · exact .ok _
    · next y hy =>
      refine (nd_load _ _).bind (fun n _ => ?_)
      split
      · exact nd_walk ho i cond fuel y _ (ho.shrinks hl hy hf)
      · exact .ok _

theorem nd_walk' (ho : Linked R h) (i cond x rank) : ND (walk h i cond (h.length + 1) x rank) :=
  nd_walk ho i cond _ x rank (by have := above_le (R i) h.length x; omega)

theorem nd_rankWalk (ho : Linked R h) (i score value) : ∀ fuel x rank, above (R i) h.length x < fuel → ND (rankWalk h i score value fuel x rank)
  | 0, _, _, hf => absurd hf (Nat.not_lt_zero _)
  | fuel + 1, x, rank, hf => by
    unfold rankWalk
    refine (nd_level? _ _ _).bind (fun l hl => ?_)
    split
    · exact .ok _
    · next y hy =>
      refine (nd_load _ _).bind (fun n _ => ?_)
      split
      · dsimp only
        split
        · exact .ok _
        · exact nd_rankWalk ho i score value fuel y _ (ho.shrinks hl hy hf)
      · exact .ok _

theorem nd_minWalk (ho : Linked R h) (i score o) : ∀ fuel x rank, above (R i) h.length x < fuel → ND (minWalk h i score o fuel x rank)
  | 0, _, _, hf => absurd hf (Nat.not_lt_zero _)
  | fuel + 1, x, rank, hf => by
    unfold minWalk
    refine (nd_level? _ _ _).bind (fun l hl => ?_)
    split
    · exact .ok _
    · next y hy =>
      refine (nd_load _ _).bind (fun n _ => ?_)
      split
      · dsimp only
        refine (nd_load _ _).bind (fun m _ => ?_)
        split
        · exact .ok _
        · exact nd_minWalk ho i score o fuel y _ (ho.shrinks hl hy hf)
      · exact .ok _

theorem nd_maxWalk (ho : Linked R h) (i score o) : ∀ fuel x rank, above (R i) h.length x < fuel → ND (maxWalk h i score o fuel x rank)
  | 0, _, _, hf => absurd hf (Nat.not_lt_zero _)
  | fuel + 1, x, rank, hf => by
    unfold maxWalk
    refine (nd_level? _ _ _).bind (fun l hl => ?_)
    split
    · exact .ok _
    · next y hy =>
      refine (nd_load _ _).bind (fun n _ => ?_)
      split
      · dsimp only
        split
        · exact .ok _
        · exact nd_maxWalk ho i score o fuel y _ (ho.shrinks hl hy hf)
      · exact .ok _

theorem nd_findWalk (ho : Linked R h) (i r) : ∀ fuel x t, above (R i) h.length x < fuel → ND (findWalk h i r fuel x t)
  | 0, _, _, hf => absurd hf (Nat.not_lt_zero _)
  | fuel + 1, x, rank, hf => by
    unfold findWalk
    refine (nd_level? _ _ _).bind (fun l hl => ?_)
    split
    · exact .ok _
    · next y hy =>
      split
      · exact nd_findWalk ho i r fuel y _ (ho.shrinks hl hy hf)
      · exact .ok _

theorem above_fuel (r : Nat → Int) (n x : Nat) : above r n x < n + 1 := by have := above_le r n x; omega

theorem nd_rankLoop (ho : Linked R h) (score value) : ∀ k x rank, ND (rankLoop h score value k x rank)
  | 0, _, _ => .ok _
  | i + 1, x, rank => by
    unfold rankLoop
    refine (nd_rankWalk ho i score value _ x rank (above_fuel _ _ _)).bind (fun a _ => ?_)
    dsimp only
    split
    · exact .ok _
    · exact nd_rankLoop ho score value i _ _

theorem nd_minLoop (ho : Linked R h) (score o) : ∀ k x rank, ND (minLoop h score o k x rank)
  | 0, _, _ => .ok _
  | i + 1, x, rank => by
    unfold minLoop
    refine (nd_minWalk ho i score o _ x rank (above_fuel _ _ _)).bind (fun a _ => ?_)
    dsimp only
    split
    · exact .ok _
    · exact nd_minLoop ho score o i _ _

theorem nd_maxLoop (ho : Linked R h) (score o) : ∀ k x rank, ND (maxLoop h score o k x rank)
  | 0, _, _ => .ok _
  | i + 1, x, rank => by
    unfold maxLoop
    refine (nd_maxWalk ho i score o _ x rank (above_fuel _ _ _)).bind (fun a _ => ?_)
    dsimp only
    split
    · exact .ok _
    · exact nd_maxLoop ho score o i _ _

theorem nd_findLoop (ho : Linked R h) (r) : ∀ k x t, ND (findLoop h r k x t)
  | 0, _, _ => .ok _
  | i + 1, x, rank => by
    unfold findLoop
    refine (nd_findWalk ho i r _ x rank (above_fuel _ _ _)).bind (fun a _ => ?_)
    dsimp only
    split
    · exact .ok _
    · exact nd_findLoop ho r i _ _

theorem nd_insertDescent (ho : Linked R h) (top score value) : ∀ k x d, ND (insertDescent h top score value k x d)
  | 0, _, _ => .ok _
  | i + 1, x, d => by
    unfold insertDescent
    split
    · intro h; cases h
    · exact (nd_walk' ho i _ x _).bind (fun a _ => nd_insertDescent ho top score value i _ _)

theorem nd_searchDescent (ho : Linked R h) (score value) : ∀ k x d, ND (searchDescent h score value k x d)
  | 0, _, _ => .ok _
  | i + 1, x, d => by
    unfold searchDescent
    exact (nd_walk' ho i _ x _).bind (fun a _ => nd_searchDescent ho score value i _ _)

theorem nd_deleteDescent (h) (score value) : ∀ k x d, ND (deleteDescent h score value k x d)
  | 0, _, _ => .ok _
  | i + 1, x, d => by
    unfold deleteDescent
    refine (nd_level? _ _ _).bind (fun l hl => ?_)
    dsimp only
    split
    · exact (ND.ok _).bind (fun a _ => nd_deleteDescent h score value i _ _)
    · exact (nd_load _ _).bind (fun n _ => (ND.ok _).bind (fun a _ => nd_deleteDescent h score value i _ _))

theorem nd_raiseLevels (len) : ∀ k i h d, ND (raiseLevels len k i h d)
  | 0, _, _, _ => .ok _
  | k + 1, i, h, d => by
    unfold raiseLevels
    exact (nd_level? _ _ _).bind (fun l _ => (nd_setLevel _ _ _ _).bind (fun h' _ => nd_raiseLevels len k _ _ _))

theorem nd_linkLevels (x d) : ∀ k i h, ND (linkLevels x d k i h)
  | 0, _, _ => .ok _
  | k + 1, i, h => by
    unfold linkLevels
    refine (nd_updAt _ _).bind (fun u _ => (nd_level? _ _ _).bind (fun l _ => ?_))
    exact (nd_setLevel _ _ _ _).bind (fun h' _ => (nd_setLevel _ _ _ _).bind (fun h' _ => nd_linkLevels x d k _ _))

theorem nd_widenLevels (d) : ∀ k i h, ND (widenLevels d k i h)
  | 0, _, _ => .ok _
  | k + 1, i, h => by
    unfold widenLevels
    refine (nd_updAt _ _).bind (fun u _ => (nd_level? _ _ _).bind (fun l _ => ?_))
    exact (nd_setLevel _ _ _ _).bind (fun h' _ => nd_widenLevels d k _ _)

theorem nd_insert {z : ZSL} (hz : Ok z) (score value draw) : ND (z.insert score value draw) := by
  obtain ⟨R, ho⟩ := hz
  unfold insert
  refine (nd_insertDescent ho _ _ _ _ _ _).bind (fun a _ => ?_)
  refine (nd_raiseLevels _ _ _ _ _).bind (fun b _ => ?_)
  dsimp only
  refine (nd_linkLevels _ _ _ _ _).bind (fun h1 _ => (nd_widenLevels _ _ _ _).bind (fun h2 _ => (nd_updAt _ _).bind (fun u _ => ?_)))
  split
  · refine (nd_setBackward _ _ _).bind (fun h3 _ => (nd_level? _ _ _).bind (fun l _ => ?_))
    split
    · exact (nd_setBackward _ _ _).bind (fun _ _ => .ok _)
    · exact .ok _
  · refine (ND.ok _).bind (fun h3 _ => (nd_level? _ _ _).bind (fun l _ => ?_))
    split
    · exact (nd_setBackward _ _ _).bind (fun _ _ => .ok _)
    · exact .ok _

theorem nd_unlinkLevels (node u) : ∀ k i h, ND (unlinkLevels node u k i h)
  | 0, _, _ => .ok _
  | k + 1, i, h => by
    unfold unlinkLevels
    refine (nd_updAt _ _).bind (fun u _ => (nd_level? _ _ _).bind (fun l _ => ?_))
    split
    · exact (nd_level? _ _ _).bind (fun l _ => (nd_setLevel _ _ _ _).bind (fun h' _ => nd_unlinkLevels node _ k _ _))
    · exact (nd_setLevel _ _ _ _).bind (fun h' _ => nd_unlinkLevels node _ k _ _)

theorem nd_shrinkLevel (h) : ∀ l, ND (shrinkLevel h l)
  | 0 => .ok _
  | 1 => .ok _
  | l + 2 => by
    unfold shrinkLevel
    refine (nd_level? _ _ _).bind (fun c _ => ?_)
    split
    · exact nd_shrinkLevel h (l + 1)
    · exact .ok _

theorem nd_deleteNode (z : ZSL) (node u) : ND (z.deleteNode node u) := by
  unfold deleteNode
  refine (nd_unlinkLevels _ _ _ _ _).bind (fun h _ => (nd_level? _ _ _).bind (fun l _ => (nd_load _ _).bind (fun n _ => ?_)))
  dsimp only
  split
  · exact (nd_setBackward _ _ _).bind (fun h' _ => (nd_shrinkLevel _ _).bind (fun _ _ => .ok _))
  · exact (ND.ok _).bind (fun h' _ => (nd_shrinkLevel _ _).bind (fun _ _ => .ok _))

theorem nd_delete (z : ZSL) (score value) : ND (z.delete score value) := by
  unfold delete
  refine (nd_deleteDescent _ _ _ _ _ _).bind (fun a _ => (nd_level? _ _ _).bind (fun l _ => ?_))
  split
  · exact .ok _
  · refine (nd_load _ _).bind (fun n _ => ?_)
    split
    · exact (nd_deleteNode _ _ _).bind (fun _ _ => .ok _)
    · exact .ok _

/-! ### the order is kept -/

theorem raiseLevels_fwd (len) : ∀ k i h d h' d', raiseLevels len k i h d = .ok (h', d') →
    (∀ a j, fwd h' a j = fwd h a j) ∧ h'.length = h.length
  | 0, _, _, _, _, _, he => by cases he; exact ⟨fun _ _ => rfl, rfl⟩
  | k + 1, i, h, d, h', d', he => by
    unfold raiseLevels at he
    obtain ⟨l, hl, he⟩ := bind_ok he
    obtain ⟨h1, hs, he⟩ := bind_ok he
    obtain ⟨f1, l1⟩ := setLevel_fwd hs
    obtain ⟨f2, l2⟩ := raiseLevels_fwd len k _ _ _ _ _ he
    refine ⟨fun a j => ?_, l2.trans l1⟩
    rw [f2, f1]
    split
    · next e => obtain ⟨rfl, rfl⟩ := e; exact (level?_fwd hl).symm
    · rfl

theorem widenLevels_fwd (d) : ∀ k i h h', widenLevels d k i h = .ok h' → (∀ a j, fwd h' a j = fwd h a j) ∧ h'.length = h.length
  | 0, _, _, _, he => by cases he; exact ⟨fun _ _ => rfl, rfl⟩
  | k + 1, i, h, h', he => by
    unfold widenLevels at he
    obtain ⟨u, hu, he⟩ := bind_ok he
    obtain ⟨l, hl, he⟩ := bind_ok he
    obtain ⟨h1, hs, he⟩ := bind_ok he
    obtain ⟨f1, l1⟩ := setLevel_fwd hs
    obtain ⟨f2, l2⟩ := widenLevels_fwd d k _ _ _ he
    refine ⟨fun a j => ?_, l2.trans l1⟩
    rw [f2, f1]
    split
    · next e => obtain ⟨rfl, rfl⟩ := e; exact (level?_fwd hl).symm
    · rfl

theorem fwd_append (h : List ZNode) (lvl score value) (a j : Nat) : fwd (h ++ [newZslNode lvl score value]) a j = fwd h a j := by
  unfold fwd
  rcases Nat.lt_or_ge a h.length with ha | ha
  · rw [List.getElem?_append_left ha]
  · rw [List.getElem?_append_right ha, List.getElem?_eq_none ha]
    cases hk : a - h.length with
    | zero =>
      simp only [List.getElem?_cons_zero, newZslNode, Option.bind_some]
      cases hq : (List.replicate lvl (⟨none, 0⟩ : ZLevel))[j]? with
      | none => rfl
      | some l =>
        have := List.mem_of_getElem? hq
        rw [List.mem_replicate] at this
        rw [this.2]; rfl
    | succ k => simp

theorem linkLevels_ordered (R : Nat → Nat → Int) (x d) : ∀ k i h h', linkLevels x d k i h = .ok h' → Linked R h → x < h.length →
    (∀ j, i ≤ j → ∀ u, d.update j = some u → R j u < R j x ∧ ∀ b, fwd h u j = some b → R j x < R j b) →
    Linked R h' ∧ h'.length = h.length
  | 0, _, _, _, he, ho, _, _ => by cases he; exact ⟨ho, rfl⟩
  | k + 1, i, h, h', he, ho, hx, hd => by
    unfold linkLevels at he
    obtain ⟨u, hu, he⟩ := bind_ok he
    obtain ⟨l, hl, he⟩ := bind_ok he
    obtain ⟨h1, hs1, he⟩ := bind_ok he
    obtain ⟨h2, hs2, he⟩ := bind_ok he
    have hu : d.update i = some u := by
      unfold updAt at hu
      split at hu
      · next v hv => cases hu; exact hv
      · cases hu
    obtain ⟨hux, hxb⟩ := hd i (Nat.le_refl _) u hu
    have o1 := ho.setLevel hs1 (fun b hb => ⟨hxb b (by rw [level?_fwd hl]; exact hb), (ho i u b (by rw [level?_fwd hl]; exact hb)).2⟩)
    obtain ⟨f1, l1⟩ := setLevel_fwd hs1
    have o2 := o1.setLevel hs2 (fun b hb => by cases hb; exact ⟨hux, by rw [l1]; exact hx⟩)
    obtain ⟨f2, l2⟩ := setLevel_fwd hs2
    obtain ⟨o3, l3⟩ := linkLevels_ordered R x d k (i + 1) h2 h' he o2 (by omega) (fun j hj v hv => by
      obtain ⟨h4, h5⟩ := hd j (by omega) v hv
      refine ⟨h4, fun b hb => h5 b ?_⟩
      rw [f2, if_neg (by rintro ⟨_, rfl⟩; omega), f1, if_neg (by rintro ⟨_, rfl⟩; omega)] at hb
      exact hb)
    exact ⟨o3, by omega⟩

/-- room for the new node, just after `d.update i` at level `i` -/
def widen (R : Nat → Nat → Int) (n : Nat) (d : Nat → Option Nat) : Nat → Nat → Int := fun i a =>
  if a = n then (match d i with | some u => 2 * R i u + 1 | none => 0) else 2 * R i a

theorem level?_lt {h : List ZNode} {x i l} (hl : level? h x i = .ok l) : x < h.length := by
  obtain ⟨n, h1, _⟩ := level?_ok hl
  exact (List.getElem?_eq_some_iff.mp h1).1

theorem linkLevels_ordered' (R : Nat → Nat → Int) (d : Descent) (k h h' lvl score value)
    (he : linkLevels h.length d k 0 (h ++ [newZslNode lvl score value]) = .ok h') (ho : Linked R h)
    (hd : ∀ j u, d.update j = some u → u < h.length) : ∃ R', Linked R' h' := by
  have hlen : (h ++ [newZslNode lvl score value]).length = h.length + 1 := by simp
  have o1 : Linked (widen R h.length d.update) (h ++ [newZslNode lvl score value]) := by
    intro i a b hb
    rw [fwd_append] at hb
    obtain ⟨h1, h2⟩ := ho i a b hb
    have ha : a < h.length := by
      unfold fwd at hb
      cases hq : h[a]? with
      | none => rw [hq] at hb; cases hb
      | some m => exact (List.getElem?_eq_some_iff.mp hq).1
    unfold widen
    rw [if_neg (by omega), if_neg (by omega), hlen]
    exact ⟨by omega, by omega⟩
  refine ⟨_, (linkLevels_ordered (widen R h.length d.update) _ _ _ _ _ _ he o1 (by rw [hlen]; omega) ?_).1⟩
  intro j _ u hu
  have hne := hd j u hu
  constructor
  · unfold widen
    rw [if_neg (by omega), if_pos rfl, hu]
    dsimp only; omega
  · intro b hb
    rw [fwd_append] at hb
    obtain ⟨h1, h2⟩ := ho j u b hb
    unfold widen
    rw [if_pos rfl, if_neg (by omega), hu]
    dsimp only; omega

theorem walk_lt (i cond) : ∀ fuel (h : List ZNode) x rank y r, walk h i cond fuel x rank = .ok (y, r) → y < h.length
  | 0, _, _, _, _, _, he => by cases he
  | fuel + 1, h, x, rank, y, r, he => by
    unfold walk at he
    obtain ⟨l, hl, he⟩ := bind_ok he
    split at he
    · cases he; exact level?_lt hl
    · obtain ⟨n, hn, he⟩ := bind_ok he
      split at he
      · exact walk_lt i cond fuel h _ _ _ _ he
      · cases he; exact level?_lt hl

theorem upd_some {u : Nat → Option Nat} {i n x : Nat} (hx : x < n) (hu : ∀ j v, u j = some v → v < n) : ∀ j v, upd u i (some x) j = some v → v < n := by
  intro j v hv
  unfold upd at hv
  split at hv
  · cases hv; exact hx
  · exact hu j v hv

theorem insertDescent_lt (h : List ZNode) (top score value) : ∀ k x d y d', insertDescent h top score value k x d = .ok (y, d') →
    (∀ j u, d.update j = some u → u < h.length) → ∀ j u, d'.update j = some u → u < h.length
  | 0, _, _, _, _, he, hd => by cases he; exact hd
  | i + 1, x, d, y, d', he, hd => by
    unfold insertDescent at he
    split at he
    · cases he
    · obtain ⟨⟨a, r⟩, hw, he⟩ := bind_ok he
      exact insertDescent_lt h top score value i _ _ _ _ he (upd_some (walk_lt _ _ _ _ _ _ _ _ hw) hd)

theorem raiseLevels_lt (len) : ∀ k i h d h' d', raiseLevels len k i h d = .ok (h', d') →
    (∀ j u, d.update j = some u → u < h.length) → ∀ j u, d'.update j = some u → u < h'.length
  | 0, _, _, _, _, _, he, hd => by cases he; exact hd
  | k + 1, i, h, d, h', d', he, hd => by
    unfold raiseLevels at he
    obtain ⟨l, hl, he⟩ := bind_ok he
    obtain ⟨h1, hs, he⟩ := bind_ok he
    have hl1 := (setLevel_fwd hs).2
    exact raiseLevels_lt len k _ _ _ _ _ he (by rw [hl1]; exact upd_some (level?_lt hl) hd)

theorem ok_insert {z z' : ZSL} {score value draw x} (hz : Ok z) (he : z.insert score value draw = .ok (z', x)) : Ok z' := by
  obtain ⟨R, ho⟩ := hz
  unfold insert at he
  obtain ⟨⟨y, d⟩, hd, he⟩ := bind_ok he
  obtain ⟨⟨h1, d1⟩, hr, he⟩ := bind_ok he
  obtain ⟨h2, hlk, he⟩ := bind_ok he
  obtain ⟨h3, hw, he⟩ := bind_ok he
  obtain ⟨u, hu, he⟩ := bind_ok he
  obtain ⟨f1, l1⟩ := raiseLevels_fwd _ _ _ _ _ _ _ hr
  have o1 := ho.same f1 l1
  have hlt := raiseLevels_lt _ _ _ _ _ _ _ hr (insertDescent_lt _ _ _ _ _ _ _ _ _ hd (fun j v hv => by cases hv))
  obtain ⟨R', o2⟩ := linkLevels_ordered' R d1 _ h1 h2 _ _ _ hlk o1 hlt
  obtain ⟨f3, l3⟩ := widenLevels_fwd _ _ _ _ _ hw
  have o3 := o2.same f3 l3
  have hback : ∀ h4, (if u ≠ 0 then setBackward h3 h1.length (some u) else .ok h3) = .ok h4 → Linked R' h4 := by
    intro h4 e
    split at e
    · obtain ⟨f4, l4⟩ := setBackward_fwd e; exact o3.same f4 l4
    · cases e; exact o3
  have hend : ∀ h4, Linked R' h4 → (do
      let l0 ← level? h4 h1.length 0
      match l0.forward with
      | some y => do
        let h ← setBackward h4 y (some h1.length)
        (.ok (⟨h, z.tail, z.length + 1, if zslRandomLevel draw > z.level then zslRandomLevel draw else z.level⟩, h1.length) : Go (ZSL × Nat))
      | none => .ok (⟨h4, some h1.length, z.length + 1, if zslRandomLevel draw > z.level then zslRandomLevel draw else z.level⟩, h1.length)) = .ok (z', x) → Ok z' := by
    intro h4 o4 e
    obtain ⟨l, _, e⟩ := bind_ok e
    split at e
    · obtain ⟨h5, hb, e⟩ := bind_ok e
      cases e
      obtain ⟨f5, l5⟩ := setBackward_fwd hb
      exact ⟨R', o4.same f5 l5⟩
    · cases e; exact ⟨R', o4⟩
  dsimp only at he
  split at he
  · next hu0 =>
    obtain ⟨h4, h5, he⟩ := bind_ok he
    exact hend h4 (hback h4 (by rw [if_pos hu0]; exact h5)) he
  · next hu0 =>
    obtain ⟨h4, h5, he⟩ := bind_ok he
    exact hend h4 (hback h4 (by rw [if_neg hu0]; exact h5)) he

theorem unlinkLevels_ordered (R : Nat → Nat → Int) (node u) : ∀ k i h h', unlinkLevels node u k i h = .ok h' → Linked R h → Linked R h' ∧ h'.length = h.length
  | 0, _, _, _, he, ho => by cases he; exact ⟨ho, rfl⟩
  | k + 1, i, h, h', he, ho => by
    unfold unlinkLevels at he
    obtain ⟨v, hv, he⟩ := bind_ok he
    obtain ⟨l, hl, he⟩ := bind_ok he
    split at he
    · next hn =>
      obtain ⟨ln, hln, he⟩ := bind_ok he
      obtain ⟨h1, hs, he⟩ := bind_ok he
      have o1 := ho.setLevel hs (fun b hb => by
        have k1 := ho i v node (by rw [level?_fwd hl]; exact hn)
        have k2 := ho i node b (by rw [level?_fwd hln]; exact hb)
        exact ⟨by omega, k2.2⟩)
      obtain ⟨o2, l2⟩ := unlinkLevels_ordered R node u k _ _ _ he o1
      exact ⟨o2, by rw [l2, (setLevel_fwd hs).2]⟩
    · obtain ⟨h1, hs, he⟩ := bind_ok he
      have o1 := ho.setLevel hs (fun b hb => ho i v b (by rw [level?_fwd hl]; exact hb))
      obtain ⟨o2, l2⟩ := unlinkLevels_ordered R node u k _ _ _ he o1
      exact ⟨o2, by rw [l2, (setLevel_fwd hs).2]⟩

theorem ok_deleteNode {z z' : ZSL} {node u} (hz : Ok z) (he : z.deleteNode node u = .ok z') : Ok z' := by
  obtain ⟨R, ho⟩ := hz
  unfold deleteNode at he
  obtain ⟨h1, h2, he⟩ := bind_ok he
  obtain ⟨o1, l1⟩ := unlinkLevels_ordered R _ _ _ _ _ _ h2 ho
  obtain ⟨l, hl, he⟩ := bind_ok he
  obtain ⟨n, hn, he⟩ := bind_ok he
  dsimp only at he
  split at he
  · obtain ⟨h3, hb, he⟩ := bind_ok he
    obtain ⟨lv, _, he⟩ := bind_ok he
    cases he
    obtain ⟨f5, l5⟩ := setBackward_fwd hb
    exact ⟨R, o1.same f5 l5⟩
  · obtain ⟨h3, hb, he⟩ := bind_ok he
    obtain ⟨lv, _, he⟩ := bind_ok he
    cases he
    cases hb
    exact ⟨R, o1⟩

theorem ok_delete {z z' : ZSL} {score value n} (hz : Ok z) (he : z.delete score value = .ok (z', n)) : Ok z' := by
  unfold delete at he
  obtain ⟨⟨x, u⟩, _, he⟩ := bind_ok he
  obtain ⟨l, hl, he⟩ := bind_ok he
  split at he
  · cases he; exact hz
  · obtain ⟨m, hm, he⟩ := bind_ok he
    split at he
    · obtain ⟨z1, h1, he⟩ := bind_ok he
      cases he
      exact ok_deleteNode hz h1
    · cases he; exact hz

theorem updateScore_spec {z : ZSL} (hz : Ok z) (cur new value rng) :
    ND (z.updateScore cur new value rng) ∧ ∀ z' x rng', z.updateScore cur new value rng = .ok (z', x, rng') → Ok z' := by
  obtain ⟨R, ho⟩ := hz
  have hz : Ok z := ⟨R, ho⟩
  unfold updateScore
  constructor
  · refine (nd_searchDescent ho _ _ _ _ _).bind (fun a _ => (nd_level? _ _ _).bind (fun l _ => ?_))
    dsimp only
    split
    · exact .ok _
    · refine (nd_load _ _).bind (fun n _ => ?_)
      have hrest : ∀ (p b : Bool) (x : Nat), ND (if (p && b) = true then (do
            let h ← setScore z.nodes x new
            (.ok ({ z with nodes := h }, some x, rng) : Go (ZSL × Option Nat × Rng)))
          else (do
            let z ← deleteNode z x a.2
            let (z, y) ← insert z new value (rng 0)
            .ok (z, some y, fun i => rng (i + 1)))) := by
        intro p b x
        split
        · exact (nd_setScore _ _ _).bind (fun _ _ => .ok _)
        · exact (nd_deleteNode _ _ _).bind (fun z1 h1 => (nd_insert (ok_deleteNode hz h1) _ _ _).bind (fun _ _ => .ok _))
      have hfwd : ∀ (p : Bool) (x : Nat), ND (do
          let l0 ← level? z.nodes x 0
          let okFwd ← match l0.forward with
            | none => .ok true
            | some f => do let nf ← load z.nodes f; .ok (new.lt nf.score)
          if p && okFwd then do
            let h ← setScore z.nodes x new
            (.ok ({ z with nodes := h }, some x, rng) : Go (ZSL × Option Nat × Rng))
          else do
            let z ← deleteNode z x a.2
            let (z, y) ← insert z new value (rng 0)
            .ok (z, some y, fun i => rng (i + 1))) := by
        intro p x
        refine (nd_level? _ _ _).bind (fun l0 _ => ?_)
        dsimp only
        split
        · exact (ND.ok _).bind (fun b _ => hrest p b x)
        · exact (nd_load _ _).bind (fun nf _ => (ND.ok _).bind (fun b _ => hrest p b x))
      split
      · exact .ok _
      · split
        · exact (ND.ok _).bind (fun b _ => hfwd b _)
        · exact (nd_load _ _).bind (fun nf _ => (ND.ok _).bind (fun b _ => hfwd b _))
  · intro z' x rng' he
    obtain ⟨a, _, he⟩ := bind_ok he
    obtain ⟨l, hl, he⟩ := bind_ok he
    dsimp only at he
    split at he
    · cases he; exact hz
    · obtain ⟨n, hn, he⟩ := bind_ok he
      have hrest : ∀ (p b : Bool) (y : Nat), (if (p && b) = true then (do
            let h ← setScore z.nodes y new
            (.ok ({ z with nodes := h }, some y, rng) : Go (ZSL × Option Nat × Rng)))
          else (do
            let z ← deleteNode z y a.2
            let (z, y) ← insert z new value (rng 0)
            .ok (z, some y, fun i => rng (i + 1)))) = .ok (z', x, rng') → Ok z' := by
        intro p b y he
        split at he
        · obtain ⟨h1, hs, he⟩ := bind_ok he
          cases he
          obtain ⟨f5, l5⟩ := setScore_fwd hs
          exact ⟨R, ho.same f5 l5⟩
        · obtain ⟨z1, h1, he⟩ := bind_ok he
          obtain ⟨⟨z2, y2⟩, h2, he⟩ := bind_ok he
          cases he
          exact ok_insert (ok_deleteNode hz h1) h2
      have hfwd : ∀ (p : Bool) (y : Nat), (do
          let l0 ← level? z.nodes y 0
          let okFwd ← match l0.forward with
            | none => .ok true
            | some f => do let nf ← load z.nodes f; .ok (new.lt nf.score)
          if p && okFwd then do
            let h ← setScore z.nodes y new
            (.ok ({ z with nodes := h }, some y, rng) : Go (ZSL × Option Nat × Rng))
          else do
            let z ← deleteNode z y a.2
            let (z, y) ← insert z new value (rng 0)
            .ok (z, some y, fun i => rng (i + 1))) = .ok (z', x, rng') → Ok z' := by
        intro p y he
        obtain ⟨l0, _, he⟩ := bind_ok he
        dsimp only at he
        split at he
        · obtain ⟨b, _, he⟩ := bind_ok he; exact hrest p b y he
        · obtain ⟨nf, _, he⟩ := bind_ok he
          obtain ⟨b, _, he⟩ := bind_ok he
          exact hrest p b y he
      split at he
      · cases he; exact hz
      · split at he
        · obtain ⟨b, _, he⟩ := bind_ok he; exact hfwd b _ he
        · obtain ⟨nf, _, he⟩ := bind_ok he
          obtain ⟨b, _, he⟩ := bind_ok he
          exact hfwd b _ he

end ZSL
end Godis
