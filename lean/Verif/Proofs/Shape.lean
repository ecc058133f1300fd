import Verif.Proofs.Order3
/-!
# Sorted sets: pointers never dangle, so commands that follow them do not panic

The invariant `Shape` holds of every reachable sorted set, damaged or not: a forward pointer at level `i` leads to a
node with more than `i` levels, the head has 32 levels.
-/
namespace Godis

/-- the computation ends in a result that satisfies `Q`, or does not end -/
def Post {α : Type} (x : Go α) (Q : α → Prop) : Prop :=
  match x with
  | .ok a => Q a
  | .error p => p = .diverge

theorem Post.bind {α β : Type} {x : Go α} {f : α → Go β} {Q : α → Prop} {Q' : β → Prop} (h : Post x Q)
    (hf : ∀ a, x = .ok a → Q a → Post (f a) Q') : Post (x >>= f) Q' := by
  cases x with
  | error p => exact h
  | ok a => exact hf a rfl h

theorem Post.mono {α : Type} {x : Go α} {Q Q' : α → Prop} (h : Post x Q) (hq : ∀ a, Q a → Q' a) : Post x Q' := by
  cases x with
  | error p => exact h
  | ok a => exact hq a h

theorem Post.get {α : Type} {x : Go α} {Q : α → Prop} (h : Post x Q) {a} (he : x = .ok a) : Q a := by subst he; exact h

theorem Post.np {α : Type} {x : Go α} {Q : α → Prop} (h : Post x Q) (hd : ND x) : NP x := by
  cases x with
  | error p => exact absurd (congrArg _ h) hd
  | ok a => exact .ok a

theorem NP.post {α : Type} {x : Go α} (h : NP x) : Post x (fun _ => True) := by obtain ⟨a, rfl⟩ := h; trivial

namespace ZSL

/-- the number of levels of node `a` -/
def ht (h : List ZNode) (a : Nat) : Nat := ((h[a]?).map (·.levels.length)).getD 0

theorem ht_some {h : List ZNode} {a n} (hn : h[a]? = some n) : ht h a = n.levels.length := by unfold ht; rw [hn]; rfl

theorem ht_lt {h : List ZNode} {a i : Nat} (hi : i < ht h a) : ∃ n, h[a]? = some n ∧ i < n.levels.length := by
  unfold ht at hi
  cases hn : h[a]? with
  | none => rw [hn] at hi; exact absurd hi (Nat.not_lt_zero _)
  | some n => rw [hn] at hi; exact ⟨n, rfl, hi⟩

theorem lt_of_ht {h : List ZNode} {a i : Nat} (hi : i < ht h a) : a < h.length := by
  obtain ⟨n, hn, _⟩ := ht_lt hi
  exact (List.getElem?_eq_some_iff.mp hn).1

/-- same nodes with the same numbers of levels -/
def Same (h h' : List ZNode) : Prop := h'.length = h.length ∧ ∀ a, ht h' a = ht h a

theorem Same.refl (h : List ZNode) : Same h h := ⟨rfl, fun _ => rfl⟩
theorem Same.trans {a b c : List ZNode} (h : Same a b) (h' : Same b c) : Same a c :=
  ⟨h'.1.trans h.1, fun x => (h'.2 x).trans (h.2 x)⟩

/-- no pointer dangles -/
structure HShape (h : List ZNode) : Prop where
  head : ht h 0 = 32
  pos : ∀ a, a < h.length → 0 < ht h a
  fwd : ∀ a i b, ZSL.fwd h a i = some b → i < ht h b
  back : ∀ (a : Nat) (n : ZNode) (b : Nat), h[a]? = some n → n.backward = some b → b < h.length

theorem post_load {h : List ZNode} {x : Nat} (hx : x < h.length) : Post (load h x) (fun n => h[x]? = some n) := by
  unfold load
  rw [List.getElem?_eq_getElem hx]
  rfl

theorem post_level? {h : List ZNode} {x i : Nat} (hi : i < ht h x) : Post (level? h x i) (fun l => fwd h x i = l.forward) := by
  obtain ⟨n, hn, hl⟩ := ht_lt hi
  have he : level? h x i = .ok n.levels[i] := by
    unfold level? load
    rw [hn]
    simp only [bind, Except.bind]
    rw [List.getElem?_eq_getElem hl]
  rw [he]
  exact level?_fwd he

theorem post_setLevel {h : List ZNode} (H : HShape h) {x i l} (hi : i < ht h x) (hl : ∀ b, l.forward = some b → i < ht h b) :
    Post (setLevel h x i l) (fun h' => HShape h' ∧ Same h h') := by
  obtain ⟨n, hn, hll⟩ := ht_lt hi
  have hlt := (List.getElem?_eq_some_iff.mp hn).1
  have he : setLevel h x i l = .ok (h.set x { n with levels := n.levels.set i l }) := by
    unfold setLevel load
    rw [hn]
    simp only [bind, Except.bind]
    rw [List.getElem?_eq_getElem hll]
  have hf := (setLevel_fwd he).1
  rw [he]
  have hs : Same h (h.set x { n with levels := n.levels.set i l }) := by
    refine ⟨List.length_set, fun a => ?_⟩
    by_cases hx : x = a
    · subst hx
      rw [ht_some (List.getElem?_set_self hlt), ht_some hn]
      exact List.length_set
    · unfold ht; rw [List.getElem?_set_ne hx]
  refine ⟨⟨?_, ?_, ?_, ?_⟩, hs⟩
  · rw [hs.2]; exact H.head
  · intro a ha; rw [hs.2]; exact H.pos a (by rw [← hs.1]; exact ha)
  · intro a j b hb
    rw [hs.2]
    rw [hf] at hb
    split at hb
    · next e => obtain ⟨rfl, rfl⟩ := e; exact hl b hb
    · exact H.fwd a j b hb
  · intro a m b hm hb
    rw [hs.1]
    by_cases hx : x = a
    · subst hx
      rw [List.getElem?_set_self hlt] at hm
      cases hm
      exact H.back x n b hn hb
    · rw [List.getElem?_set_ne hx] at hm
      exact H.back a m b hm hb

theorem shape_set {h : List ZNode} (H : HShape h) {x : Nat} {n m : ZNode} (hn : h[x]? = some n) (hm : m.levels = n.levels)
    (hb : ∀ b, m.backward = some b → b < h.length) : HShape (h.set x m) ∧ Same h (h.set x m) := by
  have hlt := (List.getElem?_eq_some_iff.mp hn).1
  have hs : Same h (h.set x m) := by
    refine ⟨List.length_set, fun a => ?_⟩
    by_cases hx : x = a
    · subst hx
      rw [ht_some (List.getElem?_set_self hlt), ht_some hn, hm]
    · unfold ht; rw [List.getElem?_set_ne hx]
  refine ⟨⟨?_, ?_, ?_, ?_⟩, hs⟩
  · rw [hs.2]; exact H.head
  · intro a ha; rw [hs.2]; exact H.pos a (by rw [← hs.1]; exact ha)
  · intro a j b hb
    rw [hs.2]
    rw [fwd_set hn hm] at hb
    exact H.fwd a j b hb
  · intro a k b hk hkb
    rw [hs.1]
    by_cases hx : x = a
    · subst hx
      rw [List.getElem?_set_self hlt] at hk
      cases hk
      exact hb b hkb
    · rw [List.getElem?_set_ne hx] at hk
      exact H.back a k b hk hkb

theorem post_setBackward {h : List ZNode} (H : HShape h) {x p} (hx : x < h.length) (hp : ∀ b, p = some b → b < h.length) :
    Post (setBackward h x p) (fun h' => HShape h' ∧ Same h h') := by
  unfold setBackward
  refine (post_load hx).bind fun n _ hn => ?_
  exact shape_set (m := { n with backward := p }) H hn rfl hp

theorem post_setScore {h : List ZNode} (H : HShape h) {x p} (hx : x < h.length) :
    Post (setScore h x p) (fun h' => HShape h' ∧ Same h h') := by
  unfold setScore
  refine (post_load hx).bind fun n _ hn => ?_
  exact shape_set (m := { n with score := p }) H hn rfl (fun b hb => H.back x n b hn hb)

variable {h : List ZNode}

/-! ### walking -/

theorem post_walk (H : HShape h) (i cond) : ∀ fuel x rank, i < ht h x → Post (walk h i cond fuel x rank) (fun p => i < ht h p.1)
  | 0, _, _, _ => rfl
  | fuel + 1, x, rank, hx => by
    unfold walk
    refine (post_level? hx).bind fun l _ hl => ?_
    split
    · exact hx
    · next y hy =>
      have hy' := H.fwd x i y (by rw [hl, hy])
      refine (post_load (lt_of_ht hy')).bind fun n _ _ => ?_
      split
      · exact post_walk H i cond fuel y _ hy'
      · exact hx

theorem post_rankWalk (H : HShape h) (i score value) : ∀ fuel x rank, i < ht h x → Post (rankWalk h i score value fuel x rank) (fun p => i < ht h p.1)
  | 0, _, _, _ => rfl
  | fuel + 1, x, rank, hx => by
    unfold rankWalk
    refine (post_level? hx).bind fun l _ hl => ?_
    split
    · exact hx
    · next y hy =>
      have hy' := H.fwd x i y (by rw [hl, hy])
      refine (post_load (lt_of_ht hy')).bind fun n _ _ => ?_
      split
      · dsimp only
        split
        · exact hy'
        · exact post_rankWalk H i score value fuel y _ hy'
      · exact hx

theorem post_minWalk (H : HShape h) (i score o) : ∀ fuel x rank, i < ht h x → Post (minWalk h i score o fuel x rank) (fun p => i < ht h p.1)
  | 0, _, _, _ => rfl
  | fuel + 1, x, rank, hx => by
    unfold minWalk
    refine (post_level? hx).bind fun l _ hl => ?_
    split
    · exact hx
    · next y hy =>
      have hy' := H.fwd x i y (by rw [hl, hy])
      refine (post_load (lt_of_ht hy')).bind fun n _ _ => ?_
      split
      · dsimp only
        refine (post_load (lt_of_ht hx)).bind fun m _ _ => ?_
        split
        · exact hy'
        · exact post_minWalk H i score o fuel y _ hy'
      · exact hx

theorem post_maxWalk (H : HShape h) (i score o) : ∀ fuel x rank, i < ht h x → Post (maxWalk h i score o fuel x rank) (fun p => i < ht h p.1)
  | 0, _, _, _ => rfl
  | fuel + 1, x, rank, hx => by
    unfold maxWalk
    refine (post_level? hx).bind fun l _ hl => ?_
    split
    · exact hx
    · next y hy =>
      have hy' := H.fwd x i y (by rw [hl, hy])
      refine (post_load (lt_of_ht hy')).bind fun n _ _ => ?_
      split
      · dsimp only
        split
        · exact hy'
        · exact post_maxWalk H i score o fuel y _ hy'
      · exact hx

theorem post_findWalk (H : HShape h) (i r) : ∀ fuel x t, i < ht h x → Post (findWalk h i r fuel x t) (fun p => i < ht h p.1)
  | 0, _, _, _ => rfl
  | fuel + 1, x, rank, hx => by
    unfold findWalk
    refine (post_level? hx).bind fun l _ hl => ?_
    split
    · exact hx
    · next y hy =>
      have hy' := H.fwd x i y (by rw [hl, hy])
      split
      · exact post_findWalk H i r fuel y _ hy'
      · exact hx

theorem post_rankLoop (H : HShape h) (score value) : ∀ k x rank, k ≤ ht h x → Post (rankLoop h score value k x rank) (fun _ => True)
  | 0, _, _, _ => trivial
  | i + 1, x, rank, hx => by
    unfold rankLoop
    refine (post_rankWalk H i score value _ x rank hx).bind fun a _ ha => ?_
    dsimp only
    split
    · trivial
    · exact post_rankLoop H score value i _ _ (Nat.le_of_lt ha)

theorem post_minLoop (H : HShape h) (score o) : ∀ k x rank, k ≤ ht h x → Post (minLoop h score o k x rank) (fun _ => True)
  | 0, _, _, _ => trivial
  | i + 1, x, rank, hx => by
    unfold minLoop
    refine (post_minWalk H i score o _ x rank hx).bind fun a _ ha => ?_
    dsimp only
    split
    · trivial
    · exact post_minLoop H score o i _ _ (Nat.le_of_lt ha)

theorem post_maxLoop (H : HShape h) (score o) : ∀ k x rank, k ≤ ht h x → Post (maxLoop h score o k x rank) (fun _ => True)
  | 0, _, _, _ => trivial
  | i + 1, x, rank, hx => by
    unfold maxLoop
    refine (post_maxWalk H i score o _ x rank hx).bind fun a _ ha => ?_
    dsimp only
    split
    · trivial
    · exact post_maxLoop H score o i _ _ (Nat.le_of_lt ha)

theorem post_findLoop (H : HShape h) (r) : ∀ k x t, k ≤ ht h x → Post (findLoop h r k x t) (fun o => ∀ y, o = some y → y < h.length)
  | 0, _, _, _ => fun y hy => by cases hy
  | i + 1, x, rank, hx => by
    unfold findLoop
    refine (post_findWalk H i r _ x rank hx).bind fun a _ ha => ?_
    dsimp only
    split
    · intro y hy; cases hy; exact lt_of_ht ha
    · exact post_findLoop H r i _ _ (Nat.le_of_lt ha)

/-! ### descents -/

/-- `u j` is a node of level `j`, for all `j` below `k` -/
def Has (h : List ZNode) (u : Nat → Option Nat) (i k : Nat) : Prop := ∀ j, i ≤ j → j < k → ∃ v, u j = some v ∧ j < ht h v

theorem Has.same {h h' : List ZNode} {u i k} (hu : Has h u i k) (hs : Same h h') : Has h' u i k := fun j h1 h2 => by
  obtain ⟨v, h3, h4⟩ := hu j h1 h2
  exact ⟨v, h3, by rw [hs.2]; exact h4⟩

theorem Has.upd {h : List ZNode} {u i k x} (hu : Has h u (i + 1) k) (hx : i < ht h x) : Has h (upd u i (some x)) i k := fun j h1 h2 => by
  unfold ZSL.upd
  split
  · next e => exact ⟨x, rfl, by rw [e]; exact hx⟩
  · exact hu j (by omega) h2

theorem post_insertDescent (H : HShape h) (top score value) {n : Nat} : ∀ k x d, k < 32 → k ≤ ht h x → Has h d.update k n →
    Post (insertDescent h top score value k x d) (fun p => Has h p.2.update 0 n)
  | 0, _, _, _, _, hd => hd
  | i + 1, x, d, hk, hx, hd => by
    unfold insertDescent
    rw [if_neg (by unfold maxLevel; omega)]
    refine (post_walk H i _ _ x _ hx).bind fun a _ ha => ?_
    exact post_insertDescent H top score value i _ _ (by omega) (Nat.le_of_lt ha) (hd.upd ha)

theorem post_searchDescent (H : HShape h) (score value) {n : Nat} : ∀ k x d, k ≤ ht h x → Has h d k n → 0 < ht h x →
    Post (searchDescent h score value k x d) (fun p => Has h p.2 0 n ∧ 0 < ht h p.1)
  | 0, _, _, _, hd, hx => ⟨hd, hx⟩
  | i + 1, x, d, hx, hd, _ => by
    unfold searchDescent
    refine (post_walk H i _ _ x _ hx).bind fun a _ ha => ?_
    exact post_searchDescent H score value i _ _ (Nat.le_of_lt ha) (hd.upd ha) (by omega)

theorem post_deleteDescent (H : HShape h) (score value) {n : Nat} : ∀ k x d, k ≤ ht h x → Has h d k n → 0 < ht h x →
    Post (deleteDescent h score value k x d) (fun p => Has h p.2 0 n ∧ 0 < ht h p.1)
  | 0, _, _, _, hd, hx => ⟨hd, hx⟩
  | i + 1, x, d, hx, hd, _ => by
    unfold deleteDescent
    refine (post_level? hx).bind fun l _ hl => ?_
    dsimp only
    split
    · exact post_deleteDescent H score value i _ _ (Nat.le_of_lt hx) (hd.upd hx) (by omega)
    · next y hy =>
      have hy' := H.fwd x i y (by rw [hl, hy])
      refine (post_load (lt_of_ht hy')).bind fun n _ _ => ?_
      change Post (deleteDescent h score value i (if before n score value then y else x) (upd d i (some (if before n score value then y else x)))) _
      have : i < ht h (if before n score value then y else x) := by split <;> assumption
      exact post_deleteDescent H score value i _ _ (Nat.le_of_lt this) (hd.upd this) (by omega)

/-! ### inserting -/

theorem post_raiseLevels (len) : ∀ k i (h : List ZNode) d, HShape h → i + k ≤ 32 → Has h d.update 0 i →
    Post (raiseLevels len k i h d) (fun p => HShape p.1 ∧ Same h p.1 ∧ Has p.1 p.2.update 0 (i + k))
  | 0, i, h, d, H, _, hd => ⟨H, .refl _, hd⟩
  | k + 1, i, h, d, H, hi, hd => by
    unfold raiseLevels
    have h0 : i < ht h 0 := by rw [H.head]; omega
    refine (post_level? h0).bind fun l _ hl => ?_
    refine (post_setLevel H (l := ⟨l.forward, toUint len⟩) h0 (fun b hb => H.fwd 0 i b (by rw [hl]; exact hb))).bind fun h1 _ ⟨H1, s1⟩ => ?_
    refine (post_raiseLevels len k (i + 1) h1 ⟨upd d.update i (some 0), upd d.rank i 0⟩ H1 (by omega) ?_).mono ?_
    · intro j _ hj
      dsimp only
      unfold upd
      split
      · next e => exact ⟨0, rfl, by rw [H1.head]; omega⟩
      · obtain ⟨v, hv, hv'⟩ := hd j (Nat.zero_le _) (by omega)
        exact ⟨v, hv, by rw [s1.2]; exact hv'⟩
    · rintro ⟨h2, d2⟩ ⟨H2, s2, hd2⟩
      exact ⟨H2, s1.trans s2, by rw [show i + (k + 1) = i + 1 + k by omega]; exact hd2⟩

theorem post_updAt {d : Descent} {i n : Nat} {h : List ZNode} (hd : Has h d.update 0 n) (hi : i < n) :
    Post (updAt d i) (fun u => d.update i = some u ∧ i < ht h u) := by
  obtain ⟨v, hv, hv'⟩ := hd i (Nat.zero_le _) hi
  unfold updAt
  rw [hv]
  exact ⟨rfl, hv'⟩

theorem post_linkLevels (x : Nat) (d : Descent) {n : Nat} : ∀ k i (h : List ZNode), HShape h → i + k ≤ ht h x → i + k ≤ n →
    Has h d.update 0 n → Post (linkLevels x d k i h) (fun h' => HShape h' ∧ Same h h')
  | 0, _, _, H, _, _, _ => ⟨H, .refl _⟩
  | k + 1, i, h, H, hx, hn, hd => by
    unfold linkLevels
    refine (post_updAt hd (i := i) (by omega)).bind fun u _ ⟨_, hu⟩ => ?_
    refine (post_level? hu).bind fun lu _ hlu => ?_
    dsimp only
    refine (post_setLevel H (x := x) (i := i) (by omega) (fun b hb => H.fwd u i b (by rw [hlu]; exact hb))).bind fun h1 _ ⟨H1, s1⟩ => ?_
    refine (post_setLevel H1 (x := u) (i := i) (by rw [s1.2]; exact hu) (fun b hb => by cases hb; rw [s1.2]; omega)).bind fun h2 _ ⟨H2, s2⟩ => ?_
    have s := s1.trans s2
    refine (post_linkLevels x d k (i + 1) h2 H2 (by rw [s.2]; omega) (by omega) (hd.same s)).mono ?_
    rintro h3 ⟨H3, s3⟩
    exact ⟨H3, s.trans s3⟩

theorem post_widenLevels (d : Descent) {n : Nat} : ∀ k i (h : List ZNode), HShape h → i + k ≤ n →
    Has h d.update 0 n → Post (widenLevels d k i h) (fun h' => HShape h' ∧ Same h h')
  | 0, _, _, H, _, _ => ⟨H, .refl _⟩
  | k + 1, i, h, H, hn, hd => by
    unfold widenLevels
    refine (post_updAt hd (i := i) (by omega)).bind fun u _ ⟨_, hu⟩ => ?_
    refine (post_level? hu).bind fun lu _ hlu => ?_
    refine (post_setLevel H (x := u) (i := i) hu (fun b hb => H.fwd u i b (by rw [hlu]; exact hb))).bind fun h1 _ ⟨H1, s1⟩ => ?_
    refine (post_widenLevels d k (i + 1) h1 H1 (by omega) (hd.same s1)).mono ?_
    rintro h3 ⟨H3, s3⟩
    exact ⟨H3, s1.trans s3⟩

theorem ht_append {lvl score value} {a : Nat} (ha : a < h.length) : ht (h ++ [newZslNode lvl score value]) a = ht h a := by
  unfold ht; rw [List.getElem?_append_left ha]

theorem ht_new {lvl score value} : ht (h ++ [newZslNode lvl score value]) h.length = lvl := by
  unfold ht
  rw [List.getElem?_append_right (Nat.le_refl _)]
  simp [newZslNode]

theorem shape_append (H : HShape h) {lvl score value} (hl : 1 ≤ lvl) : HShape (h ++ [newZslNode lvl score value]) where
  head := by
    have : 0 < h.length := lt_of_ht (i := 0) (by rw [H.head]; omega)
    rw [ht_append this]; exact H.head
  pos := fun a ha => by
    rw [List.length_append] at ha
    rcases Nat.lt_or_ge a h.length with h1 | h1
    · rw [ht_append h1]; exact H.pos a h1
    · have : a = h.length := by simp at ha; omega
      subst this; rw [ht_new]; omega
  fwd := fun a i b hb => by
    rw [fwd_append] at hb
    have := H.fwd a i b hb
    rw [ht_append (lt_of_ht this)]; exact this
  back := fun a n b hn hb => by
    rw [List.length_append]
    rcases Nat.lt_or_ge a h.length with h1 | h1
    · rw [List.getElem?_append_left h1] at hn
      exact Nat.lt_add_right _ (H.back a n b hn hb)
    · rw [List.getElem?_append_right h1] at hn
      have := List.mem_of_getElem? hn
      rw [List.mem_singleton] at this
      subst this; cases hb

/-- no pointer dangles, and no level is the topmost possible one -/
structure Shape (z : ZSL) : Prop where
  heap : HShape z.nodes
  low : 1 ≤ z.level
  high : z.level ≤ 31

theorem has_nil (h : List ZNode) (u : Nat → Option Nat) (n : Nat) : Has h u n n := fun j h1 h2 => by omega

theorem post_insert {z : ZSL} (hz : Shape z) (score value) {draw : Nat} (hdraw : draw ≤ 30) :
    Post (z.insert score value draw) (fun p => Shape p.1 ∧ z.nodes.length ≤ p.1.nodes.length ∧ p.2 < p.1.nodes.length) := by
  obtain ⟨H, hlo, hhi⟩ := hz
  have hl1 : 1 ≤ zslRandomLevel draw ∧ zslRandomLevel draw ≤ 31 := by
    unfold zslRandomLevel maxLevel
    split <;> omega
  unfold insert
  generalize zslRandomLevel draw = lvl at *
  refine (post_insertDescent H _ _ _ (n := z.level) z.level 0 _ (by omega) (by rw [H.head]; omega) (has_nil _ _ _)).bind fun a _ ha => ?_
  refine (post_raiseLevels z.length (lvl - z.level) z.level z.nodes a.2 H (by omega) ha).bind fun b _ ⟨H1, s1, hd⟩ => ?_
  obtain ⟨h1, d⟩ := b
  dsimp only at *
  have H2 := shape_append H1 (score := score) (value := value) hl1.1
  have hd2 : Has (h1 ++ [newZslNode lvl score value]) d.update 0 (z.level + (lvl - z.level)) := fun j hj hj' => by
    obtain ⟨v, hv, hv'⟩ := hd j hj hj'
    exact ⟨v, hv, by rw [ht_append (lt_of_ht hv')]; exact hv'⟩
  refine (post_linkLevels h1.length d lvl 0 _ H2 (by rw [ht_new]; omega) (by omega) hd2).bind fun h3 _ ⟨H3, s3⟩ => ?_
  refine (post_widenLevels d _ _ _ H3 (n := z.level + (lvl - z.level)) (by split <;> omega) (hd2.same s3)).bind fun h4 _ ⟨H4, s4⟩ => ?_
  refine (post_updAt (hd2.same (s3.trans s4)) (i := 0) (by omega)).bind fun u _ ⟨_, hu⟩ => ?_
  have len : ∀ h5, Same h4 h5 → h5.length = h1.length + 1 := fun h5 s5 => by
    rw [s5.1, s4.1, s3.1]; simp
  have hx : ∀ h5, Same h4 h5 → 0 < ht h5 h1.length := fun h5 s5 => by
    rw [s5.2, s4.2, s3.2, ht_new]; omega
  have hend : ∀ h5, HShape h5 → Same h4 h5 → Post (do
      let l0 ← level? h5 h1.length 0
      match l0.forward with
      | some y => do
        let h ← setBackward h5 y (some h1.length)
        (.ok (⟨h, z.tail, z.length + 1, if lvl > z.level then lvl else z.level⟩, h1.length) : Go (ZSL × Nat))
      | none => .ok (⟨h5, some h1.length, z.length + 1, if lvl > z.level then lvl else z.level⟩, h1.length))
      (fun p => Shape p.1 ∧ z.nodes.length ≤ p.1.nodes.length ∧ p.2 < p.1.nodes.length) := by
    intro h5 H5 s5
    have hl5 := len h5 s5
    have hl0 := s1.1
    refine (post_level? (hx h5 s5)).bind fun l0 _ hl0' => ?_
    split
    · next y hy =>
      have hy' := H5.fwd _ _ y (by rw [hl0', hy])
      refine (post_setBackward H5 (p := some h1.length) (lt_of_ht hy') (fun b hb => by cases hb; omega)).bind fun h6 _ ⟨H6, s6⟩ => ?_
      refine ⟨⟨H6, ?_, ?_⟩, ?_, ?_⟩
      · dsimp only; split <;> omega
      · dsimp only; split <;> omega
      · dsimp only; rw [s6.1]; omega
      · dsimp only; rw [s6.1]; omega
    · refine ⟨⟨H5, ?_, ?_⟩, ?_, ?_⟩
      · dsimp only; split <;> omega
      · dsimp only; split <;> omega
      · dsimp only; omega
      · dsimp only; omega
  split
  · refine (post_setBackward H4 (x := h1.length) (p := some u) (lt_of_ht (hx h4 (.refl _))) (fun b hb => by cases hb; exact lt_of_ht hu)).bind fun h5 _ ⟨H5, s5⟩ => ?_
    exact hend h5 H5 s5
  · exact hend h4 H4 (.refl _)

/-! ### deleting -/

theorem post_unlinkLevels (node : Nat) (u : Nat → Option Nat) {n : Nat} : ∀ k i (h : List ZNode), HShape h → i + k ≤ n →
    Has h u 0 n → Post (unlinkLevels node u k i h) (fun h' => HShape h' ∧ Same h h')
  | 0, _, _, H, _, _ => ⟨H, .refl _⟩
  | k + 1, i, h, H, hn, hd => by
    unfold unlinkLevels
    refine (post_updAt (d := ⟨u, fun _ => 0⟩) hd (i := i) (by omega)).bind fun v _ ⟨_, hv⟩ => ?_
    refine (post_level? hv).bind fun lu _ hlu => ?_
    have next : ∀ h1, HShape h1 ∧ Same h h1 → Post (unlinkLevels node u k (i + 1) h1) (fun h' => HShape h' ∧ Same h h') := by
      rintro h1 ⟨H1, s1⟩
      refine (post_unlinkLevels node u k (i + 1) h1 H1 (by omega) (hd.same s1)).mono ?_
      rintro h3 ⟨H3, s3⟩
      exact ⟨H3, s1.trans s3⟩
    split
    · next e =>
      have hnode := H.fwd v i node (by rw [hlu, e])
      refine (post_level? hnode).bind fun ln _ hln => ?_
      exact (post_setLevel H hv (fun b hb => H.fwd node i b (by rw [hln]; exact hb))).bind fun h1 _ hh => next h1 hh
    · exact (post_setLevel H hv (fun b hb => H.fwd v i b (by rw [hlu]; exact hb))).bind fun h1 _ hh => next h1 hh

theorem post_shrinkLevel : ∀ l, l ≤ ht h 0 → Post (shrinkLevel h l) (fun l' => l' ≤ l ∧ (1 ≤ l → 1 ≤ l'))
  | 0, _ => ⟨Nat.le_refl _, id⟩
  | 1, _ => ⟨Nat.le_refl _, id⟩
  | l + 2, hl => by
    unfold shrinkLevel
    refine (post_level? (x := 0) (i := l + 1) (by omega)).bind fun c _ _ => ?_
    split
    · exact (post_shrinkLevel (l + 1) (by omega)).mono fun a ⟨h1, h2⟩ => ⟨by omega, fun _ => h2 (by omega)⟩
    · exact ⟨Nat.le_refl _, id⟩

theorem post_deleteNode {z : ZSL} (hz : Shape z) {node : Nat} {u : Nat → Option Nat} (hn : 0 < ht z.nodes node)
    (hu : Has z.nodes u 0 z.level) : Post (z.deleteNode node u) (fun z' => Shape z' ∧ Same z.nodes z'.nodes) := by
  obtain ⟨H, hlo, hhi⟩ := hz
  unfold deleteNode
  refine (post_unlinkLevels node u (n := z.level) z.level 0 z.nodes H (by omega) hu).bind fun h1 _ ⟨H1, s1⟩ => ?_
  have hn1 : 0 < ht h1 node := by rw [s1.2]; exact hn
  refine (post_level? hn1).bind fun l _ hl => (post_load (lt_of_ht hn1)).bind fun m _ hm => ?_
  have hend : ∀ h2, HShape h2 ∧ Same h1 h2 → Post (do
      let level ← shrinkLevel h2 z.level
      (.ok ⟨h2, z.tail, z.length - 1, level⟩ : Go ZSL)) (fun z' => Shape z' ∧ Same z.nodes z'.nodes) := by
    rintro h2 ⟨H2, s2⟩
    refine (post_shrinkLevel (h := h2) z.level (by rw [H2.head]; omega)).bind fun l' _ ⟨h3, h4⟩ => ?_
    exact ⟨⟨H2, h4 hlo, Nat.le_trans h3 hhi⟩, s1.trans s2⟩
  dsimp only
  split
  · next y hy =>
    have hy' := H1.fwd node 0 y (by rw [hl, hy])
    exact (post_setBackward H1 (lt_of_ht hy') (fun b hb => H1.back node m b hm hb)).bind fun h2 _ hh => hend h2 hh
  · exact hend h1 ⟨H1, .refl _⟩

theorem post_delete {z : ZSL} (hz : Shape z) (score value) : Post (z.delete score value) (fun p => Shape p.1 ∧ Same z.nodes p.1.nodes) := by
  have H := hz.heap
  unfold delete
  have hhead : z.level ≤ ht z.nodes 0 := by rw [H.head]; have := hz.high; omega
  refine (post_deleteDescent H score value (n := z.level) z.level 0 _ hhead (has_nil _ _ _) (by rw [H.head]; omega)).bind fun a _ ⟨hu, hx⟩ => ?_
  refine (post_level? hx).bind fun l _ hl => ?_
  split
  · exact ⟨hz, .refl _⟩
  · next y hy =>
    have hy' := H.fwd a.1 0 y (by rw [hl, hy])
    refine (post_load (lt_of_ht hy')).bind fun n _ _ => ?_
    split
    · exact (post_deleteNode hz hy' hu).bind fun z1 _ h1 => h1
    · exact ⟨hz, .refl _⟩

theorem post_updateScore {z : ZSL} (hz : Shape z) (cs new value) {rng : Rng} (hr : ∀ i, rng i ≤ 30) :
    Post (z.updateScore cs new value rng) (fun p => Shape p.1 ∧ z.nodes.length ≤ p.1.nodes.length ∧ ∀ x, p.2.1 = some x → x < p.1.nodes.length) := by
  have H := hz.heap
  have hhead : z.level ≤ ht z.nodes 0 := by rw [H.head]; have := hz.high; omega
  unfold updateScore
  refine (post_searchDescent H cs value (n := z.level) z.level 0 _ hhead (has_nil _ _ _) (by rw [H.head]; omega)).bind fun a _ ⟨hu, hx⟩ => ?_
  refine (post_level? hx).bind fun l _ hl => ?_
  dsimp only
  split
  · exact ⟨hz, Nat.le_refl _, fun x hx => by cases hx⟩
  · next y hy =>
    have hy' := H.fwd a.1 0 y (by rw [hl, hy])
    refine (post_load (lt_of_ht hy')).bind fun n _ hn => ?_
    have hrest : ∀ (p b : Bool), Post (if (p && b) = true then (do
          let h ← setScore z.nodes y new
          (.ok ({ z with nodes := h }, some y, rng) : Go (ZSL × Option Nat × Rng)))
        else (do
          let z ← deleteNode z y a.2
          let (z, y) ← insert z new value (rng 0)
          .ok (z, some y, fun i => rng (i + 1))))
        (fun p => Shape p.1 ∧ z.nodes.length ≤ p.1.nodes.length ∧ ∀ x, p.2.1 = some x → x < p.1.nodes.length) := by
      intro p b
      split
      · refine (post_setScore H (lt_of_ht hy')).bind fun h1 _ ⟨H1, s1⟩ => ?_
        refine ⟨⟨H1, hz.low, hz.high⟩, Nat.le_of_eq s1.1.symm, fun x hx => ?_⟩
        cases hx
        dsimp only; rw [s1.1]; exact lt_of_ht hy'
      · refine (post_deleteNode hz hy' hu).bind fun z1 _ ⟨hz1, s1⟩ => ?_
        refine (post_insert hz1 new value (hr 0)).bind fun q _ ⟨h1, h2, h3⟩ => ?_
        exact ⟨h1, by rw [← s1.1]; exact h2, fun x hx => by cases hx; exact h3⟩
    have hfwd : ∀ (p : Bool), Post (do
        let l0 ← level? z.nodes y 0
        let okFwd ← match l0.forward with
          | none => .ok true
          | some f => do let nf ← load z.nodes f; .ok (new.lt nf.score)
        if p && okFwd then do
          let h ← setScore z.nodes y new
          (.ok ({ z with nodes := h }, some y, rng) : Go (ZSL × Option Nat × Rng))
        else do
          let z ← deleteNode z y a.2
          let (z, y) ← insert z new value (rng 0)
          .ok (z, some y, fun i => rng (i + 1)))
        (fun p => Shape p.1 ∧ z.nodes.length ≤ p.1.nodes.length ∧ ∀ x, p.2.1 = some x → x < p.1.nodes.length) := by
      intro p
      refine (post_level? hy').bind fun l0 _ hl0 => ?_
      dsimp only
      split
      · exact hrest p true
      · next f hf =>
        have hf' := H.fwd y 0 f (by rw [hl0, hf])
        exact (post_load (lt_of_ht hf')).bind fun nf _ _ => hrest p _
    split
    · exact ⟨hz, Nat.le_refl _, fun x hx => by cases hx⟩
    · split
      · exact hfwd true
      · next b hb =>
        exact (post_load (H.back y n b hn hb)).bind fun nf _ _ => hfwd _

theorem shape_empty : Shape ZSL.empty where
  heap := by
    have : ∀ a, a ≠ 0 → ZSL.empty.nodes[a]? = none := by
      intro a ha
      cases a with
      | zero => exact absurd rfl ha
      | succ a => rfl
    refine ⟨rfl, fun a ha => ?_, fun a i b hb => ?_, fun a n b hn hb => ?_⟩
    · cases a with
      | zero => decide
      | succ a => simp [ZSL.empty] at ha
    · have h2 := fwd_append [] maxLevel 0 [] a i
      rw [show ZSL.empty.nodes = [] ++ [newZslNode maxLevel 0 []] from rfl, h2] at hb
      simp [ZSL.fwd] at hb
    · cases a with
      | zero => cases hn; cases hb
      | succ a => rw [this _ (by omega)] at hn; cases hn
  low := by decide
  high := by decide

end ZSL
end Godis
