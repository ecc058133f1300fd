import Verif.Proofs.ZSets3
import Verif.Spec.Scores
/-!
# Sorted sets: the dict and the scores it refers to, damaged or not
-/
namespace Godis

/-- if the computation ends, its result satisfies `Q` -/
def Wp {α : Type} (x : Go α) (Q : α → Prop) : Prop := ∀ a, x = .ok a → Q a

theorem Wp.pure {α : Type} {a : α} {Q : α → Prop} (h : Q a) : Wp (.ok a : Go α) Q := by rintro _ ⟨⟩; exact h
theorem Wp.error {α : Type} {p : Panic} {Q : α → Prop} : Wp (.error p : Go α) Q := by rintro _ ⟨⟩
theorem Wp.triv {α : Type} (x : Go α) : Wp x (fun _ => True) := fun _ _ => trivial

theorem Wp.bind {α β : Type} {x : Go α} {f : α → Go β} {Q : α → Prop} {Q' : β → Prop} (h : Wp x Q)
    (hf : ∀ a, x = .ok a → Q a → Wp (f a) Q') : Wp (x >>= f) Q' := by
  cases x with
  | error p => exact Wp.error
  | ok a => exact hf a rfl (h a rfl)

theorem Wp.mono {α : Type} {x : Go α} {Q Q' : α → Prop} (h : Wp x Q) (hq : ∀ a, Q a → Q' a) : Wp x Q' := fun a ha => hq a (h a ha)

namespace ZSL

/-- no node changes its member or its score -/
def Keep (h h' : List ZNode) : Prop :=
  ∀ (x : Nat) (n : ZNode), h[x]? = some n → ∃ n' : ZNode, h'[x]? = some n' ∧ n'.value = n.value ∧ n'.score = n.score

theorem Keep.refl (h : List ZNode) : Keep h h := fun _ n hn => ⟨n, hn, rfl, rfl⟩

theorem Keep.trans {a b c : List ZNode} (h : Keep a b) (h' : Keep b c) : Keep a c := fun x n hn => by
  obtain ⟨n1, h1, v1, s1⟩ := h x n hn
  obtain ⟨n2, h2, v2, s2⟩ := h' x n1 h1
  exact ⟨n2, h2, v2.trans v1, s2.trans s1⟩

theorem keep_set {h : List ZNode} {x : Nat} {n n' : ZNode} (hn : h[x]? = some n) (hv : n'.value = n.value) (hs : n'.score = n.score) :
    Keep h (h.set x n') := by
  intro y ny hy
  rw [List.getElem?_set]
  split
  · next e =>
    subst e
    rw [hn] at hy; cases hy
    rw [if_pos (List.getElem?_eq_some_iff.mp hn).1]
    exact ⟨n', rfl, hv, hs⟩
  · exact ⟨ny, hy, rfl, rfl⟩

theorem keep_append (h l : List ZNode) : Keep h (h ++ l) := fun x n hn =>
  ⟨n, by rw [List.getElem?_append_left (List.getElem?_eq_some_iff.mp hn).1]; exact hn, rfl, rfl⟩

theorem load_ok {h : List ZNode} {x : Nat} {n : ZNode} (hl : load h x = .ok n) : h[x]? = some n := by
  unfold load at hl
  split at hl
  · next e => cases hl; exact e
  · cases hl

theorem wp_setLevel (h : List ZNode) (x i : Nat) (l : ZLevel) : Wp (setLevel h x i l) (Keep h) := by
  unfold setLevel
  refine (Wp.triv _).bind fun n hn _ => ?_
  split
  · exact Wp.pure (keep_set (load_ok hn) rfl rfl)
  · exact Wp.error

theorem wp_setBackward (h : List ZNode) (x : Nat) (p : Option Nat) : Wp (setBackward h x p) (Keep h) := by
  unfold setBackward
  exact (Wp.triv _).bind fun n hn _ => Wp.pure (keep_set (load_ok hn) rfl rfl)

theorem wp_raiseLevels (len) : ∀ k i (h : List ZNode) d, Wp (raiseLevels len k i h d) (fun p => Keep h p.1)
  | 0, _, h, _ => Wp.pure (.refl h)
  | k + 1, i, h, d => by
    unfold raiseLevels
    refine (Wp.triv _).bind fun l _ _ => (wp_setLevel _ _ _ _).bind fun h1 _ k1 => ?_
    exact (wp_raiseLevels len k (i + 1) h1 _).mono fun p hp => k1.trans hp

theorem wp_linkLevels (x : Nat) (d : Descent) : ∀ k i (h : List ZNode), Wp (linkLevels x d k i h) (Keep h)
  | 0, _, h => Wp.pure (.refl h)
  | k + 1, i, h => by
    unfold linkLevels
    refine (Wp.triv _).bind fun u _ _ => (Wp.triv _).bind fun lu _ _ => ?_
    dsimp only
    refine (wp_setLevel _ _ _ _).bind fun h1 _ k1 => (wp_setLevel _ _ _ _).bind fun h2 _ k2 => ?_
    exact (wp_linkLevels x d k (i + 1) h2).mono fun p hp => (k1.trans k2).trans hp

theorem wp_widenLevels (d : Descent) : ∀ k i (h : List ZNode), Wp (widenLevels d k i h) (Keep h)
  | 0, _, h => Wp.pure (.refl h)
  | k + 1, i, h => by
    unfold widenLevels
    refine (Wp.triv _).bind fun u _ _ => (Wp.triv _).bind fun lu _ _ => ?_
    refine (wp_setLevel _ _ _ _).bind fun h1 _ k1 => ?_
    exact (wp_widenLevels d k (i + 1) h1).mono fun p hp => k1.trans hp

theorem wp_unlinkLevels (node : Nat) (u : Nat → Option Nat) : ∀ k i (h : List ZNode), Wp (unlinkLevels node u k i h) (Keep h)
  | 0, _, h => Wp.pure (.refl h)
  | k + 1, i, h => by
    unfold unlinkLevels
    refine (Wp.triv _).bind fun v _ _ => (Wp.triv _).bind fun lu _ _ => ?_
    split
    · refine (Wp.triv _).bind fun ln _ _ => (wp_setLevel _ _ _ _).bind fun h1 _ k1 => ?_
      exact (wp_unlinkLevels node u k (i + 1) h1).mono fun p hp => k1.trans hp
    · refine (wp_setLevel _ _ _ _).bind fun h1 _ k1 => ?_
      exact (wp_unlinkLevels node u k (i + 1) h1).mono fun p hp => k1.trans hp

/-- `insert`: one more node, one more entry -/
theorem wp_insert (z : ZSL) (score value draw) : Wp (z.insert score value draw) (fun p => Keep z.nodes p.1.nodes ∧ p.1.length = z.length + 1 ∧
    ∃ n : ZNode, p.1.nodes[p.2]? = some n ∧ n.value = value ∧ n.score = score) := by
  unfold insert
  refine (Wp.triv _).bind fun a _ _ => ?_
  dsimp only
  refine (wp_raiseLevels _ _ _ _ _).bind fun b _ k1 => ?_
  obtain ⟨h1, d⟩ := b
  dsimp only at k1 ⊢
  have k2 : Keep h1 (h1 ++ [newZslNode (zslRandomLevel draw) score value]) := keep_append _ _
  have hx : (h1 ++ [newZslNode (zslRandomLevel draw) score value])[h1.length]? = some (newZslNode (zslRandomLevel draw) score value) := by simp
  generalize h1 ++ [newZslNode (zslRandomLevel draw) score value] = h2 at k2 hx ⊢
  generalize h1.length = x at hx ⊢
  refine (wp_linkLevels _ _ _ _ _).bind fun h3 _ k3 => (wp_widenLevels _ _ _ _).bind fun h4 _ k4 => (Wp.triv _).bind fun u _ _ => ?_
  have k24 : Keep h2 h4 := k3.trans k4
  have key : ∀ h5, Keep h4 h5 → Wp (level? h5 x 0 >>= fun l0 => match l0.forward with
      | some y => do
        let h ← setBackward h5 y (some x)
        .ok ((⟨h, z.tail, z.length + 1, if zslRandomLevel draw > z.level then zslRandomLevel draw else z.level⟩ : ZSL), x)
      | none => .ok (⟨h5, some x, z.length + 1, if zslRandomLevel draw > z.level then zslRandomLevel draw else z.level⟩, x))
      (fun p => Keep z.nodes p.1.nodes ∧ p.1.length = z.length + 1 ∧ ∃ n : ZNode, p.1.nodes[p.2]? = some n ∧ n.value = value ∧ n.score = score) := by
    intro h5 k5
    have fin : ∀ h6, Keep h5 h6 → Keep z.nodes h6 ∧ z.length + 1 = z.length + 1 ∧ ∃ n : ZNode, h6[x]? = some n ∧ n.value = value ∧ n.score = score := by
      intro h6 k6
      have k26 := (k24.trans k5).trans k6
      exact ⟨(k1.trans k2).trans k26, rfl, k26 _ _ hx⟩
    refine (Wp.triv _).bind fun l0 _ _ => ?_
    split
    · exact (wp_setBackward _ _ _).bind fun h6 _ k6 => Wp.pure (fin h6 k6)
    · exact Wp.pure (fin h5 (.refl _))
  split
  · exact (wp_setBackward _ _ _).bind fun h5 _ k5 => key h5 k5
  · exact key h4 (.refl _)

theorem wp_deleteNode (z : ZSL) (node u) : Wp (z.deleteNode node u) (fun z' => Keep z.nodes z'.nodes ∧ z'.length = z.length - 1) := by
  unfold deleteNode
  refine (wp_unlinkLevels _ _ _ _ _).bind fun h1 _ k1 => (Wp.triv _).bind fun l0 _ _ => (Wp.triv _).bind fun n _ _ => ?_
  have key : ∀ h2, Keep h1 h2 → Wp (shrinkLevel h2 z.level >>= fun level => (.ok ⟨h2, z.tail, z.length - 1, level⟩ : Go ZSL))
      (fun z' => Keep z.nodes z'.nodes ∧ z'.length = z.length - 1) := fun h2 k2 =>
    (Wp.triv _).bind fun l _ _ => Wp.pure ⟨k1.trans k2, rfl⟩
  split
  · exact (wp_setBackward _ _ _).bind fun h2 _ k2 => key h2 k2
  · exact key h1 (.refl _)

theorem wp_delete (z : ZSL) (score value) : Wp (z.delete score value) (fun p => Keep z.nodes p.1.nodes ∧ z.length - 1 ≤ p.1.length ∧ p.1.length ≤ z.length) := by
  unfold delete
  refine (Wp.triv _).bind fun a _ _ => ?_
  dsimp only
  refine (Wp.triv _).bind fun l _ _ => ?_
  have same : Keep z.nodes z.nodes ∧ z.length - 1 ≤ z.length ∧ z.length ≤ z.length := ⟨.refl _, by omega, by omega⟩
  split
  · exact Wp.pure same
  · refine (Wp.triv _).bind fun n _ _ => ?_
    split
    · exact (wp_deleteNode _ _ _).bind fun z' _ ⟨k, hl⟩ => Wp.pure ⟨k, by dsimp only; omega, by dsimp only; omega⟩
    · exact Wp.pure same

/-- the nodes of other members keep their member and score -/
def KeepBut (v : Bytes) (h h' : List ZNode) : Prop :=
  ∀ (x : Nat) (n : ZNode), h[x]? = some n → n.value ≠ v → ∃ n' : ZNode, h'[x]? = some n' ∧ n'.value = n.value ∧ n'.score = n.score

/-- `updateScore`: it changes nothing, or some node of the member has the new score, and other members are as they were -/
theorem wp_updateScore (z : ZSL) (cur new value rng) : Wp (z.updateScore cur new value rng) (fun p =>
    (p.2.1 = none ∧ p.1 = z) ∨
    (∃ x, p.2.1 = some x ∧ KeepBut value z.nodes p.1.nodes ∧ p.1.length = z.length ∧
      ∃ n : ZNode, p.1.nodes[x]? = some n ∧ n.value = value ∧ n.score = new)) := by
  unfold updateScore
  refine (Wp.triv _).bind fun a _ _ => ?_
  dsimp only
  refine (Wp.triv _).bind fun l _ _ => ?_
  split
  · exact Wp.pure (.inl ⟨rfl, rfl⟩)
  · next x _ =>
    refine (Wp.triv _).bind fun n hn _ => ?_
    have hn := load_ok hn
    split
    · exact Wp.pure (.inl ⟨rfl, rfl⟩)
    · next hc =>
      have hv : n.value = value := by
        simp only [Bool.or_eq_true, decide_eq_true_eq, not_or, not_not] at hc
        exact hc.2
      have fin : ∀ c : Bool, Wp (if c = true then do
            let h ← setScore z.nodes x new
            .ok ({ z with nodes := h }, some x, rng)
          else do
            let z ← deleteNode z x a.2
            let (z, y) ← insert z new value (rng 0)
            .ok (z, some y, fun i => rng (i + 1)) : Go (ZSL × Option Nat × Rng)) (fun p =>
          (p.2.1 = none ∧ p.1 = z) ∨
          (∃ x, p.2.1 = some x ∧ KeepBut value z.nodes p.1.nodes ∧ p.1.length = z.length ∧
            ∃ n : ZNode, p.1.nodes[x]? = some n ∧ n.value = value ∧ n.score = new)) := by
        intro c
        split
        · refine (Wp.triv _).bind fun h' hh _ => ?_
          unfold setScore at hh
          rw [show load z.nodes x = .ok n by unfold load; rw [hn]] at hh
          simp only [bind, Except.bind, Except.ok.injEq] at hh
          subst hh
          refine Wp.pure (.inr ⟨x, rfl, ?_, rfl, ?_⟩)
          · intro y ny hy hne
            dsimp only
            rw [List.getElem?_set]
            split
            · next e => subst e; rw [hn] at hy; cases hy; exact absurd hv hne
            · exact ⟨ny, hy, rfl, rfl⟩
          · dsimp only
            rw [List.getElem?_set, if_pos rfl, if_pos (List.getElem?_eq_some_iff.mp hn).1]
            exact ⟨_, rfl, hv, rfl⟩
        · refine (wp_deleteNode _ _ _).bind fun z1 _ ⟨k1, l1⟩ => (wp_insert _ _ _ _).bind fun b _ ⟨k2, l2, hx⟩ => ?_
          refine Wp.pure (.inr ⟨b.2, rfl, fun y ny hy _ => (k1.trans k2) y ny hy, ?_, hx⟩)
          dsimp only
          rw [l2, l1]; omega
      cases hb : n.backward with
      | none =>
        dsimp only
        refine (Wp.triv _).bind fun ok1 _ _ => (Wp.triv _).bind fun l0 _ _ => ?_
        split
        · exact (Wp.triv _).bind fun ok2 _ _ => fin _
        · exact (Wp.triv _).bind fun nf _ _ => (Wp.triv _).bind fun ok2 _ _ => fin _
      | some b =>
        dsimp only
        refine (Wp.triv _).bind fun nb _ _ => (Wp.triv _).bind fun ok1 _ _ => (Wp.triv _).bind fun l0 _ _ => ?_
        split
        · exact (Wp.triv _).bind fun ok2 _ _ => fin _
        · exact (Wp.triv _).bind fun nf _ _ => (Wp.triv _).bind fun ok2 _ _ => fin _

end ZSL

namespace ZObj
open ZSL (Keep KeepBut)
open ScoreSpec (Table Offer Offers known)

/-- a dict entry refers to a node of its member -/
structure Keyed (zs : ZObj) : Prop where
  wf : zs.m.WF
  dict : ∀ v x, zs.m.get v = some x → ∃ n : ZNode, zs.zsl.nodes[x]? = some n ∧ n.value = v

/-- the table of a sorted set -/
def tab (zs : ZObj) : Table := ⟨fun v => (zs.m.get v).bind (fun x => (zs.zsl.nodes[x]?).map (·.score)), zs.zsl.length⟩

theorem keyed_empty : Keyed ZObj.empty := ⟨SMap.WF.empty, fun v x h => by cases h⟩

theorem tab_empty : tab ZObj.empty = ScoreSpec.empty := rfl

theorem tab_none {zs : ZObj} {v} (h : zs.m.get v = none) : (tab zs).score v = none := by unfold tab; simp [h]

theorem tab_some {zs : ZObj} {v x} {n : ZNode} (h : zs.m.get v = some x) (hn : zs.zsl.nodes[x]? = some n) : (tab zs).score v = some n.score := by
  unfold tab; simp [h, hn]

theorem Keyed.none {zs : ZObj} (K : Keyed zs) {v} (h : (tab zs).score v = none) : zs.m.get v = none := by
  cases hg : zs.m.get v with
  | none => rfl
  | some x =>
    obtain ⟨n, hn, _⟩ := K.dict v x hg
    rw [tab_some hg hn] at h; cases h

/-- a member gets a node with a new score, and the nodes of the others keep theirs -/
theorem Keyed.set {zs : ZObj} (K : Keyed zs) {z : ZSL} {v x} {n : ZNode} (hk : KeepBut v zs.zsl.nodes z.nodes) (hn : z.nodes[x]? = some n) (hv : n.value = v) :
    Keyed ⟨zs.m.set v x, z⟩ ∧ tab ⟨zs.m.set v x, z⟩ = ⟨ScoreSpec.put (tab zs).score v (some n.score), z.length⟩ := by
  refine ⟨⟨K.wf.set v x, fun w y hy => ?_⟩, ?_⟩
  · dsimp only at hy ⊢
    rw [SMap.get_set] at hy
    split at hy
    · next e => cases hy; exact ⟨n, hn, by rw [hv, e]⟩
    · next e =>
      obtain ⟨n', h1, h2⟩ := K.dict w y hy
      obtain ⟨n'', h3, h4, _⟩ := hk y n' h1 (by rw [h2]; exact e)
      exact ⟨n'', h3, h4.trans h2⟩
  · have : ∀ w, (tab ⟨zs.m.set v x, z⟩).score w = ScoreSpec.put (tab zs).score v (some n.score) w := by
      intro w
      unfold ScoreSpec.put
      split
      · next e => subst e; exact tab_some (by dsimp only; rw [SMap.get_set, if_pos rfl]) hn
      · next e =>
        cases hg : zs.m.get w with
        | none => rw [tab_none hg, tab_none (by dsimp only; rw [SMap.get_set, if_neg e, hg])]
        | some y =>
          obtain ⟨n', h1, h2⟩ := K.dict w y hg
          obtain ⟨n'', h3, h4, h5⟩ := hk y n' h1 (by rw [h2]; exact e)
          rw [tab_some hg h1, tab_some (n := n'') (by dsimp only; rw [SMap.get_set, if_neg e, hg]) h3, h5]
    have h2 : (tab ⟨zs.m.set v x, z⟩).score = ScoreSpec.put (tab zs).score v (some n.score) := funext this
    rw [← h2]; rfl

theorem Keep.but {v : Bytes} {h h' : List ZNode} (hk : Keep h h') : KeepBut v h h' := fun x n hn _ => hk x n hn

theorem Keyed.keep {zs : ZObj} (K : Keyed zs) {z : ZSL} (hk : Keep zs.zsl.nodes z.nodes) :
    Keyed ⟨zs.m, z⟩ ∧ tab ⟨zs.m, z⟩ = ⟨(tab zs).score, z.length⟩ := by
  refine ⟨⟨K.wf, fun w y hy => ?_⟩, ?_⟩
  · obtain ⟨n', h1, h2⟩ := K.dict w y hy
    obtain ⟨n'', h3, h4, _⟩ := hk y n' h1
    exact ⟨n'', h3, h4.trans h2⟩
  · have : (tab ⟨zs.m, z⟩).score = (tab zs).score := by
      funext w
      cases hg : zs.m.get w with
      | none => rw [tab_none (zs := zs) hg, tab_none (zs := ⟨zs.m, z⟩) hg]
      | some y =>
        obtain ⟨n', h1, h2⟩ := K.dict w y hg
        obtain ⟨n'', h3, h4, h5⟩ := hk y n' h1
        rw [tab_some hg h1, tab_some (zs := ⟨zs.m, z⟩) (n := n'') hg h3, h5]
    rw [← this]; rfl

theorem wp_zAdd {zs : ZObj} (K : Keyed zs) (ext score value flag rng) :
    Wp (zs.zAdd ext score value flag rng) (fun p => Keyed p.1 ∧
      Offer (numOf ext) (fl flag) (tab zs) (score, value) (tab p.1) (if p.2.1.isSome then 1 else 0) ∧
      ∀ x, p.2.1 = some x → ∃ n : ZNode, p.1.zsl.nodes[x]? = some n ∧ (tab p.1).score value = some n.score) := by
  unfold zAdd
  unfold Offer
  dsimp only
  split
  · next hg =>
    rw [tab_none hg]
    dsimp only
    split
    · next hx => exact Wp.pure ⟨K, by rw [if_pos (show (fl flag).xx = true from hx)]; exact ⟨rfl, rfl⟩, by rintro _ ⟨⟩⟩
    · next hx =>
      refine (ZSL.wp_insert _ _ _ _).bind fun a _ ⟨k, l, n, hn, hv, hs⟩ => ?_
      obtain ⟨K', ht⟩ := K.set (Keep.but k) hn hv
      refine Wp.pure ⟨K', ?_, ?_⟩
      · rw [if_neg (show ¬ (fl flag).xx = true from hx), ht, hs, l]
        exact ⟨rfl, rfl⟩
      · rintro _ ⟨⟩
        exact ⟨n, hn, tab_some (by dsimp only; rw [SMap.get_set, if_pos rfl]) hn⟩
  · next x hg =>
    obtain ⟨n, hn, hv⟩ := K.dict _ _ hg
    rw [tab_some hg hn]
    dsimp only
    split
    · exact Wp.pure ⟨K, .inl ⟨rfl, rfl⟩, by rintro _ ⟨⟩⟩
    · next hnx =>
      refine (Wp.triv _).bind fun n' hn' _ => ?_
      have := ZSL.load_ok hn'
      rw [hn] at this; cases this
      rw [show (fl flag).incr = flag.incr from rfl, show (numOf ext).add = ext.fadd from rfl, show (fl flag).nx = flag.nx from rfl]
      generalize (if flag.incr = true then ext.fadd score n.score else score) = sc
      split
      · next hne =>
        refine (ZSL.wp_updateScore _ _ _ _ _).bind fun a _ ha => ?_
        obtain ⟨z, node, rng'⟩ := a
        dsimp only at ha ⊢
        rcases ha with ⟨rfl, rfl⟩ | ⟨y, rfl, k, l, n', hn', hv', hs'⟩
        · exact Wp.pure ⟨K, .inl ⟨rfl, rfl⟩, by rintro _ ⟨⟩⟩
        · obtain ⟨K', ht⟩ := K.set k hn' hv'
          refine Wp.pure ⟨K', .inr ⟨by simpa using hnx, by simpa using hne, ?_, rfl⟩, ?_⟩
          · rw [ht, hs', l]; rfl
          · rintro _ ⟨⟩
            exact ⟨n', hn', tab_some (by dsimp only; rw [SMap.get_set, if_pos rfl]) hn'⟩
      · exact Wp.pure ⟨K, .inl ⟨rfl, rfl⟩, by rintro _ ⟨⟩⟩

theorem wp_zAddAll (ext flag) : ∀ ms {zs : ZObj} (rng : Rng), Keyed zs →
    Wp (zAddAll ext flag zs ms rng) (fun p => Keyed p.1 ∧ ∃ n : Nat, Offers (numOf ext) (fl flag) ms (tab zs) (tab p.1) n ∧ p.2.1 = n)
  | [], zs, rng, K => Wp.pure ⟨K, 0, ⟨rfl, rfl⟩, rfl⟩
  | (sc, v) :: ms, zs, rng, K => by
    unfold zAddAll
    refine (wp_zAdd K ext sc v flag rng).bind fun a _ ⟨K1, o1, _⟩ => ?_
    obtain ⟨zs1, node, rng1⟩ := a
    dsimp only at K1 o1 ⊢
    refine (wp_zAddAll ext flag ms rng1 K1).bind fun b _ ⟨K2, n, o2, hc⟩ => ?_
    refine Wp.pure ⟨K2, _, ⟨_, _, _, o1, o2, rfl⟩, ?_⟩
    dsimp only
    rw [hc]
    cases node <;> simp; omega

theorem known_cons (t : Table) (v : Bytes) (vs : List Bytes) :
    known t (v :: vs) = (if (t.score v).isSome then 1 else 0) + known ⟨ScoreSpec.put t.score v none, 0⟩ vs := by
  have h1 : ∀ l : List Bytes, v ∉ l → (l.filter (fun x => (t.score x).isSome)) = l.filter (fun x => (ScoreSpec.put t.score v none x).isSome) := by
    intro l hl
    refine List.filter_congr fun x hx => ?_
    unfold ScoreSpec.put
    rw [if_neg (by rintro rfl; exact hl hx)]
  have h2 : ∀ l : List Bytes, l.Nodup → v ∈ l → (l.filter (fun x => (t.score x).isSome)).length =
      (if (t.score v).isSome then 1 else 0) + (l.filter (fun x => (ScoreSpec.put t.score v none x).isSome)).length := by
    intro l
    induction l with
    | nil => intro _ h; cases h
    | cons x l ih =>
      intro hnd hm
      rw [List.nodup_cons] at hnd
      by_cases hx : x = v
      · subst hx
        rw [List.filter_cons, List.filter_cons, h1 l hnd.1]
        have : (ScoreSpec.put t.score x none x).isSome = false := by unfold ScoreSpec.put; rw [if_pos rfl]; rfl
        rw [this]
        cases (t.score x).isSome <;> simp <;> omega
      · have hm' : v ∈ l := by
          rcases List.mem_cons.mp hm with h | h
          · exact absurd h.symm hx
          · exact h
        have := ih hnd.2 hm'
        have hp : ScoreSpec.put t.score v none x = t.score x := by unfold ScoreSpec.put; rw [if_neg hx]
        rw [List.filter_cons, List.filter_cons, hp]
        split
        · rw [List.length_cons, List.length_cons, this]; omega
        · exact this
  unfold known
  by_cases hv : v ∈ vs
  · rw [List.dedup_cons_of_mem hv]
    exact h2 _ (List.nodup_dedup _) (List.mem_dedup.mpr hv)
  · rw [List.dedup_cons_of_notMem hv]
    have hv' : v ∉ vs.dedup := fun h => hv (List.mem_dedup.mp h)
    rw [List.filter_cons, h1 _ hv']
    split <;> simp <;> omega

theorem known_congr {t t' : Table} (h : t.score = t'.score) (xs : List Bytes) : known t xs = known t' xs := by unfold known; rw [h]

theorem wp_zRemAll : ∀ vs {zs : ZObj}, Keyed zs → Wp (zRemAll zs vs) (fun p => Keyed p.1 ∧ p.2 = (known (tab zs) vs : Int) ∧
    (∀ y, (tab p.1).score y = if y ∈ vs then none else (tab zs).score y) ∧
    (tab zs).card - known (tab zs) vs ≤ (tab p.1).card ∧ (tab p.1).card ≤ (tab zs).card)
  | [], zs, K => Wp.pure ⟨K, rfl, fun y => by simp, by simp [known], by simp⟩
  | v :: vs, zs, K => by
    unfold zRemAll
    dsimp only
    have hdel : ∀ {z : ZSL}, Keep zs.zsl.nodes z.nodes → Keyed ⟨(zs.m.loadAndDelete v).1, z⟩ ∧
        (tab ⟨(zs.m.loadAndDelete v).1, z⟩).score = ScoreSpec.put (tab zs).score v none := fun {z} hk => by
      refine ⟨⟨K.wf.loadAndDelete v, fun w x hx => ?_⟩, ?_⟩
      · dsimp only at hx ⊢
        rw [SMap.get_loadAndDelete _ K.wf] at hx
        split at hx
        · cases hx
        · obtain ⟨n, h1, h2⟩ := K.dict w x hx
          obtain ⟨n', h3, h4, _⟩ := hk x n h1
          exact ⟨n', h3, h4.trans h2⟩
      · funext w
        unfold ScoreSpec.put
        have hg' := SMap.get_loadAndDelete (k := v) zs.m K.wf w
        split
        · next e => rw [if_pos e] at hg'; exact tab_none hg'
        · next e =>
          rw [if_neg e] at hg'
          cases hg : zs.m.get w with
          | none => rw [tab_none hg, tab_none (hg'.trans hg)]
          | some y =>
            obtain ⟨n, h1, h2⟩ := K.dict w y hg
            obtain ⟨n', h3, h4, h5⟩ := hk y n h1
            rw [tab_some hg h1, tab_some (zs := ⟨(zs.m.loadAndDelete v).1, z⟩) (hg'.trans hg) h3, h5]
    have fin : ∀ {z : ZSL} {p : ZObj × Int}, Keep zs.zsl.nodes z.nodes → (p.2 = (known (tab ⟨(zs.m.loadAndDelete v).1, z⟩) vs : Int) ∧
        (∀ y, (tab p.1).score y = if y ∈ vs then none else (tab ⟨(zs.m.loadAndDelete v).1, z⟩).score y)) →
        p.2 + (if ((tab zs).score v).isSome then 1 else 0) = (known (tab zs) (v :: vs) : Int) ∧
        ∀ y, (tab p.1).score y = if y ∈ v :: vs then none else (tab zs).score y := by
      intro z p hk ⟨h1, h2⟩
      have ht := (hdel hk).2
      refine ⟨?_, fun y => ?_⟩
      · rw [known_cons, h1, known_congr (t' := ⟨ScoreSpec.put (tab zs).score v none, 0⟩) ht]
        cases ((tab zs).score v).isSome <;> simp; omega
      · rw [h2 y, ht]
        unfold ScoreSpec.put
        by_cases h3 : y ∈ vs
        · simp [h3]
        · by_cases h4 : y = v
          · simp [h4]
          · simp [h3, h4]
    split
    · next hx =>
      have hg : zs.m.get v = none := by
        unfold SMap.loadAndDelete at hx
        split at hx
        · next hy => exact hy
        · cases hx
      refine (wp_zRemAll vs (hdel (z := zs.zsl) (.refl _)).1).mono fun p ⟨K', h1, h2, h3, h4⟩ => ?_
      obtain ⟨f1, f2⟩ := fin (z := zs.zsl) (p := p) (.refl _) ⟨h1, h2⟩
      rw [tab_none hg] at f1
      simp only [Option.isSome_none, Bool.false_eq_true, if_false, Int.add_zero] at f1
      refine ⟨K', f1, f2, ?_, h4⟩
      rw [← f1, h1]; exact h3
    · next x hx =>
      have hg : zs.m.get v = some x := by
        unfold SMap.loadAndDelete at hx
        split at hx
        · cases hx
        · next y hy => cases hx; exact hy
      obtain ⟨n0, hn0, _⟩ := K.dict v x hg
      refine (Wp.triv _).bind fun n hn _ => (ZSL.wp_delete _ _ _).bind fun a _ ⟨k, l1, l2⟩ => ?_
      obtain ⟨z, c⟩ := a
      dsimp only at k l1 l2 ⊢
      refine (wp_zRemAll vs (hdel k).1).bind fun p _ ⟨K', h1, h2, h3, h4⟩ => ?_
      obtain ⟨f1, f2⟩ := fin (z := z) (p := p) k ⟨h1, h2⟩
      rw [tab_some hg hn0] at f1
      simp only [Option.isSome_some, if_true] at f1
      refine Wp.pure ⟨K', f1, f2, ?_, ?_⟩
      · rw [← f1, h1]
        have : (tab ⟨(zs.m.loadAndDelete v).1, z⟩).card = z.length := rfl
        have h5 : (tab zs).card = zs.zsl.length := rfl
        dsimp only at *
        omega
      · have : (tab ⟨(zs.m.loadAndDelete v).1, z⟩).card = z.length := rfl
        have h5 : (tab zs).card = zs.zsl.length := rfl
        dsimp only at *
        omega

/-- what the pop loops do -/
def Pops (ext : Ext) (k : Nat) (z : ZSL) (p : ZSL × List Bytes) : Prop :=
  Keep z.nodes p.1.nodes ∧ ∃ l : List ZSpec.Entry, p.2 = l.flatMap (fun e => e.2 :: [(numOf ext).fmt e.1]) ∧ l.length ≤ k ∧
    z.length - l.length ≤ p.1.length ∧ p.1.length ≤ z.length

theorem pops_nil (ext : Ext) (k : Nat) (z : ZSL) : Pops ext k z (z, []) := ⟨.refl _, [], rfl, Nat.zero_le _, by simp, by simp⟩

theorem pops_cons {ext : Ext} {k : Nat} {z z1 : ZSL} {p : ZSL × List Bytes} {n : ZNode} (h : Keep z.nodes z1.nodes ∧ z.length - 1 ≤ z1.length ∧ z1.length ≤ z.length)
    (hp : Pops ext k z1 p) : Pops ext (k + 1) z (p.1, n.value :: ext.formatFloat n.score :: p.2) := by
  obtain ⟨k1, h1, h2⟩ := h
  obtain ⟨k2, l, e, hl, h3, h4⟩ := hp
  refine ⟨k1.trans k2, (n.score, n.value) :: l, ?_, ?_, ?_, ?_⟩
  · dsimp only; rw [e]; rfl
  · simp; omega
  · simp; omega
  · dsimp only; omega

theorem wp_zPopMin (ext) : ∀ k (z : ZSL), Wp (zPopMinLoop ext k z) (Pops ext k z)
  | 0, z => Wp.pure (pops_nil _ _ _)
  | k + 1, z => by
    unfold zPopMinLoop
    refine (Wp.triv _).bind fun a _ _ => ?_
    split
    · exact Wp.pure (pops_nil _ _ _)
    · refine (Wp.triv _).bind fun n _ _ => (ZSL.wp_delete _ _ _).bind fun b _ hb => ?_
      exact (wp_zPopMin ext k b.1).bind fun c _ hc => Wp.pure (pops_cons hb hc)

theorem wp_zPopMax (ext) : ∀ k (z : ZSL), Wp (zPopMaxLoop ext k z) (Pops ext k z)
  | 0, z => Wp.pure (pops_nil _ _ _)
  | k + 1, z => by
    unfold zPopMaxLoop
    refine (Wp.triv _).bind fun a _ _ => ?_
    split
    · exact Wp.pure (pops_nil _ _ _)
    · refine (Wp.triv _).bind fun n _ _ => (ZSL.wp_delete _ _ _).bind fun b _ hb => ?_
      exact (wp_zPopMax ext k b.1).bind fun c _ hc => Wp.pure (pops_cons hb hc)

end ZObj
end Godis
