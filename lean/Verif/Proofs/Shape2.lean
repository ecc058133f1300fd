import Verif.Proofs.Shape
/-!
# Sorted sets: commands do not panic while no member has the greatest height
-/
namespace Godis

namespace ZObj
open ZSL (Shape)

/-- a whole sorted set: the skip list, and the dict entries point to nodes -/
structure Shaped (zs : ZObj) : Prop where
  wf : zs.m.WF
  list : Shape zs.zsl
  dict : ∀ v x, zs.m.get v = some x → x < zs.zsl.nodes.length

theorem shaped_empty : Shaped ZObj.empty := ⟨SMap.WF.empty, ZSL.shape_empty, fun v x h => by cases h⟩

theorem Shaped.set {zs : ZObj} (h : Shaped zs) {z : ZSL} (hz : Shape z) (hl : zs.zsl.nodes.length ≤ z.nodes.length) {v x}
    (hx : x < z.nodes.length) : Shaped ⟨zs.m.set v x, z⟩ := by
  refine ⟨h.wf.set v x, hz, fun w y hy => ?_⟩
  dsimp only at hy ⊢
  rw [SMap.get_set] at hy
  split at hy
  · cases hy; exact hx
  · exact Nat.lt_of_lt_of_le (h.dict w y hy) hl

theorem Shaped.keep {zs : ZObj} (h : Shaped zs) {z : ZSL} (hz : Shape z) (hl : zs.zsl.nodes.length ≤ z.nodes.length) :
    Shaped ⟨zs.m, z⟩ := ⟨h.wf, hz, fun v x hx => Nat.lt_of_lt_of_le (h.dict v x hx) hl⟩

theorem post_zAdd {zs : ZObj} (h : Shaped zs) (ext score value flag) {rng : Rng} (hr : ∀ i, rng i ≤ 30) :
    Post (zs.zAdd ext score value flag rng) (fun p => Shaped p.1 ∧ ∀ x, p.2.1 = some x → x < p.1.zsl.nodes.length) := by
  unfold zAdd
  split
  · split
    · exact ⟨h, fun x hx => by cases hx⟩
    · refine (ZSL.post_insert h.list score value (hr 0)).bind fun a _ ⟨h1, h2, h3⟩ => ?_
      exact ⟨h.set h1 h2 h3, fun x hx => by cases hx; exact h3⟩
  · next de hde =>
    split
    · exact ⟨h, fun x hx => by cases hx⟩
    · refine (ZSL.post_load (h.dict _ _ hde)).bind fun n _ _ => ?_
      dsimp only
      generalize (if flag.incr = true then ext.fadd score n.score else score) = sc
      split
      · refine (ZSL.post_updateScore h.list _ _ _ hr).bind fun a _ ⟨h1, h2, h3⟩ => ?_
        obtain ⟨z, node, rng'⟩ := a
        cases node with
        | none => exact ⟨h.keep h1 h2, fun x hx => by cases hx⟩
        | some y => exact ⟨h.set h1 h2 (h3 y rfl), fun x hx => by cases hx; exact h3 y rfl⟩
      · exact ⟨h, fun x hx => by cases hx⟩

theorem post_zAddAll (ext flag) : ∀ ms {zs : ZObj} {rng : Rng}, Shaped zs → (∀ i, rng i ≤ 30) →
    Post (zAddAll ext flag zs ms rng) (fun p => Shaped p.1)
  | [], zs, rng, hz, _ => hz
  | (sc, v) :: ms, zs, rng, hz, hr => by
    unfold zAddAll
    refine (post_zAdd hz ext sc v flag hr).bind fun a ha ⟨h1, _⟩ => ?_
    obtain ⟨n, hn⟩ := zAdd_rng ha
    refine (post_zAddAll ext flag ms h1 (rng := a.2.2) (fun i => by rw [hn]; exact hr _)).bind fun b _ h2 => h2

theorem post_zRemAll : ∀ vs {zs : ZObj}, Shaped zs → Post (zRemAll zs vs) (fun p => Shaped p.1)
  | [], zs, hz => hz
  | v :: vs, zs, hz => by
    unfold zRemAll
    dsimp only
    have hdel : ∀ {z : ZSL}, Shape z → ZSL.Same zs.zsl.nodes z.nodes → Shaped ⟨(zs.m.loadAndDelete v).1, z⟩ := fun {z} h1 h2 =>
      ⟨hz.wf.loadAndDelete v, h1, fun w x hx => by
        dsimp only at hx ⊢
        rw [SMap.get_loadAndDelete _ hz.wf] at hx
        split at hx
        · cases hx
        · rw [h2.1]; exact hz.dict w x hx⟩
    split
    · exact post_zRemAll vs (hdel hz.list (.refl _))
    · next x hx =>
      have hx' : zs.m.get v = some x := by
        unfold SMap.loadAndDelete at hx
        split at hx
        · cases hx
        · next y hy => cases hx; exact hy
      refine (ZSL.post_load (hz.dict _ _ hx')).bind fun n _ _ => ?_
      refine (ZSL.post_delete hz.list n.score v).bind fun a _ ⟨h1, h2⟩ => ?_
      exact (post_zRemAll vs (hdel h1 h2)).bind fun b _ h3 => h3

theorem post_find {z : ZSL} (hz : Shape z) (r) : Post (z.findElementByRank r) (fun o => ∀ y, o = some y → y < z.nodes.length) :=
  ZSL.post_findLoop hz.heap r _ _ _ (by rw [hz.heap.head]; have := hz.high; omega)

theorem post_zPopMin (ext) : ∀ k {z : ZSL}, Shape z → Post (zPopMinLoop ext k z) (fun p => Shape p.1 ∧ ZSL.Same z.nodes p.1.nodes)
  | 0, z, hz => ⟨hz, .refl _⟩
  | k + 1, z, hz => by
    unfold zPopMinLoop
    refine (post_find hz 1).bind fun a _ ha => ?_
    split
    · exact ⟨hz, .refl _⟩
    · refine (ZSL.post_load (ha _ rfl)).bind fun n _ _ => ?_
      refine (ZSL.post_delete hz _ _).bind fun b _ ⟨h1, h2⟩ => ?_
      exact (post_zPopMin ext k h1).bind fun c _ ⟨h3, h4⟩ => ⟨h3, h2.trans h4⟩

theorem post_zPopMax (ext) : ∀ k {z : ZSL}, Shape z → Post (zPopMaxLoop ext k z) (fun p => Shape p.1 ∧ ZSL.Same z.nodes p.1.nodes)
  | 0, z, hz => ⟨hz, .refl _⟩
  | k + 1, z, hz => by
    unfold zPopMaxLoop
    refine (post_find hz _).bind fun a _ ha => ?_
    split
    · exact ⟨hz, .refl _⟩
    · refine (ZSL.post_load (ha _ rfl)).bind fun n _ _ => ?_
      refine (ZSL.post_delete hz _ _).bind fun b _ ⟨h1, h2⟩ => ?_
      exact (post_zPopMax ext k h1).bind fun c _ ⟨h3, h4⟩ => ⟨h3, h2.trans h4⟩

end ZObj

namespace ZSL

theorem post_rank {z : ZSL} (hz : Shape z) (sc v) : Post (z.rank sc v) (fun _ => True) :=
  post_rankLoop hz.heap _ _ _ _ _ (by rw [hz.heap.head]; have := hz.high; omega)

theorem post_minScoreRank {z : ZSL} (hz : Shape z) (sc o) : Post (z.minScoreRank sc o) (fun _ => True) := by
  unfold minScoreRank
  split
  · trivial
  · exact (post_minLoop hz.heap _ _ _ _ _ (by rw [hz.heap.head]; have := hz.high; omega)).bind fun _ _ _ => trivial

theorem post_maxScoreRank {z : ZSL} (hz : Shape z) (sc o) : Post (z.maxScoreRank sc o) (fun _ => True) := by
  unfold maxScoreRank
  split
  · trivial
  · exact (post_maxLoop hz.heap _ _ _ _ _ (by rw [hz.heap.head]; have := hz.high; omega)).bind fun _ _ _ => trivial

theorem post_count {z : ZSL} (hz : Shape z) (a b c d) : Post (z.count a b c d) (fun _ => True) := by
  unfold count
  split
  · trivial
  · refine (post_minScoreRank hz _ _).bind fun _ _ _ => (post_maxScoreRank hz _ _).bind fun _ _ _ => ?_
    split
    · trivial
    · split <;> trivial

end ZSL

/-! ## the whole store -/

/-- the object has no dangling pointers -/
def Obj.Shaped : Obj → Prop
  | .zset z => ZObj.Shaped z
  | _ => True

/-- all sorted sets have no dangling pointers, all heights still to be drawn are below 32 -/
structure ShapedStore (s : Store) : Prop where
  objs : ∀ (r : Nat) (o : Obj), s.heap[r]? = some o → o.Shaped
  draws : ∀ i, s.rng i ≤ 30

theorem OStep.shaped {ext c args rng o o'} (h : OStep ext c args rng o o') (ho : o.Shaped) (hr : ∀ i, rng i ≤ 30) : o'.Shaped := by
  cases h with
  | zadd _ _ h => exact (ZObj.post_zAddAll _ _ _ ho hr).get h
  | zincr _ _ _ h => exact ((ZObj.post_zAdd ho _ _ _ _ hr).get h).1
  | zrem _ h => exact (ZObj.post_zRemAll _ ho).get h
  | zpopmin _ h =>
    have := (ZObj.post_zPopMin _ _ ho.list).get h
    exact ZObj.Shaped.keep ho this.1 (Nat.le_of_eq this.2.1.symm)
  | zpopmax _ h =>
    have := (ZObj.post_zPopMax _ _ ho.list).get h
    exact ZObj.Shaped.keep ho this.1 (Nat.le_of_eq this.2.1.symm)
  | _ => trivial

theorem ONew.shaped {ext c args rng o} (h : ONew ext c args rng o) (hr : ∀ i, rng i ≤ 30) : o.Shaped := by
  cases h with
  | zset h => exact h.shaped (o := .zset _) ZObj.shaped_empty hr
  | _ => trivial

theorem Change.shaped {ext c args N s s'} (h : Change ext c args N s s') (hs : ShapedStore s) : ShapedStore s' := by
  have draws : ∀ {rng}, RShift s.rng rng → ∀ i, rng i ≤ 30 := by
    rintro rng ⟨n, rfl⟩ i; exact hs.draws _
  cases h with
  | str => exact ⟨hs.objs, hs.draws⟩
  | del => exact ⟨hs.objs, hs.draws⟩
  | @new k o rng _ _ hn hsh =>
    refine ⟨fun r o1 h1 => ?_, draws hsh⟩
    dsimp only at h1
    rcases Nat.lt_or_ge r s.heap.length with hr | hr
    · rw [List.getElem?_append_left hr] at h1; exact hs.objs r o1 h1
    · rw [List.getElem?_append_right hr] at h1
      have := List.mem_of_getElem? h1
      rw [List.mem_singleton] at this
      subst this; exact hn.shaped hs.draws
  | @write k r o o' rng _ hg h2 hst hsh =>
    refine ⟨fun r1 o1 h1 => ?_, draws hsh⟩
    dsimp only at h1
    rw [List.getElem?_set] at h1
    split at h1
    · split at h1
      · cases h1; exact hst.shaped (hs.objs r o h2) hs.draws
      · cases h1
    · exact hs.objs r1 o1 h1
  | «alias» => exact ⟨hs.objs, hs.draws⟩

theorem Eff.shaped {ext c args N s s'} (h : Eff ext c args N s s') (ho : ShapedStore s) : ShapedStore s' := by
  induction h with
  | refl => exact ho
  | step h _ ih => exact ih (h.shaped ho)

theorem Trace.shaped {ext s tr s'} (h : Trace ext s tr s') (ht : Typed s) (ho : ShapedStore s) : ShapedStore s' := by
  induction h with
  | nil => exact ho
  | snoc h ha ih =>
    rcases ha.eff (h.typed ht) with rfl | ⟨_, _, _, _, _, he⟩
    · exact ih
    · exact he.shaped ih

theorem shaped_init {rng : Rng} (hr : ∀ i, rng i ≤ 30) : ShapedStore (Store.init rng) :=
  ⟨fun r o ho => by simp [Store.init] at ho, hr⟩

section
variable {s : Store} (ht : Typed s) (ho : ShapedStore s)
include ht

theorem post_onZSet {α : Type} {k b} {f : Except Err (Nat × ZObj) → Go α} (he : ∀ e, Post (f (.error e)) (fun _ => True))
    (hf : ∀ r l, s.heap[r]? = some (.zset l) → Post (f (.ok (r, l))) (fun _ => True)) : Post (s.loadZSet k b >>= f) (fun _ => True) := by
  refine (np_loadZSet ht k b).post.bind fun a ha _ => ?_
  cases a with
  | error e => exact he e
  | ok p => exact hf p.1 p.2 (loadZSet_obj ha)

include ho

theorem post_sZAdd (ext k ms flag) : Post (s.zAdd ext k ms flag) (fun _ => True) := by
  unfold Store.zAdd
  refine post_onZSet ht (fun e => ?_) (fun r l hl => (ZObj.post_zAddAll _ _ _ (ho.objs r _ hl) ho.draws).bind fun _ _ _ => trivial)
  cases e <;> first | trivial | exact (ZObj.post_zAddAll _ _ _ ZObj.shaped_empty ho.draws).bind fun _ _ _ => trivial

theorem post_sZScore (k v) : Post (s.zScore k v) (fun _ => True) := by
  unfold Store.zScore
  refine post_onZSet ht (fun e => trivial) (fun r l hl => ?_)
  dsimp only
  split
  · trivial
  · next x hx => exact (ZSL.post_load ((ho.objs r _ hl).dict _ _ hx)).bind fun _ _ _ => trivial

theorem post_sZRank (k v) : Post (s.zRank k v) (fun _ => True) := by
  unfold Store.zRank
  refine post_onZSet ht (fun e => trivial) (fun r l hl => ?_)
  dsimp only
  split
  · trivial
  · next x hx =>
    exact (ZSL.post_load ((ho.objs r _ hl).dict _ _ hx)).bind fun _ _ _ => (ZSL.post_rank (ho.objs r _ hl).list _ _).bind fun _ _ _ => trivial

theorem post_sZRem (k vs) : Post (s.zRem k vs) (fun _ => True) := by
  unfold Store.zRem
  exact post_onZSet ht (fun e => trivial) (fun r l hl => (ZObj.post_zRemAll _ (ho.objs r _ hl)).bind fun _ _ _ => trivial)

theorem post_sZCount (ext k a b) : Post (s.zCount ext k a b) (fun _ => True) := by
  unfold Store.zCount
  refine post_onZSet ht (fun e => trivial) (fun r l hl => ?_)
  dsimp only
  split
  · trivial
  · split
    · trivial
    · exact (ZSL.post_count (ho.objs r _ hl).list _ _ _ _).bind fun _ _ _ => trivial

theorem post_sZIncr (ext k sc v) : Post (s.zIncr ext k sc v) (fun _ => True) := by
  unfold Store.zIncr
  refine post_onZSet ht (fun e => ?_) (fun r l hl => (ZObj.post_zAdd (ho.objs r _ hl) _ _ _ _ ho.draws).bind fun a _ ⟨_, h2⟩ => ?_)
  · cases e
    case nil =>
      refine (ZObj.post_zAdd ZObj.shaped_empty _ _ _ _ ho.draws).bind fun a _ ⟨_, h2⟩ => ?_
      obtain ⟨z, node, rng⟩ := a
      cases node with
      | none => trivial
      | some x => exact (ZSL.post_load (h2 x rfl)).bind fun _ _ _ => trivial
    all_goals trivial
  · obtain ⟨z, node, rng⟩ := a
    cases node with
    | none => trivial
    | some x => exact (ZSL.post_load (h2 x rfl)).bind fun _ _ _ => trivial

theorem post_sZPopMin (ext k n) : Post (s.zPopMin ext k n) (fun _ => True) := by
  unfold Store.zPopMin
  exact post_onZSet ht (fun e => trivial) (fun r l hl => (ZObj.post_zPopMin _ _ (ho.objs r _ hl).list).bind fun _ _ _ => trivial)

theorem post_sZPopMax (ext k n) : Post (s.zPopMax ext k n) (fun _ => True) := by
  unfold Store.zPopMax
  exact post_onZSet ht (fun e => trivial) (fun r l hl => (ZObj.post_zPopMax _ _ (ho.objs r _ hl).list).bind fun _ _ _ => trivial)

/-- the sorted-set commands that are safe on damaged sorted sets -/
def Cmd.zsafe : Cmd → Bool
  | .zAdd | .zScore | .zRank | .zRem | .zCount | .zIncr | .zPopMin | .zPopMix => true
  | _ => false

local macro "post_step" ht:ident ho:ident : tactic => `(tactic| first
  | with_reducible exact (NP.ok _).post | with_reducible exact (np_intReply _ _).post | with_reducible exact (np_intReplyNilOk _ _).post | with_reducible exact (np_arrReply _ _ _).post | with_reducible exact (np_zPopReply _ _).post
  | (with_reducible refine (post_sZAdd $ht $ho _ _ _ _).bind fun _ _ _ => ?_) | (with_reducible refine (post_sZScore $ht $ho _ _).bind fun _ _ _ => ?_)
  | (with_reducible refine (post_sZRank $ht $ho _ _).bind fun _ _ _ => ?_) | (with_reducible refine (post_sZRem $ht $ho _ _).bind fun _ _ _ => ?_)
  | (with_reducible refine (post_sZCount $ht $ho _ _ _ _).bind fun _ _ _ => ?_) | (with_reducible refine (post_sZIncr $ht $ho _ _ _ _).bind fun _ _ _ => ?_)
  | (with_reducible refine (post_sZPopMin $ht $ho _ _ _).bind fun _ _ _ => ?_) | (with_reducible refine (post_sZPopMax $ht $ho _ _ _).bind fun _ _ _ => ?_)
  | split)

theorem fn_zsafe (hd : OrderedStore s) (c : Cmd) (hc : c.zsafe = true) (ext it args) : NP (c.fn ext it s args) := by
  refine Post.np (Q := fun _ => True) ?_ (fn_nd ht hd c ext it args)
  cases c
  all_goals first | (exfalso; revert hc; decide) | skip
  all_goals
    clear hc
    simp only [Cmd.fn, cmdZAdd, cmdZScore, cmdZRank, cmdZRem, cmdZCount, cmdZIncr, cmdZPopMin, cmdZPopMax, retOk, retErr, notEnough]
    repeat' post_step ht ho

end
end Godis
