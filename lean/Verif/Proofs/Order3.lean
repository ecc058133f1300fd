import Verif.Proofs.Order2
import Verif.Proofs.Reach
/-!
# No command loops for ever
-/
namespace Godis

namespace ZObj
open ZSL (Ok)

theorem zAdd_spec {zs : ZObj} (hz : Ok zs.zsl) (ext score value flag rng) :
    ND (zs.zAdd ext score value flag rng) ∧ ∀ zs' x rng', zs.zAdd ext score value flag rng = .ok (zs', x, rng') → Ok zs'.zsl := by
  unfold zAdd
  split
  · split
    · exact ⟨.ok _, fun _ _ _ he => by cases he; exact hz⟩
    · refine ⟨(ZSL.nd_insert hz _ _ _).bind (fun _ _ => .ok _), fun _ _ _ he => ?_⟩
      obtain ⟨⟨z, y⟩, h1, he⟩ := bind_ok he
      cases he
      exact ZSL.ok_insert hz h1
  · split
    · exact ⟨.ok _, fun _ _ _ he => by cases he; exact hz⟩
    · constructor
      · refine (ZSL.nd_load _ _).bind (fun n _ => ?_)
        dsimp only
        generalize (if flag.incr = true then ext.fadd score n.score else score) = sc
        split
        · refine (ZSL.updateScore_spec hz _ _ _ _).1.bind (fun a _ => ?_)
          split <;> exact .ok _
        · exact .ok _
      · intro zs' x rng' he
        obtain ⟨n, _, he⟩ := bind_ok he
        dsimp only at he
        generalize (if flag.incr = true then ext.fadd score n.score else score) = sc at he
        split at he
        · obtain ⟨⟨z, node, rng1⟩, h1, he⟩ := bind_ok he
          have := (ZSL.updateScore_spec hz _ _ _ _).2 _ _ _ h1
          dsimp only at he
          split at he <;> cases he <;> exact this
        · cases he; exact hz

theorem zAddAll_spec (ext flag) : ∀ ms {zs : ZObj} rng, Ok zs.zsl →
    ND (zAddAll ext flag zs ms rng) ∧ ∀ zs' x rng', zAddAll ext flag zs ms rng = .ok (zs', x, rng') → Ok zs'.zsl
  | [], zs, rng, hz => ⟨.ok _, fun _ _ _ he => by cases he; exact hz⟩
  | (sc, v) :: ms, zs, rng, hz => by
    unfold zAddAll
    obtain ⟨h1, h2⟩ := zAdd_spec hz ext sc v flag rng
    constructor
    · exact h1.bind (fun a ha => (zAddAll_spec ext flag ms a.2.2 (h2 _ _ _ ha)).1.bind (fun _ _ => .ok _))
    · intro zs' x rng' he
      obtain ⟨⟨z, node, rng1⟩, h3, he⟩ := bind_ok he
      obtain ⟨⟨z1, cnt, rng2⟩, h4, he⟩ := bind_ok he
      cases he
      exact (zAddAll_spec ext flag ms rng1 (h2 _ _ _ h3)).2 _ _ _ h4

theorem zRemAll_spec : ∀ vs {zs : ZObj}, Ok zs.zsl → ND (zRemAll zs vs) ∧ ∀ zs' n, zRemAll zs vs = .ok (zs', n) → Ok zs'.zsl
  | [], zs, hz => ⟨.ok _, fun _ _ he => by cases he; exact hz⟩
  | v :: vs, zs, hz => by
    unfold zRemAll
    dsimp only
    split
    · exact zRemAll_spec vs hz
    · constructor
      · exact (ZSL.nd_load _ _).bind (fun n _ => (ZSL.nd_delete _ _ _).bind (fun a ha =>
          (zRemAll_spec vs (zs := ⟨_, a.1⟩) (ZSL.ok_delete hz ha)).1.bind (fun _ _ => .ok _)))
      · intro zs' n he
        obtain ⟨m, _, he⟩ := bind_ok he
        obtain ⟨⟨z, k⟩, h1, he⟩ := bind_ok he
        obtain ⟨⟨z1, cnt⟩, h2, he⟩ := bind_ok he
        cases he
        exact (zRemAll_spec vs (zs := ⟨_, z⟩) (ZSL.ok_delete hz h1)).2 _ _ h2

theorem nd_find {z : ZSL} (hz : Ok z) (r) : ND (z.findElementByRank r) := by
  obtain ⟨R, ho⟩ := hz
  exact ZSL.nd_findLoop ho _ _ _ _

theorem zPopMin_spec (ext) : ∀ k {z : ZSL}, Ok z → ND (zPopMinLoop ext k z) ∧ ∀ z' vs, zPopMinLoop ext k z = .ok (z', vs) → Ok z'
  | 0, z, hz => ⟨.ok _, fun _ _ he => by cases he; exact hz⟩
  | k + 1, z, hz => by
    unfold zPopMinLoop
    constructor
    · refine (nd_find hz _).bind (fun a _ => ?_)
      split
      · exact .ok _
      · exact (ZSL.nd_load _ _).bind (fun n _ => (ZSL.nd_delete _ _ _).bind (fun a ha => (zPopMin_spec ext k (ZSL.ok_delete hz ha)).1.bind (fun _ _ => .ok _)))
    · intro z' vs he
      obtain ⟨a, _, he⟩ := bind_ok he
      split at he
      · cases he; exact hz
      · obtain ⟨n, _, he⟩ := bind_ok he
        obtain ⟨⟨z1, _⟩, h1, he⟩ := bind_ok he
        obtain ⟨⟨z2, _⟩, h2, he⟩ := bind_ok he
        cases he
        exact (zPopMin_spec ext k (ZSL.ok_delete hz h1)).2 _ _ h2

theorem zPopMax_spec (ext) : ∀ k {z : ZSL}, Ok z → ND (zPopMaxLoop ext k z) ∧ ∀ z' vs, zPopMaxLoop ext k z = .ok (z', vs) → Ok z'
  | 0, z, hz => ⟨.ok _, fun _ _ he => by cases he; exact hz⟩
  | k + 1, z, hz => by
    unfold zPopMaxLoop
    constructor
    · refine (nd_find hz _).bind (fun a _ => ?_)
      split
      · exact .ok _
      · exact (ZSL.nd_load _ _).bind (fun n _ => (ZSL.nd_delete _ _ _).bind (fun a ha => (zPopMax_spec ext k (ZSL.ok_delete hz ha)).1.bind (fun _ _ => .ok _)))
    · intro z' vs he
      obtain ⟨a, _, he⟩ := bind_ok he
      split at he
      · cases he; exact hz
      · obtain ⟨n, _, he⟩ := bind_ok he
        obtain ⟨⟨z1, _⟩, h1, he⟩ := bind_ok he
        obtain ⟨⟨z2, _⟩, h2, he⟩ := bind_ok he
        cases he
        exact (zPopMax_spec ext k (ZSL.ok_delete hz h1)).2 _ _ h2

theorem ok_empty : Ok ZObj.empty.zsl := by
  refine ⟨fun _ _ => 0, fun i a b hb => ?_⟩
  have : ZSL.fwd ZSL.empty.nodes a i = none := by
    have := ZSL.fwd_append [] maxLevel 0 [] a i
    rw [show ZSL.empty.nodes = [] ++ [newZslNode maxLevel 0 []] from rfl, this]; rfl
  have h2 : ZSL.fwd ZObj.empty.zsl.nodes a i = none := this
  rw [h2] at hb; cases hb

end ZObj

/-! ## the reading loops -/

namespace ZSL
variable {z : ZSL}

theorem nd_rank (hz : Ok z) (sc v) : ND (z.rank sc v) := by
  obtain ⟨R, ho⟩ := hz; exact nd_rankLoop ho _ _ _ _ _

theorem nd_minScoreRank (hz : Ok z) (sc o) : ND (z.minScoreRank sc o) := by
  obtain ⟨R, ho⟩ := hz
  unfold minScoreRank
  split
  · exact .ok _
  · exact (nd_minLoop ho _ _ _ _ _).bind (fun _ _ => .ok _)

theorem nd_maxScoreRank (hz : Ok z) (sc o) : ND (z.maxScoreRank sc o) := by
  obtain ⟨R, ho⟩ := hz
  unfold maxScoreRank
  split
  · exact .ok _
  · exact (nd_maxLoop ho _ _ _ _ _).bind (fun _ _ => .ok _)

theorem nd_count (hz : Ok z) (a b c d) : ND (z.count a b c d) := by
  unfold count
  split
  · exact .ok _
  · refine (nd_minScoreRank hz _ _).bind (fun _ _ => (nd_maxScoreRank hz _ _).bind (fun _ _ => ?_))
    split
    · exact .ok _
    · split <;> exact .ok _

theorem nd_collectFwd (ext h w) : ∀ k p, ND (collectFwd ext h w k p)
  | 0, _ => .ok _
  | k + 1, none => by intro h; cases h
  | k + 1, some x => by
    unfold collectFwd
    exact (nd_load _ _).bind (fun _ _ => (nd_level? _ _ _).bind (fun _ _ => (nd_collectFwd ext h w k _).bind (fun _ _ => .ok _)))

theorem nd_collectBwd (ext h w) : ∀ k p, ND (collectBwd ext h w k p)
  | 0, _ => .ok _
  | k + 1, none => by intro h; cases h
  | k + 1, some x => by
    unfold collectBwd
    exact (nd_load _ _).bind (fun _ _ => (nd_collectBwd ext h w k _).bind (fun _ _ => .ok _))

theorem nd_zRange (hz : Ok z) (ext a b w) : ND (z.zRange ext a b w) := by
  unfold zRange
  split
  · exact .ok _
  · exact (ZObj.nd_find hz _).bind (fun _ _ => nd_collectFwd _ _ _ _ _)

theorem nd_zRevRange (hz : Ok z) (ext a b w) : ND (z.zRevRange ext a b w) := by
  unfold zRevRange
  split
  · exact .ok _
  · exact (ZObj.nd_find hz _).bind (fun _ _ => nd_collectBwd _ _ _ _ _)

theorem nd_zRangeByScore (hz : Ok z) (ext a b c d w) : ND (z.zRangeByScore ext a b c d w) := by
  unfold zRangeByScore
  split
  · exact nd_zRange hz _ _ _ _
  · refine (nd_minScoreRank hz _ _).bind (fun _ _ => (nd_maxScoreRank hz _ _).bind (fun _ _ => ?_))
    split
    · exact nd_zRange hz _ _ _ _
    · split <;> exact nd_zRange hz _ _ _ _

end ZSL

namespace LObj

theorem nd_lPush (l : LObj) (v) : ND (l.lPush v) := by
  unfold lPush
  split
  · exact (nd_setPrev _ _ _).bind (fun _ _ => .ok _)
  · exact .ok _

theorem nd_rPush (l : LObj) (v) : ND (l.rPush v) := by
  unfold rPush
  split
  · exact (nd_setNext _ _ _).bind (fun _ _ => .ok _)
  · exact .ok _

theorem nd_lPushAll : ∀ vs (l : LObj), ND (l.lPushAll vs)
  | [], _ => .ok _
  | v :: vs, l => by unfold lPushAll; exact (nd_lPush l v).bind (fun l' _ => nd_lPushAll vs l')

theorem nd_rPushAll : ∀ vs (l : LObj), ND (l.rPushAll vs)
  | [], _ => .ok _
  | v :: vs, l => by unfold rPushAll; exact (nd_rPush l v).bind (fun l' _ => nd_rPushAll vs l')

theorem nd_lPop (l : LObj) : ND l.lPop := by
  unfold lPop
  split
  · exact .ok _
  · exact (nd_load _ _).bind (fun _ _ => (nd_setNext _ _ _).bind (fun _ _ => (nd_setPrevIf _ _ _).bind (fun _ _ => .ok _)))

theorem nd_rPop (l : LObj) : ND l.rPop := by
  unfold rPop
  split
  · exact .ok _
  · exact (nd_load _ _).bind (fun _ _ => (nd_setPrev _ _ _).bind (fun _ _ => (nd_setNextIf _ _ _).bind (fun _ _ => .ok _)))

theorem nd_lPopLoop : ∀ k (l : LObj) c, ND (l.lPopLoop k c)
  | 0, _, _ => .ok _
  | k + 1, l, c => by
    unfold lPopLoop
    split
    · refine (nd_lPop l).bind (fun a _ => ?_)
      dsimp only
      split
      · exact .ok _
      · exact (nd_lPopLoop k _ _).bind (fun _ _ => .ok _)
    · exact .ok _

theorem nd_rPopLoop : ∀ k (l : LObj) c, ND (l.rPopLoop k c)
  | 0, _, _ => .ok _
  | k + 1, l, c => by
    unfold rPopLoop
    split
    · refine (nd_rPop l).bind (fun a _ => ?_)
      dsimp only
      split
      · exact .ok _
      · exact (nd_rPopLoop k _ _).bind (fun _ _ => .ok _)
    · exact .ok _

theorem nd_lRangeLoop (h start) : ∀ k p i, ND (lRangeLoop h start k p i)
  | 0, _, _ => .ok _
  | k + 1, none, _ => .ok _
  | k + 1, some x, i => by
    unfold lRangeLoop
    exact (nd_load _ _).bind (fun _ _ => (nd_lRangeLoop h start k _ _).bind (fun _ _ => .ok _))

theorem nd_lRange (l : LObj) (a b) : ND (l.lRange a b) := by
  unfold lRange
  split
  · exact .ok _
  · dsimp only
    generalize (if a < 0 then if a + l.length < 0 then 0 else a + l.length else a) = a'
    generalize (if b < 0 then b + l.length else b) = b'
    split
    · exact .ok _
    · exact nd_lRangeLoop _ _ _ _ _

theorem nd_lIndexLoop (h rev) : ∀ k p, ND (lIndexLoop h rev k p)
  | 0, _ => .ok _
  | k + 1, p => by
    unfold lIndexLoop
    exact (nd_load _ _).bind (fun _ _ => nd_lIndexLoop h rev k _)

theorem nd_lIndexNode (l : LObj) (i) : ND (l.lIndexNode i) := by
  unfold lIndexNode
  split
  · exact .ok _
  · dsimp only
    generalize (if i < 0 then i + l.length else i) = i'
    split
    · exact .ok _
    · exact nd_lIndexLoop _ _ _ _

theorem nd_lIndex (l : LObj) (i) : ND (l.lIndex i) := by
  unfold lIndex
  refine (nd_lIndexNode l i).bind (fun a _ => ?_)
  split
  · exact .ok _
  · exact (nd_load _ _).bind (fun _ _ => .ok _)

theorem nd_lSet (l : LObj) (i v) : ND (l.lSet i v) := by
  unfold lSet
  refine (nd_lIndexNode l i).bind (fun a _ => ?_)
  split
  · exact .ok _
  · exact (nd_setValue _ _ _).bind (fun _ _ => .ok _)

end LObj

/-! ## the whole store -/

/-- the object's links follow an order -/
def Obj.Ordered : Obj → Prop
  | .list l => l.Ok
  | .zset z => z.zsl.Ok
  | _ => True

/-- every object's links follow an order -/
def OrderedStore (s : Store) : Prop := ∀ (r : Nat) (o : Obj), s.heap[r]? = some o → o.Ordered

theorem OStep.ordered {ext c args rng o o'} (h : OStep ext c args rng o o') (ho : o.Ordered) : o'.Ordered := by
  cases h with
  | lpush _ _ h => exact LObj.ok_lPushAll ho h
  | rpush _ _ h => exact LObj.ok_rPushAll ho h
  | lpop _ h => exact LObj.ok_lPopLoop ho h
  | rpop _ h => exact LObj.ok_rPopLoop ho h
  | lremHead _ _ h => exact (LObj.lRemCountFromHead_spec ho _ _).2 _ _ h
  | lremTail _ _ h => exact (LObj.lRemCountFromTail_spec ho _ _).2 _ _ h
  | lset _ h => exact LObj.ok_lSet ho h
  | linsert _ _ h => exact LObj.ok_lInsert ho h
  | sadd => trivial
  | srem => trivial
  | smove => trivial
  | spop => trivial
  | zadd _ _ h => exact (ZObj.zAddAll_spec _ _ _ _ ho).2 _ _ _ h
  | zincr _ _ _ h => exact (ZObj.zAdd_spec ho _ _ _ _ _).2 _ _ _ h
  | zrem _ h => exact (ZObj.zRemAll_spec _ ho).2 _ _ h
  | zpopmin _ h => exact (ZObj.zPopMin_spec _ _ ho).2 _ _ h
  | zpopmax _ h => exact (ZObj.zPopMax_spec _ _ ho).2 _ _ h

theorem ONew.ordered {ext c args rng o} (h : ONew ext c args rng o) : o.Ordered := by
  cases h with
  | list h => exact h.ordered (o := .list _) LObj.ok_empty
  | set h => trivial
  | zset h => exact h.ordered (o := .zset _) ZObj.ok_empty
  | op => trivial

theorem Change.ordered {ext c args N s s'} (h : Change ext c args N s s') (ho : OrderedStore s) : OrderedStore s' := by
  cases h with
  | str => exact ho
  | del => exact ho
  | @new k o rng _ _ hn =>
    intro r o1 h1
    rcases Nat.lt_or_ge r s.heap.length with hr | hr
    · dsimp only at h1
      rw [List.getElem?_append_left hr] at h1; exact ho r o1 h1
    · dsimp only at h1
      rw [List.getElem?_append_right hr] at h1
      have := List.mem_of_getElem? h1
      rw [List.mem_singleton] at this
      subst this; exact hn.ordered
  | @write k r o o' rng _ hg h2 hs =>
    intro r1 o1 h1
    dsimp only at h1
    rw [List.getElem?_set] at h1
    split at h1
    · split at h1
      · cases h1; exact hs.ordered (ho r o h2)
      · cases h1
    · exact ho r1 o1 h1
  | «alias» => exact ho

theorem Eff.ordered {ext c args N s s'} (h : Eff ext c args N s s') (ho : OrderedStore s) : OrderedStore s' := by
  induction h with
  | refl => exact ho
  | step h _ ih => exact ih (h.ordered ho)

theorem Trace.ordered {ext s tr s'} (h : Trace ext s tr s') (ht : Typed s) (ho : OrderedStore s) : OrderedStore s' := by
  induction h with
  | nil => exact ho
  | snoc h ha ih =>
    rcases ha.eff (h.typed ht) with rfl | ⟨_, _, _, _, _, he⟩
    · exact ih
    · exact he.ordered ih

theorem Reachable.ordered {ext s} (h : Reachable ext s) : OrderedStore s := by
  obtain ⟨rng, tr, h⟩ := h
  exact h.ordered (typed_init rng) (fun r o ho => by simp [Store.init] at ho)

variable {s : Store}

theorem loadList_obj {k b r l} (h : s.loadList k b = .ok (.ok (r, l))) : s.heap[r]? = some (.list l) := by
  unfold Store.loadList at h
  split at h
  · cases h
  · split at h
    · cases h
    · split at h
      · next l' hl' =>
        split at h
        · cases h
        · cases h; exact hl'
      · cases h

theorem loadZSet_obj {k b r l} (h : s.loadZSet k b = .ok (.ok (r, l))) : s.heap[r]? = some (.zset l) := by
  unfold Store.loadZSet at h
  split at h
  · cases h
  · split at h
    · cases h
    · split at h
      · next l' hl' =>
        split at h
        · cases h
        · cases h; exact hl'
      · cases h

section
variable (ht : Typed s) (ho : OrderedStore s)
include ht

/-- a command on a list does not loop if it does not on the list -/
theorem nd_onList {α : Type} {k b} {f : Except Err (Nat × LObj) → Go α} (he : ∀ e, ND (f (.error e)))
    (hf : ∀ r l, s.heap[r]? = some (.list l) → ND (f (.ok (r, l)))) : ND (s.loadList k b >>= f) := by
  refine (np_loadList ht k b).nd.bind (fun a ha => ?_)
  cases a with
  | error e => exact he e
  | ok p => exact hf p.1 p.2 (loadList_obj ha)

theorem nd_onZSet {α : Type} {k b} {f : Except Err (Nat × ZObj) → Go α} (he : ∀ e, ND (f (.error e)))
    (hf : ∀ r l, s.heap[r]? = some (.zset l) → ND (f (.ok (r, l)))) : ND (s.loadZSet k b >>= f) := by
  refine (np_loadZSet ht k b).nd.bind (fun a ha => ?_)
  cases a with
  | error e => exact he e
  | ok p => exact hf p.1 p.2 (loadZSet_obj ha)

theorem nd_sLPush (k vs) : ND (s.lPush k vs) := by
  unfold Store.lPush
  refine nd_onList ht (fun e => ?_) (fun r l _ => (LObj.nd_lPushAll _ _).bind (fun _ _ => .ok _))
  cases e <;> first | exact .ok _ | exact (LObj.nd_lPushAll _ _).bind (fun _ _ => .ok _)

theorem nd_sRPush (k vs) : ND (s.rPush k vs) := by
  unfold Store.rPush
  refine nd_onList ht (fun e => ?_) (fun r l _ => (LObj.nd_rPushAll _ _).bind (fun _ _ => .ok _))
  cases e <;> first | exact .ok _ | exact (LObj.nd_rPushAll _ _).bind (fun _ _ => .ok _)

theorem nd_sLPop (k c) : ND (s.lPop k c) := by
  unfold Store.lPop
  exact nd_onList ht (fun e => .ok _) (fun r l _ => (LObj.nd_lPopLoop _ _ _).bind (fun _ _ => .ok _))

theorem nd_sRPop (k c) : ND (s.rPop k c) := by
  unfold Store.rPop
  exact nd_onList ht (fun e => .ok _) (fun r l _ => (LObj.nd_rPopLoop _ _ _).bind (fun _ _ => .ok _))

theorem nd_sLRange (k a b) : ND (s.lRange k a b) := by
  unfold Store.lRange
  exact nd_onList ht (fun e => .ok _) (fun r l _ => (LObj.nd_lRange _ _ _).bind (fun _ _ => .ok _))

theorem nd_sLIndex (k i) : ND (s.lIndex k i) := by
  unfold Store.lIndex
  refine nd_onList ht (fun e => .ok _) (fun r l _ => (LObj.nd_lIndex _ _).bind (fun a _ => ?_))
  cases a <;> exact .ok _

theorem nd_sLSet (k i v) : ND (s.lSet k i v) := by
  unfold Store.lSet
  exact nd_onList ht (fun e => .ok _) (fun r l _ => (LObj.nd_lSet _ _ _).bind (fun a _ => .ok _))

include ho

theorem nd_sLRem (k c v) : ND (s.lRem k c v) := by
  unfold Store.lRem
  refine nd_onList ht (fun e => .ok _) (fun r l hl => ?_)
  have hok : l.Ok := ho r _ hl
  dsimp only
  split
  · exact (LObj.lRemCountFromHead_spec hok _ _).1.bind (fun _ _ => .ok _)
  · split
    · exact (LObj.lRemCountFromTail_spec hok _ _).1.bind (fun _ _ => .ok _)
    · exact (LObj.lRemCountFromHead_spec hok _ _).1.bind (fun _ _ => .ok _)

theorem nd_sLInsert (k t v p) : ND (s.lInsert k t v p) := by
  unfold Store.lInsert
  refine nd_onList ht (fun e => .ok _) (fun r l hl => (LObj.nd_lInsert (ho r _ hl) _ _ _).bind (fun a _ => ?_))
  dsimp only
  split <;> exact .ok _

theorem nd_sZAdd (ext k ms flag) : ND (s.zAdd ext k ms flag) := by
  unfold Store.zAdd
  refine nd_onZSet ht (fun e => ?_) (fun r l hl => (ZObj.zAddAll_spec _ _ _ _ (ho r _ hl)).1.bind (fun _ _ => .ok _))
  cases e <;> first | exact .ok _ | exact (ZObj.zAddAll_spec _ _ _ _ ZObj.ok_empty).1.bind (fun _ _ => .ok _)

omit ho in
theorem nd_sZScore (k v) : ND (s.zScore k v) := by
  unfold Store.zScore
  refine nd_onZSet ht (fun e => .ok _) (fun r l hl => ?_)
  dsimp only
  split
  · exact .ok _
  · exact (ZSL.nd_load _ _).bind (fun _ _ => .ok _)

theorem nd_sZRank (k v) : ND (s.zRank k v) := by
  unfold Store.zRank
  refine nd_onZSet ht (fun e => .ok _) (fun r l hl => ?_)
  dsimp only
  split
  · exact .ok _
  · exact (ZSL.nd_load _ _).bind (fun _ _ => (ZSL.nd_rank (ho r _ hl) _ _).bind (fun _ _ => .ok _))

theorem nd_sZRem (k vs) : ND (s.zRem k vs) := by
  unfold Store.zRem
  exact nd_onZSet ht (fun e => .ok _) (fun r l hl => (ZObj.zRemAll_spec _ (ho r _ hl)).1.bind (fun _ _ => .ok _))

theorem nd_sZCount (ext k a b) : ND (s.zCount ext k a b) := by
  unfold Store.zCount
  refine nd_onZSet ht (fun e => .ok _) (fun r l hl => ?_)
  dsimp only
  split
  · exact .ok _
  · split
    · exact .ok _
    · exact (ZSL.nd_count (ho r _ hl) _ _ _ _).bind (fun _ _ => .ok _)

theorem nd_sZIncr (ext k sc v) : ND (s.zIncr ext k sc v) := by
  unfold Store.zIncr
  refine nd_onZSet ht (fun e => ?_) (fun r l hl => (ZObj.zAdd_spec (ho r _ hl) _ _ _ _ _).1.bind (fun a _ => ?_))
  · cases e
    case nil =>
      refine (ZObj.zAdd_spec ZObj.ok_empty _ _ _ _ _).1.bind (fun a _ => ?_)
      dsimp only
      split
      · exact .ok _
      · exact (ZSL.nd_load _ _).bind (fun _ _ => .ok _)
    all_goals exact .ok _
  · dsimp only
    split
    · exact .ok _
    · exact (ZSL.nd_load _ _).bind (fun _ _ => .ok _)

theorem nd_sZRange (ext k a b flag) : ND (s.zRange ext k a b flag) := by
  unfold Store.zRange
  refine nd_onZSet ht (fun e => .ok _) (fun r l hl => ?_)
  dsimp only
  split
  · split
    · exact .ok _
    · split
      · exact .ok _
      · exact (ZSL.nd_zRangeByScore (ho r _ hl) _ _ _ _ _ _).bind (fun _ _ => .ok _)
  · split
    · exact .ok _
    · split
      · exact .ok _
      · exact (ZSL.nd_zRange (ho r _ hl) _ _ _ _).bind (fun _ _ => .ok _)

theorem nd_sZRevRange (ext k a b w) : ND (s.zRevRange ext k a b w) := by
  unfold Store.zRevRange
  refine nd_onZSet ht (fun e => .ok _) (fun r l hl => ?_)
  dsimp only
  split
  · exact .ok _
  · split
    · exact .ok _
    · exact (ZSL.nd_zRevRange (ho r _ hl) _ _ _ _).bind (fun _ _ => .ok _)

theorem nd_sZPopMin (ext k n) : ND (s.zPopMin ext k n) := by
  unfold Store.zPopMin
  exact nd_onZSet ht (fun e => .ok _) (fun r l hl => (ZObj.zPopMin_spec _ _ (ho r _ hl)).1.bind (fun _ _ => .ok _))

theorem nd_sZPopMax (ext k n) : ND (s.zPopMax ext k n) := by
  unfold Store.zPopMax
  exact nd_onZSet ht (fun e => .ok _) (fun r l hl => (ZObj.zPopMax_spec _ _ (ho r _ hl)).1.bind (fun _ _ => .ok _))

theorem nd_keysMatching (ext it p) : ND (Store.keysMatching ext it s p) := by
  unfold Store.keysMatching ND
  split <;> simp

/-- one step through a command's code -/
local macro "nd_step" ht:ident ho:ident : tactic => `(tactic| first
  | with_reducible exact ND.ok _ | with_reducible exact (np_intReply _ _).nd | with_reducible exact (np_intReplyNilOk _ _).nd | with_reducible exact (np_arrReply _ _ _).nd | with_reducible exact (np_zPopReply _ _).nd
  | (with_reducible refine (nd_sLPush $ht _ _).bind (fun _ _ => ?_)) | (with_reducible refine (nd_sRPush $ht _ _).bind (fun _ _ => ?_))
  | (with_reducible refine (nd_sLPop $ht _ _).bind (fun _ _ => ?_)) | (with_reducible refine (nd_sRPop $ht _ _).bind (fun _ _ => ?_))
  | (with_reducible refine (nd_sLRange $ht _ _ _).bind (fun _ _ => ?_)) | (with_reducible refine (nd_sLIndex $ht _ _).bind (fun _ _ => ?_))
  | (with_reducible refine (nd_sLSet $ht _ _ _).bind (fun _ _ => ?_)) | (with_reducible refine (nd_sLRem $ht $ho _ _ _).bind (fun _ _ => ?_))
  | (with_reducible refine (nd_sLInsert $ht $ho _ _ _ _).bind (fun _ _ => ?_))
  | (with_reducible refine (nd_sZAdd $ht $ho _ _ _ _).bind (fun _ _ => ?_)) | (with_reducible refine (nd_sZScore $ht _ _).bind (fun _ _ => ?_))
  | (with_reducible refine (nd_sZRank $ht $ho _ _).bind (fun _ _ => ?_)) | (with_reducible refine (nd_sZRem $ht $ho _ _).bind (fun _ _ => ?_))
  | (with_reducible refine (nd_sZCount $ht $ho _ _ _ _).bind (fun _ _ => ?_)) | (with_reducible refine (nd_sZIncr $ht $ho _ _ _ _).bind (fun _ _ => ?_))
  | (with_reducible refine (nd_sZRange $ht $ho _ _ _ _ _).bind (fun _ _ => ?_)) | (with_reducible refine (nd_sZRevRange $ht $ho _ _ _ _ _).bind (fun _ _ => ?_))
  | (with_reducible refine (nd_sZPopMin $ht $ho _ _ _).bind (fun _ _ => ?_)) | (with_reducible refine (nd_sZPopMax $ht $ho _ _ _).bind (fun _ _ => ?_))
  | (with_reducible refine (nd_keysMatching $ht $ho _ _ _).bind (fun _ _ => ?_))
  | split)

theorem fn_nd (c : Cmd) (ext it args) : ND (c.fn ext it s args) := by
  by_cases hc : c.risky = false
  · exact (fn_np c hc ht ext it args).nd
  · cases c
    all_goals first | (exfalso; revert hc; decide) | skip
    all_goals
      clear hc
      simp only [Cmd.fn, cmdKeys, cmdLPush, cmdLPop, cmdRPush, cmdRPop, cmdLRange, cmdLRem, cmdLIndex, cmdLSet, cmdLInsert, cmdZAdd, cmdZScore,
        cmdZRank, cmdZRem, cmdZCount, cmdZIncr, cmdZRange, cmdZRangeByScore, cmdZRevRange, cmdZPopMin, cmdZPopMax, retOk, retErr, notEnough]
      repeat' nd_step ht ho

theorem execute_nd (ext it name args) : ND (execute ext it s name args) := by
  unfold execute
  split
  · exact .ok _
  · exact (fn_nd ht ho _ _ _ _).bind (fun _ _ => .ok _)

theorem runRequest_nd (ext it req) : ND (runRequest ext it s req) := by
  unfold runRequest
  split
  · exact .ok _
  · exact (execute_nd ht ho _ _ _ _).bind (fun _ _ => .ok _)

end
end Godis
