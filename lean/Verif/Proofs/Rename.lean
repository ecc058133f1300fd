import Verif.Proofs.Iso4
import Verif.Spec.Rename
/-!
# Stores with renamed keys
-/
namespace Godis
open Same (G)

/-- the second store is the first one with other key names -/
structure Ren (f : Bytes → Bytes) (s t : Store) : Prop where
  keys : ∀ k, t.keys.get (f k) = s.keys.get k
  only : ∀ k, (∀ k', k ≠ f k') → t.keys.get k = none
  heap : t.heap = s.heap
  rng : t.rng = s.rng
  wfS : s.keys.WF
  wfT : t.keys.WF

/-- results: the stores correspond, the answers are equal -/
def RR (f : Bytes → Bytes) {α : Type} (p q : Store × α) : Prop := Ren f p.1 q.1 ∧ p.2 = q.2

namespace Ren
variable {f : Bytes → Bytes} {s t : Store}

theorem init (g : Rng) : Ren f (Store.init g) (Store.init g) := ⟨fun _ => rfl, fun _ _ => rfl, rfl, rfl, .empty, .empty⟩

theorem write (h : Ren f s t) (r : Nat) (o : Obj) : Ren f (s.write r o) (t.write r o) :=
  ⟨h.keys, h.only, by show t.heap.set r o = s.heap.set r o; rw [h.heap], h.rng, h.wfS, h.wfT⟩

theorem withRng (h : Ren f s t) (g : Rng) : Ren f { s with rng := g } { t with rng := g } := ⟨h.keys, h.only, h.heap, rfl, h.wfS, h.wfT⟩

theorem setKey (hf : Function.Injective f) (h : Ren f s t) (k : Bytes) (i : KeyInfo) :
    Ren f { s with keys := s.keys.set k i } { t with keys := t.keys.set (f k) i } := by
  refine ⟨fun k' => ?_, fun k' hk' => ?_, h.heap, h.rng, h.wfS.set _ _, h.wfT.set _ _⟩
  · show (t.keys.set (f k) i).get (f k') = (s.keys.set k i).get k'
    rw [SMap.get_set, SMap.get_set, h.keys]
    by_cases e : k' = k
    · rw [if_pos e, if_pos (congrArg f e)]
    · rw [if_neg e, if_neg (fun e' => e (hf e'))]
  · show (t.keys.set (f k) i).get k' = none
    rw [SMap.get_set, if_neg (hk' k)]; exact h.only k' hk'

theorem delKey (hf : Function.Injective f) (h : Ren f s t) (k : Bytes) :
    Ren f { s with keys := s.keys.del k } { t with keys := t.keys.del (f k) } := by
  refine ⟨fun k' => ?_, fun k' hk' => ?_, h.heap, h.rng, h.wfS.del _, h.wfT.del _⟩
  · show (t.keys.del (f k)).get (f k') = (s.keys.del k).get k'
    rw [SMap.get_del _ _ _ h.wfS, SMap.get_del _ _ _ h.wfT, h.keys]
    by_cases e : k' = k
    · rw [if_pos e, if_pos (congrArg f e)]
    · rw [if_neg e, if_neg (fun e' => e (hf e'))]
  · show (t.keys.del (f k)).get k' = none
    rw [SMap.get_del _ _ _ h.wfT, if_neg (hk' k)]; exact h.only k' hk'

theorem putNew (hf : Function.Injective f) (h : Ren f s t) (k : Bytes) (tp : KeyType) (o : Obj) :
    Ren f (s.putNew k tp o) (t.putNew (f k) tp o) := by
  have := h.setKey hf k ⟨tp, .ref s.heap.length⟩
  refine ⟨fun k' => ?_, fun k' hk' => ?_, ?_, h.rng, this.wfS, h.wfT.set _ _⟩
  · have e := this.keys k'
    show (t.keys.set (f k) ⟨tp, .ref t.heap.length⟩).get (f k') = _
    rw [h.heap]; exact e
  · have e := this.only k' hk'
    show (t.keys.set (f k) ⟨tp, .ref t.heap.length⟩).get k' = _
    rw [h.heap]; exact e
  · show t.heap ++ [o] = s.heap ++ [o]
    rw [h.heap]

theorem loadKeyInfo (h : Ren f s t) (k tp) : t.loadKeyInfo (f k) tp = s.loadKeyInfo k tp := by
  unfold Store.loadKeyInfo; rw [h.keys]
theorem loadList (h : Ren f s t) (k b) : t.loadList (f k) b = s.loadList k b := by
  unfold Store.loadList; rw [h.loadKeyInfo, h.heap]
theorem loadSet (h : Ren f s t) (k b) : t.loadSet (f k) b = s.loadSet k b := by
  unfold Store.loadSet; rw [h.loadKeyInfo, h.heap]
theorem loadHash (h : Ren f s t) (k b) : t.loadHash (f k) b = s.loadHash k b := by
  unfold Store.loadHash; rw [h.loadKeyInfo, h.heap]
theorem loadZSet (h : Ren f s t) (k b) : t.loadZSet (f k) b = s.loadZSet k b := by
  unfold Store.loadZSet; rw [h.loadKeyInfo, h.heap]

/-- one step of the comparison -/
macro "ren_step" hf:ident h:ident : tactic => `(tactic| first
  | exact G.error
  | exact G.ok rfl
  | exact G.ok ⟨$h, rfl⟩
  | exact G.ok ⟨Ren.putNew $hf $h _ _ _, rfl⟩
  | exact G.ok ⟨Ren.withRng (Ren.putNew $hf $h _ _ _) _, rfl⟩
  | exact G.ok ⟨Ren.write $h _ _, rfl⟩
  | exact G.ok ⟨Ren.withRng (Ren.write $h _ _) _, rfl⟩
  | exact G.ok ⟨Ren.setKey $hf $h _ _, rfl⟩
  | refine IsoB.G.bindSame (fun _ => ?_)
  | split)

set_option linter.unusedSectionVars false
section
variable (hf : Function.Injective f) (h : Ren f s t) (k : Bytes)
include hf h

macro "ren_fn" hf:ident h:ident l:term : tactic => `(tactic| (rw [$l:term]; repeat' ren_step $hf $h))

theorem lPush (vs) : G (RR f) (s.lPush k vs) (t.lPush (f k) vs) := by
  unfold Store.lPush; ren_fn hf h (h.loadList k _)
theorem rPush (vs) : G (RR f) (s.rPush k vs) (t.rPush (f k) vs) := by
  unfold Store.rPush; ren_fn hf h (h.loadList k _)
theorem lPop (c) : G (RR f) (s.lPop k c) (t.lPop (f k) c) := by
  unfold Store.lPop; ren_fn hf h (h.loadList k _)
theorem rPop (c) : G (RR f) (s.rPop k c) (t.rPop (f k) c) := by
  unfold Store.rPop; ren_fn hf h (h.loadList k _)
theorem lRem (c v) : G (RR f) (s.lRem k c v) (t.lRem (f k) c v) := by
  unfold Store.lRem; ren_fn hf h (h.loadList k _)
theorem lSet (i v) : G (RR f) (s.lSet k i v) (t.lSet (f k) i v) := by
  unfold Store.lSet; ren_fn hf h (h.loadList k _)
theorem lInsert (x v p) : G (RR f) (s.lInsert k x v p) (t.lInsert (f k) x v p) := by
  unfold Store.lInsert; ren_fn hf h (h.loadList k _)
theorem sAdd (vs) : G (RR f) (s.sAdd k vs) (t.sAdd (f k) vs) := by
  unfold Store.sAdd; ren_fn hf h (h.loadSet k _)
theorem sRem (vs) : G (RR f) (s.sRem k vs) (t.sRem (f k) vs) := by
  unfold Store.sRem; ren_fn hf h (h.loadSet k _)
theorem sPop (it c) : G (RR f) (Store.sPop it s k c) (Store.sPop it t (f k) c) := by
  unfold Store.sPop; ren_fn hf h (h.loadSet k _)
theorem hDel (w) : G (RR f) (s.hDel k w) (t.hDel (f k) w) := by
  unfold Store.hDel; ren_fn hf h (h.loadHash k _)
theorem hIncrBy (w i) : G (RR f) (s.hIncrBy k w i) (t.hIncrBy (f k) w i) := by
  unfold Store.hIncrBy; ren_fn hf h (h.loadHash k _)
theorem hIncrByFloat (ext w i) : G (RR f) (s.hIncrByFloat ext k w i) (t.hIncrByFloat ext (f k) w i) := by
  unfold Store.hIncrByFloat; ren_fn hf h (h.loadHash k _)
theorem hSet (nx kvs) : G (RR f) (s.hSet k nx kvs) (t.hSet (f k) nx kvs) := by
  unfold Store.hSet; ren_fn hf h (h.loadHash k _)
theorem zRem (vs) : G (RR f) (s.zRem k vs) (t.zRem (f k) vs) := by
  unfold Store.zRem; ren_fn hf h (h.loadZSet k _)
theorem zPopMin (ext c) : G (RR f) (s.zPopMin ext k c) (t.zPopMin ext (f k) c) := by
  unfold Store.zPopMin; ren_fn hf h (h.loadZSet k _)
theorem zPopMax (ext c) : G (RR f) (s.zPopMax ext k c) (t.zPopMax ext (f k) c) := by
  unfold Store.zPopMax; ren_fn hf h (h.loadZSet k _)
theorem zAdd (ext ms fl) : G (RR f) (s.zAdd ext k ms fl) (t.zAdd ext (f k) ms fl) := by
  unfold Store.zAdd; rw [h.rng]; ren_fn hf h (h.loadZSet k _)
theorem zIncr (ext d v) : G (RR f) (s.zIncr ext k d v) (t.zIncr ext (f k) d v) := by
  unfold Store.zIncr; rw [h.rng]; ren_fn hf h (h.loadZSet k _)
theorem lLen : G Eq (s.lLen k) (t.lLen (f k)) := by
  unfold Store.lLen; ren_fn hf h (h.loadList k _)
theorem lRange (a b) : G Eq (s.lRange k a b) (t.lRange (f k) a b) := by
  unfold Store.lRange; ren_fn hf h (h.loadList k _)
theorem sCard : G Eq (s.sCard k) (t.sCard (f k)) := by
  unfold Store.sCard; ren_fn hf h (h.loadSet k _)
theorem sIsMember (v) : G Eq (s.sIsMember k v) (t.sIsMember (f k) v) := by
  unfold Store.sIsMember; ren_fn hf h (h.loadSet k _)
theorem sMembers (it) : G Eq (Store.sMembers it s k) (Store.sMembers it t (f k)) := by
  unfold Store.sMembers; ren_fn hf h (h.loadSet k _)
theorem hExists (w) : G Eq (s.hExists k w) (t.hExists (f k) w) := by
  unfold Store.hExists; ren_fn hf h (h.loadHash k _)
theorem hGet (w) : G Eq (s.hGet k w) (t.hGet (f k) w) := by
  unfold Store.hGet; ren_fn hf h (h.loadHash k _)
theorem hLen : G Eq (s.hLen k) (t.hLen (f k)) := by
  unfold Store.hLen; ren_fn hf h (h.loadHash k _)
theorem hGetAll (it) : G Eq (Store.hGetAll it s k) (Store.hGetAll it t (f k)) := by
  unfold Store.hGetAll; ren_fn hf h (h.loadHash k _)
theorem hKeys (it) : G Eq (Store.hKeys it s k) (Store.hKeys it t (f k)) := by
  unfold Store.hKeys; ren_fn hf h (h.loadHash k _)
theorem hMGet (ext w) : G Eq (s.hMGet ext k w) (t.hMGet ext (f k) w) := by
  unfold Store.hMGet; ren_fn hf h (h.loadHash k _)
theorem hVals (ext it) : G Eq (Store.hVals ext it s k) (Store.hVals ext it t (f k)) := by
  unfold Store.hVals; ren_fn hf h (h.loadHash k _)
theorem zScore (v) : G Eq (s.zScore k v) (t.zScore (f k) v) := by
  unfold Store.zScore; ren_fn hf h (h.loadZSet k _)
theorem zRank (v) : G Eq (s.zRank k v) (t.zRank (f k) v) := by
  unfold Store.zRank; ren_fn hf h (h.loadZSet k _)
theorem zCard : G Eq (s.zCard k) (t.zCard (f k)) := by
  unfold Store.zCard; ren_fn hf h (h.loadZSet k _)
theorem zCount (ext a b) : G Eq (s.zCount ext k a b) (t.zCount ext (f k) a b) := by
  unfold Store.zCount; ren_fn hf h (h.loadZSet k _)
theorem zRange (ext a b w) : G Eq (s.zRange ext k a b w) (t.zRange ext (f k) a b w) := by
  unfold Store.zRange; ren_fn hf h (h.loadZSet k _)
theorem zRevRange (ext a b w) : G Eq (s.zRevRange ext k a b w) (t.zRevRange ext (f k) a b w) := by
  unfold Store.zRevRange; ren_fn hf h (h.loadZSet k _)
theorem append (v) : G (RR f) (s.append k v) (t.append (f k) v) := by
  unfold Store.append Store.set; ren_fn hf h (h.keys k)
theorem incrBy (i) : G (RR f) (s.incrBy k i) (t.incrBy (f k) i) := by
  unfold Store.incrBy Store.set; ren_fn hf h (h.keys k)
theorem get : G Eq (s.get k) (t.get (f k)) := by
  unfold Store.get; ren_fn hf h (h.keys k)
theorem «exists» : t.exists (f k) = s.exists k := by
  unfold Store.exists; rw [SMap.has_eq, SMap.has_eq, h.keys]
theorem type : t.type (f k) = s.type k := by
  unfold Store.type; rw [h.keys]
theorem set (v) : Ren f (s.set k v) (t.set (f k) v) := h.setKey hf k _
theorem del : RR f (s.del k) (t.del (f k)) := by
  have he := h.exists hf k
  unfold Store.exists at he
  unfold Store.del SMap.deleteIfExists
  rw [he]
  cases s.keys.has k
  · exact ⟨h, rfl⟩
  · exact ⟨h.delKey hf k, rfl⟩
theorem sMove (k' v) : G (RR f) (s.sMove k k' v) (t.sMove (f k) (f k') v) := by
  unfold Store.sMove; rw [h.loadSet]
  refine IsoB.G.bindSame (fun x => ?_)
  split
  · exact .ok ⟨h, rfl⟩
  · next r o =>
    simp only
    split
    · exact .ok ⟨h.write _ _, rfl⟩
    · exact (h.write r _).sAdd hf _ _
theorem mGet : ∀ ks, G Eq (s.mGet ks) (t.mGet (ks.map f))
  | [] => .ok rfl
  | k :: ks => by
    show G Eq (s.mGet (k :: ks)) (t.mGet (f k :: ks.map f))
    unfold Store.mGet
    refine Same.G.bind (h.get hf k) ?_
    rintro _ x rfl
    refine Same.G.bind (mGet ks) ?_
    rintro _ y rfl
    exact .ok rfl
theorem setOpLoop (it op) : ∀ ks a, Store.setOpLoop it op t (ks.map f) a = Store.setOpLoop it op s ks a
  | [], _ => rfl
  | k :: ks, a => by
    show Store.setOpLoop it op t (f k :: ks.map f) a = _
    unfold Store.setOpLoop
    rw [h.loadSet]
    congr 1; funext x
    split
    · rfl
    · split <;> exact setOpLoop it op ks _
theorem sOp (it op ks) : G Eq (Store.sOp it op s ks) (Store.sOp it op t (ks.map f)) := by
  unfold Store.sOp; rw [h.setOpLoop hf]; exact .self _
theorem sOpStore (it op ks) : G (RR f) (Store.sOpStore it op s k ks) (Store.sOpStore it op t (f k) (ks.map f)) := by
  unfold Store.sOpStore; rw [h.setOpLoop hf]
  refine IsoB.G.bindSame (fun x => ?_)
  repeat' ren_step hf h
end

theorem mSet (hf : Function.Injective f) : ∀ (args : List Bytes) {s t : Store}, Ren f s t → Ren f (s.mSet args) (t.mSet (KeySpec.renameEvens f args))
  | [], _, _, h => h
  | [_], _, _, h => h
  | k :: v :: rest, _, _, h => mSet hf rest (h.set hf k v)

end Ren
end Godis
