import Verif.Proofs.Scores
import Verif.Proofs.Encode
import Verif.Model.Commands
/-!
# Where the texts of the replies come from

`W` are the texts that may be stored as keys and members, `P` those that may be the value of a string key.
-/
namespace Godis

variable {W P : Bytes → Prop} {ext : Ext} {it : Iter}

/-! ## maps -/

/-- every entry, in whatever shard, satisfies `Q` -/
def SMap.All {V : Type} (Q : Bytes → V → Prop) (m : SMap V) : Prop := ∀ i k v, (k, v) ∈ m.shards i → Q k v

namespace GoMap
variable {V : Type}

theorem mem_of_get {m : GoMap V} {k : Bytes} {v : V} (h : m.get k = some v) : (k, v) ∈ m := by
  induction m with
  | nil => cases h
  | cons e m ih =>
    obtain ⟨k', v'⟩ := e
    unfold get at h
    split at h
    · next e => cases h; subst e; simp
    · exact List.mem_cons_of_mem _ (ih h)

theorem mem_set {m : GoMap V} {k k' : Bytes} {v v' : V} (h : (k', v') ∈ m.set k v) : k' = k ∧ v' = v ∨ (k', v') ∈ m := by
  induction m with
  | nil => simp [set] at h; exact .inl h
  | cons e m ih =>
    obtain ⟨k1, v1⟩ := e
    unfold set at h
    split at h
    · rcases List.mem_cons.mp h with h | h
      · cases h; exact .inl ⟨rfl, rfl⟩
      · exact .inr (List.mem_cons_of_mem _ h)
    · rcases List.mem_cons.mp h with h | h
      · exact .inr (by rw [h]; simp)
      · exact (ih h).imp id (List.mem_cons_of_mem _)

theorem mem_del {m : GoMap V} {k k' : Bytes} {v' : V} (h : (k', v') ∈ m.del k) : (k', v') ∈ m := by
  induction m with
  | nil => exact h
  | cons e m ih =>
    obtain ⟨k1, v1⟩ := e
    unfold del at h
    split at h
    · exact List.mem_cons_of_mem _ h
    · rcases List.mem_cons.mp h with h | h
      · rw [h]; simp
      · exact List.mem_cons_of_mem _ (ih h)

end GoMap

namespace SMap
variable {V : Type} {Q : Bytes → V → Prop} {m : SMap V} {k : Bytes} {v : V}

theorem All.empty : (SMap.empty : SMap V).All Q := fun _ _ _ h => by cases h

theorem All.get (h : m.All Q) (hg : m.get k = some v) : Q k v := h _ _ _ (GoMap.mem_of_get hg)

theorem All.set (h : m.All Q) (hv : Q k v) : (m.set k v).All Q := by
  intro i k' v' hm
  unfold SMap.set at hm
  rw [upd_shards] at hm
  split at hm
  · rcases GoMap.mem_set hm with ⟨rfl, rfl⟩ | hm
    · exact hv
    · exact h _ _ _ hm
  · exact h _ _ _ hm

theorem All.del (h : m.All Q) (k : Bytes) : (m.del k).All Q := by
  intro i k' v' hm
  unfold SMap.del at hm
  rw [upd_shards] at hm
  split at hm
  · exact h _ _ _ (GoMap.mem_del hm)
  · exact h _ _ _ hm

theorem All.setIfAbsent (h : m.All Q) (hv : Q k v) : (m.setIfAbsent k v).1.All Q := by
  unfold SMap.setIfAbsent
  split
  · exact h
  · exact h.set hv

theorem All.deleteIfExists (h : m.All Q) (k : Bytes) : (m.deleteIfExists k).1.All Q := by
  unfold SMap.deleteIfExists
  split
  · exact h.del k
  · exact h

theorem All.loadAndDelete (h : m.All Q) (k : Bytes) : (m.loadAndDelete k).1.All Q := by
  unfold SMap.loadAndDelete
  split
  · exact h
  · exact h.del k

theorem All.entries (h : m.All Q) (it : Iter) {e : Bytes × V} (he : e ∈ m.entries it) : Q e.1 e.2 := by
  unfold SMap.entries at he
  simp only [List.mem_flatMap, List.mem_finRange, true_and] at he
  obtain ⟨i, hi⟩ := he
  exact h _ _ _ (GoMap.mem_of_get ((mem_shardEntries it m i e.1 e.2).mp hi))

theorem All.keys {R : Bytes → Prop} (h : m.All fun k _ => R k) (it : Iter) {t : Bytes} (ht : t ∈ m.keys it) : R t := by
  unfold SMap.keys at ht
  obtain ⟨e, he, rfl⟩ := List.mem_map.mp ht
  exact h.entries it he

theorem All.mono {Q' : Bytes → V → Prop} (h : m.All Q) (hq : ∀ k v, Q k v → Q' k v) : m.All Q' := fun i k v hm => hq _ _ (h i k v hm)

end SMap

/-! ## lists -/

namespace LObj

/-- every node of the list's heap, linked or not, holds a text of `W` or the empty text -/
def All (W : Bytes → Prop) (h : List LNode) : Prop := ∀ n ∈ h, W n.value ∨ n.value = []

variable {h : List LNode} {p v : Option Nat} {a : Nat}

theorem All.nil : All W [] := fun _ h => by cases h

theorem All.get (H : All W h) {n : LNode} (hn : h[a]? = some n) : W n.value ∨ n.value = [] := H _ (List.mem_of_getElem? hn)

theorem All.set (H : All W h) {n : LNode} (hn : W n.value ∨ n.value = []) : All W (h.set a n) := by
  intro x hx
  rcases List.mem_or_eq_of_mem_set hx with hx | rfl
  · exact H _ hx
  · exact hn

theorem All.snoc (H : All W h) {n : LNode} (hn : W n.value ∨ n.value = []) : All W (h ++ [n]) := by
  intro x hx
  rcases List.mem_append.mp hx with hx | hx
  · exact H _ hx
  · rw [List.mem_singleton.mp hx]; exact hn

theorem all_load (H : All W h) : Wp (load h p) (fun n => W n.value ∨ n.value = []) := by
  unfold load
  split
  · exact Wp.error
  · split
    · next hn => exact Wp.pure (H.get hn)
    · exact Wp.error

theorem all_setNext (H : All W h) : Wp (setNext h p v) (All W) := by
  unfold setNext
  split
  · exact Wp.error
  · split
    · next n hn =>
      have := H.get hn
      exact Wp.pure (H.set this)
    · exact Wp.error

theorem all_setPrev (H : All W h) : Wp (setPrev h p v) (All W) := by
  unfold setPrev
  split
  · exact Wp.error
  · split
    · next n hn =>
      have := H.get hn
      exact Wp.pure (H.set this)
    · exact Wp.error

theorem all_setValue (H : All W h) {v : Bytes} (hv : W v) : Wp (setValue h p v) (All W) := by
  unfold setValue
  split
  · exact Wp.error
  · split
    · exact Wp.pure (H.set (.inl hv))
    · exact Wp.error

theorem all_setPrevIf (H : All W h) : Wp (setPrevIf h p v) (All W) := by
  unfold setPrevIf
  split
  · exact Wp.pure H
  · exact all_setPrev H

theorem all_setNextIf (H : All W h) : Wp (setNextIf h p v) (All W) := by
  unfold setNextIf
  split
  · exact Wp.pure H
  · exact all_setNext H

theorem all_lPush {l : LObj} (H : All W l.nodes) {x : Bytes} (hx : W x) : Wp (l.lPush x) (fun l' => All W l'.nodes) := by
  unfold lPush
  dsimp only
  split
  · exact (all_setPrev (H.snoc (.inl hx))).bind fun h1 _ H1 => Wp.pure H1
  · exact Wp.pure (H.snoc (.inl hx))

theorem all_rPush {l : LObj} (H : All W l.nodes) {x : Bytes} (hx : W x) : Wp (l.rPush x) (fun l' => All W l'.nodes) := by
  unfold rPush
  dsimp only
  split
  · exact (all_setNext (H.snoc (.inl hx))).bind fun h1 _ H1 => Wp.pure H1
  · exact Wp.pure (H.snoc (.inl hx))

theorem all_lPop {l : LObj} (H : All W l.nodes) : Wp l.lPop (fun q => All W q.1.nodes ∧ ∀ x, q.2 = some x → W x ∨ x = []) := by
  unfold lPop
  split
  · exact Wp.pure ⟨H, fun x hx => by cases hx⟩
  · refine (all_load H).bind fun n _ hn => ?_
    dsimp only
    refine (all_setNext H).bind fun h1 _ H1 => (all_setPrevIf H1).bind fun h2 _ H2 => Wp.pure ⟨H2, fun x hx => ?_⟩
    cases hx; exact hn

theorem all_rPop {l : LObj} (H : All W l.nodes) : Wp l.rPop (fun q => All W q.1.nodes ∧ ∀ x, q.2 = some x → W x ∨ x = []) := by
  unfold rPop
  split
  · exact Wp.pure ⟨H, fun x hx => by cases hx⟩
  · refine (all_load H).bind fun n _ hn => ?_
    dsimp only
    refine (all_setPrev H).bind fun h1 _ H1 => (all_setNextIf H1).bind fun h2 _ H2 => Wp.pure ⟨H2, fun x hx => ?_⟩
    cases hx; exact hn

theorem all_lRangeLoop (H : All W h) (start : Int) : ∀ k cur idx, Wp (lRangeLoop h start k cur idx) (fun vs => ∀ x ∈ vs, W x ∨ x = [])
  | 0, _, _ => Wp.pure fun _ h => by cases h
  | k + 1, cur, idx => by
    unfold lRangeLoop
    split
    · exact Wp.pure fun _ h => by cases h
    · refine (all_load H).bind fun n _ hn => (all_lRangeLoop H start k n.next (idx + 1)).bind fun rest _ hr => ?_
      refine Wp.pure fun x hx => ?_
      split at hx
      · rcases List.mem_cons.mp hx with rfl | hx
        · exact hn
        · exact hr x hx
      · exact hr x hx

theorem all_lRange {l : LObj} (H : All W l.nodes) (start stop : Int) : Wp (l.lRange start stop) (fun vs => ∀ x ∈ vs, W x ∨ x = []) := by
  unfold lRange
  split
  · exact Wp.pure fun _ h => by cases h
  · dsimp only
    generalize (if start < 0 then (if start + l.length < 0 then 0 else start + l.length) else start) = start
    generalize (if stop < 0 then stop + l.length else stop) = stop
    split
    · exact Wp.pure fun _ h => by cases h
    · exact all_lRangeLoop H _ _ _ _

theorem all_lRemHeadLoop (value : Bytes) : ∀ fuel h prev cur next n cnt, All W h →
    Wp (lRemHeadLoop value fuel h prev cur next n cnt) (fun q => All W q.1)
  | 0, h, prev, cur, next, n, cnt, H => by
    unfold lRemHeadLoop
    split
    · exact Wp.pure H
    · exact Wp.error
  | fuel + 1, h, prev, cur, next, n, cnt, H => by
    unfold lRemHeadLoop
    split
    · exact Wp.pure H
    · refine (Wp.triv _).bind fun c _ _ => ?_
      dsimp only
      split
      · refine (all_setNext H).bind fun h1 _ H1 => (all_setPrevIf H1).bind fun h2 _ H2 => (all_setPrev H2).bind fun h3 _ H3 =>
          (all_setNext H3).bind fun h4 _ H4 => (Wp.triv _).bind fun nx _ _ => all_lRemHeadLoop value fuel _ _ _ _ _ _ H4
      · exact (Wp.triv _).bind fun p _ _ => (Wp.triv _).bind fun nx _ _ => all_lRemHeadLoop value fuel _ _ _ _ _ _ H

theorem all_lRemTailLoop (value : Bytes) : ∀ fuel h prev cur next n cnt, All W h →
    Wp (lRemTailLoop value fuel h prev cur next n cnt) (fun q => All W q.1)
  | 0, h, prev, cur, next, n, cnt, H => by
    unfold lRemTailLoop
    split
    · exact Wp.pure H
    · exact Wp.error
  | fuel + 1, h, prev, cur, next, n, cnt, H => by
    unfold lRemTailLoop
    split
    · exact Wp.pure H
    · refine (Wp.triv _).bind fun c _ _ => ?_
      dsimp only
      split
      · refine (all_setPrev H).bind fun h1 _ H1 => (all_setNextIf H1).bind fun h2 _ H2 => (all_setPrev H2).bind fun h3 _ H3 =>
          (all_setNext H3).bind fun h4 _ H4 => (Wp.triv _).bind fun nx _ _ => all_lRemTailLoop value fuel _ _ _ _ _ _ H4
      · exact (Wp.triv _).bind fun p _ _ => (Wp.triv _).bind fun nx _ _ => all_lRemTailLoop value fuel _ _ _ _ _ _ H

theorem all_lRemCountFromHead {l : LObj} (H : All W l.nodes) (value : Bytes) (n : Int) : Wp (l.lRemCountFromHead value n) (fun q => All W q.1.nodes) := by
  unfold lRemCountFromHead
  dsimp only
  have H0 : All W (l.nodes ++ [⟨l.head, none, []⟩]) := H.snoc (.inr rfl)
  refine (Wp.triv _).bind fun hd _ _ => (all_lRemHeadLoop value _ _ _ _ _ _ _ H0).bind fun q _ H1 => ?_
  exact (Wp.triv _).bind fun p _ _ => (Wp.triv _).bind fun d _ _ => (all_setPrevIf H1).bind fun h2 _ H2 => Wp.pure H2

theorem all_lRemCountFromTail {l : LObj} (H : All W l.nodes) (value : Bytes) (n : Int) : Wp (l.lRemCountFromTail value n) (fun q => All W q.1.nodes) := by
  unfold lRemCountFromTail
  dsimp only
  have H0 : All W (l.nodes ++ [⟨none, l.tail, []⟩]) := H.snoc (.inr rfl)
  refine (Wp.triv _).bind fun hd _ _ => (all_lRemTailLoop value _ _ _ _ _ _ _ H0).bind fun q _ H1 => ?_
  exact (Wp.triv _).bind fun p _ _ => (Wp.triv _).bind fun d _ _ => (all_setNextIf H1).bind fun h2 _ H2 => Wp.pure H2

theorem all_lIndex {l : LObj} (H : All W l.nodes) (i : Int) : Wp (l.lIndex i) (fun r => ∀ x, r = some x → W x ∨ x = []) := by
  unfold lIndex
  refine (Wp.triv _).bind fun r _ _ => ?_
  split
  · exact Wp.pure fun x hx => by cases hx
  · exact (all_load H).bind fun n _ hn => Wp.pure fun x hx => by cases hx; exact hn

theorem all_lSet {l : LObj} (H : All W l.nodes) (i : Int) {x : Bytes} (hx : W x) : Wp (l.lSet i x) (fun q => All W q.1.nodes) := by
  unfold lSet
  refine (Wp.triv _).bind fun r _ _ => ?_
  split
  · exact Wp.pure H
  · exact (all_setValue H hx).bind fun h _ H1 => Wp.pure H1

theorem all_lInsert {l : LObj} (H : All W l.nodes) (t : Bytes) {x : Bytes} (hx : W x) (f : Int) : Wp (l.lInsert t x f) (fun q => All W q.1.nodes) := by
  unfold lInsert
  split
  · exact Wp.pure H
  · refine (Wp.triv _).bind fun r _ _ => ?_
    split
    · exact Wp.pure H
    · split
      · exact (all_setValue H hx).bind fun h _ H1 => Wp.pure H1
      · dsimp only
        refine (Wp.triv _).bind fun n _ _ => ?_
        split
        · split
          · exact (all_setNext (H.snoc (.inl hx))).bind fun h _ H1 => Wp.pure H1
          · exact (all_setNext (H.snoc (.inl hx))).bind fun h _ H1 => (all_setPrev H1).bind fun h _ H2 => Wp.pure H2
        · split
          · exact (all_setPrev (H.snoc (.inl hx))).bind fun h _ H1 => Wp.pure H1
          · exact (all_setPrev (H.snoc (.inl hx))).bind fun h _ H1 => (all_setNext H1).bind fun h _ H2 => Wp.pure H2

theorem all_lPushAll : ∀ (vs : List Bytes) {l : LObj}, All W l.nodes → (∀ x ∈ vs, W x) → Wp (l.lPushAll vs) (fun l' => All W l'.nodes)
  | [], _, H, _ => Wp.pure H
  | v :: vs, l, H, hv => by
    unfold lPushAll
    exact (all_lPush H (hv v (by simp))).bind fun l1 _ H1 => all_lPushAll vs H1 fun x hx => hv x (by simp [hx])

theorem all_rPushAll : ∀ (vs : List Bytes) {l : LObj}, All W l.nodes → (∀ x ∈ vs, W x) → Wp (l.rPushAll vs) (fun l' => All W l'.nodes)
  | [], _, H, _ => Wp.pure H
  | v :: vs, l, H, hv => by
    unfold rPushAll
    exact (all_rPush H (hv v (by simp))).bind fun l1 _ H1 => all_rPushAll vs H1 fun x hx => hv x (by simp [hx])

theorem all_lPopLoop : ∀ k {l : LObj} (n : Int), All W l.nodes → Wp (l.lPopLoop k n) (fun q => All W q.1.nodes ∧ ∀ x ∈ q.2, W x ∨ x = [])
  | 0, l, n, H => Wp.pure ⟨H, fun _ h => by cases h⟩
  | k + 1, l, n, H => by
    unfold lPopLoop
    split
    · refine (all_lPop H).bind fun q _ ⟨H1, hx⟩ => ?_
      obtain ⟨l1, o⟩ := q
      dsimp only at H1 hx ⊢
      split
      · exact Wp.pure ⟨H1, fun _ h => by cases h⟩
      · next x =>
        refine (all_lPopLoop k _ H1).bind fun q _ ⟨H2, hy⟩ => Wp.pure ⟨H2, fun y hy' => ?_⟩
        rcases List.mem_cons.mp hy' with rfl | hy'
        · exact hx _ rfl
        · exact hy y hy'
    · exact Wp.pure ⟨H, fun _ h => by cases h⟩

theorem all_rPopLoop : ∀ k {l : LObj} (n : Int), All W l.nodes → Wp (l.rPopLoop k n) (fun q => All W q.1.nodes ∧ ∀ x ∈ q.2, W x ∨ x = [])
  | 0, l, n, H => Wp.pure ⟨H, fun _ h => by cases h⟩
  | k + 1, l, n, H => by
    unfold rPopLoop
    split
    · refine (all_rPop H).bind fun q _ ⟨H1, hx⟩ => ?_
      obtain ⟨l1, o⟩ := q
      dsimp only at H1 hx ⊢
      split
      · exact Wp.pure ⟨H1, fun _ h => by cases h⟩
      · next x =>
        refine (all_rPopLoop k _ H1).bind fun q _ ⟨H2, hy⟩ => Wp.pure ⟨H2, fun y hy' => ?_⟩
        rcases List.mem_cons.mp hy' with rfl | hy'
        · exact hx _ rfl
        · exact hy y hy'
    · exact Wp.pure ⟨H, fun _ h => by cases h⟩

end LObj

/-! ## sets -/

namespace SObj

/-- every member is a text of `W` -/
def All (W : Bytes → Prop) (o : SObj) : Prop := o.m.All fun k _ => W k

variable {o : SObj}

theorem All.empty : SObj.empty.All W := SMap.All.empty

theorem All.sAdd (H : o.All W) {x : Bytes} (hx : W x) : (o.sAdd x).1.All W := by
  have := SMap.All.setIfAbsent (k := x) (v := ()) H hx
  unfold SObj.sAdd
  dsimp only
  split <;> exact this

theorem All.sRem (H : o.All W) (x : Bytes) : (o.sRem x).1.All W := by
  have := SMap.All.deleteIfExists H x
  unfold SObj.sRem
  dsimp only
  split <;> exact this

theorem All.sAddAll : ∀ (vs : List Bytes) {o : SObj}, o.All W → (∀ x ∈ vs, W x) → (o.sAddAll vs).1.All W
  | [], _, H, _ => H
  | v :: vs, o, H, hv => by
    unfold SObj.sAddAll
    exact All.sAddAll vs (H.sAdd (hv v (by simp))) fun x hx => hv x (by simp [hx])

theorem All.sRemAll : ∀ (vs : List Bytes) {o : SObj}, o.All W → (o.sRemAll vs).1.All W
  | [], _, H => H
  | v :: vs, o, H => by
    unfold SObj.sRemAll
    exact All.sRemAll vs (H.sRem v)

theorem pop_all : ∀ (es : List (Bytes × Unit)) (m : SMap Unit) (st : Int × List Bytes), m.All (fun k _ => W k) → (∀ e ∈ es, W e.1) →
    (∀ x ∈ st.2, W x) →
    let q := SMap.rangeAndDeleteLoop (fun (st : Int × List Bytes) key (_ : Unit) =>
      if st.1 ≤ 0 then (st, false, false) else ((st.1 - 1, st.2 ++ [key]), true, true)) es m st
    q.1.All (fun k _ => W k) ∧ ∀ x ∈ q.2.2, W x
  | [], m, st, H, _, hs => ⟨H, hs⟩
  | (k, v) :: es, m, st, H, he, hs => by
    unfold SMap.rangeAndDeleteLoop
    by_cases hc : st.1 ≤ 0
    · simp only [hc, if_true]
      exact ⟨H, hs⟩
    · simp only [hc, if_false, if_true]
      refine pop_all es _ _ (H.del k) (fun e h => he e (by simp [h])) fun x hx => ?_
      rcases List.mem_append.mp hx with hx | hx
      · exact hs x hx
      · rw [List.mem_singleton.mp hx]; exact he (k, v) (by simp)

theorem All.sPop (H : o.All W) (it : Iter) (n : Int) : (o.sPop it n).1.All W ∧ ∀ x ∈ (o.sPop it n).2, W x := by
  unfold SObj.sPop SMap.rangeAndDelete
  exact pop_all (o.m.entries it) o.m (n, []) H (fun e he => SMap.All.entries (Q := fun k _ => W k) H it he) (fun _ h => by cases h)

theorem fold_all (f : SObj → Bytes → Bool) : ∀ (es : List (Bytes × Unit)) {r : SObj}, r.All W → (∀ e ∈ es, W e.1) →
    (es.foldl (fun r e => if f r e.1 then (r.sAdd e.1).1 else r) r).All W
  | [], _, H, _ => H
  | e :: es, r, H, he => by
    rw [List.foldl_cons]
    refine fold_all f es ?_ fun e' h => he e' (by simp [h])
    split
    · exact H.sAdd (he e (by simp))
    · exact H

theorem All.sDiff (H : o.All W) (it : Iter) (b : SObj) : (o.sDiff it b).All W :=
  fold_all (fun _ k => !b.m.has k) (o.m.entries it) All.empty fun _ he => SMap.All.entries (Q := fun k _ => W k) H it he

theorem All.sInter (H : o.All W) (it : Iter) (b : SObj) : (o.sInter it b).All W :=
  fold_all (fun _ k => b.m.has k) (o.m.entries it) All.empty fun _ he => SMap.All.entries (Q := fun k _ => W k) H it he

theorem All.into (H : o.All W) {r : SObj} (Hr : r.All W) (it : Iter) : (o.m.range it (fun r key _ => (r.sAdd key).1) r).All W := by
  have := fold_all (fun _ _ => true) (o.m.entries it) Hr fun _ he => SMap.All.entries (Q := fun k _ => W k) H it he
  simpa [SMap.range] using this

theorem All.sUnion (H : o.All W) {b : SObj} (Hb : b.All W) (it : Iter) : (SObj.sUnion it [o, b]).All W := by
  unfold SObj.sUnion
  exact Hb.into (H.into All.empty it) it

end SObj

/-! ## sorted sets -/

namespace ZSL

/-- every node of the skip list's heap, linked or not, holds a text of `W` or the empty text -/
def All (W : Bytes → Prop) (h : List ZNode) : Prop := ∀ n ∈ h, W n.value ∨ n.value = []

variable {h : List ZNode}

theorem All.set (H : All W h) {a : Nat} {n : ZNode} (hn : W n.value ∨ n.value = []) : All W (h.set a n) := by
  intro x hx
  rcases List.mem_or_eq_of_mem_set hx with hx | rfl
  · exact H _ hx
  · exact hn

theorem All.snoc (H : All W h) {n : ZNode} (hn : W n.value ∨ n.value = []) : All W (h ++ [n]) := by
  intro x hx
  rcases List.mem_append.mp hx with hx | hx
  · exact H _ hx
  · rw [List.mem_singleton.mp hx]; exact hn

theorem all_load (H : All W h) (x : Nat) : Wp (load h x) (fun n => W n.value ∨ n.value = []) := fun _ hn => H _ (List.mem_of_getElem? (load_ok hn))

theorem all_setLevel (H : All W h) (x i : Nat) (l : ZLevel) : Wp (setLevel h x i l) (All W) := by
  unfold setLevel
  refine (all_load H x).bind fun n _ hn => ?_
  split
  · exact Wp.pure (H.set hn)
  · exact Wp.error

theorem all_setBackward (H : All W h) (x : Nat) (p : Option Nat) : Wp (setBackward h x p) (All W) := by
  unfold setBackward
  exact (all_load H x).bind fun n _ hn => Wp.pure (H.set hn)

theorem all_setScore (H : All W h) (x : Nat) (f : F64) : Wp (setScore h x f) (All W) := by
  unfold setScore
  exact (all_load H x).bind fun n _ hn => Wp.pure (H.set hn)

theorem all_raiseLevels (len) : ∀ k i (h : List ZNode) d, All W h → Wp (raiseLevels len k i h d) (fun p => All W p.1)
  | 0, _, h, _, H => Wp.pure H
  | k + 1, i, h, d, H => by
    unfold raiseLevels
    exact (Wp.triv _).bind fun l _ _ => (all_setLevel H _ _ _).bind fun h1 _ H1 => all_raiseLevels len k (i + 1) h1 _ H1

theorem all_linkLevels (x : Nat) (d : Descent) : ∀ k i (h : List ZNode), All W h → Wp (linkLevels x d k i h) (All W)
  | 0, _, h, H => Wp.pure H
  | k + 1, i, h, H => by
    unfold linkLevels
    refine (Wp.triv _).bind fun u _ _ => (Wp.triv _).bind fun lu _ _ => ?_
    dsimp only
    exact (all_setLevel H _ _ _).bind fun h1 _ H1 => (all_setLevel H1 _ _ _).bind fun h2 _ H2 => all_linkLevels x d k (i + 1) h2 H2

theorem all_widenLevels (d : Descent) : ∀ k i (h : List ZNode), All W h → Wp (widenLevels d k i h) (All W)
  | 0, _, h, H => Wp.pure H
  | k + 1, i, h, H => by
    unfold widenLevels
    refine (Wp.triv _).bind fun u _ _ => (Wp.triv _).bind fun lu _ _ => ?_
    exact (all_setLevel H _ _ _).bind fun h1 _ H1 => all_widenLevels d k (i + 1) h1 H1

theorem all_unlinkLevels (node : Nat) (u : Nat → Option Nat) : ∀ k i (h : List ZNode), All W h → Wp (unlinkLevels node u k i h) (All W)
  | 0, _, h, H => Wp.pure H
  | k + 1, i, h, H => by
    unfold unlinkLevels
    refine (Wp.triv _).bind fun v _ _ => (Wp.triv _).bind fun lu _ _ => ?_
    split
    · exact (Wp.triv _).bind fun ln _ _ => (all_setLevel H _ _ _).bind fun h1 _ H1 => all_unlinkLevels node u k (i + 1) h1 H1
    · exact (all_setLevel H _ _ _).bind fun h1 _ H1 => all_unlinkLevels node u k (i + 1) h1 H1

theorem all_insert {z : ZSL} (H : All W z.nodes) (score : F64) {value : Bytes} (hv : W value) (draw : Nat) :
    Wp (z.insert score value draw) (fun p => All W p.1.nodes) := by
  unfold insert
  refine (Wp.triv _).bind fun a _ _ => ?_
  dsimp only
  refine (all_raiseLevels _ _ _ _ _ H).bind fun b _ H1 => ?_
  have H2 : All W (b.1 ++ [newZslNode (zslRandomLevel draw) score value]) := H1.snoc (.inl hv)
  refine (all_linkLevels _ _ _ _ _ H2).bind fun h3 _ H3 => (all_widenLevels _ _ _ _ H3).bind fun h4 _ H4 => (Wp.triv _).bind fun u _ _ => ?_
  have key : ∀ h5, All W h5 → Wp (level? h5 b.1.length 0 >>= fun l0 => match l0.forward with
      | some y => do
        let h ← setBackward h5 y (some b.1.length)
        .ok ((⟨h, z.tail, z.length + 1, if zslRandomLevel draw > z.level then zslRandomLevel draw else z.level⟩ : ZSL), b.1.length)
      | none => .ok (⟨h5, some b.1.length, z.length + 1, if zslRandomLevel draw > z.level then zslRandomLevel draw else z.level⟩, b.1.length))
      (fun p => All W p.1.nodes) := by
    intro h5 H5
    refine (Wp.triv _).bind fun l0 _ _ => ?_
    split
    · exact (all_setBackward H5 _ _).bind fun h6 _ H6 => Wp.pure H6
    · exact Wp.pure H5
  split
  · exact (all_setBackward H4 _ _).bind fun h5 _ H5 => key h5 H5
  · exact key h4 H4

theorem all_deleteNode {z : ZSL} (H : All W z.nodes) (node u) : Wp (z.deleteNode node u) (fun z' => All W z'.nodes) := by
  unfold deleteNode
  refine (all_unlinkLevels _ _ _ _ _ H).bind fun h1 _ H1 => (Wp.triv _).bind fun l0 _ _ => (Wp.triv _).bind fun n _ _ => ?_
  dsimp only
  split
  · exact (all_setBackward H1 _ _).bind fun h5 _ H5 => (Wp.triv _).bind fun lv _ _ => Wp.pure H5
  · exact (Wp.pure H1).bind fun h5 _ H5 => (Wp.triv _).bind fun lv _ _ => Wp.pure H5

theorem all_updateScore {z : ZSL} (H : All W z.nodes) (s1 s2 : F64) {value : Bytes} (hv : W value) (rng : Rng) :
    Wp (z.updateScore s1 s2 value rng) (fun p => All W p.1.nodes) := by
  unfold updateScore
  refine (Wp.triv _).bind fun a _ _ => ?_
  dsimp only
  refine (Wp.triv _).bind fun l _ _ => ?_
  split
  · exact Wp.pure H
  · refine (Wp.triv _).bind fun n _ _ => ?_
    split
    · exact Wp.pure H
    · have fin : ∀ (x : Nat) (u : Nat → Option Nat) (b : Bool), Wp (if b then do
            let h ← setScore z.nodes x s2
            .ok ({ z with nodes := h }, some x, rng)
          else do
            let z ← deleteNode z x u
            let (z, y) ← insert z s2 value (rng 0)
            .ok (z, some y, fun i => rng (i + 1))) (fun p : ZSL × Option Nat × Rng => All W p.1.nodes) := by
        intro x u b
        split
        · exact (all_setScore H _ _).bind fun h1 _ H1 => Wp.pure H1
        · exact (all_deleteNode H _ _).bind fun z1 _ H1 => (all_insert H1 _ hv _).bind fun q _ H2 => Wp.pure H2
      split
      · refine (Wp.triv _).bind fun b _ _ => (Wp.triv _).bind fun l0 _ _ => ?_
        split
        · exact (Wp.triv _).bind fun f _ _ => fin _ _ _
        · exact (Wp.triv _).bind fun nf _ _ => (Wp.triv _).bind fun f _ _ => fin _ _ _
      · refine (Wp.triv _).bind fun nb _ _ => (Wp.triv _).bind fun b _ _ => (Wp.triv _).bind fun l0 _ _ => ?_
        split
        · exact (Wp.triv _).bind fun f _ _ => fin _ _ _
        · exact (Wp.triv _).bind fun nf _ _ => (Wp.triv _).bind fun f _ _ => fin _ _ _

theorem all_delete {z : ZSL} (H : All W z.nodes) (score : F64) (value : Bytes) : Wp (z.delete score value) (fun p => All W p.1.nodes) := by
  unfold delete
  refine (Wp.triv _).bind fun a _ _ => ?_
  dsimp only
  refine (Wp.triv _).bind fun l _ _ => ?_
  split
  · exact Wp.pure H
  · refine (Wp.triv _).bind fun n _ _ => ?_
    split
    · exact (all_deleteNode H _ _).bind fun z1 _ H1 => Wp.pure H1
    · exact Wp.pure H

/-- a member, the empty text or a number -/
def Seen (ext : Ext) (W : Bytes → Prop) (t : Bytes) : Prop := W t ∨ t = [] ∨ ∃ f, t = ext.formatFloat f

theorem Seen.of {t : Bytes} (h : W t ∨ t = []) : Seen ext W t := h.imp id .inl

theorem seen_cons {t : Bytes} {f : F64} {w : Bool} {rest : List Bytes} (ht : W t ∨ t = []) (hr : ∀ x ∈ rest, Seen ext W x) :
    ∀ x ∈ t :: (if w then ext.formatFloat f :: rest else rest), Seen ext W x := by
  intro x hx
  rcases List.mem_cons.mp hx with rfl | hx
  · exact .of ht
  · split at hx
    · rcases List.mem_cons.mp hx with rfl | hx
      · exact .inr (.inr ⟨f, rfl⟩)
      · exact hr x hx
    · exact hr x hx

theorem all_collectFwd (H : All W h) (w : Bool) : ∀ k x, Wp (collectFwd ext h w k x) (fun vs => ∀ t ∈ vs, Seen ext W t)
  | 0, _ => by unfold collectFwd; exact Wp.pure fun _ h => by cases h
  | k + 1, none => by unfold collectFwd; exact Wp.error
  | k + 1, some x => by
    unfold collectFwd
    exact (all_load H x).bind fun n _ hn => (Wp.triv _).bind fun l _ _ => (all_collectFwd H w k l.forward).bind fun rest _ hr => Wp.pure (seen_cons hn hr)

theorem all_collectBwd (H : All W h) (w : Bool) : ∀ k x, Wp (collectBwd ext h w k x) (fun vs => ∀ t ∈ vs, Seen ext W t)
  | 0, _ => by unfold collectBwd; exact Wp.pure fun _ h => by cases h
  | k + 1, none => by unfold collectBwd; exact Wp.error
  | k + 1, some x => by
    unfold collectBwd
    exact (all_load H x).bind fun n _ hn => (all_collectBwd H w k n.backward).bind fun rest _ hr => Wp.pure (seen_cons hn hr)

theorem all_zRange {z : ZSL} (H : All W z.nodes) (a b : Int) (w : Bool) : Wp (z.zRange ext a b w) (fun vs => ∀ t ∈ vs, Seen ext W t) := by
  unfold zRange
  split
  · exact Wp.pure fun _ h => by cases h
  · exact (Wp.triv _).bind fun n _ _ => all_collectFwd H _ _ _

theorem all_zRevRange {z : ZSL} (H : All W z.nodes) (a b : Int) (w : Bool) : Wp (z.zRevRange ext a b w) (fun vs => ∀ t ∈ vs, Seen ext W t) := by
  unfold zRevRange
  split
  · exact Wp.pure fun _ h => by cases h
  · exact (Wp.triv _).bind fun n _ _ => all_collectBwd H _ _ _

theorem all_zRangeByScore {z : ZSL} (H : All W z.nodes) (a : F64) (ao : Bool) (b : F64) (bo : Bool) (w : Bool) :
    Wp (z.zRangeByScore ext a ao b bo w) (fun vs => ∀ t ∈ vs, Seen ext W t) := by
  unfold zRangeByScore
  split
  · exact all_zRange H _ _ _
  · refine (Wp.triv _).bind fun r _ _ => (Wp.triv _).bind fun r' _ _ => ?_
    split
    · exact all_zRange H _ _ _
    · split
      · exact all_zRange H _ _ _
      · exact all_zRange H _ _ _

end ZSL

namespace ZObj
open ZSL (Seen)

/-- every node of the sorted set holds a text of `W` or the empty text -/
def All (W : Bytes → Prop) (z : ZObj) : Prop := ZSL.All W z.zsl.nodes

theorem All.empty : ZObj.empty.All W := by
  intro n hn
  rw [List.mem_singleton.mp hn]
  exact .inr rfl

theorem all_zAdd {z : ZObj} (H : z.All W) (score : F64) {value : Bytes} (hv : W value) (flag : ZAddFlags) (rng : Rng) :
    Wp (z.zAdd ext score value flag rng) (fun p => p.1.All W) := by
  unfold zAdd
  split
  · split
    · exact Wp.pure H
    · exact (ZSL.all_insert H _ hv _).bind fun q _ H1 => Wp.pure H1
  · split
    · exact Wp.pure H
    · refine (Wp.triv _).bind fun n _ _ => ?_
      dsimp only
      generalize (if flag.incr then ext.fadd score n.score else score) = score
      split
      · refine (ZSL.all_updateScore H _ _ hv _).bind fun q _ H1 => ?_
        split
        · exact Wp.pure H1
        · exact Wp.pure H1
      · exact Wp.pure H

theorem all_zAddAll (flag : ZAddFlags) : ∀ (ms : List (F64 × Bytes)) {z : ZObj} (rng : Rng), z.All W → (∀ m ∈ ms, W m.2) →
    Wp (z.zAddAll ext flag ms rng) (fun p => p.1.All W)
  | [], _, _, H, _ => Wp.pure H
  | (sc, v) :: ms, z, rng, H, hm => by
    unfold zAddAll
    refine (all_zAdd H sc (hm (sc, v) (by simp)) flag rng).bind fun q _ H1 => ?_
    exact (all_zAddAll flag ms _ H1 fun m h => hm m (by simp [h])).bind fun q _ H2 => Wp.pure H2

theorem all_zRemAll : ∀ (vs : List Bytes) {z : ZObj}, z.All W → Wp (z.zRemAll vs) (fun p => p.1.All W)
  | [], _, H => Wp.pure H
  | v :: vs, z, H => by
    unfold zRemAll
    dsimp only
    split
    · exact all_zRemAll vs H
    · exact (Wp.triv _).bind fun n _ _ => (ZSL.all_delete H _ _).bind fun q _ H1 => (all_zRemAll vs (z := ⟨_, q.1⟩) H1).bind fun q _ H2 => Wp.pure H2

theorem seen_pop {t : Bytes} {f : F64} {rest : List Bytes} (ht : W t ∨ t = []) (hr : ∀ x ∈ rest, Seen ext W x) :
    ∀ x ∈ t :: ext.formatFloat f :: rest, Seen ext W x := ZSL.seen_cons (w := true) ht hr

theorem all_zPopMinLoop : ∀ k {z : ZSL}, ZSL.All W z.nodes → Wp (zPopMinLoop ext k z) (fun p => ZSL.All W p.1.nodes ∧ ∀ t ∈ p.2, Seen ext W t)
  | 0, _, H => Wp.pure ⟨H, fun _ h => by cases h⟩
  | k + 1, z, H => by
    unfold zPopMinLoop
    refine (Wp.triv _).bind fun r _ _ => ?_
    split
    · exact Wp.pure ⟨H, fun _ h => by cases h⟩
    · refine (ZSL.all_load H _).bind fun n _ hn => (ZSL.all_delete H _ _).bind fun q _ H1 => ?_
      exact (all_zPopMinLoop k H1).bind fun q _ ⟨H2, hr⟩ => Wp.pure ⟨H2, seen_pop hn hr⟩

theorem all_zPopMaxLoop : ∀ k {z : ZSL}, ZSL.All W z.nodes → Wp (zPopMaxLoop ext k z) (fun p => ZSL.All W p.1.nodes ∧ ∀ t ∈ p.2, Seen ext W t)
  | 0, _, H => Wp.pure ⟨H, fun _ h => by cases h⟩
  | k + 1, z, H => by
    unfold zPopMaxLoop
    refine (Wp.triv _).bind fun r _ _ => ?_
    split
    · exact Wp.pure ⟨H, fun _ h => by cases h⟩
    · refine (ZSL.all_load H _).bind fun n _ hn => (ZSL.all_delete H _ _).bind fun q _ H1 => ?_
      exact (all_zPopMaxLoop k H1).bind fun q _ ⟨H2, hr⟩ => Wp.pure ⟨H2, seen_pop hn hr⟩

end ZObj
end Godis
