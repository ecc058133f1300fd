import Verif.Model.Server
import Verif.Spec.Keys
import Verif.Proofs.ShardMap
/-!
# What each command does to the store, in terms of elementary changes

`Typed` is the invariant that every key's type tag agrees with the object it refers to.  `Change` lists the
elementary changes, and `fn_eff` shows that every command is a sequence of those.
-/
namespace Godis
open KeySpec (keyArgs)

/-- the type tag an object is stored under -/
def Obj.kind : Obj → KeyType
  | .list _ => .list
  | .set _ => .set
  | .hash _ => .hashTable
  | .zset _ => .sortedSet

/-- The value behind a `KeyInfo` is of the announced type (and no key holds a hash table). -/
def KindOk (heap : List Obj) (info : KeyInfo) : Prop :=
  (∃ v, info = ⟨.string, .str v⟩) ∨
  (∃ r o, info = ⟨o.kind, .ref r⟩ ∧ heap[r]? = some o ∧ o.kind ≠ .hashTable)

/-- Type tags and objects agree. -/
structure Typed (s : Store) : Prop where
  wf : s.keys.WF
  kind : ∀ k info, s.keys.get k = some info → KindOk s.heap info

/-- One command's change of one object.  `rng` is the random stream at that moment. -/
inductive OStep (ext : Ext) (c : Cmd) (args : List Bytes) (rng : Rng) : Obj → Obj → Prop
  | lpush {l l' vs} : c = .lPush → vs ≠ [] → LObj.lPushAll l vs = .ok l' → OStep ext c args rng (.list l) (.list l')
  | rpush {l l' vs} : c = .rPush → vs ≠ [] → LObj.rPushAll l vs = .ok l' → OStep ext c args rng (.list l) (.list l')
  | lpop {l l' n vs} : c = .lPop → LObj.lPopLoop l.length.toNat l n = .ok (l', vs) →
      OStep ext c args rng (.list l) (.list l')
  | rpop {l l' n vs} : c = .rPop → LObj.rPopLoop l.length.toNat l n = .ok (l', vs) →
      OStep ext c args rng (.list l) (.list l')
  | lremHead {l l' n v m} : c = .lRem → l.length ≠ 0 → LObj.lRemCountFromHead l v n = .ok (l', m) →
      OStep ext c args rng (.list l) (.list l')
  | lremTail {l l' n v m} : c = .lRem → l.length ≠ 0 → LObj.lRemCountFromTail l v n = .ok (l', m) →
      OStep ext c args rng (.list l) (.list l')
  | lset {l l' i v b} : c = .lSet → LObj.lSet l i v = .ok (l', b) → OStep ext c args rng (.list l) (.list l')
  | linsert {l l' p v f b} : c = .lInsert → f = 1 ∨ f = -1 → LObj.lInsert l p v f = .ok (l', b) →
      OStep ext c args rng (.list l) (.list l')
  | sadd {o vs} : c = .sAdd ∨ c = .sMove → vs ≠ [] → OStep ext c args rng (.set o) (.set (SObj.sAddAll o vs).1)
  | srem {o vs} : c = .sRem → OStep ext c args rng (.set o) (.set (SObj.sRemAll o vs).1)
  | smove {o v} : c = .sMove → OStep ext c args rng (.set o) (.set ⟨(o.m.deleteIfExists v).1, o.length⟩)
  | spop {o it n} : c = .sPop → OStep ext c args rng (.set o) (.set (SObj.sPop it o n).1)
  | zadd {z z' ms flag cnt rng'} : c = .zAdd → zAddArgs ext (args.drop 1) {} = some (ms, flag) →
      ZObj.zAddAll ext flag z ms rng = .ok (z', cnt, rng') → OStep ext c args rng (.zset z) (.zset z')
  | zincr {z z' a sc v x rng'} : c = .zIncr → a ∈ args → ext.parseFloat a = some sc →
      ZObj.zAdd ext z sc v { incr := true } rng = .ok (z', x, rng') → OStep ext c args rng (.zset z) (.zset z')
  | zrem {z z' vs n} : c = .zRem → ZObj.zRemAll z vs = .ok (z', n) → OStep ext c args rng (.zset z) (.zset z')
  | zpopmin {z zsl n vs} : c = .zPopMin → ZObj.zPopMinLoop ext n z.zsl = .ok (zsl, vs) →
      OStep ext c args rng (.zset z) (.zset ⟨z.m, zsl⟩)
  | zpopmax {z zsl n vs} : c = .zPopMix → ZObj.zPopMaxLoop ext n z.zsl = .ok (zsl, vs) →
      OStep ext c args rng (.zset z) (.zset ⟨z.m, zsl⟩)

/-- the S*STORE commands -/
def Cmd.isStoreOp (c : Cmd) : Prop := c = .sDiffStore ∨ c = .sInterStore ∨ c = .sUnionStore

/-- the commands that store a string -/
def Cmd.isStringWrite (c : Cmd) : Prop :=
  c = .set ∨ c = .mSet ∨ c = .incr ∨ c = .incrBy ∨ c = .decr ∨ c = .decrBy ∨ c = .stringAppend

/-- the commands that create a collection under an absent key -/
def Cmd.isCreator (c : Cmd) : Prop :=
  c = .lPush ∨ c = .rPush ∨ c = .sAdd ∨ c = .sMove ∨ c = .zAdd ∨ c = .zIncr

/-- A new object created by a command. -/
inductive ONew (ext : Ext) (c : Cmd) (args : List Bytes) (rng : Rng) : Obj → Prop
  | list {l} : OStep ext c args rng (.list LObj.empty) (.list l) → ONew ext c args rng (.list l)
  | set {o} : OStep ext c args rng (.set SObj.empty) (.set o) → ONew ext c args rng (.set o)
  | zset {z} : OStep ext c args rng (.zset ZObj.empty) (.zset z) → ONew ext c args rng (.zset z)
  | op {it op a b} : c.isStoreOp → ONew ext c args rng (.set (Store.SetOp.apply it op a b))

/-- `rng'` is what is left of the stream after some draws. -/
def RShift (rng rng' : Rng) : Prop := ∃ n, rng' = fun i => rng (i + n)

theorem RShift.refl (rng : Rng) : RShift rng rng := ⟨0, rfl⟩
theorem RShift.trans {a b c : Rng} (h : RShift a b) (h' : RShift b c) : RShift a c := by
  obtain ⟨n, rfl⟩ := h; obtain ⟨m, rfl⟩ := h'
  exact ⟨m + n, by funext i; exact congrArg a (Nat.add_assoc i m n)⟩
theorem RShift.step (rng : Rng) : RShift rng (fun i => rng (i + 1)) := ⟨1, rfl⟩

/-- An elementary change of the store by command `c`, touching only keys in `N`. -/
inductive Change (ext : Ext) (c : Cmd) (args N : List Bytes) (s : Store) : Store → Prop
  | str {k v} : c.isStringWrite → k ∈ N → Change ext c args N s ⟨s.keys.set k ⟨.string, .str v⟩, s.heap, s.rng⟩
  | del {k} : c = .del → k ∈ N → Change ext c args N s ⟨s.keys.del k, s.heap, s.rng⟩
  | new {k o rng} : k ∈ N → (c.isCreator ∧ s.keys.get k = none ∨ c.isStoreOp) → ONew ext c args s.rng o → RShift s.rng rng →
      Change ext c args N s ⟨s.keys.set k ⟨o.kind, .ref s.heap.length⟩, s.heap ++ [o], rng⟩
  | write {k r o o' rng} : k ∈ N → s.keys.get k = some ⟨o.kind, .ref r⟩ → s.heap[r]? = some o →
      OStep ext c args s.rng o o' → RShift s.rng rng →
      Change ext c args N s ⟨s.keys, s.heap.set r o', rng⟩
  | «alias» {dst src r} : c.isStoreOp → args = [dst, src] → dst ∈ N → src ∈ N → s.keys.get src = some ⟨.set, .ref r⟩ →
      Change ext c args N s ⟨s.keys.set dst ⟨.set, .ref r⟩, s.heap, s.rng⟩

/-- A sequence of changes. -/
inductive Eff (ext : Ext) (c : Cmd) (args N : List Bytes) : Store → Store → Prop
  | refl {s} : Eff ext c args N s s
  | step {s s' s''} : Change ext c args N s s' → Eff ext c args N s' s'' → Eff ext c args N s s''

theorem Eff.one {ext c args N s s'} (h : Change ext c args N s s') : Eff ext c args N s s' := .step h .refl

theorem OStep.kind {ext c args rng o o'} (h : OStep ext c args rng o o') : o'.kind = o.kind := by
  cases h <;> rfl

theorem OStep.kind_ne {ext c args rng o o'} (h : OStep ext c args rng o o') : o.kind ≠ .hashTable := by
  cases h <;> simp [Obj.kind]

theorem ONew.kind_ne {ext c args rng o} (h : ONew ext c args rng o) : o.kind ≠ .hashTable := by
  cases h <;> simp [Obj.kind]

theorem Change.write' {ext c args N} {s : Store} {k r o o' rng} (hk : k ∈ N) (ho : s.heap[r]? = some o)
    (hg : s.keys.get k = some ⟨o.kind, .ref r⟩)
    (hs : OStep ext c args s.rng o o') (hr : RShift s.rng rng) :
    Change ext c args N s ⟨s.keys, s.heap.set r o', rng⟩ := .write hk hg ho hs hr

/-! ## `Typed` is an invariant -/

theorem KindOk.set {heap : List Obj} {info} (h : KindOk heap info) {r o o'} (ho : heap[r]? = some o)
    (hk : o'.kind = o.kind) : KindOk (heap.set r o') info := by
  rcases h with h | ⟨r1, o1, rfl, h1, h2⟩
  · exact .inl h
  · by_cases hr : r1 = r
    · subst hr
      have : o1 = o := by rw [h1] at ho; exact Option.some.inj ho
      subst this
      refine .inr ⟨r1, o', by rw [hk], ?_, by rw [hk]; exact h2⟩
      rw [List.getElem?_set_self]
      exact (List.getElem?_eq_some_iff.mp h1).1
    · refine .inr ⟨r1, o1, rfl, ?_, h2⟩
      rw [List.getElem?_set_ne (Ne.symm hr)]; exact h1

theorem KindOk.append {heap : List Obj} {info} (h : KindOk heap info) (o : Obj) : KindOk (heap ++ [o]) info := by
  rcases h with h | ⟨r1, o1, rfl, h1, h2⟩
  · exact .inl h
  · refine .inr ⟨r1, o1, rfl, ?_, h2⟩
    rw [List.getElem?_append_left (List.getElem?_eq_some_iff.mp h1).1]; exact h1

theorem Typed.setKey {s : Store} (h : Typed s) (k : Bytes) (info : KeyInfo) (rng : Rng) (hi : KindOk s.heap info) :
    Typed ⟨s.keys.set k info, s.heap, rng⟩ := by
  refine ⟨h.wf.set _ _, fun k' i hh => ?_⟩
  simp only [SMap.get_set] at hh
  split at hh
  · cases hh; exact hi
  · exact h.kind _ _ hh

theorem Change.typed {ext c args N s s'} (h : Change ext c args N s s') (ht : Typed s) : Typed s' := by
  cases h with
  | str _ hk => exact ht.setKey _ _ _ (.inl ⟨_, rfl⟩)
  | del _ hk =>
    refine ⟨ht.wf.del _, fun k' i hh => ?_⟩
    simp only [SMap.get_del _ _ _ ht.wf] at hh
    split at hh
    · cases hh
    · exact ht.kind _ _ hh
  | @new k o rng hk _ hn =>
    have h1 : Typed ⟨s.keys, s.heap ++ [o], rng⟩ := ⟨ht.wf, fun k' i hh => (ht.kind _ _ hh).append o⟩
    exact h1.setKey _ _ _ (.inr ⟨_, o, rfl, by simp, hn.kind_ne⟩)
  | write hk hg ho hs =>
    exact ⟨ht.wf, fun k' i hh => (ht.kind _ _ hh).set ho hs.kind⟩
  | «alias» _ _ _ _ hg => exact ht.setKey _ _ _ (ht.kind _ _ hg)

theorem Eff.typed {ext c args N s s'} (h : Eff ext c args N s s') (ht : Typed s) : Typed s' := by
  induction h with
  | refl => exact ht
  | step h _ ih => exact ih (h.typed ht)

/-! ## Loading a typed key -/

theorem loadKeyInfo_none {s : Store} {k : Bytes} (h : s.keys.get k = none) (tp) :
    s.loadKeyInfo k tp = .error .nil := by simp [Store.loadKeyInfo, h]

theorem loadKeyInfo_ne {s : Store} {k : Bytes} {info} (h : s.keys.get k = some info) {tp} (ht : info.type ≠ tp) :
    s.loadKeyInfo k tp = .error .keyAndCommandNotMatch := by simp [Store.loadKeyInfo, h, ht]

theorem loadKeyInfo_ok {s : Store} {k : Bytes} {info} (h : s.keys.get k = some info) {tp} (ht : info.type = tp) :
    s.loadKeyInfo k tp = .ok info := by simp [Store.loadKeyInfo, h, ht]

theorem Obj.kind_list {o : Obj} (h : o.kind = .list) : ∃ l, o = .list l := by cases o <;> simp_all [Obj.kind]
theorem Obj.kind_set {o : Obj} (h : o.kind = .set) : ∃ l, o = .set l := by cases o <;> simp_all [Obj.kind]
theorem Obj.kind_zset {o : Obj} (h : o.kind = .sortedSet) : ∃ l, o = .zset l := by cases o <;> simp_all [Obj.kind]

theorem Obj.kind_ne_string (o : Obj) : o.kind ≠ .string := by cases o <;> simp [Obj.kind]

/-- the three outcomes of loading a list -/
theorem loadList_cases {s : Store} (ht : Typed s) (k : Bytes) (b : Bool) :
    (s.keys.get k = none ∧ s.loadList k b = .ok (.error .nil)) ∨
    (∃ info, s.keys.get k = some info ∧ info.type ≠ .list ∧ s.loadList k b = .ok (.error .keyAndCommandNotMatch)) ∨
    (∃ r l, s.keys.get k = some ⟨.list, .ref r⟩ ∧ s.heap[r]? = some (.list l) ∧
      s.loadList k b = if b && l.length == 0 then .ok (.error .nil) else .ok (.ok (r, l))) := by
  cases hg : s.keys.get k with
  | none => exact .inl ⟨rfl, by simp [Store.loadList, loadKeyInfo_none hg]⟩
  | some info =>
    by_cases hty : info.type = .list
    · rcases ht.kind _ _ hg with ⟨v, rfl⟩ | ⟨r, o, rfl, ho, _⟩
      · simp at hty
      · obtain ⟨l, rfl⟩ := Obj.kind_list hty
        exact .inr (.inr ⟨r, l, rfl, ho, by simp [Store.loadList, loadKeyInfo_ok hg hty, ho]⟩)
    · exact .inr (.inl ⟨info, rfl, hty, by simp [Store.loadList, loadKeyInfo_ne hg hty]⟩)

/-- the three outcomes of loading a set -/
theorem loadSet_cases {s : Store} (ht : Typed s) (k : Bytes) (b : Bool) :
    (s.keys.get k = none ∧ s.loadSet k b = .ok (.error .nil)) ∨
    (∃ info, s.keys.get k = some info ∧ info.type ≠ .set ∧ s.loadSet k b = .ok (.error .keyAndCommandNotMatch)) ∨
    (∃ r l, s.keys.get k = some ⟨.set, .ref r⟩ ∧ s.heap[r]? = some (.set l) ∧
      s.loadSet k b = if b && l.length == 0 then .ok (.error .nil) else .ok (.ok (r, l))) := by
  cases hg : s.keys.get k with
  | none => exact .inl ⟨rfl, by simp [Store.loadSet, loadKeyInfo_none hg]⟩
  | some info =>
    by_cases hty : info.type = .set
    · rcases ht.kind _ _ hg with ⟨v, rfl⟩ | ⟨r, o, rfl, ho, _⟩
      · simp at hty
      · obtain ⟨l, rfl⟩ := Obj.kind_set hty
        exact .inr (.inr ⟨r, l, rfl, ho, by simp [Store.loadSet, loadKeyInfo_ok hg hty, ho]⟩)
    · exact .inr (.inl ⟨info, rfl, hty, by simp [Store.loadSet, loadKeyInfo_ne hg hty]⟩)

/-- the three outcomes of loading a sorted set -/
theorem loadZSet_cases {s : Store} (ht : Typed s) (k : Bytes) (b : Bool) :
    (s.keys.get k = none ∧ s.loadZSet k b = .ok (.error .nil)) ∨
    (∃ info, s.keys.get k = some info ∧ info.type ≠ .sortedSet ∧
      s.loadZSet k b = .ok (.error .keyAndCommandNotMatch)) ∨
    (∃ r l, s.keys.get k = some ⟨.sortedSet, .ref r⟩ ∧ s.heap[r]? = some (.zset l) ∧
      s.loadZSet k b = if b && l.zsl.length == 0 then .ok (.error .nil) else .ok (.ok (r, l))) := by
  cases hg : s.keys.get k with
  | none => exact .inl ⟨rfl, by simp [Store.loadZSet, loadKeyInfo_none hg]⟩
  | some info =>
    by_cases hty : info.type = .sortedSet
    · rcases ht.kind _ _ hg with ⟨v, rfl⟩ | ⟨r, o, rfl, ho, _⟩
      · simp at hty
      · obtain ⟨l, rfl⟩ := Obj.kind_zset hty
        exact .inr (.inr ⟨r, l, rfl, ho, by simp [Store.loadZSet, loadKeyInfo_ok hg hty, ho]⟩)
    · exact .inr (.inl ⟨info, rfl, hty, by simp [Store.loadZSet, loadKeyInfo_ne hg hty]⟩)

/-- the two outcomes of loading a hash table: there is none -/
theorem loadHash_cases {s : Store} (ht : Typed s) (k : Bytes) (b : Bool) :
    (s.keys.get k = none ∧ s.loadHash k b = .ok (.error .nil)) ∨
    (∃ info, s.keys.get k = some info ∧ info.type ≠ .hashTable ∧
      s.loadHash k b = .ok (.error .keyAndCommandNotMatch)) := by
  cases hg : s.keys.get k with
  | none => exact .inl ⟨rfl, by simp [Store.loadHash, loadKeyInfo_none hg]⟩
  | some info =>
    by_cases hty : info.type = .hashTable
    · rcases ht.kind _ _ hg with ⟨v, rfl⟩ | ⟨r, o, rfl, ho, hne⟩
      · simp at hty
      · exact absurd hty hne
    · exact .inr ⟨info, rfl, hty, by simp [Store.loadHash, loadKeyInfo_ne hg hty]⟩


/-! ## Effects of the package-level functions -/

section
variable {ext : Ext} {c : Cmd} {args N : List Bytes} {s s' : Store}

theorem append_eff {k v : Bytes} {r} (hc : c.isStringWrite) (hk : k ∈ N)
    (h : s.append k v = .ok (s', r)) : Eff ext c args N s s' := by
  simp only [Store.append] at h
  split at h
  · cases h; exact .one (.str hc hk)
  · next info hg =>
    split at h
    · cases h; exact .refl
    · next hty =>
      split at h
      · cases h
        simp only [ne_eq, not_not] at hty
        rw [hty]; exact .one (.str hc hk)
      · cases h

theorem incrBy_eff {k : Bytes} {d : Int} {r} (hc : c.isStringWrite) (hk : k ∈ N)
    (h : s.incrBy k d = .ok (s', r)) : Eff ext c args N s s' := by
  simp only [Store.incrBy] at h
  split at h
  · cases h; exact .one (.str hc hk)
  · next info hg =>
    split at h
    · cases h; exact .refl
    · next hty =>
      split at h
      · split at h
        · cases h; exact .refl
        · cases h
          simp only [ne_eq, not_not] at hty
          rw [hty]; exact .one (.str hc hk)
      · cases h

theorem mSet_eff (hc : c.isStringWrite) : ∀ (l : List Bytes) (s : Store), (∀ k ∈ KeySpec.evens l, k ∈ N) →
    Eff ext c args N s (s.mSet l)
  | [], s, _ => .refl
  | [_], s, _ => .refl
  | k :: v :: rest, s, h => by
    unfold Store.mSet
    exact .step (.str hc (h k (by simp [KeySpec.evens])))
      (mSet_eff hc rest (s.set k v) (fun k' hk' => h k' (by simp [KeySpec.evens, hk'])))


theorem lPush_eff {k : Bytes} {vs : List Bytes} {r} (ht : Typed s) (hc : c = .lPush) (hk : k ∈ N) (hv : vs ≠ [])
    (h : s.lPush k vs = .ok (s', r)) : Eff ext c args N s s' := by
  simp only [Store.lPush] at h
  rcases loadList_cases ht k false with ⟨hg, hl⟩ | ⟨info, hg, hty, hl⟩ | ⟨a, l, hg, ho, hl⟩ <;>
    simp only [hl, bind, Except.bind, Bool.false_and, Bool.false_eq_true, if_false] at h
  · cases hp : LObj.empty.lPushAll vs with
    | error e => simp only [hp] at h; cases h
    | ok l => simp only [hp] at h; cases h; exact .one (.new hk (.inl ⟨by simp [Cmd.isCreator, hc], hg⟩) (.list (.lpush hc hv hp)) (.refl _))
  · cases h; exact .refl
  · cases hp : l.lPushAll vs with
    | error e => simp only [hp] at h; cases h
    | ok l' => simp only [hp] at h; cases h; exact .one (.write' hk ho hg (.lpush hc hv hp) (.refl _))

theorem rPush_eff {k : Bytes} {vs : List Bytes} {r} (ht : Typed s) (hc : c = .rPush) (hk : k ∈ N) (hv : vs ≠ [])
    (h : s.rPush k vs = .ok (s', r)) : Eff ext c args N s s' := by
  simp only [Store.rPush] at h
  rcases loadList_cases ht k false with ⟨hg, hl⟩ | ⟨info, hg, hty, hl⟩ | ⟨a, l, hg, ho, hl⟩ <;>
    simp only [hl, bind, Except.bind, Bool.false_and, Bool.false_eq_true, if_false] at h
  · cases hp : LObj.empty.rPushAll vs with
    | error e => simp only [hp] at h; cases h
    | ok l => simp only [hp] at h; cases h; exact .one (.new hk (.inl ⟨by simp [Cmd.isCreator, hc], hg⟩) (.list (.rpush hc hv hp)) (.refl _))
  · cases h; exact .refl
  · cases hp : l.rPushAll vs with
    | error e => simp only [hp] at h; cases h
    | ok l' => simp only [hp] at h; cases h; exact .one (.write' hk ho hg (.rpush hc hv hp) (.refl _))

theorem lPop_eff {k : Bytes} {n : Int} {r} (ht : Typed s) (hc : c = .lPop) (hk : k ∈ N)
    (h : s.lPop k n = .ok (s', r)) : Eff ext c args N s s' := by
  simp only [Store.lPop] at h
  rcases loadList_cases ht k true with ⟨hg, hl⟩ | ⟨info, hg, hty, hl⟩ | ⟨a, l, hg, ho, hl⟩ <;>
    simp only [hl, bind, Except.bind] at h
  · cases h; exact .refl
  · cases h; exact .refl
  · split at h
    · cases h
    · next hx =>
      split at hx
      · cases hx; cases h; exact .refl
      · cases hx
        cases hp : l.lPopLoop l.length.toNat n with
        | error e => simp only [hp] at h; cases h
        | ok p => simp only [hp] at h; cases h; exact .one (.write' hk ho hg (.lpop hc hp) (.refl _))

theorem rPop_eff {k : Bytes} {n : Int} {r} (ht : Typed s) (hc : c = .rPop) (hk : k ∈ N)
    (h : s.rPop k n = .ok (s', r)) : Eff ext c args N s s' := by
  simp only [Store.rPop] at h
  rcases loadList_cases ht k false with ⟨hg, hl⟩ | ⟨info, hg, hty, hl⟩ | ⟨a, l, hg, ho, hl⟩ <;>
    simp only [hl, bind, Except.bind, Bool.false_and, Bool.false_eq_true, if_false] at h
  · cases h; exact .refl
  · cases h; exact .refl
  · cases hp : l.rPopLoop l.length.toNat n with
    | error e => simp only [hp] at h; cases h
    | ok p => simp only [hp] at h; cases h; exact .one (.write' hk ho hg (.rpop hc hp) (.refl _))

theorem lRem_eff {k v : Bytes} {n : Int} {r} (ht : Typed s) (hc : c = .lRem) (hk : k ∈ N)
    (h : s.lRem k n v = .ok (s', r)) : Eff ext c args N s s' := by
  simp only [Store.lRem] at h
  rcases loadList_cases ht k true with ⟨hg, hl⟩ | ⟨info, hg, hty, hl⟩ | ⟨a, l, hg, ho, hl⟩ <;>
    simp only [hl, bind, Except.bind] at h
  · cases h; exact .refl
  · cases h; exact .refl
  · split at h
    · cases h
    · next hx =>
      split at hx
      · cases hx; cases h; exact .refl
      · next hne =>
        have hlen : l.length ≠ 0 := by simpa using hne
        cases hx
        dsimp only at h
        split at h
        · cases hp : l.lRemCountFromHead v n with
          | error e => simp only [hp] at h; cases h
          | ok p => simp only [hp] at h; cases h; exact .one (.write' hk ho hg (.lremHead hc hlen hp) (.refl _))
        · split at h
          · cases hp : l.lRemCountFromTail v (wrap64 (-n)) with
            | error e => simp only [hp] at h; cases h
            | ok p => simp only [hp] at h; cases h; exact .one (.write' hk ho hg (.lremTail hc hlen hp) (.refl _))
          · cases hp : l.lRemCountFromHead v l.length with
            | error e => simp only [hp] at h; cases h
            | ok p => simp only [hp] at h; cases h; exact .one (.write' hk ho hg (.lremHead hc hlen hp) (.refl _))

theorem lSet_eff {k v : Bytes} {i : Int} {r} (ht : Typed s) (hc : c = .lSet) (hk : k ∈ N)
    (h : s.lSet k i v = .ok (s', r)) : Eff ext c args N s s' := by
  simp only [Store.lSet] at h
  rcases loadList_cases ht k true with ⟨hg, hl⟩ | ⟨info, hg, hty, hl⟩ | ⟨a, l, hg, ho, hl⟩ <;>
    simp only [hl, bind, Except.bind] at h
  · cases h; exact .refl
  · cases h; exact .refl
  · split at h
    · cases h
    · next hx =>
      split at hx
      · cases hx; cases h; exact .refl
      · cases hx
        cases hp : l.lSet i v with
        | error e => simp only [hp] at h; cases h
        | ok p => simp only [hp] at h; cases h; exact .one (.write' hk ho hg (.lset hc hp) (.refl _))

theorem lInsert_eff {k p v : Bytes} {f : Int} {r} (ht : Typed s) (hc : c = .lInsert) (hk : k ∈ N)
    (hf : f = 1 ∨ f = -1)
    (h : s.lInsert k p v f = .ok (s', r)) : Eff ext c args N s s' := by
  simp only [Store.lInsert] at h
  rcases loadList_cases ht k true with ⟨hg, hl⟩ | ⟨info, hg, hty, hl⟩ | ⟨a, l, hg, ho, hl⟩ <;>
    simp only [hl, bind, Except.bind] at h
  · cases h; exact .refl
  · cases h; exact .refl
  · split at h
    · cases h
    · next hx =>
      split at hx
      · cases hx; cases h; exact .refl
      · cases hx
        cases hp : l.lInsert p v f with
        | error e => simp only [hp] at h; cases h
        | ok p =>
          simp only [hp] at h
          split at h <;> (cases h; exact .one (.write' hk ho hg (.linsert hc hf hp) (.refl _)))

theorem sAdd_eff {k : Bytes} {vs : List Bytes} {r} (ht : Typed s) (hc : c = .sAdd ∨ c = .sMove) (hk : k ∈ N)
    (hv : vs ≠ []) (h : s.sAdd k vs = .ok (s', r)) : Eff ext c args N s s' := by
  simp only [Store.sAdd] at h
  rcases loadSet_cases ht k false with ⟨hg, hl⟩ | ⟨info, hg, hty, hl⟩ | ⟨a, l, hg, ho, hl⟩ <;>
    simp only [hl, bind, Except.bind, Bool.false_and, Bool.false_eq_true, if_false] at h
  · cases h; exact .one (.new hk (.inl ⟨by rcases hc with rfl | rfl <;> simp [Cmd.isCreator], hg⟩) (.set (.sadd hc hv)) (.refl _))
  · cases h; exact .refl
  · cases h; exact .one (.write' hk ho hg (.sadd hc hv) (.refl _))

theorem sRem_eff {k : Bytes} {vs : List Bytes} {r} (ht : Typed s) (hc : c = .sRem) (hk : k ∈ N)
    (h : s.sRem k vs = .ok (s', r)) : Eff ext c args N s s' := by
  simp only [Store.sRem] at h
  rcases loadSet_cases ht k true with ⟨hg, hl⟩ | ⟨info, hg, hty, hl⟩ | ⟨a, l, hg, ho, hl⟩ <;>
    simp only [hl, bind, Except.bind] at h
  · cases h; exact .refl
  · cases h; exact .refl
  · split at h
    · cases h
    · next hx =>
      split at hx
      · cases hx; cases h; exact .refl
      · cases hx; cases h; exact .one (.write' hk ho hg (.srem hc) (.refl _))

theorem sPop_eff {it : Iter} {k : Bytes} {n : Int} {r} (ht : Typed s) (hc : c = .sPop) (hk : k ∈ N)
    (h : Store.sPop it s k n = .ok (s', r)) : Eff ext c args N s s' := by
  simp only [Store.sPop] at h
  rcases loadSet_cases ht k true with ⟨hg, hl⟩ | ⟨info, hg, hty, hl⟩ | ⟨a, l, hg, ho, hl⟩ <;>
    simp only [hl, bind, Except.bind] at h
  · cases h; exact .refl
  · cases h; exact .refl
  · split at h
    · cases h
    · next hx =>
      split at hx
      · cases hx; cases h; exact .refl
      · cases hx; cases h; exact .one (.write' hk ho hg (.spop hc) (.refl _))

theorem sMove_eff {k t v : Bytes} {r} (ht : Typed s) (hc : c = .sMove) (hk : k ∈ N) (htN : t ∈ N)
    (h : s.sMove k t v = .ok (s', r)) : Eff ext c args N s s' := by
  simp only [Store.sMove] at h
  rcases loadSet_cases ht k true with ⟨hg, hl⟩ | ⟨info, hg, hty, hl⟩ | ⟨a, l, hg, ho, hl⟩ <;>
    simp only [hl, bind, Except.bind] at h
  · cases h; exact .refl
  · cases h; exact .refl
  · split at h
    · cases h
    · next hx =>
      split at hx
      · cases hx; cases h; exact .refl
      · cases hx
        dsimp only at h
        have hch : Change ext c args N s (s.write a (.set ⟨(l.m.deleteIfExists v).1, l.length⟩)) :=
          .write' hk ho hg (.smove hc) (.refl _)
        split at h
        · cases h; exact .one hch
        · exact .step hch (sAdd_eff (hch.typed ht) (.inr hc) htN (by simp) h)

theorem setOpLoop_cases {it : Iter} {op : Store.SetOp} (ht : Typed s) :
    ∀ (keys : List Bytes) (res : Option Store.SPtr) (out : Option Store.SPtr),
      Store.setOpLoop it op s keys res = .ok (.ok out) →
      (keys = [] ∧ out = res) ∨
      (∃ k r o, keys = [k] ∧ res = none ∧ s.keys.get k = some ⟨.set, .ref r⟩ ∧ s.heap[r]? = some (.set o) ∧
        out = some (some r, o)) ∨
      (∃ a b, out = some (none, op.apply it a b))
  | [], res, out, h => by
    simp only [Store.setOpLoop] at h; cases h; exact .inl ⟨rfl, rfl⟩
  | k :: keys, res, out, h => by
    simp only [Store.setOpLoop] at h
    rcases loadSet_cases ht k true with ⟨hg, hl⟩ | ⟨info, hg, hty, hl⟩ | ⟨a, l, hg, ho, hl⟩ <;>
      simp only [hl, bind, Except.bind] at h
    · cases h
    · cases h
    · split at h
      · cases h
      · next hx =>
        split at hx
        · cases hx; cases h
        · cases hx
          dsimp only at h
          cases res with
          | none =>
            rcases setOpLoop_cases ht keys _ _ h with ⟨h1, h2⟩ | ⟨_, _, _, _, h2, _⟩ | h3
            · exact .inr (.inl ⟨k, a, l, by rw [h1], rfl, hg, ho, h2⟩)
            · cases h2
            · exact .inr (.inr h3)
          | some p =>
            rcases setOpLoop_cases ht keys _ _ h with ⟨h1, h2⟩ | ⟨_, _, _, _, h2, _⟩ | h3
            · exact .inr (.inr ⟨_, _, h2⟩)
            · cases h2
            · exact .inr (.inr h3)

theorem sOpStore_eff {it : Iter} {op : Store.SetOp} {dst k : Bytes} {ks : List Bytes} {r} (ht : Typed s)
    (hc : c.isStoreOp) (ha : args = dst :: k :: ks) (hN : N = args)
    (h : Store.sOpStore it op s dst (k :: ks) = .ok (s', r)) : Eff ext c args N s s' := by
  simp only [Store.sOpStore, bind, Except.bind] at h
  split at h
  · cases h
  · next v hloop =>
    have hd : dst ∈ N := by rw [hN, ha]; simp
    split at h
    · cases h; exact .refl
    · rcases setOpLoop_cases ht _ _ _ hloop with ⟨h1, h2⟩ | ⟨_, _, _, _, _, _, _, h2⟩ | ⟨_, _, h3⟩
      · cases h1
      · cases h2
      · cases h3
    · rcases setOpLoop_cases ht _ _ _ hloop with ⟨h1, h2⟩ | ⟨_, _, _, _, _, _, _, h2⟩ | ⟨a, b, h3⟩
      · cases h1
      · cases h2
      · cases h3; cases h; exact .one (.new hd (.inr hc) (.op hc) (.refl _))
    · rcases setOpLoop_cases ht _ _ _ hloop with ⟨h1, h2⟩ | ⟨k', r', o', hks, _, hg, _, h2⟩ | ⟨a, b, h3⟩
      · cases h1
      · cases h2; cases h
        simp only [List.cons.injEq] at hks
        obtain ⟨rfl, rfl⟩ := hks
        exact .one (.alias hc ha hd (by rw [hN, ha]; simp) hg)
      · cases h3

theorem updateScore_rng {z : ZSL} {a b v rng p} (h : z.updateScore a b v rng = .ok p) : RShift rng p.2.2 := by
  simp only [ZSL.updateScore, bind, Except.bind] at h
  repeat' split at h
  all_goals first | cases h; done | (cases h; exact .refl _) | (cases h; exact .step _)

theorem zAdd_rng {z : ZObj} {sc v flag rng p} (h : z.zAdd ext sc v flag rng = .ok p) : RShift rng p.2.2 := by
  have hU : ∀ z : ZSL, ∀ a b v p, z.updateScore a b v rng = .ok p → RShift rng p.2.2 :=
    fun z a b v p h => updateScore_rng h
  simp only [ZObj.zAdd, bind, Except.bind] at h
  generalize ZSL.updateScore = U at h hU
  repeat' split at h
  all_goals first | cases h; done | (cases h; exact .refl _) | (cases h; exact .step _) | skip
  all_goals (cases h; exact hU _ _ _ _ _ (by assumption))

theorem zAddAll_rng {flag} : ∀ (ms : List (F64 × Bytes)) (z : ZObj) (rng : Rng) {p},
    z.zAddAll ext flag ms rng = .ok p → RShift rng p.2.2
  | [], z, rng, p, h => by simp only [ZObj.zAddAll] at h; cases h; exact .refl _
  | (sc, v) :: ms, z, rng, p, h => by
    simp only [ZObj.zAddAll, bind, Except.bind] at h
    split at h
    · cases h
    · next h1 =>
      split at h
      · cases h
      · next h2 =>
        have h3 := zAddAll_rng ms _ _ h2
        cases h; exact (zAdd_rng h1).trans h3

theorem zAdd_eff {k : Bytes} {ms : List (F64 × Bytes)} {flag} {r} (ht : Typed s) (hc : c = .zAdd) (hk : k ∈ N)
    (ha : zAddArgs ext (args.drop 1) {} = some (ms, flag))
    (h : s.zAdd ext k ms flag = .ok (s', r)) : Eff ext c args N s s' := by
  simp only [Store.zAdd] at h
  rcases loadZSet_cases ht k false with ⟨hg, hl⟩ | ⟨info, hg, hty, hl⟩ | ⟨a, l, hg, ho, hl⟩ <;>
    simp only [hl, bind, Except.bind, Bool.false_and, Bool.false_eq_true, if_false] at h
  · cases hp : ZObj.empty.zAddAll ext flag ms s.rng with
    | error e => simp only [hp] at h; cases h
    | ok p =>
      simp only [hp] at h; cases h
      exact .one (.new hk (.inl ⟨by simp [Cmd.isCreator, hc], hg⟩) (.zset (.zadd hc ha hp)) (zAddAll_rng _ _ _ hp))
  · cases h; exact .refl
  · cases hp : l.zAddAll ext flag ms s.rng with
    | error e => simp only [hp] at h; cases h
    | ok p =>
      simp only [hp] at h; cases h
      exact .one (.write' hk ho hg (.zadd hc ha hp) (zAddAll_rng _ _ _ hp))

theorem zIncr_eff {k v a : Bytes} {sc : F64} {r} (ht : Typed s) (hc : c = .zIncr) (hk : k ∈ N)
    (ha : a ∈ args) (hsc : ext.parseFloat a = some sc)
    (h : s.zIncr ext k sc v = .ok (s', r)) : Eff ext c args N s s' := by
  simp only [Store.zIncr] at h
  rcases loadZSet_cases ht k false with ⟨hg, hl⟩ | ⟨info, hg, hty, hl⟩ | ⟨a, l, hg, ho, hl⟩ <;>
    simp only [hl, bind, Except.bind, Bool.false_and, Bool.false_eq_true, if_false] at h
  · cases hp : ZObj.empty.zAdd ext sc v { incr := true } s.rng with
    | error e => simp only [hp] at h; cases h
    | ok p =>
      have hch : ∀ N, k ∈ N → Eff ext c args N s { s.putNew k .sortedSet (.zset p.1) with rng := p.2.2 } :=
        fun N hk => .one (.new hk (.inl ⟨by simp [Cmd.isCreator, hc], hg⟩) (.zset (.zincr hc ha hsc hp)) (zAdd_rng hp))
      simp only [hp] at h
      split at h
      · cases h; exact hch N hk
      · split at h
        · cases h
        · cases h; exact hch N hk
  · cases h; exact .refl
  · cases hp : l.zAdd ext sc v { incr := true } s.rng with
    | error e => simp only [hp] at h; cases h
    | ok p =>
      have hch : Eff ext c args N s { s.write a (.zset p.1) with rng := p.2.2 } :=
        .one (.write' hk ho hg (.zincr hc ha hsc hp) (zAdd_rng hp))
      simp only [hp] at h
      split at h
      · cases h; exact hch
      · split at h
        · cases h
        · cases h; exact hch

theorem zRem_eff {k : Bytes} {vs : List Bytes} {r} (ht : Typed s) (hc : c = .zRem) (hk : k ∈ N)
    (h : s.zRem k vs = .ok (s', r)) : Eff ext c args N s s' := by
  simp only [Store.zRem] at h
  rcases loadZSet_cases ht k true with ⟨hg, hl⟩ | ⟨info, hg, hty, hl⟩ | ⟨a, l, hg, ho, hl⟩ <;>
    simp only [hl, bind, Except.bind] at h
  · cases h; exact .refl
  · cases h; exact .refl
  · split at h
    · cases h
    · next hx =>
      split at hx
      · cases hx; cases h; exact .refl
      · cases hx
        cases hp : l.zRemAll vs with
        | error e => simp only [hp] at h; cases h
        | ok p => simp only [hp] at h; cases h; exact .one (.write' hk ho hg (.zrem hc hp) (.refl _))

theorem zPopMin_eff {k : Bytes} {n : Int} {r} (ht : Typed s) (hc : c = .zPopMin) (hk : k ∈ N)
    (h : s.zPopMin ext k n = .ok (s', r)) : Eff ext c args N s s' := by
  simp only [Store.zPopMin] at h
  rcases loadZSet_cases ht k true with ⟨hg, hl⟩ | ⟨info, hg, hty, hl⟩ | ⟨a, l, hg, ho, hl⟩ <;>
    simp only [hl, bind, Except.bind] at h
  · cases h; exact .refl
  · cases h; exact .refl
  · split at h
    · cases h
    · next hx =>
      split at hx
      · cases hx; cases h; exact .refl
      · cases hx
        cases hp : ZObj.zPopMinLoop ext n.toNat l.zsl with
        | error e => simp only [hp] at h; cases h
        | ok p => simp only [hp] at h; cases h; exact .one (.write' hk ho hg (.zpopmin hc hp) (.refl _))

theorem zPopMax_eff {k : Bytes} {n : Int} {r} (ht : Typed s) (hc : c = .zPopMix) (hk : k ∈ N)
    (h : s.zPopMax ext k n = .ok (s', r)) : Eff ext c args N s s' := by
  simp only [Store.zPopMax] at h
  rcases loadZSet_cases ht k true with ⟨hg, hl⟩ | ⟨info, hg, hty, hl⟩ | ⟨a, l, hg, ho, hl⟩ <;>
    simp only [hl, bind, Except.bind] at h
  · cases h; exact .refl
  · cases h; exact .refl
  · split at h
    · cases h
    · next hx =>
      split at hx
      · cases hx; cases h; exact .refl
      · cases hx
        cases hp : ZObj.zPopMaxLoop ext n.toNat l.zsl with
        | error e => simp only [hp] at h; cases h
        | ok p => simp only [hp] at h; cases h; exact .one (.write' hk ho hg (.zpopmax hc hp) (.refl _))

end

/-! ## Effects of the commands -/

/-- the name a command function is registered under -/
def Cmd.name (c : Cmd) : Bytes :=
  ((implementedCommands.find? (fun p => p.2 = c)).map (·.1)).getD []

theorem lookup_name {name : Bytes} {c : Cmd} (h : lookupCmd name = some c) : name = c.name := by
  have key : ∀ (l : List (Bytes × Cmd)), GoMap.get l name = some c → (name, c) ∈ l := by
    intro l
    induction l with
    | nil => intro h; simp [GoMap.get] at h
    | cons p l ih =>
      obtain ⟨k, v⟩ := p
      intro h
      simp only [GoMap.get] at h
      split at h
      · next hk => cases h; subst hk; simp
      · exact List.mem_cons_of_mem _ (ih h)
  have hm := key _ h
  have hall : ∀ p ∈ implementedCommands, p.1 = p.2.name := by decide +kernel
  exact hall _ hm

/-- results of the reply helpers -/
theorem intReply_fst {s s' : Store} {r o} (h : intReply s r = .ok (s', o)) : s' = s := by
  unfold intReply at h; split at h <;> (cases h; rfl)
theorem intReplyNilOk_fst {s s' : Store} {r o} (h : intReplyNilOk s r = .ok (s', o)) : s' = s := by
  unfold intReplyNilOk at h; split at h <;> (cases h; rfl)
theorem arrReply_fst {s s' : Store} {n r o} (h : arrReply s n r = .ok (s', o)) : s' = s := by
  unfold arrReply at h; split at h <;> (cases h; rfl)
theorem zPopReply_fst {s s' : Store} {r o} (h : zPopReply s r = .ok (s', o)) : s' = s := by
  unfold zPopReply at h
  split at h
  · cases h; rfl
  · split at h <;> (cases h; rfl)

/-- `x >>= f` succeeded -/
theorem bind_ok {α β : Type} {x : Go α} {f : α → Go β} {b : β} (h : (x >>= f) = .ok b) :
    ∃ a, x = .ok a ∧ f a = .ok b := by
  cases x with
  | error e => cases h
  | ok a => exact ⟨a, rfl, h⟩

/-- `keyArgs` of a one-key command -/
def oneKey (c : Cmd) : Prop := ∀ args, keyArgs c.name args = args.take 1

section
variable {ext : Ext} {it : Iter} {s s' : Store} {args : List Bytes} {o : Except Err Response}

theorem read_eff {c : Cmd} {N : List Bytes} (h : s' = s) : Eff ext c args N s s' := h ▸ .refl

/-- the read commands leave the store as it is -/
theorem read_same (c : Cmd)
    (hc : c ∈ [Cmd.get, .mget, .keys, .exists, .keyType, .ping, .command, .lLen, .lRange, .lIndex, .sCard, .sDiff,
      .sInter, .sUnion, .sIsMember, .sMembers, .hExists, .hGet, .hGetAll, .hKeys, .hLen, .hMGet, .hVals, .zScore,
      .zRank, .zCard, .zCount, .zRange, .zRangeByScore, .zRevRange])
    (h : c.fn ext it s args = .ok (s', o)) : s' = s := by
  simp only [List.mem_cons, List.not_mem_nil, or_false] at hc
  rcases hc with rfl | rfl | rfl | rfl | rfl | rfl | rfl | rfl | rfl | rfl | rfl | rfl | rfl | rfl | rfl | rfl | rfl |
    rfl | rfl | rfl | rfl | rfl | rfl | rfl | rfl | rfl | rfl | rfl | rfl | rfl <;>
  simp only [Cmd.fn, cmdGet, cmdMGet, cmdKeys, cmdExists, cmdType, cmdPing, cmdCommand, cmdLLen, cmdLRange, cmdLIndex,
    cmdSCard, cmdSOp, cmdSIsMember, cmdSMembers, cmdHExists, cmdHGet, cmdHGetAll, cmdHKeys, cmdHLen, cmdHMGet,
    cmdHVals, cmdZScore, cmdZRank, cmdZCard, cmdZCount, cmdZRange, cmdZRangeByScore, cmdZRevRange, notEnough, retErr,
    retOk, bind, Except.bind] at h <;>
  (repeat' split at h) <;>
  first
    | exact intReply_fst h
    | exact intReplyNilOk_fst h
    | exact arrReply_fst h
    | (cases h; rfl)
    | cases h


theorem oneKey_mem {c : Cmd} (hc : oneKey c) (k : Bytes) (rest : List Bytes) : k ∈ keyArgs c.name (k :: rest) := by
  rw [hc]; simp

macro "one_key" : tactic => `(tactic| (intro args; rfl))

theorem hDel_same {k f : Bytes} {r} (ht : Typed s) (h : s.hDel k f = .ok (s', r)) : s' = s := by
  simp only [Store.hDel] at h
  rcases loadHash_cases ht k true with ⟨_, hl⟩ | ⟨_, _, _, hl⟩ <;>
    (simp only [hl, bind, Except.bind] at h; cases h; rfl)

theorem hIncrBy_same {k f : Bytes} {i : Int} {r} (ht : Typed s) (h : s.hIncrBy k f i = .ok (s', r)) : s' = s := by
  simp only [Store.hIncrBy] at h
  rcases loadHash_cases ht k false with ⟨_, hl⟩ | ⟨_, _, _, hl⟩ <;>
    simp only [hl, bind, Except.bind] at h
  · split at h <;> (cases h; rfl)
  · cases h; rfl

theorem hIncrByFloat_same {k f : Bytes} {i : F64} {r} (ht : Typed s)
    (h : s.hIncrByFloat ext k f i = .ok (s', r)) : s' = s := by
  simp only [Store.hIncrByFloat] at h
  rcases loadHash_cases ht k false with ⟨_, hl⟩ | ⟨_, _, _, hl⟩ <;>
    simp only [hl, bind, Except.bind] at h
  · split at h <;> (cases h; rfl)
  · cases h; rfl

theorem hSet_same {k : Bytes} {nx : Bool} {kvs} {r} (ht : Typed s)
    (h : s.hSet k nx kvs = .ok (s', r)) : s' = s := by
  simp only [Store.hSet] at h
  rcases loadHash_cases ht k false with ⟨_, hl⟩ | ⟨_, _, _, hl⟩ <;>
    (simp only [hl, bind, Except.bind] at h; cases h; rfl)

/-- hash commands never change a typed store -/
theorem hash_same (c : Cmd) (hc : c ∈ [Cmd.hDel, .hIncrBy, .hIncrByFloat, .hMSet, .hSet, .hSetNx]) (ht : Typed s)
    (h : c.fn ext it s args = .ok (s', o)) : s' = s := by
  simp only [List.mem_cons, List.not_mem_nil, or_false] at hc
  rcases hc with rfl | rfl | rfl | rfl | rfl | rfl <;>
  simp only [Cmd.fn, cmdHDel, cmdHIncrBy, cmdHIncrByFloat, cmdHMSet, cmdHSet, cmdHSetNx, notEnough, retErr,
    retOk] at h
  · split at h
    · obtain ⟨⟨s1, r⟩, h1, h2⟩ := bind_ok h
      cases intReplyNilOk_fst h2; exact hDel_same ht h1
    · cases h; rfl
  · split at h
    · split at h
      · cases h; rfl
      · obtain ⟨⟨s1, r⟩, h1, h2⟩ := bind_ok h
        cases intReply_fst h2; exact hIncrBy_same ht h1
    · cases h; rfl
  · split at h
    · split at h
      · cases h; rfl
      · obtain ⟨⟨s1, r⟩, h1, h2⟩ := bind_ok h
        have : s' = s1 := by
          split at h2 <;> next heq => cases heq; cases h2; rfl
        cases this; exact hIncrByFloat_same ht h1
    · cases h; rfl
  · split at h
    · obtain ⟨⟨s1, r⟩, h1, h2⟩ := bind_ok h
      have : s' = s1 := by
        split at h2 <;> next heq => cases heq; cases h2; rfl
      cases this; exact hSet_same ht h1
    · cases h; rfl
  · split at h
    · obtain ⟨⟨s1, r⟩, h1, h2⟩ := bind_ok h
      cases intReply_fst h2; exact hSet_same ht h1
    · cases h; rfl
  · split at h
    · obtain ⟨⟨s1, r⟩, h1, h2⟩ := bind_ok h
      cases intReply_fst h2; exact hSet_same ht h1
    · cases h; rfl

theorem fn_eff (c : Cmd) (ht : Typed s) (h : c.fn ext it s args = .ok (s', o)) :
    Eff ext c args (keyArgs c.name args) s s' := by
  cases c
  case get | mget | keys | «exists» | keyType | ping | command | lLen | lRange | lIndex | sCard | sDiff |
      sInter | sUnion | sIsMember | sMembers | hExists | hGet | hGetAll | hKeys | hLen | hMGet | hVals | zScore |
      zRank | zCard | zCount | zRange | zRangeByScore | zRevRange =>
    exact read_eff (read_same _ (by simp) h)
  case hDel | hIncrBy | hIncrByFloat | hMSet | hSet | hSetNx =>
    exact read_eff (hash_same _ (by simp) ht h)
  case set =>
    simp only [Cmd.fn, cmdSet] at h
    split at h
    · cases h; exact .one (.str (.inl rfl) (oneKey_mem (by one_key) _ _))
    · cases h; exact .refl
  case mSet =>
    simp only [Cmd.fn, cmdMSet] at h
    split at h
    · cases h; exact .refl
    · cases h
      exact mSet_eff (.inr (.inl rfl)) args s (fun k hk => hk)
  case incr =>
    simp only [Cmd.fn, cmdIncr] at h
    split at h
    · obtain ⟨⟨s1, r⟩, h1, h2⟩ := bind_ok h
      cases intReply_fst h2
      exact incrBy_eff (by simp [Cmd.isStringWrite]) (oneKey_mem (by one_key) _ _) h1
    · cases h; exact .refl
  case decr =>
    simp only [Cmd.fn, cmdDecr] at h
    split at h
    · obtain ⟨⟨s1, r⟩, h1, h2⟩ := bind_ok h
      cases intReply_fst h2
      exact incrBy_eff (by simp [Cmd.isStringWrite]) (oneKey_mem (by one_key) _ _) h1
    · cases h; exact .refl
  case incrBy =>
    simp only [Cmd.fn, cmdIncrBy] at h
    split at h
    · split at h
      · cases h; exact .refl
      · obtain ⟨⟨s1, r⟩, h1, h2⟩ := bind_ok h
        cases intReply_fst h2
        exact incrBy_eff (by simp [Cmd.isStringWrite]) (oneKey_mem (by one_key) _ _) h1
    · cases h; exact .refl
  case decrBy =>
    simp only [Cmd.fn, cmdDecrBy] at h
    split at h
    · split at h
      · cases h; exact .refl
      · obtain ⟨⟨s1, r⟩, h1, h2⟩ := bind_ok h
        cases intReply_fst h2
        exact incrBy_eff (by simp [Cmd.isStringWrite]) (oneKey_mem (by one_key) _ _) h1
    · cases h; exact .refl
  case stringAppend =>
    simp only [Cmd.fn, cmdAppend] at h
    split at h
    · obtain ⟨⟨s1, r⟩, h1, h2⟩ := bind_ok h
      cases intReply_fst h2
      exact append_eff (by simp [Cmd.isStringWrite]) (oneKey_mem (by one_key) _ _) h1
    · cases h; exact .refl
  case del =>
    simp only [Cmd.fn, cmdDel] at h
    split at h
    · next k rest =>
      simp only [Store.del, SMap.deleteIfExists, retOk] at h
      split at h
      · cases h; exact .one (.del rfl (oneKey_mem (by one_key) _ _))
      · cases h; exact .refl
    · cases h; exact .refl
  case lPush =>
    simp only [Cmd.fn, cmdLPush] at h
    split at h
    · obtain ⟨⟨s1, r⟩, h1, h2⟩ := bind_ok h
      cases intReply_fst h2
      exact lPush_eff ht rfl (oneKey_mem (by one_key) _ _) (by simp) h1
    · cases h; exact .refl
  case rPush =>
    simp only [Cmd.fn, cmdRPush] at h
    split at h
    · obtain ⟨⟨s1, r⟩, h1, h2⟩ := bind_ok h
      cases intReply_fst h2
      exact rPush_eff ht rfl (oneKey_mem (by one_key) _ _) (by simp) h1
    · cases h; exact .refl
  case lPop =>
    simp only [Cmd.fn, cmdLPop] at h
    split at h
    · split at h
      · cases h; exact .refl
      · obtain ⟨⟨s1, r⟩, h1, h2⟩ := bind_ok h
        cases arrReply_fst h2
        exact lPop_eff ht rfl (oneKey_mem (by one_key) _ _) h1
    · cases h; exact .refl
  case rPop =>
    simp only [Cmd.fn, cmdRPop] at h
    split at h
    · split at h
      · cases h; exact .refl
      · obtain ⟨⟨s1, r⟩, h1, h2⟩ := bind_ok h
        cases arrReply_fst h2
        exact rPop_eff ht rfl (oneKey_mem (by one_key) _ _) h1
    · cases h; exact .refl
  case lRem =>
    simp only [Cmd.fn, cmdLRem] at h
    split at h
    · split at h
      · cases h; exact .refl
      · obtain ⟨⟨s1, r⟩, h1, h2⟩ := bind_ok h
        cases intReplyNilOk_fst h2
        exact lRem_eff ht rfl (oneKey_mem (by one_key) _ _) h1
    · cases h; exact .refl
  case lSet =>
    simp only [Cmd.fn, cmdLSet] at h
    split at h
    · split at h
      · cases h; exact .refl
      · obtain ⟨⟨s1, r⟩, h1, h2⟩ := bind_ok h
        have : s' = s1 := by
          split at h2 <;> next heq => cases heq; cases h2; rfl
        cases this
        exact lSet_eff ht rfl (oneKey_mem (by one_key) _ _) h1
    · cases h; exact .refl
  case lInsert =>
    simp only [Cmd.fn, cmdLInsert] at h
    split at h
    · split at h
      · obtain ⟨⟨s1, r⟩, h1, h2⟩ := bind_ok h
        cases intReply_fst h2
        exact lInsert_eff ht rfl (oneKey_mem (by one_key) _ _) (.inl rfl) h1
      · split at h
        · obtain ⟨⟨s1, r⟩, h1, h2⟩ := bind_ok h
          cases intReply_fst h2
          exact lInsert_eff ht rfl (oneKey_mem (by one_key) _ _) (.inr rfl) h1
        · cases h; exact .refl
    · cases h; exact .refl
  case sAdd =>
    simp only [Cmd.fn, cmdSAdd] at h
    split at h
    · obtain ⟨⟨s1, r⟩, h1, h2⟩ := bind_ok h
      cases intReply_fst h2
      exact sAdd_eff ht (.inl rfl) (oneKey_mem (by one_key) _ _) (by simp) h1
    · cases h; exact .refl
  case sDiffStore =>
    simp only [Cmd.fn, cmdSOpStore] at h
    split at h
    · obtain ⟨⟨s1, r⟩, h1, h2⟩ := bind_ok h
      cases intReply_fst h2
      exact sOpStore_eff ht (by simp [Cmd.isStoreOp]) rfl rfl h1
    · cases h; exact .refl
  case sInterStore =>
    simp only [Cmd.fn, cmdSOpStore] at h
    split at h
    · obtain ⟨⟨s1, r⟩, h1, h2⟩ := bind_ok h
      cases intReply_fst h2
      exact sOpStore_eff ht (by simp [Cmd.isStoreOp]) rfl rfl h1
    · cases h; exact .refl
  case sUnionStore =>
    simp only [Cmd.fn, cmdSOpStore] at h
    split at h
    · obtain ⟨⟨s1, r⟩, h1, h2⟩ := bind_ok h
      cases intReply_fst h2
      exact sOpStore_eff ht (by simp [Cmd.isStoreOp]) rfl rfl h1
    · cases h; exact .refl
  case sMove =>
    simp only [Cmd.fn, cmdSMove] at h
    split at h
    · next src dst v rest =>
      obtain ⟨⟨s1, r⟩, h1, h2⟩ := bind_ok h
      cases intReply_fst h2
      have hN : keyArgs Cmd.sMove.name (src :: dst :: v :: rest) = [src, dst] := rfl
      exact sMove_eff ht rfl (by rw [hN]; simp) (by rw [hN]; simp) h1
    · cases h; exact .refl
  case sRem =>
    simp only [Cmd.fn, cmdSRem] at h
    split at h
    · obtain ⟨⟨s1, r⟩, h1, h2⟩ := bind_ok h
      cases intReplyNilOk_fst h2
      exact sRem_eff ht rfl (oneKey_mem (by one_key) _ _) h1
    · cases h; exact .refl
  case sPop =>
    simp only [Cmd.fn, cmdSPop] at h
    split at h
    · split at h
      · cases h; exact .refl
      · obtain ⟨⟨s1, r⟩, h1, h2⟩ := bind_ok h
        cases arrReply_fst h2
        exact sPop_eff ht rfl (oneKey_mem (by one_key) _ _) h1
    · cases h; exact .refl
  case zAdd =>
    simp only [Cmd.fn, cmdZAdd] at h
    split at h
    · split at h
      · cases h; exact .refl
      · next ha =>
        obtain ⟨⟨s1, r⟩, h1, h2⟩ := bind_ok h
        cases intReply_fst h2
        exact zAdd_eff ht rfl (oneKey_mem (by one_key) _ _) ha h1
    · cases h; exact .refl
  case zIncr =>
    simp only [Cmd.fn, cmdZIncr] at h
    split at h
    · next k d v rest =>
      split at h
      · cases h; exact .refl
      · next sc hsc =>
        obtain ⟨⟨s1, r⟩, h1, h2⟩ := bind_ok h
        have : s' = s1 := by
          split at h2 <;> next heq => cases heq; cases h2; rfl
        cases this
        exact zIncr_eff ht rfl (oneKey_mem (by one_key) _ _) (a := d) (by simp) hsc h1
    · cases h; exact .refl
  case zRem =>
    simp only [Cmd.fn, cmdZRem] at h
    split at h
    · obtain ⟨⟨s1, r⟩, h1, h2⟩ := bind_ok h
      cases intReplyNilOk_fst h2
      exact zRem_eff ht rfl (oneKey_mem (by one_key) _ _) h1
    · cases h; exact .refl
  case zPopMin =>
    simp only [Cmd.fn, cmdZPopMin] at h
    split at h
    · split at h
      · cases h; exact .refl
      · obtain ⟨⟨s1, r⟩, h1, h2⟩ := bind_ok h
        cases zPopReply_fst h2
        exact zPopMin_eff ht rfl (oneKey_mem (by one_key) _ _) h1
    · cases h; exact .refl
  case zPopMix =>
    simp only [Cmd.fn, cmdZPopMax] at h
    split at h
    · split at h
      · cases h; exact .refl
      · obtain ⟨⟨s1, r⟩, h1, h2⟩ := bind_ok h
        cases zPopReply_fst h2
        exact zPopMax_eff ht rfl (oneKey_mem (by one_key) _ _) h1
    · cases h; exact .refl

end

end Godis
