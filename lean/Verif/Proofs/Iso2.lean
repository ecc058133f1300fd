import Verif.Proofs.Iso
/-!
# Stores that agree on some keys: the functions of `datastruct`
-/
namespace Godis
open Same (G)
namespace IsoB
variable {K : Bytes → Prop} {B : Nat → Nat → Prop} {s t : Store}

theorem G.bindSame {α γ δ : Type} {Q : γ → δ → Prop} {x : Go α} {f : α → Go γ} {g : α → Go δ}
    (hf : ∀ a, G Q (f a) (g a)) : G Q (x >>= f) (x >>= g) :=
  Same.G.bindEq rfl hf

/-- one step of the comparison of a function on two stores -/
macro "iso_step" h:ident hk:ident : tactic => `(tactic| first
  | exact G.error
  | exact G.ok rfl
  | exact G.ok ⟨⟨⟨_, $h⟩, rfl, rfl⟩, rfl⟩
  | exact G.ok ⟨⟨⟨_, IsoB.putNew $h $hk _ _⟩, rfl, rfl⟩, rfl⟩
  | exact G.ok ⟨⟨⟨_, IsoB.setKey $h $hk InfoRel.str⟩, rfl, rfl⟩, rfl⟩
  | refine G.bindSame (fun _ => ?_)
  | split)

/-- after loading -/
macro "iso_write" h:ident hb:ident : tactic => `(tactic| first
  | exact G.error
  | exact G.ok rfl
  | exact G.ok ⟨⟨⟨_, $h⟩, rfl, rfl⟩, rfl⟩
  | exact G.ok ⟨⟨⟨_, IsoB.write $h $hb _⟩, rfl, rfl⟩, rfl⟩
  | refine G.bindSame (fun _ => ?_)
  | split)

section
variable (h : IsoB K B s t) {k : Bytes} (hk : K k)
include h hk

macro "iso_fn" h:ident hk:ident l:term : tactic => `(tactic| (
  refine Same.G.bind $l ?_
  rintro _ _ (e | hb)
  · cases e <;> (simp only; repeat' iso_step $h $hk)
  · simp only; repeat' iso_write $h hb))

theorem lPush (vs) : G (RI K s.rng t.rng) (s.lPush k vs) (t.lPush k vs) := by
  unfold Store.lPush; iso_fn h hk (h.loadList hk _)
theorem rPush (vs) : G (RI K s.rng t.rng) (s.rPush k vs) (t.rPush k vs) := by
  unfold Store.rPush; iso_fn h hk (h.loadList hk _)
theorem lPop (c) : G (RI K s.rng t.rng) (s.lPop k c) (t.lPop k c) := by
  unfold Store.lPop; iso_fn h hk (h.loadList hk _)
theorem rPop (c) : G (RI K s.rng t.rng) (s.rPop k c) (t.rPop k c) := by
  unfold Store.rPop; iso_fn h hk (h.loadList hk _)
theorem lRem (c v) : G (RI K s.rng t.rng) (s.lRem k c v) (t.lRem k c v) := by
  unfold Store.lRem; iso_fn h hk (h.loadList hk _)
theorem lSet (i v) : G (RI K s.rng t.rng) (s.lSet k i v) (t.lSet k i v) := by
  unfold Store.lSet; iso_fn h hk (h.loadList hk _)
theorem lInsert (x v p) : G (RI K s.rng t.rng) (s.lInsert k x v p) (t.lInsert k x v p) := by
  unfold Store.lInsert; iso_fn h hk (h.loadList hk _)
theorem sAdd (vs) : G (RI K s.rng t.rng) (s.sAdd k vs) (t.sAdd k vs) := by
  unfold Store.sAdd; iso_fn h hk (h.loadSet hk _)
theorem sRem (vs) : G (RI K s.rng t.rng) (s.sRem k vs) (t.sRem k vs) := by
  unfold Store.sRem; iso_fn h hk (h.loadSet hk _)
theorem sPop (it c) : G (RI K s.rng t.rng) (Store.sPop it s k c) (Store.sPop it t k c) := by
  unfold Store.sPop; iso_fn h hk (h.loadSet hk _)
theorem hDel (f) : G (RI K s.rng t.rng) (s.hDel k f) (t.hDel k f) := by
  unfold Store.hDel; iso_fn h hk (h.loadHash hk _)
theorem hIncrBy (f i) : G (RI K s.rng t.rng) (s.hIncrBy k f i) (t.hIncrBy k f i) := by
  unfold Store.hIncrBy; iso_fn h hk (h.loadHash hk _)
theorem hIncrByFloat (ext f i) : G (RI K s.rng t.rng) (s.hIncrByFloat ext k f i) (t.hIncrByFloat ext k f i) := by
  unfold Store.hIncrByFloat; iso_fn h hk (h.loadHash hk _)
theorem hSet (nx kvs) : G (RI K s.rng t.rng) (s.hSet k nx kvs) (t.hSet k nx kvs) := by
  unfold Store.hSet; iso_fn h hk (h.loadHash hk _)
theorem zRem (vs) : G (RI K s.rng t.rng) (s.zRem k vs) (t.zRem k vs) := by
  unfold Store.zRem; iso_fn h hk (h.loadZSet hk _)
theorem zPopMin (ext c) : G (RI K s.rng t.rng) (s.zPopMin ext k c) (t.zPopMin ext k c) := by
  unfold Store.zPopMin; iso_fn h hk (h.loadZSet hk _)
theorem zPopMax (ext c) : G (RI K s.rng t.rng) (s.zPopMax ext k c) (t.zPopMax ext k c) := by
  unfold Store.zPopMax; iso_fn h hk (h.loadZSet hk _)

theorem lLen : G Eq (s.lLen k) (t.lLen k) := by
  unfold Store.lLen; iso_fn h hk (h.loadList hk _)
theorem lRange (a b) : G Eq (s.lRange k a b) (t.lRange k a b) := by
  unfold Store.lRange; iso_fn h hk (h.loadList hk _)
theorem lIndex (i) : G Eq (s.lIndex k i) (t.lIndex k i) := by
  unfold Store.lIndex; iso_fn h hk (h.loadList hk _)
theorem sCard : G Eq (s.sCard k) (t.sCard k) := by
  unfold Store.sCard; iso_fn h hk (h.loadSet hk _)
theorem sIsMember (v) : G Eq (s.sIsMember k v) (t.sIsMember k v) := by
  unfold Store.sIsMember; iso_fn h hk (h.loadSet hk _)
theorem sMembers (it) : G Eq (Store.sMembers it s k) (Store.sMembers it t k) := by
  unfold Store.sMembers; iso_fn h hk (h.loadSet hk _)
theorem hExists (f) : G Eq (s.hExists k f) (t.hExists k f) := by
  unfold Store.hExists; iso_fn h hk (h.loadHash hk _)
theorem hGet (f) : G Eq (s.hGet k f) (t.hGet k f) := by
  unfold Store.hGet; iso_fn h hk (h.loadHash hk _)
theorem hLen : G Eq (s.hLen k) (t.hLen k) := by
  unfold Store.hLen; iso_fn h hk (h.loadHash hk _)
theorem hGetAll (it) : G Eq (Store.hGetAll it s k) (Store.hGetAll it t k) := by
  unfold Store.hGetAll; iso_fn h hk (h.loadHash hk _)
theorem hKeys (it) : G Eq (Store.hKeys it s k) (Store.hKeys it t k) := by
  unfold Store.hKeys; iso_fn h hk (h.loadHash hk _)
theorem hMGet (ext f) : G Eq (s.hMGet ext k f) (t.hMGet ext k f) := by
  unfold Store.hMGet; iso_fn h hk (h.loadHash hk _)
theorem hVals (ext it) : G Eq (Store.hVals ext it s k) (Store.hVals ext it t k) := by
  unfold Store.hVals; iso_fn h hk (h.loadHash hk _)
theorem zScore (v) : G Eq (s.zScore k v) (t.zScore k v) := by
  unfold Store.zScore; iso_fn h hk (h.loadZSet hk _)
theorem zRank (v) : G Eq (s.zRank k v) (t.zRank k v) := by
  unfold Store.zRank; iso_fn h hk (h.loadZSet hk _)
theorem zCard : G Eq (s.zCard k) (t.zCard k) := by
  unfold Store.zCard; iso_fn h hk (h.loadZSet hk _)
theorem zCount (ext a b) : G Eq (s.zCount ext k a b) (t.zCount ext k a b) := by
  unfold Store.zCount; iso_fn h hk (h.loadZSet hk _)
theorem zRange (ext a b f) : G Eq (s.zRange ext k a b f) (t.zRange ext k a b f) := by
  unfold Store.zRange; iso_fn h hk (h.loadZSet hk _)
theorem zRevRange (ext a b f) : G Eq (s.zRevRange ext k a b f) (t.zRevRange ext k a b f) := by
  unfold Store.zRevRange; iso_fn h hk (h.loadZSet hk _)

theorem append (v) : G (RI K s.rng t.rng) (s.append k v) (t.append k v) := by
  unfold Store.append
  have := h.keys hk
  revert this
  generalize s.keys.get k = i
  generalize t.keys.get k = j
  rintro (_ | _ | hb)
  all_goals (unfold Store.set; simp only; repeat' iso_step h hk)

theorem incrBy (i) : G (RI K s.rng t.rng) (s.incrBy k i) (t.incrBy k i) := by
  unfold Store.incrBy
  have := h.keys hk
  revert this
  generalize s.keys.get k = i
  generalize t.keys.get k = j
  rintro (_ | _ | hb)
  all_goals (unfold Store.set; simp only; repeat' iso_step h hk)

theorem get : G Eq (s.get k) (t.get k) := by
  unfold Store.get
  have := h.keys hk
  revert this
  generalize s.keys.get k = i
  generalize t.keys.get k = j
  rintro (_ | _ | hb)
  all_goals (simp only; repeat' iso_step h hk)

theorem «exists» : s.exists k = t.exists k := by
  unfold Store.exists
  rw [SMap.has_eq, SMap.has_eq]
  have := h.keys hk
  revert this
  generalize s.keys.get k = i
  generalize t.keys.get k = j
  rintro (_ | _ | _) <;> rfl

theorem type : s.type k = t.type k := by
  unfold Store.type
  have := h.keys hk
  revert this
  generalize s.keys.get k = i
  generalize t.keys.get k = j
  rintro (_ | _ | _) <;> rfl

theorem set (v) : IsoB K B (s.set k v) (t.set k v) := h.setKey hk .str

theorem del : IsoB K B (s.del k).1 (t.del k).1 ∧ (s.del k).2 = (t.del k).2 ∧ (s.del k).1.rng = s.rng ∧ (t.del k).1.rng = t.rng := by
  have he := h.exists hk
  unfold Store.exists at he
  unfold Store.del SMap.deleteIfExists
  rw [← he]
  cases s.keys.has k
  · exact ⟨h, rfl, rfl, rfl⟩
  · exact ⟨h.delKey k, rfl, rfl, rfl⟩

theorem sMove {k'} (hk' : K k') (v) : G (RI K s.rng t.rng) (s.sMove k k' v) (t.sMove k k' v) := by
  unfold Store.sMove
  refine Same.G.bind (h.loadSet hk _) ?_
  rintro _ _ (e | hb)
  · exact .ok ⟨⟨⟨_, h⟩, rfl, rfl⟩, rfl⟩
  · next r q o =>
    have hw := h.write hb (.set ⟨(o.m.deleteIfExists v).1, o.length⟩)
    simp only
    split
    · exact .ok ⟨⟨⟨_, hw⟩, rfl, rfl⟩, rfl⟩
    · exact hw.sAdd hk' _

end

theorem mGet (h : IsoB K B s t) : ∀ (ks : List Bytes), (∀ k ∈ ks, K k) → G Eq (s.mGet ks) (t.mGet ks)
  | [], _ => .ok rfl
  | k :: ks, hK => by
    unfold Store.mGet
    refine Same.G.bind (h.get (hK k (by simp))) ?_
    rintro _ x rfl
    refine Same.G.bind (mGet h ks (fun k hk => hK k (by simp [hk]))) ?_
    rintro _ y rfl
    exact .ok rfl

theorem mSet : ∀ (args : List Bytes) {s t : Store}, IsoB K B s t → (∀ k ∈ KeySpec.evens args, K k) →
    IsoB K B (s.mSet args) (t.mSet args) ∧ (s.mSet args).rng = s.rng ∧ (t.mSet args).rng = t.rng
  | [], _, _, h, _ => ⟨h, rfl, rfl⟩
  | [_], _, _, h, _ => ⟨h, rfl, rfl⟩
  | k :: v :: rest, s, t, h, hK => by
    obtain ⟨h1, h2, h3⟩ := mSet rest (h.set (hK k (by simp [KeySpec.evens])) v) (fun k hk => hK k (by simp [KeySpec.evens, hk]))
    exact ⟨h1, h2, h3⟩

/-- the running result of a set operation -/
inductive PR (B : Nat → Nat → Prop) : Option Store.SPtr → Option Store.SPtr → Prop
  | none : PR B none none
  | new {o} : PR B (some (none, o)) (some (none, o))
  | own {r q o} : B r q → PR B (some (some r, o)) (some (some q, o))

/-- the final result of a set operation -/
inductive ER (B : Nat → Nat → Prop) : Except Err (Option Store.SPtr) → Except Err (Option Store.SPtr) → Prop
  | err (e) : ER B (.error e) (.error e)
  | ok {a b} : PR B a b → ER B (.ok a) (.ok b)

theorem setOpLoop (h : IsoB K B s t) (it op) : ∀ (ks : List Bytes), (∀ k ∈ ks, K k) → ∀ a b, PR B a b →
    G (ER B) (Store.setOpLoop it op s ks a) (Store.setOpLoop it op t ks b)
  | [], _, a, b, hp => .ok (.ok hp)
  | k :: ks, hK, a, b, hp => by
    unfold Store.setOpLoop
    refine Same.G.bind (h.loadSet (hK k (by simp)) _) ?_
    rintro _ _ (e | hb)
    · exact .ok (.err _)
    · simp only
      have ih := fun a b hp => setOpLoop h it op ks (fun k hk => hK k (by simp [hk])) a b hp
      cases hp with
      | none => exact ih _ _ (.own hb)
      | new => exact ih _ _ .new
      | own => exact ih _ _ .new

theorem sOp (h : IsoB K B s t) (it op) {ks : List Bytes} (hK : ∀ k ∈ ks, K k) : G Eq (Store.sOp it op s ks) (Store.sOp it op t ks) := by
  unfold Store.sOp
  refine Same.G.bind (h.setOpLoop it op ks hK none none .none) ?_
  rintro _ _ (e | (_ | _ | hb))
  · exact .ok rfl
  · exact .ok rfl
  · simp only; split <;> exact .ok rfl
  · simp only; split <;> exact .ok rfl

theorem sOpStore (h : IsoB K B s t) (it op) {k : Bytes} (hk : K k) {ks : List Bytes} (hK : ∀ k ∈ ks, K k) :
    G (RI K s.rng t.rng) (Store.sOpStore it op s k ks) (Store.sOpStore it op t k ks) := by
  unfold Store.sOpStore
  refine Same.G.bind (h.setOpLoop it op ks hK none none .none) ?_
  rintro _ _ (e | (_ | _ | hb))
  · exact .ok ⟨⟨⟨_, h⟩, rfl, rfl⟩, rfl⟩
  · exact .ok ⟨⟨⟨_, h.putNew hk _ _⟩, rfl, rfl⟩, rfl⟩
  · exact .ok ⟨⟨⟨_, h.putNew hk _ _⟩, rfl, rfl⟩, rfl⟩
  · exact .ok ⟨⟨⟨_, h.setKey hk (.ref hb)⟩, rfl, rfl⟩, rfl⟩

end IsoB
end Godis
