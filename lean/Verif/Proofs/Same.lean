import Verif.Proofs.Effects
/-!
# Stores that differ only inside sorted sets

Commands that are not sorted-set commands cannot tell such stores apart.
-/
namespace Godis

/-- equal, or both sorted sets -/
def Obj.Alike : Obj → Obj → Prop
  | .zset _, .zset _ => True
  | o, o' => o = o'

theorem Obj.Alike.refl (o : Obj) : o.Alike o := by cases o <;> simp [Obj.Alike]
theorem Obj.Alike.symm {o o' : Obj} (h : o.Alike o') : o'.Alike o := by
  cases o <;> cases o' <;> simp_all [Obj.Alike]
theorem Obj.Alike.trans {a b c : Obj} (h : a.Alike b) (h' : b.Alike c) : a.Alike c := by
  cases a <;> cases b <;> cases c <;> simp_all [Obj.Alike]

/-- the stores differ only inside sorted sets (and in the random heights to come) -/
structure Same (s s' : Store) : Prop where
  keys : s.keys = s'.keys
  heap : List.Forall₂ Obj.Alike s.heap s'.heap

namespace Same
variable {s s' s'' : Store}

theorem refl (s : Store) : Same s s := ⟨rfl, List.forall₂_same.mpr (fun o _ => .refl o)⟩
theorem symm (h : Same s s') : Same s' s := ⟨h.keys.symm, by
  have hh := h.heap
  revert hh
  generalize s.heap = a; generalize s'.heap = b
  intro hh
  induction hh with
  | nil => exact .nil
  | cons h1 _ ih => exact .cons h1.symm ih⟩
theorem trans (h : Same s s') (h' : Same s' s'') : Same s s'' := ⟨h.keys.trans h'.keys, by
  have h1 := h.heap
  have h2 := h'.heap
  revert h1 h2
  generalize s.heap = a; generalize s'.heap = b; generalize s''.heap = c
  intro h1 h2
  induction h1 generalizing c with
  | nil => cases h2; exact .nil
  | cons h1 _ ih => cases h2 with | cons h3 h4 => exact .cons (h1.trans h3) (ih _ h4)⟩

theorem length (h : Same s s') : s.heap.length = s'.heap.length := h.heap.length_eq

theorem get (h : Same s s') (r : Nat) : (s.heap[r]? = none ∧ s'.heap[r]? = none) ∨ ∃ o o', s.heap[r]? = some o ∧ s'.heap[r]? = some o' ∧ o.Alike o' := by
  have hh := h.heap
  revert hh
  generalize s.heap = a; generalize s'.heap = b
  intro hh
  induction hh generalizing r with
  | nil => exact .inl ⟨rfl, rfl⟩
  | cons h1 _ ih =>
    cases r with
    | zero => exact .inr ⟨_, _, rfl, rfl, h1⟩
    | succ r => exact ih r

theorem set {a b : List Obj} (h : List.Forall₂ Obj.Alike a b) {o o' : Obj} (ho : o.Alike o') (r : Nat) :
    List.Forall₂ Obj.Alike (a.set r o) (b.set r o') := by
  induction h generalizing r with
  | nil => exact .nil
  | cons h1 h2 ih =>
    cases r with
    | zero => exact .cons ho h2
    | succ r => exact .cons h1 (ih r)

theorem write (h : Same s s') (r : Nat) {o o' : Obj} (ho : o.Alike o') : Same (s.write r o) (s'.write r o') :=
  ⟨h.keys, set h.heap ho r⟩

theorem putNew (h : Same s s') (k : Bytes) (t : KeyType) {o o' : Obj} (ho : o.Alike o') : Same (s.putNew k t o) (s'.putNew k t o') := by
  refine ⟨?_, ?_⟩
  · show s.keys.set k ⟨t, .ref s.heap.length⟩ = s'.keys.set k ⟨t, .ref s'.heap.length⟩
    rw [h.keys, h.length]
  · show List.Forall₂ _ (s.heap ++ [o]) (s'.heap ++ [o'])
    exact List.rel_append h.heap (.cons ho .nil)

theorem withRng (h : Same s s') (g g' : Rng) : Same { s with rng := g } { s' with rng := g' } := ⟨h.keys, h.heap⟩

theorem withKeys (h : Same s s') (f : SMap KeyInfo → SMap KeyInfo) : Same { s with keys := f s.keys } { s' with keys := f s'.keys } :=
  ⟨by show f s.keys = f s'.keys; rw [h.keys], h.heap⟩

theorem loadKeyInfo (h : Same s s') (k t) : s.loadKeyInfo k t = s'.loadKeyInfo k t := by
  unfold Store.loadKeyInfo; rw [h.keys]

theorem loadList (h : Same s s') (k b) : s.loadList k b = s'.loadList k b := by
  unfold Store.loadList
  rw [h.loadKeyInfo]
  cases s'.loadKeyInfo k .list with
  | error e => rfl
  | ok info =>
    simp only
    cases info.value with
    | str => rfl
    | ref r =>
      simp only
      rcases h.get r with ⟨h1, h2⟩ | ⟨o, o', h1, h2, h3⟩ <;> rw [h1, h2]
      cases o <;> cases o' <;> simp_all [Obj.Alike]

theorem loadSet (h : Same s s') (k b) : s.loadSet k b = s'.loadSet k b := by
  unfold Store.loadSet
  rw [h.loadKeyInfo]
  cases s'.loadKeyInfo k .set with
  | error e => rfl
  | ok info =>
    simp only
    cases info.value with
    | str => rfl
    | ref r =>
      simp only
      rcases h.get r with ⟨h1, h2⟩ | ⟨o, o', h1, h2, h3⟩ <;> rw [h1, h2]
      cases o <;> cases o' <;> simp_all [Obj.Alike]

theorem loadHash (h : Same s s') (k b) : s.loadHash k b = s'.loadHash k b := by
  unfold Store.loadHash
  rw [h.loadKeyInfo]
  cases s'.loadKeyInfo k .hashTable with
  | error e => rfl
  | ok info =>
    simp only
    cases info.value with
    | str => rfl
    | ref r =>
      simp only
      rcases h.get r with ⟨h1, h2⟩ | ⟨o, o', h1, h2, h3⟩ <;> rw [h1, h2]
      cases o <;> cases o' <;> simp_all [Obj.Alike]

/-- both fail in the same way, or both succeed with results in the relation -/
inductive G {α β : Type} (R : α → β → Prop) : Go α → Go β → Prop
  | ok {a b} : R a b → G R (.ok a) (.ok b)
  | error {p} : G R (.error p) (.error p)

theorem G.self {α : Type} (x : Go α) : G Eq x x := by
  cases x with
  | error p => exact .error
  | ok a => exact .ok rfl

theorem G.of_eq {α : Type} {x y : Go α} (h : x = y) : G Eq x y := h ▸ .self x

theorem G.bind {α β γ δ : Type} {R : α → β → Prop} {Q : γ → δ → Prop} {x : Go α} {y : Go β} {f : α → Go γ} {g : β → Go δ}
    (h : G R x y) (hf : ∀ a b, R a b → G Q (f a) (g b)) : G Q (x >>= f) (y >>= g) := by
  cases h with
  | ok h => exact hf _ _ h
  | error => exact .error

/-- results of commands: the stores are the same, the answers equal -/
def R {α : Type} (p q : Store × α) : Prop := Same p.1 q.1 ∧ p.2 = q.2

theorem loadGet (h : Same s s') (k : Bytes) : s.get k = s'.get k := by unfold Store.get; rw [h.keys]

theorem G.bindEq {α γ δ : Type} {Q : γ → δ → Prop} {x y : Go α} {f : α → Go γ} {g : α → Go δ}
    (h : x = y) (hf : ∀ a, G Q (f a) (g a)) : G Q (x >>= f) (y >>= g) := by
  subst h
  exact G.bind (.self x) (fun a b hab => hab ▸ hf a)

/-- one step of the comparison of a function on two stores -/
macro "same_step" h:ident : tactic => `(tactic| first
  | exact G.error
  | exact G.ok rfl
  | exact G.ok ⟨$h, rfl⟩
  | exact G.ok ⟨⟨rfl, Same.heap $h⟩, rfl⟩
  | exact G.ok ⟨Same.putNew $h _ _ (Obj.Alike.refl _), rfl⟩
  | exact G.ok ⟨Same.write $h _ (Obj.Alike.refl _), rfl⟩
  | exact G.ok ⟨Same.withKeys $h (fun m => SMap.set m _ _), rfl⟩
  | refine G.bindEq (Same.loadList $h _ _) (fun _ => ?_)
  | refine G.bindEq (Same.loadSet $h _ _) (fun _ => ?_)
  | refine G.bindEq (Same.loadHash $h _ _) (fun _ => ?_)
  | refine G.bindEq rfl (fun _ => ?_)
  | split)

section
variable (h : Same s s')
include h

theorem lPush (k vs) : G R (s.lPush k vs) (s'.lPush k vs) := by
  unfold Store.lPush
  repeat' same_step h

theorem rPush (k vs) : G R (s.rPush k vs) (s'.rPush k vs) := by
  unfold Store.rPush
  repeat' same_step h

theorem lPop (k c) : G R (s.lPop k c) (s'.lPop k c) := by
  unfold Store.lPop
  repeat' same_step h

theorem rPop (k c) : G R (s.rPop k c) (s'.rPop k c) := by
  unfold Store.rPop
  repeat' same_step h

theorem lRem (k c v) : G R (s.lRem k c v) (s'.lRem k c v) := by
  unfold Store.lRem
  repeat' same_step h

theorem lSet (k i v) : G R (s.lSet k i v) (s'.lSet k i v) := by
  unfold Store.lSet
  repeat' same_step h

theorem lInsert (k t v p) : G R (s.lInsert k t v p) (s'.lInsert k t v p) := by
  unfold Store.lInsert
  repeat' same_step h

theorem sAdd (k vs) : G R (s.sAdd k vs) (s'.sAdd k vs) := by
  unfold Store.sAdd
  repeat' same_step h

theorem sRem (k vs) : G R (s.sRem k vs) (s'.sRem k vs) := by
  unfold Store.sRem
  repeat' same_step h

theorem hDel (k f) : G R (s.hDel k f) (s'.hDel k f) := by
  unfold Store.hDel
  repeat' same_step h

theorem hIncrBy (k f i) : G R (s.hIncrBy k f i) (s'.hIncrBy k f i) := by
  unfold Store.hIncrBy
  repeat' same_step h

theorem hSet (k nx kvs) : G R (s.hSet k nx kvs) (s'.hSet k nx kvs) := by
  unfold Store.hSet
  repeat' same_step h

theorem incrBy (k i) : G R (s.incrBy k i) (s'.incrBy k i) := by
  unfold Store.incrBy
  rw [h.keys]
  repeat' same_step h
  all_goals exact G.ok ⟨⟨rfl, h.heap⟩, rfl⟩

theorem append (k v) : G R (s.append k v) (s'.append k v) := by
  unfold Store.append
  rw [h.keys]
  repeat' same_step h
  all_goals exact G.ok ⟨⟨rfl, h.heap⟩, rfl⟩

theorem hIncrByFloat (ext k f i) : G R (s.hIncrByFloat ext k f i) (s'.hIncrByFloat ext k f i) := by
  unfold Store.hIncrByFloat
  repeat' same_step h

theorem sPop (it k c) : G R (Store.sPop it s k c) (Store.sPop it s' k c) := by
  unfold Store.sPop
  repeat' same_step h

theorem lLen (k) : G Eq (s.lLen k) (s'.lLen k) := by
  unfold Store.lLen
  repeat' same_step h

theorem lRange (k a b) : G Eq (s.lRange k a b) (s'.lRange k a b) := by
  unfold Store.lRange
  repeat' same_step h

theorem lIndex (k i) : G Eq (s.lIndex k i) (s'.lIndex k i) := by
  unfold Store.lIndex
  repeat' same_step h

theorem sCard (k) : G Eq (s.sCard k) (s'.sCard k) := by
  unfold Store.sCard
  repeat' same_step h

theorem sIsMember (k v) : G Eq (s.sIsMember k v) (s'.sIsMember k v) := by
  unfold Store.sIsMember
  repeat' same_step h

theorem hExists (k f) : G Eq (s.hExists k f) (s'.hExists k f) := by
  unfold Store.hExists
  repeat' same_step h

theorem hGet (k f) : G Eq (s.hGet k f) (s'.hGet k f) := by
  unfold Store.hGet
  repeat' same_step h

theorem hLen (k) : G Eq (s.hLen k) (s'.hLen k) := by
  unfold Store.hLen
  repeat' same_step h

theorem sMembers (it k) : G Eq (Store.sMembers it s k) (Store.sMembers it s' k) := by
  unfold Store.sMembers
  repeat' same_step h

theorem hGetAll (it k) : G Eq (Store.hGetAll it s k) (Store.hGetAll it s' k) := by
  unfold Store.hGetAll
  repeat' same_step h

theorem hKeys (it k) : G Eq (Store.hKeys it s k) (Store.hKeys it s' k) := by
  unfold Store.hKeys
  repeat' same_step h

theorem hMGet (ext k f) : G Eq (s.hMGet ext k f) (s'.hMGet ext k f) := by
  unfold Store.hMGet
  repeat' same_step h

theorem hVals (ext it k) : G Eq (Store.hVals ext it s k) (Store.hVals ext it s' k) := by
  unfold Store.hVals
  repeat' same_step h

theorem sMove (k t v) : G R (s.sMove k t v) (s'.sMove k t v) := by
  unfold Store.sMove
  refine G.bind (G.of_eq (Same.loadSet h _ _)) ?_
  rintro _ x rfl
  split
  · exact .ok ⟨h, rfl⟩
  · next r o =>
    have hw := h.write r (.refl (.set ⟨(o.m.deleteIfExists v).1, o.length⟩))
    simp only
    split
    · exact .ok ⟨hw, rfl⟩
    · exact Same.sAdd hw _ _

theorem setOpLoop (it op keys) : ∀ res, G Eq (Store.setOpLoop it op s keys res) (Store.setOpLoop it op s' keys res) := by
  induction keys with
  | nil => intro res; exact .ok rfl
  | cons k keys ih =>
    intro res
    unfold Store.setOpLoop
    refine G.bind (G.of_eq (Same.loadSet h _ _)) ?_
    rintro _ x rfl
    split
    · exact .ok rfl
    · split <;> exact ih _

theorem sOp (it op keys) : G Eq (Store.sOp it op s keys) (Store.sOp it op s' keys) := by
  unfold Store.sOp
  refine G.bind (h.setOpLoop it op keys none) ?_
  rintro _ x rfl
  repeat' same_step h

theorem sOpStore (it op k keys) : G R (Store.sOpStore it op s k keys) (Store.sOpStore it op s' k keys) := by
  unfold Store.sOpStore
  refine G.bind (h.setOpLoop it op keys none) ?_
  rintro _ x rfl
  repeat' same_step h

theorem mGet (ks) : G Eq (s.mGet ks) (s'.mGet ks) := by
  induction ks with
  | nil => exact .ok rfl
  | cons k ks ih =>
    unfold Store.mGet
    refine G.bind (G.of_eq (h.loadGet k)) ?_
    rintro _ x rfl
    refine G.bind ih ?_
    rintro _ y rfl
    exact .ok rfl

theorem set' (k v) : Same (s.set k v) (s'.set k v) := h.withKeys (fun m => m.set k _)

omit h in
theorem mSet : ∀ (args : List Bytes) {s s' : Store}, Same s s' → Same (s.mSet args) (s'.mSet args)
  | [], _, _, h => h
  | [_], _, _, h => h
  | k :: v :: rest, _, _, h => mSet rest (h.set' k v)

theorem keysMatching (ext it p) : G Eq (s.keysMatching ext it p) (s'.keysMatching ext it p) := by
  unfold Store.keysMatching
  rw [h.keys]
  exact .self _

theorem del (k) : Same (s.del k).1 (s'.del k).1 ∧ (s.del k).2 = (s'.del k).2 := by
  unfold Store.del
  rw [h.keys]
  exact ⟨⟨rfl, h.heap⟩, rfl⟩

/-! ### the command functions -/

omit h in
theorem G.mono {α β : Type} {R Q : α → β → Prop} {x : Go α} {y : Go β} (h : G R x y) (hr : ∀ a b, R a b → Q a b) : G Q x y := by
  cases h with
  | ok h => exact .ok (hr _ _ h)
  | error => exact .error

omit h in
/-- the reply of a command that changes the store -/
theorem G.reply {α : Type} {x y : Go (Store × α)} {f : Store → α → CmdRes} (h : G R x y)
    (hf : ∀ {s s'} a, Same s s' → G R (f s a) (f s' a)) : G R (x >>= fun p => f p.1 p.2) (y >>= fun p => f p.1 p.2) :=
  G.bind h (by rintro ⟨a, b⟩ ⟨a', b'⟩ ⟨h1, h2⟩; cases h2; exact hf _ h1)

omit h in
theorem G.look {α β : Type} {Q : β → β → Prop} {x y : Go α} {f g : α → Go β} (h : G Eq x y) (hf : ∀ a, G Q (f a) (g a)) : G Q (x >>= f) (y >>= g) :=
  G.bind h (by rintro a b hab; subst hab; exact hf a)

theorem retErr' (e) : G R (retErr s e) (retErr s' e) := .ok ⟨h, rfl⟩
theorem retOk' (e) : G R (retOk s e) (retOk s' e) := .ok ⟨h, rfl⟩
theorem notEnough' : G R (notEnough s) (notEnough s') := .ok ⟨h, rfl⟩
theorem intReply' (r) : G R (intReply s r) (intReply s' r) := by unfold intReply; split <;> exact .ok ⟨h, rfl⟩
theorem intReplyNilOk' (r) : G R (intReplyNilOk s r) (intReplyNilOk s' r) := by unfold intReplyNilOk; split <;> exact .ok ⟨h, rfl⟩
theorem arrReply' (o r) : G R (arrReply s o r) (arrReply s' o r) := by unfold arrReply; split <;> exact .ok ⟨h, rfl⟩

/-- the sorted-set commands -/
def isZ : Cmd → Bool
  | .zAdd | .zScore | .zRank | .zRem | .zCard | .zCount | .zIncr | .zRange | .zRangeByScore | .zRevRange | .zPopMin | .zPopMix => true
  | _ => false

theorem fn_same (ext it) (c : Cmd) (hc : isZ c = false) (args : List Bytes) : G R (c.fn ext it s args) (c.fn ext it s' args) := by
  cases c <;> first | (exact absurd hc (by decide)) | skip
  all_goals simp only [Cmd.fn]
  case set => unfold cmdSet; split; exact .ok ⟨h.set' _ _, rfl⟩; exact h.notEnough'
  case mSet => unfold cmdMSet; split; exact h.notEnough'; exact .ok ⟨Same.mSet _ h, rfl⟩
  case get => unfold cmdGet; split; exact G.look (G.of_eq (h.loadGet _)) (fun a => by split <;> exact .ok ⟨h, rfl⟩); exact h.notEnough'
  case mget => unfold cmdMGet; split; exact G.look (h.mGet _) (fun a => .ok ⟨h, rfl⟩); exact h.notEnough'
  case incr => unfold cmdIncr; split; exact G.reply (h.incrBy _ _) (fun a h => h.intReply' a); exact h.notEnough'
  case decr => unfold cmdDecr; split; exact G.reply (h.incrBy _ _) (fun a h => h.intReply' a); exact h.notEnough'
  case incrBy =>
    unfold cmdIncrBy; split
    · split
      · exact h.retErr' _
      · exact G.reply (h.incrBy _ _) (fun a h => h.intReply' a)
    · exact h.notEnough'
  case decrBy =>
    unfold cmdDecrBy; split
    · split
      · exact h.retErr' _
      · exact G.reply (h.incrBy _ _) (fun a h => h.intReply' a)
    · exact h.notEnough'
  case stringAppend => unfold cmdAppend; split; exact G.reply (h.append _ _) (fun a h => h.intReply' a); exact h.notEnough'
  case keys => unfold cmdKeys; split; exact G.look (h.keysMatching _ _ _) (fun a => .ok ⟨h, rfl⟩); exact h.notEnough'
  case «exists» =>
    unfold cmdExists; split
    · exact .ok ⟨h, by unfold Store.exists; rw [h.keys]⟩
    · exact h.notEnough'
  case del =>
    unfold cmdDel; split
    · next k _ =>
      obtain ⟨h1, h2⟩ := h.del k
      generalize s.del k = p at h1 h2 ⊢
      generalize s'.del k = q at h1 h2 ⊢
      obtain ⟨p1, p2⟩ := p; obtain ⟨q1, q2⟩ := q
      cases h2
      exact .ok ⟨h1, rfl⟩
    · exact h.notEnough'
  case keyType =>
    unfold cmdType; split
    · next k _ =>
      have : s.type k = s'.type k := by unfold Store.type; rw [h.keys]
      rw [this]; split <;> exact .ok ⟨h, rfl⟩
    · exact h.notEnough'
  case ping => exact .ok ⟨h, rfl⟩
  case command => exact .ok ⟨h, rfl⟩
  case lPush => unfold cmdLPush; split; exact G.reply (h.lPush _ _) (fun a h => h.intReply' a); exact h.notEnough'
  case rPush => unfold cmdRPush; split; exact G.reply (h.rPush _ _) (fun a h => h.intReply' a); exact h.notEnough'
  case lPop =>
    unfold cmdLPop; split
    · split
      · exact h.retErr' _
      · exact G.reply (h.lPop _ _) (fun a h => h.arrReply' _ a)
    · exact h.notEnough'
  case rPop =>
    unfold cmdRPop; split
    · split
      · exact h.retErr' _
      · exact G.reply (h.rPop _ _) (fun a h => h.arrReply' _ a)
    · exact h.notEnough'
  case lLen => unfold cmdLLen; split; exact G.look (h.lLen _) (fun a => h.intReplyNilOk' a); exact h.notEnough'
  case lRange =>
    unfold cmdLRange; split
    · split
      · exact h.retErr' _
      · split
        · exact h.retErr' _
        · exact G.look (h.lRange _ _ _) (fun a => by split <;> exact .ok ⟨h, rfl⟩)
    · exact h.notEnough'
  case lRem =>
    unfold cmdLRem; split
    · split
      · exact h.retErr' _
      · exact G.reply (h.lRem _ _ _) (fun a h => h.intReplyNilOk' a)
    · exact h.notEnough'
  case lIndex =>
    unfold cmdLIndex; split
    · split
      · exact h.retErr' _
      · exact G.look (h.lIndex _ _) (fun a => by split <;> exact .ok ⟨h, rfl⟩)
    · exact h.notEnough'
  case lSet =>
    unfold cmdLSet; split
    · split
      · exact h.retErr' _
      · refine G.bind (h.lSet _ _ _) ?_
        rintro ⟨a, _ | b⟩ ⟨a', b'⟩ ⟨h1, h2⟩ <;> cases h2 <;> exact .ok ⟨h1, rfl⟩
    · exact h.notEnough'
  case lInsert =>
    unfold cmdLInsert; split
    · simp only
      split
      · exact G.reply (h.lInsert _ _ _ _) (fun a h => h.intReply' a)
      · split
        · exact G.reply (h.lInsert _ _ _ _) (fun a h => h.intReply' a)
        · exact h.notEnough'
    · exact h.notEnough'
  case sAdd => unfold cmdSAdd; split; exact G.reply (h.sAdd _ _) (fun a h => h.intReply' a); exact h.notEnough'
  case sCard => unfold cmdSCard; split; exact G.look (h.sCard _) (fun a => h.intReplyNilOk' a); exact h.notEnough'
  case sDiff | sInter | sUnion =>
    unfold cmdSOp; split
    · exact h.notEnough'
    · exact h.retOk' _
    · exact G.look (h.sOp _ _ _) (fun a => h.arrReply' _ a)
  case sDiffStore | sInterStore | sUnionStore =>
    unfold cmdSOpStore; split
    · exact G.reply (h.sOpStore _ _ _ _) (fun a h => h.intReply' a)
    · exact h.notEnough'
  case sIsMember => unfold cmdSIsMember; split; exact G.look (h.sIsMember _ _) (fun a => h.intReplyNilOk' a); exact h.notEnough'
  case sMembers => unfold cmdSMembers; split; exact G.look (h.sMembers _ _) (fun a => by split <;> exact .ok ⟨h, rfl⟩); exact h.notEnough'
  case sMove => unfold cmdSMove; split; exact G.reply (h.sMove _ _ _) (fun a h => h.intReply' a); exact h.notEnough'
  case sRem => unfold cmdSRem; split; exact G.reply (h.sRem _ _) (fun a h => h.intReplyNilOk' a); exact h.notEnough'
  case sPop =>
    unfold cmdSPop; split
    · simp only
      split
      · exact h.retErr' _
      · exact G.reply (h.sPop _ _ _) (fun a h => h.arrReply' _ a)
    · exact h.notEnough'
  case hDel => unfold cmdHDel; split; exact G.reply (h.hDel _ _) (fun a h => h.intReplyNilOk' a); exact h.notEnough'
  case hExists => unfold cmdHExists; split; exact G.look (h.hExists _ _) (fun a => h.intReplyNilOk' a); exact h.notEnough'
  case hGet => unfold cmdHGet; split; exact G.look (h.hGet _ _) (fun a => by split <;> exact .ok ⟨h, rfl⟩); exact h.notEnough'
  case hGetAll =>
    unfold cmdHGetAll; split
    · refine G.look (h.hGetAll _ _) (fun a => ?_)
      simp only
      split
      · exact h.retOk' _
      · split <;> exact .ok ⟨h, rfl⟩
    · exact h.notEnough'
  case hIncrBy =>
    unfold cmdHIncrBy; split
    · split
      · exact h.retErr' _
      · exact G.reply (h.hIncrBy _ _ _) (fun a h => h.intReply' a)
    · exact h.notEnough'
  case hIncrByFloat =>
    unfold cmdHIncrByFloat; split
    · split
      · exact h.retErr' _
      · refine G.bind (h.hIncrByFloat _ _ _ _) ?_
        rintro ⟨a, b, _ | c⟩ ⟨a', b', c'⟩ ⟨h1, h2⟩ <;> cases h2 <;> exact .ok ⟨h1, rfl⟩
    · exact h.notEnough'
  case hKeys => unfold cmdHKeys; split; exact G.look (h.hKeys _ _) (fun a => h.arrReply' _ a); exact h.notEnough'
  case hLen => unfold cmdHLen; split; exact G.look (h.hLen _) (fun a => h.intReplyNilOk' a); exact h.notEnough'
  case hMGet => unfold cmdHMGet; split; exact G.look (h.hMGet _ _ _) (fun a => by split <;> exact .ok ⟨h, rfl⟩); exact h.notEnough'
  case hMSet =>
    unfold cmdHMSet; split
    · refine G.bind (h.hSet _ _ _) ?_
      rintro ⟨a, b, _ | c⟩ ⟨a', b', c'⟩ ⟨h1, h2⟩ <;> cases h2 <;> exact .ok ⟨h1, rfl⟩
    · exact h.notEnough'
  case hSet => unfold cmdHSet; split; exact G.reply (h.hSet _ _ _) (fun a h => h.intReply' a); exact h.notEnough'
  case hSetNx => unfold cmdHSetNx; split; exact G.reply (h.hSet _ _ _) (fun a h => h.intReply' a); exact h.notEnough'
  case hVals => unfold cmdHVals; split; exact G.look (h.hVals _ _ _) (fun a => h.arrReply' _ a); exact h.notEnough'

/-! ### sorted-set commands change only sorted sets, and create a key in both stores or in neither -/

omit h in
theorem rewrite {r : Nat} {z z' : ZObj} (ho : s.heap[r]? = some (.zset z)) (g : Rng) : Same s { s.write r (.zset z') with rng := g } := by
  refine ⟨rfl, ?_⟩
  show List.Forall₂ Obj.Alike s.heap (s.heap.set r (.zset z'))
  have : ∀ (l : List Obj) r, l[r]? = some (.zset z) → List.Forall₂ Obj.Alike l (l.set r (.zset z')) := by
    intro l
    induction l with
    | nil => intro r h; cases h
    | cons a l ih =>
      intro r h
      cases r with
      | zero => cases h; exact .cons trivial (List.forall₂_same.mpr (fun o _ => .refl o))
      | succ r => exact .cons (.refl a) (ih r h)
  exact this _ _ ho

omit h in
theorem ok_bind {α β : Type} {a : α} {f : α → Go β} {y : Go β} (hr : ((.ok a : Go α) >>= f) = y) : f a = y := hr

omit h in
theorem zAdd_one {ext k ms fl p} (ht : Typed s) (hk : s.keys.get k ≠ none) (hr : s.zAdd ext k ms fl = .ok p) : Same s p.1 := by
  unfold Store.zAdd at hr
  rcases loadZSet_cases ht k false with ⟨hg, hl⟩ | ⟨info, hg, hty, hl⟩ | ⟨a, l, hg, ho, hl⟩
  · exact absurd hg hk
  · rw [hl] at hr; cases hr; exact .refl s
  · rw [hl] at hr; replace hr := ok_bind hr
    obtain ⟨⟨z, n, g⟩, h1, h2⟩ := bind_ok hr
    cases h2; exact rewrite ho g

omit h in
theorem zAdd_new {ext k ms fl p} (hk : s.keys.get k = none) (hr : s.zAdd ext k ms fl = .ok p) :
    ∃ z g, p.1 = { s.putNew k .sortedSet (.zset z) with rng := g } := by
  unfold Store.zAdd at hr
  have hl : s.loadZSet k false = .ok (.error .nil) := by simp [Store.loadZSet, loadKeyInfo_none hk]
  rw [hl] at hr; replace hr := ok_bind hr
  obtain ⟨⟨z, n, g⟩, h1, h2⟩ := bind_ok hr
  cases h2; exact ⟨z, g, rfl⟩

theorem zAdd {ext k ms fl p p'} (ht : Typed s) (ht' : Typed s') (hr : s.zAdd ext k ms fl = .ok p) (hr' : s'.zAdd ext k ms fl = .ok p') :
    Same p.1 p'.1 := by
  by_cases hk : s.keys.get k = none
  · obtain ⟨z, g, e⟩ := zAdd_new hk hr
    obtain ⟨z', g', e'⟩ := zAdd_new (h.keys ▸ hk) hr'
    rw [e, e']
    exact (h.putNew k .sortedSet (o := .zset z) (o' := .zset z') trivial).withRng g g'
  · exact ((zAdd_one ht hk hr).symm.trans h).trans (zAdd_one ht' (h.keys ▸ hk) hr')

omit h in
theorem zIncr_one {ext k sc v p} (ht : Typed s) (hk : s.keys.get k ≠ none) (hr : s.zIncr ext k sc v = .ok p) : Same s p.1 := by
  unfold Store.zIncr at hr
  rcases loadZSet_cases ht k false with ⟨hg, hl⟩ | ⟨info, hg, hty, hl⟩ | ⟨a, l, hg, ho, hl⟩
  · exact absurd hg hk
  · rw [hl] at hr; cases hr; exact .refl s
  · rw [hl] at hr; replace hr := ok_bind hr
    obtain ⟨⟨z, n, g⟩, h1, h2⟩ := bind_ok hr
    simp only at h2
    split at h2
    · cases h2; exact rewrite ho g
    · obtain ⟨_, _, h3⟩ := bind_ok h2
      cases h3; exact rewrite ho g

omit h in
theorem zIncr_new {ext k sc v p} (hk : s.keys.get k = none) (hr : s.zIncr ext k sc v = .ok p) :
    ∃ z g, p.1 = { s.putNew k .sortedSet (.zset z) with rng := g } := by
  unfold Store.zIncr at hr
  have hl : s.loadZSet k false = .ok (.error .nil) := by simp [Store.loadZSet, loadKeyInfo_none hk]
  rw [hl] at hr; replace hr := ok_bind hr
  obtain ⟨⟨z, n, g⟩, h1, h2⟩ := bind_ok hr
  simp only at h2
  split at h2
  · cases h2; exact ⟨z, g, rfl⟩
  · obtain ⟨_, _, h3⟩ := bind_ok h2
    cases h3; exact ⟨z, g, rfl⟩

theorem zIncr {ext k sc v p p'} (ht : Typed s) (ht' : Typed s') (hr : s.zIncr ext k sc v = .ok p) (hr' : s'.zIncr ext k sc v = .ok p') :
    Same p.1 p'.1 := by
  by_cases hk : s.keys.get k = none
  · obtain ⟨z, g, e⟩ := zIncr_new hk hr
    obtain ⟨z', g', e'⟩ := zIncr_new (h.keys ▸ hk) hr'
    rw [e, e']
    exact (h.putNew k .sortedSet (o := .zset z) (o' := .zset z') trivial).withRng g g'
  · exact ((zIncr_one ht hk hr).symm.trans h).trans (zIncr_one ht' (h.keys ▸ hk) hr')

omit h in
theorem zRem_one {k vs p} (ht : Typed s) (hr : s.zRem k vs = .ok p) : Same s p.1 := by
  unfold Store.zRem at hr
  rcases loadZSet_cases ht k true with ⟨hg, hl⟩ | ⟨info, hg, hty, hl⟩ | ⟨a, l, hg, ho, hl⟩
  · rw [hl] at hr; cases hr; exact .refl s
  · rw [hl] at hr; cases hr; exact .refl s
  · rw [hl] at hr
    cases hb : (true && l.zsl.length == 0) with
    | true => rw [hb, if_pos rfl] at hr; replace hr := ok_bind hr; cases hr; exact .refl s
    | false =>
      rw [hb, if_neg Bool.false_ne_true] at hr; replace hr := ok_bind hr
      obtain ⟨⟨z, n⟩, h1, h2⟩ := bind_ok hr
      cases h2; exact rewrite ho s.rng

omit h in
theorem zPopMin_one {ext k c p} (ht : Typed s) (hr : s.zPopMin ext k c = .ok p) : Same s p.1 := by
  unfold Store.zPopMin at hr
  rcases loadZSet_cases ht k true with ⟨hg, hl⟩ | ⟨info, hg, hty, hl⟩ | ⟨a, l, hg, ho, hl⟩
  · rw [hl] at hr; cases hr; exact .refl s
  · rw [hl] at hr; cases hr; exact .refl s
  · rw [hl] at hr
    cases hb : (true && l.zsl.length == 0) with
    | true => rw [hb, if_pos rfl] at hr; replace hr := ok_bind hr; cases hr; exact .refl s
    | false =>
      rw [hb, if_neg Bool.false_ne_true] at hr; replace hr := ok_bind hr
      obtain ⟨⟨z, n⟩, h1, h2⟩ := bind_ok hr
      cases h2; exact rewrite ho s.rng

omit h in
theorem zPopMax_one {ext k c p} (ht : Typed s) (hr : s.zPopMax ext k c = .ok p) : Same s p.1 := by
  unfold Store.zPopMax at hr
  rcases loadZSet_cases ht k true with ⟨hg, hl⟩ | ⟨info, hg, hty, hl⟩ | ⟨a, l, hg, ho, hl⟩
  · rw [hl] at hr; cases hr; exact .refl s
  · rw [hl] at hr; cases hr; exact .refl s
  · rw [hl] at hr
    cases hb : (true && l.zsl.length == 0) with
    | true => rw [hb, if_pos rfl] at hr; replace hr := ok_bind hr; cases hr; exact .refl s
    | false =>
      rw [hb, if_neg Bool.false_ne_true] at hr; replace hr := ok_bind hr
      obtain ⟨⟨z, n⟩, h1, h2⟩ := bind_ok hr
      cases h2; exact rewrite ho s.rng

omit h in
theorem intReply_fst' {x : Ret Int} {q} (hr : intReply s x = .ok q) : q.1 = s := by
  unfold intReply at hr; split at hr <;> cases hr <;> rfl

theorem z_same {ext it it'} (c : Cmd) (hc : isZ c = true) {args : List Bytes} {p p'} (ht : Typed s) (ht' : Typed s')
    (hr : c.fn ext it s args = .ok p) (hr' : c.fn ext it' s' args = .ok p') : Same p.1 p'.1 := by
  have mid : Same s p.1 → Same s' p'.1 → Same p.1 p'.1 := fun a b => (a.symm.trans h).trans b
  cases c <;> first | (exact absurd hc (by decide)) | skip
  case zScore | zRank | zCard | zCount | zRange | zRangeByScore | zRevRange =>
    obtain ⟨p1, p2⟩ := p
    obtain ⟨q1, q2⟩ := p'
    have e1 := read_same _ (by simp) hr
    have e2 := read_same _ (by simp) hr'
    simp only; rw [e1, e2]; exact h
  case zAdd =>
    simp only [Cmd.fn, cmdZAdd] at hr hr'
    split at hr
    · next k a b rest =>
      simp only at hr'
      split at hr
      · next hz => rw [hz] at hr'; cases hr; cases hr'; exact h
      · next hz =>
        rw [hz] at hr'
        obtain ⟨q, h1, h2⟩ := bind_ok hr
        obtain ⟨q', h1', h2'⟩ := bind_ok hr'
        have := h.zAdd ht ht' h1 h1'
        rwa [intReply_fst' h2, intReply_fst' h2']
    · next hn =>
      split at hr'
      · next k a b rest => exact absurd rfl (hn k a b rest)
      · cases hr; cases hr'; exact h
  case zIncr =>
    simp only [Cmd.fn, cmdZIncr] at hr hr'
    split at hr
    · next k a b rest =>
      simp only at hr'
      split at hr
      · next hz => rw [hz] at hr'; cases hr; cases hr'; exact h
      · next hz =>
        rw [hz] at hr'
        obtain ⟨q, h1, h2⟩ := bind_ok hr
        obtain ⟨q', h1', h2'⟩ := bind_ok hr'
        have := h.zIncr ht ht' h1 h1'
        have e1 : p.1 = q.1 := by split at h2 <;> cases h2 <;> rfl
        have e2 : p'.1 = q'.1 := by split at h2' <;> cases h2' <;> rfl
        rw [e1, e2]; exact this
    · next hn =>
      split at hr'
      · next k a b rest => exact absurd rfl (hn k a b rest)
      · cases hr; cases hr'; exact h
  case zRem =>
    have one : ∀ {s : Store} {it p}, Typed s → Cmd.zRem.fn ext it s args = .ok p → Same s p.1 := by
      intro s it p ht hr
      simp only [Cmd.fn, cmdZRem] at hr
      split at hr
      · obtain ⟨q, h1, h2⟩ := bind_ok hr
        have := zRem_one ht h1
        have e1 : p.1 = q.1 := by unfold intReplyNilOk at h2; split at h2 <;> cases h2 <;> rfl
        rw [e1]; exact this
      · cases hr; exact .refl s
    exact mid (one ht hr) (one ht' hr')
  case zPopMin =>
    have one : ∀ {s : Store} {it p}, Typed s → Cmd.zPopMin.fn ext it s args = .ok p → Same s p.1 := by
      intro s it p ht hr
      simp only [Cmd.fn, cmdZPopMin] at hr
      split at hr
      · split at hr
        · cases hr; exact .refl s
        · obtain ⟨q, h1, h2⟩ := bind_ok hr
          have := zPopMin_one ht h1
          have e1 : p.1 = q.1 := by
            unfold zPopReply at h2
            split at h2
            · cases h2; rfl
            · split at h2 <;> cases h2 <;> rfl
          rw [e1]; exact this
      · cases hr; exact .refl s
    exact mid (one ht hr) (one ht' hr')
  case zPopMix =>
    have one : ∀ {s : Store} {it p}, Typed s → Cmd.zPopMix.fn ext it s args = .ok p → Same s p.1 := by
      intro s it p ht hr
      simp only [Cmd.fn, cmdZPopMax] at hr
      split at hr
      · split at hr
        · cases hr; exact .refl s
        · obtain ⟨q, h1, h2⟩ := bind_ok hr
          have := zPopMax_one ht h1
          have e1 : p.1 = q.1 := by
            unfold zPopReply at h2
            split at h2
            · cases h2; rfl
            · split at h2 <;> cases h2 <;> rfl
          rw [e1]; exact this
      · cases hr; exact .refl s
    exact mid (one ht hr) (one ht' hr')

end
end Same
end Godis
