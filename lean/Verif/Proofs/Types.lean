import Verif.Proofs.Strings2
import Verif.Proofs.Keys
import Verif.Spec.Types
/-! # How a request changes the types of keys (proofs) -/
namespace Godis
open TypeSpec (pairKeys)

/-- the type tag of a key -/
def tyOf (s : Store) (k : Bytes) : Option KeyType := (s.keys.get k).map (·.type)

/-- the type a command gives to `k` if it is not refused -/
def mkTy (c : Cmd) (args : List Bytes) (k : Bytes) : Option KeyType :=
  match c with
  | .set | .incr | .incrBy | .decr | .decrBy | .stringAppend => if args.head? = some k then some .string else none
  | .mSet => if k ∈ pairKeys args then some .string else none
  | .lPush | .rPush => if args.head? = some k then some .list else none
  | .sAdd | .sDiffStore | .sInterStore | .sUnionStore => if args.head? = some k then some .set else none
  | .sMove => if args[1]? = some k then some .set else none
  | .zAdd | .zIncr => if args.head? = some k then some .sortedSet else none
  | _ => none

/-- what a command does to the types of keys -/
def tyNext (c : Cmd) (args : List Bytes) (k : Bytes) (ok : Bool) (old : Option KeyType) : Option KeyType :=
  if ok = true then
    match mkTy c args k with
    | some t => some t
    | none => if c = .del ∧ args.head? = some k then none else old
  else old

variable {ext : Ext} {it : Iter} {s s' : Store} {args N : List Bytes} {c : Cmd} {k : Bytes}

/-- on success `k` has the type `t`; otherwise nothing changes -/
def Ty1 (s s' : Store) (k : Bytes) (t : KeyType) (e : Option Err) : Prop :=
  ∀ k', tyOf s' k' = if e = none ∧ k' = k then some t else tyOf s k'

theorem ty_set {i : KeyInfo} {hp rng} (k' : Bytes) : tyOf ⟨s.keys.set k i, hp, rng⟩ k' = if k' = k then some i.type else tyOf s k' := by
  unfold tyOf
  simp only [SMap.get_set]
  split <;> simp_all

theorem ty1_same {t : KeyType} {e : Option Err} (h : e ≠ none ∨ tyOf s k = some t) (hs : ∀ k, tyOf s' k = tyOf s k) : Ty1 s s' k t e := by
  intro k'
  rw [hs]
  split
  · next h' => obtain ⟨rfl, rfl⟩ := h'; rcases h with h | h
               · exact absurd rfl h
               · exact h
  · rfl

theorem ty1_set {i : KeyInfo} {hp rng} : Ty1 s ⟨s.keys.set k i, hp, rng⟩ k i.type none := by
  intro k'; rw [ty_set]; simp

theorem append_ty {v : Bytes} {r : Ret Int} (h : s.append k v = .ok (s', r)) : Ty1 s s' k .string r.2 := by
  simp only [Store.append] at h
  split at h
  · cases h; exact ty1_set
  · next info hg =>
    split at h
    · cases h; exact ty1_same (.inl (by simp)) fun _ => rfl
    · next hty =>
      split at h
      · cases h
        simp only [ne_eq, not_not] at hty
        have := ty1_set (s := s) (k := k) (i := ⟨info.type, .str (by assumption ++ v)⟩) (hp := s.heap) (rng := s.rng)
        rw [hty] at this ⊢
        exact fun k' => by rw [ty_set]; simp
      · cases h

theorem incrBy_ty {d : Int} {r : Ret Int} (h : s.incrBy k d = .ok (s', r)) : Ty1 s s' k .string r.2 := by
  simp only [Store.incrBy] at h
  split at h
  · cases h; exact ty1_set
  · next info hg =>
    split at h
    · cases h; exact ty1_same (.inl (by simp)) fun _ => rfl
    · next hty =>
      simp only [ne_eq, not_not] at hty
      split at h
      · split at h
        · cases h; exact ty1_same (.inl (by simp)) fun _ => rfl
        · cases h
          rw [hty]
          exact fun k' => by rw [ty_set]; simp
      · cases h

theorem lPush_ty {vs : List Bytes} {r : Ret Int} (ht : Typed s) (h : s.lPush k vs = .ok (s', r)) : Ty1 s s' k .list r.2 := by
  simp only [Store.lPush] at h
  rcases loadList_cases ht k false with ⟨hg, hl⟩ | ⟨info, hg, _, hl⟩ | ⟨x, l, hg, ho, hl⟩
  · simp only [hl, bind, Except.bind] at h
    split at h <;> cases h
    exact ty1_set
  · simp only [hl, bind, Except.bind] at h
    cases h; exact ty1_same (.inl (by simp)) fun _ => rfl
  · simp only [Bool.false_and, Bool.false_eq_true, if_false] at hl
    simp only [hl, bind, Except.bind] at h
    split at h <;> cases h
    exact ty1_same (.inr (by simp [tyOf, hg])) fun _ => rfl

theorem rPush_ty {vs : List Bytes} {r : Ret Int} (ht : Typed s) (h : s.rPush k vs = .ok (s', r)) : Ty1 s s' k .list r.2 := by
  simp only [Store.rPush] at h
  rcases loadList_cases ht k false with ⟨hg, hl⟩ | ⟨info, hg, _, hl⟩ | ⟨x, l, hg, ho, hl⟩
  · simp only [hl, bind, Except.bind] at h
    split at h <;> cases h
    exact ty1_set
  · simp only [hl, bind, Except.bind] at h
    cases h; exact ty1_same (.inl (by simp)) fun _ => rfl
  · simp only [Bool.false_and, Bool.false_eq_true, if_false] at hl
    simp only [hl, bind, Except.bind] at h
    split at h <;> cases h
    exact ty1_same (.inr (by simp [tyOf, hg])) fun _ => rfl

theorem sAdd_ty {vs : List Bytes} {r : Ret Int} (ht : Typed s) (h : s.sAdd k vs = .ok (s', r)) : Ty1 s s' k .set r.2 := by
  simp only [Store.sAdd] at h
  rcases loadSet_cases ht k false with ⟨hg, hl⟩ | ⟨info, hg, _, hl⟩ | ⟨x, l, hg, ho, hl⟩
  · simp only [hl, bind, Except.bind] at h
    cases h; exact ty1_set
  · simp only [hl, bind, Except.bind] at h
    cases h; exact ty1_same (.inl (by simp)) fun _ => rfl
  · simp only [Bool.false_and, Bool.false_eq_true, if_false] at hl
    simp only [hl, bind, Except.bind] at h
    cases h; exact ty1_same (.inr (by simp [tyOf, hg])) fun _ => rfl

theorem write_typed {x : Nat} {o o' : Obj} (ht : Typed s) (ho : s.heap[x]? = some o) (hk : o'.kind = o.kind) (hne : o.kind ≠ .hashTable) :
    Typed (s.write x o') := by
  refine ⟨ht.wf, fun k i hg => ?_⟩
  rcases ht.kind k i hg with ⟨v, rfl⟩ | ⟨r, o2, rfl, h2, h3⟩
  · exact .inl ⟨v, rfl⟩
  · by_cases hr : r = x
    · subst hr
      rw [ho] at h2; cases h2
      refine .inr ⟨r, o', by rw [hk], ?_, hk ▸ hne⟩
      have := (List.getElem?_eq_some_iff.mp ho).1
      simp [Store.write, this]
    · exact .inr ⟨r, o2, rfl, by simp [Store.write, List.getElem?_set_ne (fun h => hr h.symm), h2], h3⟩

theorem sMove_ty {src v : Bytes} {r : Ret Int} (ht : Typed s) (h : s.sMove src k v = .ok (s', r)) : Ty1 s s' k .set r.2 := by
  simp only [Store.sMove] at h
  rcases loadSet_cases ht src true with ⟨hg, hl⟩ | ⟨info, hg, _, hl⟩ | ⟨x, l, hg, ho, hl⟩
  · simp only [hl, bind, Except.bind] at h
    cases h; exact ty1_same (.inl (by simp)) fun _ => rfl
  · simp only [hl, bind, Except.bind] at h
    cases h; exact ty1_same (.inl (by simp)) fun _ => rfl
  · split at hl <;> simp only [hl, bind, Except.bind] at h
    · cases h; exact ty1_same (.inl (by simp)) fun _ => rfl
    · split at h
      · cases h; exact ty1_same (.inl (by simp)) fun _ => rfl
      · next hne =>
        have := sAdd_ty (write_typed (o' := .set ⟨(l.m.deleteIfExists v).1, l.length⟩) ht ho rfl (by simp [Obj.kind])) h
        exact this

theorem sOpStore_ty {op : Store.SetOp} {ks : List Bytes} {r : Ret Int}
    (h : Store.sOpStore it op s k ks = .ok (s', r)) : Ty1 s s' k .set r.2 := by
  simp only [Store.sOpStore] at h
  obtain ⟨v, _, h⟩ := bind_ok h
  split at h
  · cases h; exact ty1_same (.inl (by simp)) fun _ => rfl
  · cases h; exact ty1_set
  · cases h; exact ty1_set
  · cases h; exact ty1_set

theorem zAdd_ty {ms flag} {r : Ret Int} (ht : Typed s) (h : s.zAdd ext k ms flag = .ok (s', r)) : Ty1 s s' k .sortedSet r.2 := by
  simp only [Store.zAdd] at h
  rcases loadZSet_cases ht k false with ⟨hg, hl⟩ | ⟨info, hg, _, hl⟩ | ⟨x, l, hg, ho, hl⟩
  · simp only [hl, bind, Except.bind] at h
    split at h <;> cases h
    exact ty1_set
  · simp only [hl, bind, Except.bind] at h
    cases h; exact ty1_same (.inl (by simp)) fun _ => rfl
  · simp only [Bool.false_and, Bool.false_eq_true, if_false] at hl
    simp only [hl, bind, Except.bind] at h
    split at h <;> cases h
    exact ty1_same (.inr (by simp [tyOf, hg])) fun _ => rfl

/-- ZINCR: `ErrNil` is no refusal -/
theorem zIncr_ty {v : Bytes} {sc} {r : Ret F64} (ht : Typed s) (h : s.zIncr ext k sc v = .ok (s', r)) :
    Ty1 s s' k .sortedSet (if r.2 = some .nil then none else r.2) := by
  simp only [Store.zIncr] at h
  rcases loadZSet_cases ht k false with ⟨hg, hl⟩ | ⟨info, hg, _, hl⟩ | ⟨x, l, hg, ho, hl⟩
  · simp only [hl, bind, Except.bind] at h
    (repeat' split at h) <;> cases h
    all_goals exact ty1_set
  · simp only [hl, bind, Except.bind] at h
    cases h; exact ty1_same (.inl (by simp)) fun _ => rfl
  · simp only [Bool.false_and, Bool.false_eq_true, if_false] at hl
    simp only [hl, bind, Except.bind] at h
    (repeat' split at h) <;> cases h
    all_goals exact ty1_same (.inr (by simp [tyOf, hg])) fun _ => rfl

theorem mSet_ty : ∀ (l : List Bytes) (s : Store) (k : Bytes), tyOf (s.mSet l) k = if k ∈ pairKeys l then some .string else tyOf s k
  | [], _, _ => by simp [Store.mSet, pairKeys]
  | [_], _, _ => by simp [Store.mSet, pairKeys]
  | k' :: v :: rest, s, k => by
    unfold Store.mSet
    rw [mSet_ty rest, Store.set, ty_set]
    simp only [pairKeys, List.mem_cons]
    by_cases h1 : k ∈ pairKeys rest <;> by_cases h2 : k = k' <;> simp [h1, h2]

/-- commands that neither create nor replace leave the keys as they are -/
theorem Change.keys_same (h : Change ext c args N s s') (h1 : ¬ c.isCreator) (h2 : ¬ c.isStoreOp) (h3 : ¬ c.isStringWrite) (h4 : c ≠ .del) :
    s'.keys = s.keys := by
  cases h with
  | str hc => exact absurd hc h3
  | del hc => exact absurd hc h4
  | new _ hc => rcases hc with ⟨hc, _⟩ | hc
                · exact absurd hc h1
                · exact absurd hc h2
  | write => rfl
  | «alias» hc => exact absurd hc h2

theorem Eff.keys_same (h : Eff ext c args N s s') (h1 : ¬ c.isCreator) (h2 : ¬ c.isStoreOp) (h3 : ¬ c.isStringWrite) (h4 : c ≠ .del) :
    s'.keys = s.keys := by
  induction h with
  | refl => rfl
  | step h _ ih => rw [ih, h.keys_same h1 h2 h3 h4]

/-- the reply is not a refusal -/
def okb : Except Err Response → Bool
  | .ok _ => true
  | .error _ => false

theorem tyNext_err (hs : ∀ k, tyOf s' k = tyOf s k) (k : Bytes) {e : Err} {o : Except Err Response} (ho : o = .error e) :
    tyOf s' k = tyNext c args k (okb o) (tyOf s k) := by
  subst ho; rw [hs]; simp [tyNext, okb]

/-- a command that only ever changes objects -/
theorem tyNext_same (hs : ∀ k, tyOf s' k = tyOf s k) (hm : ∀ k, mkTy c args k = none) (hd : c ≠ .del) (k : Bytes) {o : Except Err Response} :
    tyOf s' k = tyNext c args k (okb o) (tyOf s k) := by
  rw [hs]; simp [tyNext, hm, hd]

theorem tyNext_one {t : KeyType} {k0 : Bytes} {e : Option Err} {o : Except Err Response} (h : Ty1 s s' k0 t e)
    (hm : ∀ k, mkTy c args k = if some k0 = some k then some t else none) (hd : c ≠ .del) (ho : okb o = e.isNone) (k : Bytes) :
    tyOf s' k = tyNext c args k (okb o) (tyOf s k) := by
  rw [h k, ho]
  unfold tyNext
  rw [hm]
  cases e with
  | some e => simp
  | none =>
    by_cases hk : k = k0
    · simp [hk]
    · have : ¬ k0 = k := fun h => hk h.symm
      simp [hk, this, hd]

theorem intReply_okb {r : Ret Int} {s1 : Store} {o} (h : intReply s1 r = .ok (s', o)) : s' = s1 ∧ okb o = r.2.isNone := by
  unfold intReply at h
  split at h <;> (cases h; exact ⟨rfl, rfl⟩)

theorem fn_ty (ht : Typed s) {o} (h : c.fn ext it s args = .ok (s', o)) (k : Bytes) : tyOf s' k = tyNext c args k (okb o) (tyOf s k) := by
  have rest : ¬ c.isCreator → ¬ c.isStoreOp → ¬ c.isStringWrite → c ≠ .del → (∀ k, mkTy c args k = none) →
      tyOf s' k = tyNext c args k (okb o) (tyOf s k) := fun h1 h2 h3 h4 h5 =>
    tyNext_same (fun k => by unfold tyOf; rw [(fn_eff c ht h).keys_same h1 h2 h3 h4]) h5 h4 k
  cases c
  case get | mget | keys | «exists» | keyType | ping | command | lLen | lRange | lIndex | sCard | sDiff |
      sInter | sUnion | sIsMember | sMembers | hExists | hGet | hGetAll | hKeys | hLen | hMGet | hVals | zScore |
      zRank | zCard | zCount | zRange | zRangeByScore | zRevRange | hDel | hIncrBy | hIncrByFloat | hMSet | hSet | hSetNx |
      lPop | rPop | lRem | lSet | lInsert | sRem | sPop | zRem | zPopMin | zPopMix =>
    exact rest (by simp [Cmd.isCreator]) (by simp [Cmd.isStoreOp]) (by simp [Cmd.isStringWrite]) (by simp) (fun _ => rfl)
  case set =>
    simp only [Cmd.fn, cmdSet] at h
    split at h
    · cases h; exact tyNext_one (ty1_set (i := ⟨.string, _⟩)) (fun k => rfl) (by simp) rfl k
    · cases h; exact tyNext_err (fun _ => rfl) k rfl
  case mSet =>
    simp only [Cmd.fn, cmdMSet] at h
    split at h
    · cases h; exact tyNext_err (fun _ => rfl) k rfl
    · cases h
      rw [mSet_ty]
      by_cases hk : k ∈ pairKeys args <;> simp [tyNext, mkTy, okb, hk]
  case incr =>
    simp only [Cmd.fn, cmdIncr] at h
    split at h
    · obtain ⟨⟨s1, r⟩, h1, h2⟩ := bind_ok h
      obtain ⟨rfl, ho⟩ := intReply_okb h2
      exact tyNext_one (incrBy_ty h1) (fun k => rfl) (by simp) ho k
    · cases h; exact tyNext_err (fun _ => rfl) k rfl
  case decr =>
    simp only [Cmd.fn, cmdDecr] at h
    split at h
    · obtain ⟨⟨s1, r⟩, h1, h2⟩ := bind_ok h
      obtain ⟨rfl, ho⟩ := intReply_okb h2
      exact tyNext_one (incrBy_ty h1) (fun k => rfl) (by simp) ho k
    · cases h; exact tyNext_err (fun _ => rfl) k rfl
  case incrBy =>
    simp only [Cmd.fn, cmdIncrBy] at h
    split at h
    · split at h
      · cases h; exact tyNext_err (fun _ => rfl) k rfl
      · obtain ⟨⟨s1, r⟩, h1, h2⟩ := bind_ok h
        obtain ⟨rfl, ho⟩ := intReply_okb h2
        exact tyNext_one (incrBy_ty h1) (fun k => rfl) (by simp) ho k
    · cases h; exact tyNext_err (fun _ => rfl) k rfl
  case decrBy =>
    simp only [Cmd.fn, cmdDecrBy] at h
    split at h
    · split at h
      · cases h; exact tyNext_err (fun _ => rfl) k rfl
      · obtain ⟨⟨s1, r⟩, h1, h2⟩ := bind_ok h
        obtain ⟨rfl, ho⟩ := intReply_okb h2
        exact tyNext_one (incrBy_ty h1) (fun k => rfl) (by simp) ho k
    · cases h; exact tyNext_err (fun _ => rfl) k rfl
  case stringAppend =>
    simp only [Cmd.fn, cmdAppend] at h
    split at h
    · obtain ⟨⟨s1, r⟩, h1, h2⟩ := bind_ok h
      obtain ⟨rfl, ho⟩ := intReply_okb h2
      exact tyNext_one (append_ty h1) (fun k => rfl) (by simp) ho k
    · cases h; exact tyNext_err (fun _ => rfl) k rfl
  case del =>
    simp only [Cmd.fn, cmdDel] at h
    split at h
    · next k0 rest =>
      have hk : tyOf s' k = if k = k0 then none else tyOf s k := by
        simp only [Store.del, SMap.deleteIfExists, retOk] at h
        split at h
        · cases h
          unfold tyOf
          simp only [SMap.get_del _ _ _ ht.wf]
          split <;> rfl
        · next hn =>
          cases h
          split
          · next e => subst e; unfold tyOf; simpa [SMap.has] using hn
          · rfl
      have ho : okb o = true := by
        simp only [retOk] at h; cases h; rfl
      rw [hk, ho]
      unfold tyNext mkTy
      by_cases e : k = k0
      · subst e; simp
      · have : ¬ k0 = k := fun h => e h.symm
        simp [e, this]
    · cases h; exact tyNext_err (fun _ => rfl) k rfl
  case lPush =>
    simp only [Cmd.fn, cmdLPush] at h
    split at h
    · obtain ⟨⟨s1, r⟩, h1, h2⟩ := bind_ok h
      obtain ⟨rfl, ho⟩ := intReply_okb h2
      exact tyNext_one (lPush_ty ht h1) (fun k => rfl) (by simp) ho k
    · cases h; exact tyNext_err (fun _ => rfl) k rfl
  case rPush =>
    simp only [Cmd.fn, cmdRPush] at h
    split at h
    · obtain ⟨⟨s1, r⟩, h1, h2⟩ := bind_ok h
      obtain ⟨rfl, ho⟩ := intReply_okb h2
      exact tyNext_one (rPush_ty ht h1) (fun k => rfl) (by simp) ho k
    · cases h; exact tyNext_err (fun _ => rfl) k rfl
  case sAdd =>
    simp only [Cmd.fn, cmdSAdd] at h
    split at h
    · obtain ⟨⟨s1, r⟩, h1, h2⟩ := bind_ok h
      obtain ⟨rfl, ho⟩ := intReply_okb h2
      exact tyNext_one (sAdd_ty ht h1) (fun k => rfl) (by simp) ho k
    · cases h; exact tyNext_err (fun _ => rfl) k rfl
  case sDiffStore | sInterStore | sUnionStore =>
    simp only [Cmd.fn, cmdSOpStore] at h
    split at h
    · obtain ⟨⟨s1, r⟩, h1, h2⟩ := bind_ok h
      obtain ⟨rfl, ho⟩ := intReply_okb h2
      exact tyNext_one (sOpStore_ty h1) (fun k => rfl) (by simp) ho k
    · cases h; exact tyNext_err (fun _ => rfl) k rfl
  case sMove =>
    simp only [Cmd.fn, cmdSMove] at h
    split at h
    · obtain ⟨⟨s1, r⟩, h1, h2⟩ := bind_ok h
      obtain ⟨rfl, ho⟩ := intReply_okb h2
      exact tyNext_one (sMove_ty ht h1) (fun k => rfl) (by simp) ho k
    · cases h; exact tyNext_err (fun _ => rfl) k rfl
  case zAdd =>
    simp only [Cmd.fn, cmdZAdd] at h
    split at h
    · split at h
      · cases h; exact tyNext_err (fun _ => rfl) k rfl
      · obtain ⟨⟨s1, r⟩, h1, h2⟩ := bind_ok h
        obtain ⟨rfl, ho⟩ := intReply_okb h2
        exact tyNext_one (zAdd_ty ht h1) (fun k => rfl) (by simp) ho k
    · cases h; exact tyNext_err (fun _ => rfl) k rfl
  case zIncr =>
    simp only [Cmd.fn, cmdZIncr] at h
    split at h
    · split at h
      · cases h; exact tyNext_err (fun _ => rfl) k rfl
      · obtain ⟨⟨s1, r⟩, h1, h2⟩ := bind_ok h
        have : s' = s1 ∧ okb o = (if r.2 = some .nil then none else r.2).isNone := by
          split at h2 <;> next heq => cases heq; cases h2; simp_all [okb]
        obtain ⟨rfl, ho⟩ := this
        exact tyNext_one (zIncr_ty ht h1) (fun k => rfl) (by simp) ho k
    · cases h; exact tyNext_err (fun _ => rfl) k rfl

/-! ## who is not refused -/

theorem append_fit {v : Bytes} {r : Ret Int} (h : s.append k v = .ok (s', r)) (hr : r.2 = none) : tyOf s k = none ∨ tyOf s k = some .string := by
  simp only [Store.append] at h
  split at h
  · next hg => exact .inl (by simp [tyOf, hg])
  · next info hg =>
    split at h
    · cases h; cases hr
    · next hty => exact .inr (by simp only [ne_eq, not_not] at hty; simp [tyOf, hg, hty])

theorem incrBy_fit {d : Int} {r : Ret Int} (h : s.incrBy k d = .ok (s', r)) (hr : r.2 = none) : tyOf s k = none ∨ tyOf s k = some .string := by
  simp only [Store.incrBy] at h
  split at h
  · next hg => exact .inl (by simp [tyOf, hg])
  · next info hg =>
    split at h
    · cases h; cases hr
    · next hty => exact .inr (by simp only [ne_eq, not_not] at hty; simp [tyOf, hg, hty])

theorem lPush_fit {vs : List Bytes} {r : Ret Int} (ht : Typed s) (h : s.lPush k vs = .ok (s', r)) (hr : r.2 = none) : tyOf s k = none ∨ tyOf s k = some .list := by
  rcases loadList_cases ht k false with ⟨hg, hl⟩ | ⟨info, hg, _, hl⟩ | ⟨x, l, hg, ho, hl⟩
  · exact .inl (by simp [tyOf, hg])
  · simp only [Store.lPush, hl, bind, Except.bind] at h
    cases h; simp at hr
  · exact .inr (by simp [tyOf, hg])

theorem rPush_fit {vs : List Bytes} {r : Ret Int} (ht : Typed s) (h : s.rPush k vs = .ok (s', r)) (hr : r.2 = none) : tyOf s k = none ∨ tyOf s k = some .list := by
  rcases loadList_cases ht k false with ⟨hg, hl⟩ | ⟨info, hg, _, hl⟩ | ⟨x, l, hg, ho, hl⟩
  · exact .inl (by simp [tyOf, hg])
  · simp only [Store.rPush, hl, bind, Except.bind] at h
    cases h; simp at hr
  · exact .inr (by simp [tyOf, hg])

theorem sAdd_fit {vs : List Bytes} {r : Ret Int} (ht : Typed s) (h : s.sAdd k vs = .ok (s', r)) (hr : r.2 = none) : tyOf s k = none ∨ tyOf s k = some .set := by
  rcases loadSet_cases ht k false with ⟨hg, hl⟩ | ⟨info, hg, _, hl⟩ | ⟨x, l, hg, ho, hl⟩
  · exact .inl (by simp [tyOf, hg])
  · simp only [Store.sAdd, hl, bind, Except.bind] at h
    cases h; simp at hr
  · exact .inr (by simp [tyOf, hg])

theorem zAdd_fit {ms flag} {r : Ret Int} (ht : Typed s) (h : s.zAdd ext k ms flag = .ok (s', r)) (hr : r.2 = none) : tyOf s k = none ∨ tyOf s k = some .sortedSet := by
  rcases loadZSet_cases ht k false with ⟨hg, hl⟩ | ⟨info, hg, _, hl⟩ | ⟨x, l, hg, ho, hl⟩
  · exact .inl (by simp [tyOf, hg])
  · simp only [Store.zAdd, hl, bind, Except.bind] at h
    cases h; simp at hr
  · exact .inr (by simp [tyOf, hg])

theorem zIncr_fit {v : Bytes} {sc} {r : Ret F64} (ht : Typed s) (h : s.zIncr ext k sc v = .ok (s', r)) (hr : r.2 = none ∨ r.2 = some .nil) : tyOf s k = none ∨ tyOf s k = some .sortedSet := by
  rcases loadZSet_cases ht k false with ⟨hg, hl⟩ | ⟨info, hg, _, hl⟩ | ⟨x, l, hg, ho, hl⟩
  · exact .inl (by simp [tyOf, hg])
  · simp only [Store.zIncr, hl, bind, Except.bind] at h
    cases h; simp at hr
  · exact .inr (by simp [tyOf, hg])

theorem sMove_fit {src v : Bytes} {r : Ret Int} (ht : Typed s) (h : s.sMove src k v = .ok (s', r)) (hr : r.2 = none) :
    tyOf s k = none ∨ tyOf s k = some .set := by
  simp only [Store.sMove] at h
  rcases loadSet_cases ht src true with ⟨hg, hl⟩ | ⟨info, hg, _, hl⟩ | ⟨x, l, hg, ho, hl⟩
  · simp only [hl, bind, Except.bind] at h
    cases h; cases hr
  · simp only [hl, bind, Except.bind] at h
    cases h; cases hr
  · split at hl <;> simp only [hl, bind, Except.bind] at h
    · cases h; cases hr
    · split at h
      · cases h; cases hr
      · have := sAdd_fit (write_typed (o' := .set ⟨(l.m.deleteIfExists v).1, l.length⟩) ht ho rfl (by simp [Obj.kind])) h hr
        exact this

theorem fn_fit (ht : Typed s) {o} (h : c.fn ext it s args = .ok (s', o)) (hk : okb o = true) {k : Bytes} {t : KeyType}
    (hm : mkTy c args k = some t) : tyOf s k = none ∨ tyOf s k = some t ∨ (c = .set ∨ c.isStoreOp) ∧ args.head? = some k ∨ c = .mSet ∧ k ∈ pairKeys args := by
  have fin : ∀ {t' : KeyType} {k0 : Bytes}, (tyOf s k0 = none ∨ tyOf s k0 = some t') → (if some k0 = some k then some t' else none) = some t →
      tyOf s k = none ∨ tyOf s k = some t ∨ (c = .set ∨ c.isStoreOp) ∧ args.head? = some k ∨ c = .mSet ∧ k ∈ pairKeys args := by
    intro t' k0 h1 h2
    split at h2
    · next e => cases e; cases h2; rcases h1 with h1 | h1
                · exact .inl h1
                · exact .inr (.inl h1)
    · cases h2
  have one : ∀ {t' : KeyType}, (if args.head? = some k then some t' else none) = some t → args.head? = some k := by
    intro t' h2
    split at h2
    · assumption
    · cases h2
  cases c
  case set => exact .inr (.inr (.inl ⟨.inl rfl, one hm⟩))
  case sDiffStore | sInterStore | sUnionStore => exact .inr (.inr (.inl ⟨.inr (by simp [Cmd.isStoreOp]), one hm⟩))
  case mSet =>
    refine .inr (.inr (.inr ⟨rfl, ?_⟩))
    simp only [mkTy] at hm
    split at hm
    · assumption
    · cases hm
  case get | mget | keys | «exists» | keyType | ping | command | lLen | lRange | lIndex | sCard | sDiff |
      sInter | sUnion | sIsMember | sMembers | hExists | hGet | hGetAll | hKeys | hLen | hMGet | hVals | zScore |
      zRank | zCard | zCount | zRange | zRangeByScore | zRevRange | hDel | hIncrBy | hIncrByFloat | hMSet | hSet | hSetNx |
      lPop | rPop | lRem | lSet | lInsert | sRem | sPop | zRem | zPopMin | zPopMix | del => cases hm
  case incr =>
    simp only [Cmd.fn, cmdIncr] at h
    split at h
    · obtain ⟨⟨s1, r⟩, h1, h2⟩ := bind_ok h
      obtain ⟨rfl, ho⟩ := intReply_okb h2
      exact fin (incrBy_fit h1 (by rw [hk] at ho; exact Option.isNone_iff_eq_none.mp ho.symm)) hm
    · cases h; cases hk
  case decr =>
    simp only [Cmd.fn, cmdDecr] at h
    split at h
    · obtain ⟨⟨s1, r⟩, h1, h2⟩ := bind_ok h
      obtain ⟨rfl, ho⟩ := intReply_okb h2
      exact fin (incrBy_fit h1 (by rw [hk] at ho; exact Option.isNone_iff_eq_none.mp ho.symm)) hm
    · cases h; cases hk
  case incrBy =>
    simp only [Cmd.fn, cmdIncrBy] at h
    split at h
    · split at h
      · cases h; cases hk
      · obtain ⟨⟨s1, r⟩, h1, h2⟩ := bind_ok h
        obtain ⟨rfl, ho⟩ := intReply_okb h2
        exact fin (incrBy_fit h1 (by rw [hk] at ho; exact Option.isNone_iff_eq_none.mp ho.symm)) hm
    · cases h; cases hk
  case decrBy =>
    simp only [Cmd.fn, cmdDecrBy] at h
    split at h
    · split at h
      · cases h; cases hk
      · obtain ⟨⟨s1, r⟩, h1, h2⟩ := bind_ok h
        obtain ⟨rfl, ho⟩ := intReply_okb h2
        exact fin (incrBy_fit h1 (by rw [hk] at ho; exact Option.isNone_iff_eq_none.mp ho.symm)) hm
    · cases h; cases hk
  case stringAppend =>
    simp only [Cmd.fn, cmdAppend] at h
    split at h
    · obtain ⟨⟨s1, r⟩, h1, h2⟩ := bind_ok h
      obtain ⟨rfl, ho⟩ := intReply_okb h2
      exact fin (append_fit h1 (by rw [hk] at ho; exact Option.isNone_iff_eq_none.mp ho.symm)) hm
    · cases h; cases hk
  case lPush =>
    simp only [Cmd.fn, cmdLPush] at h
    split at h
    · obtain ⟨⟨s1, r⟩, h1, h2⟩ := bind_ok h
      obtain ⟨rfl, ho⟩ := intReply_okb h2
      exact fin (lPush_fit ht h1 (by rw [hk] at ho; exact Option.isNone_iff_eq_none.mp ho.symm)) hm
    · cases h; cases hk
  case rPush =>
    simp only [Cmd.fn, cmdRPush] at h
    split at h
    · obtain ⟨⟨s1, r⟩, h1, h2⟩ := bind_ok h
      obtain ⟨rfl, ho⟩ := intReply_okb h2
      exact fin (rPush_fit ht h1 (by rw [hk] at ho; exact Option.isNone_iff_eq_none.mp ho.symm)) hm
    · cases h; cases hk
  case sAdd =>
    simp only [Cmd.fn, cmdSAdd] at h
    split at h
    · obtain ⟨⟨s1, r⟩, h1, h2⟩ := bind_ok h
      obtain ⟨rfl, ho⟩ := intReply_okb h2
      exact fin (sAdd_fit ht h1 (by rw [hk] at ho; exact Option.isNone_iff_eq_none.mp ho.symm)) hm
    · cases h; cases hk
  case sMove =>
    simp only [Cmd.fn, cmdSMove] at h
    split at h
    · obtain ⟨⟨s1, r⟩, h1, h2⟩ := bind_ok h
      obtain ⟨rfl, ho⟩ := intReply_okb h2
      exact fin (sMove_fit ht h1 (by rw [hk] at ho; exact Option.isNone_iff_eq_none.mp ho.symm)) hm
    · cases h; cases hk
  case zAdd =>
    simp only [Cmd.fn, cmdZAdd] at h
    split at h
    · split at h
      · cases h; cases hk
      · obtain ⟨⟨s1, r⟩, h1, h2⟩ := bind_ok h
        obtain ⟨rfl, ho⟩ := intReply_okb h2
        exact fin (zAdd_fit ht h1 (by rw [hk] at ho; exact Option.isNone_iff_eq_none.mp ho.symm)) hm
    · cases h; cases hk
  case zIncr =>
    simp only [Cmd.fn, cmdZIncr] at h
    split at h
    · split at h
      · cases h; cases hk
      · obtain ⟨⟨s1, r⟩, h1, h2⟩ := bind_ok h
        have : s' = s1 ∧ (r.2 = none ∨ r.2 = some .nil) := by
          split at h2 <;> next heq => cases heq; cases h2; simp_all [okb]
        exact fin (zIncr_fit ht h1 this.2) hm
    · cases h; cases hk

end Godis
