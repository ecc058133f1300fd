import Verif.Proofs.Sets2
/-!
# Commands with several items
-/
namespace Godis
namespace Store
variable {s : Store} {k : Bytes}

theorem write_write (s : Store) (r : Nat) (a b : Obj) : (s.write r a).write r b = s.write r b := by
  simp only [write, List.set_set]

theorem putNew_write (s : Store) (k : Bytes) (tp : KeyType) (a b : Obj) : (s.putNew k tp a).write s.heap.length b = s.putNew k tp b := by
  simp only [write, putNew]
  rw [List.set_append_right _ _ (Nat.le_refl _), Nat.sub_self]; rfl

theorem loadKeyInfo_putNew (s : Store) (k : Bytes) (tp : KeyType) (o : Obj) (g : Rng) :
    ({ s.putNew k tp o with rng := g } : Store).loadKeyInfo k tp = .ok ⟨tp, .ref s.heap.length⟩ := by
  unfold loadKeyInfo putNew
  simp only [SMap.get_set, if_true, ne_eq, not_true_eq_false, if_false]

theorem loadList_putNew (s : Store) (k : Bytes) (l : LObj) :
    (s.putNew k .list (.list l)).loadList k false = .ok (.ok (s.heap.length, l)) := by
  have := loadKeyInfo_putNew s k .list (.list l) s.rng
  unfold loadList
  rw [show (s.putNew k .list (.list l)).loadKeyInfo k .list = _ from this]
  simp [putNew]

theorem loadSet_putNew (s : Store) (k : Bytes) (l : SObj) :
    (s.putNew k .set (.set l)).loadSet k false = .ok (.ok (s.heap.length, l)) := by
  have := loadKeyInfo_putNew s k .set (.set l) s.rng
  unfold loadSet
  rw [show (s.putNew k .set (.set l)).loadKeyInfo k .set = _ from this]
  simp [putNew]

theorem loadZSet_putNew (s : Store) (k : Bytes) (l : ZObj) (g : Rng) :
    ({ s.putNew k .sortedSet (.zset l) with rng := g } : Store).loadZSet k false = .ok (.ok (s.heap.length, l)) := by
  have := loadKeyInfo_putNew s k .sortedSet (.zset l) g
  unfold loadZSet
  rw [this]
  simp [putNew]

theorem loadList_write {b : Bool} {r : Nat} {l l' : LObj} (h : s.loadList k b = .ok (.ok (r, l))) (c : Bool) :
    (s.write r (.list l')).loadList k c = if c && l'.length == 0 then .ok (.error .nil) else .ok (.ok (r, l')) := by
  have e : (s.write r (.list l')).loadKeyInfo k .list = s.loadKeyInfo k .list := rfl
  unfold loadList at h ⊢
  rw [e]
  cases hi : s.loadKeyInfo k .list with
  | error e => rw [hi] at h; cases h
  | ok info =>
    rw [hi] at h
    simp only at h ⊢
    cases hv : info.value with
    | str => rw [hv] at h; cases h
    | ref q =>
      rw [hv] at h
      simp only at h ⊢
      cases hq : s.heap[q]? with
      | none => rw [hq] at h; cases h
      | some o =>
        rw [hq] at h
        cases o with
        | list l0 =>
          simp only at h
          split at h
          · cases h
          · cases h
            have : (s.write r (.list l')).heap[r]? = some (.list l') := List.getElem?_set_self (List.getElem?_eq_some_iff.mp hq).1
            rw [this]
        | _ => cases h

theorem loadSet_write {b : Bool} {r : Nat} {l l' : SObj} (h : s.loadSet k b = .ok (.ok (r, l))) (c : Bool) :
    (s.write r (.set l')).loadSet k c = if c && l'.length == 0 then .ok (.error .nil) else .ok (.ok (r, l')) := by
  have e : (s.write r (.set l')).loadKeyInfo k .set = s.loadKeyInfo k .set := rfl
  unfold loadSet at h ⊢
  rw [e]
  cases hi : s.loadKeyInfo k .set with
  | error e => rw [hi] at h; cases h
  | ok info =>
    rw [hi] at h
    simp only at h ⊢
    cases hv : info.value with
    | str => rw [hv] at h; cases h
    | ref q =>
      rw [hv] at h
      simp only at h ⊢
      cases hq : s.heap[q]? with
      | none => rw [hq] at h; cases h
      | some o =>
        rw [hq] at h
        cases o with
        | set l0 =>
          simp only at h
          split at h
          · cases h
          · cases h
            have : (s.write r (.set l')).heap[r]? = some (.set l') := List.getElem?_set_self (List.getElem?_eq_some_iff.mp hq).1
            rw [this]
        | _ => cases h

theorem loadZSet_write {b : Bool} {r : Nat} {l l' : ZObj} {g : Rng} (h : s.loadZSet k b = .ok (.ok (r, l))) (c : Bool) :
    ({ s.write r (.zset l') with rng := g } : Store).loadZSet k c = if c && l'.zsl.length == 0 then .ok (.error .nil) else .ok (.ok (r, l')) := by
  have e : ({ s.write r (.zset l') with rng := g } : Store).loadKeyInfo k .sortedSet = s.loadKeyInfo k .sortedSet := rfl
  unfold loadZSet at h ⊢
  rw [e]
  cases hi : s.loadKeyInfo k .sortedSet with
  | error e => rw [hi] at h; cases h
  | ok info =>
    rw [hi] at h
    simp only at h ⊢
    cases hv : info.value with
    | str => rw [hv] at h; cases h
    | ref q =>
      rw [hv] at h
      simp only at h ⊢
      cases hq : s.heap[q]? with
      | none => rw [hq] at h; cases h
      | some o =>
        rw [hq] at h
        cases o with
        | zset l0 =>
          simp only at h
          split at h
          · cases h
          · cases h
            have : (s.write r (.zset l')).heap[r]? = some (.zset l') := List.getElem?_set_self (List.getElem?_eq_some_iff.mp hq).1
            rw [this]
        | _ => cases h

end Store

theorem LObj.lPushAll_append : ∀ (vs ws : List Bytes) (l : LObj), l.lPushAll (vs ++ ws) = l.lPushAll vs >>= fun l => l.lPushAll ws
  | [], _, _ => rfl
  | v :: vs, ws, l => by
    show (l.lPush v >>= fun l => l.lPushAll (vs ++ ws)) = ((l.lPush v >>= fun l => l.lPushAll vs) >>= fun l => l.lPushAll ws)
    cases l.lPush v with
    | error => rfl
    | ok l => exact lPushAll_append vs ws l

theorem LObj.rPushAll_append : ∀ (vs ws : List Bytes) (l : LObj), l.rPushAll (vs ++ ws) = l.rPushAll vs >>= fun l => l.rPushAll ws
  | [], _, _ => rfl
  | v :: vs, ws, l => by
    show (l.rPush v >>= fun l => l.rPushAll (vs ++ ws)) = ((l.rPush v >>= fun l => l.rPushAll vs) >>= fun l => l.rPushAll ws)
    cases l.rPush v with
    | error => rfl
    | ok l => exact rPushAll_append vs ws l

theorem SObj.sAddAll_append : ∀ (vs ws : List Bytes) (o : SObj), o.sAddAll (vs ++ ws) =
    (((o.sAddAll vs).1.sAddAll ws).1, (o.sAddAll vs).2 + ((o.sAddAll vs).1.sAddAll ws).2)
  | [], ws, o => by simp [SObj.sAddAll]
  | v :: vs, ws, o => by
    simp only [List.cons_append, SObj.sAddAll, sAddAll_append vs ws, Int.add_assoc]

theorem SObj.sRemAll_append : ∀ (vs ws : List Bytes) (o : SObj), o.sRemAll (vs ++ ws) =
    (((o.sRemAll vs).1.sRemAll ws).1, (o.sRemAll vs).2 + ((o.sRemAll vs).1.sRemAll ws).2)
  | [], ws, o => by simp [SObj.sRemAll]
  | v :: vs, ws, o => by
    simp only [List.cons_append, SObj.sRemAll, sRemAll_append vs ws, Int.add_assoc]

theorem ZObj.zAddAll_append {ext flag} : ∀ (vs ws : List (F64 × Bytes)) (z : ZObj) (g : Rng), z.zAddAll ext flag (vs ++ ws) g =
    z.zAddAll ext flag vs g >>= fun p => p.1.zAddAll ext flag ws p.2.2 >>= fun q => .ok (q.1, p.2.1 + q.2.1, q.2.2)
  | [], ws, z, g => by
    show z.zAddAll ext flag ws g = (z.zAddAll ext flag ws g >>= fun q => .ok (q.1, 0 + q.2.1, q.2.2))
    cases z.zAddAll ext flag ws g with
    | error => rfl
    | ok q => obtain ⟨a, b, c⟩ := q; show Except.ok _ = Except.ok _; simp
  | (sc, v) :: vs, ws, z, g => by
    show (z.zAdd ext sc v flag g >>= fun p => p.1.zAddAll ext flag (vs ++ ws) p.2.2 >>= fun q => .ok (q.1, (if p.2.1.isSome then q.2.1 + 1 else q.2.1), q.2.2)) =
      (z.zAdd ext sc v flag g >>= fun p => p.1.zAddAll ext flag vs p.2.2 >>= fun q => .ok (q.1, (if p.2.1.isSome then q.2.1 + 1 else q.2.1), q.2.2)) >>= fun p =>
        p.1.zAddAll ext flag ws p.2.2 >>= fun q => .ok (q.1, p.2.1 + q.2.1, q.2.2)
    cases z.zAdd ext sc v flag g with
    | error => rfl
    | ok p =>
      obtain ⟨z1, n, g1⟩ := p
      show (z1.zAddAll ext flag (vs ++ ws) g1 >>= _) = ((z1.zAddAll ext flag vs g1 >>= _) >>= _)
      rw [zAddAll_append vs ws z1 g1]
      cases z1.zAddAll ext flag vs g1 with
      | error => rfl
      | ok q =>
        obtain ⟨z2, c, g2⟩ := q
        show ((z2.zAddAll ext flag ws g2 >>= _) >>= _) = (z2.zAddAll ext flag ws g2 >>= _)
        cases z2.zAddAll ext flag ws g2 with
        | error => rfl
        | ok q =>
          obtain ⟨z3, c', g3⟩ := q
          show Except.ok _ = Except.ok _
          simp only
          congr 3
          split <;> omega

theorem ZObj.zRemAll_append : ∀ (vs ws : List Bytes) (z : ZObj), z.zRemAll (vs ++ ws) =
    z.zRemAll vs >>= fun p => p.1.zRemAll ws >>= fun q => .ok (q.1, p.2 + q.2)
  | [], ws, z => by
    show z.zRemAll ws = (z.zRemAll ws >>= fun q => .ok (q.1, 0 + q.2))
    cases z.zRemAll ws with
    | error => rfl
    | ok q => obtain ⟨a, b⟩ := q; show Except.ok _ = Except.ok _; simp
  | v :: vs, ws, z => by
    simp only [List.cons_append, ZObj.zRemAll]
    cases (z.m.loadAndDelete v).2 with
    | none => exact zRemAll_append vs ws _
    | some x =>
      simp only
      cases ZSL.load z.zsl.nodes x with
      | error => rfl
      | ok n =>
        simp only [bind, Except.bind]
        cases z.zsl.delete n.score v with
        | error => rfl
        | ok p =>
          simp only
          rw [zRemAll_append vs ws]
          simp only [bind, Except.bind]
          cases ZObj.zRemAll ⟨(z.m.loadAndDelete v).1, p.1⟩ vs with
          | error => rfl
          | ok q =>
            simp only
            cases q.1.zRemAll ws with
            | error => rfl
            | ok q' => simp only; congr 2; omega

namespace Store

theorem lPush_append (s : Store) (k : Bytes) (vs ws : List Bytes) : s.lPush k (vs ++ ws) = s.lPush k vs >>= fun p => p.1.lPush k ws := by
  unfold lPush
  cases hl : s.loadList k false with
  | error => rfl
  | ok x =>
    rcases x with (_ | _ | _ | _ | _ | _ | _) | ⟨r, l⟩
    · simp only [bind, Except.bind, LObj.lPushAll_append]
      cases LObj.empty.lPushAll vs with
      | error => rfl
      | ok l =>
        simp only [loadList_putNew, putNew_write]
    all_goals first | (simp only [bind, Except.bind, hl]; done) | skip
    simp only [bind, Except.bind, LObj.lPushAll_append]
    cases l.lPushAll vs with
    | error => rfl
    | ok l' => simp only [loadList_write hl, Bool.false_and, Bool.false_eq_true, if_false, write_write]

theorem rPush_append (s : Store) (k : Bytes) (vs ws : List Bytes) : s.rPush k (vs ++ ws) = s.rPush k vs >>= fun p => p.1.rPush k ws := by
  unfold rPush
  cases hl : s.loadList k false with
  | error => rfl
  | ok x =>
    rcases x with (_ | _ | _ | _ | _ | _ | _) | ⟨r, l⟩
    · simp only [bind, Except.bind, LObj.rPushAll_append]
      cases LObj.empty.rPushAll vs with
      | error => rfl
      | ok l =>
        simp only [loadList_putNew, putNew_write]
    all_goals first | (simp only [bind, Except.bind, hl]; done) | skip
    simp only [bind, Except.bind, LObj.rPushAll_append]
    cases l.rPushAll vs with
    | error => rfl
    | ok l' => simp only [loadList_write hl, Bool.false_and, Bool.false_eq_true, if_false, write_write]

/-- the sum of two results, or an error -/
def addRet (a b : Ret Int) : Ret Int := match a.2 with
  | none => (a.1 + b.1, b.2)
  | some e => (a.1, some e)

theorem sAdd_append (s : Store) (k : Bytes) (vs ws : List Bytes) :
    s.sAdd k (vs ++ ws) = s.sAdd k vs >>= fun p => p.1.sAdd k ws >>= fun q => .ok (q.1, addRet p.2 q.2) := by
  unfold sAdd
  cases hl : s.loadSet k false with
  | error => rfl
  | ok x =>
    rcases x with (_ | _ | _ | _ | _ | _ | _) | ⟨r, l⟩
    · simp only [bind, Except.bind, SObj.sAddAll_append, loadSet_putNew, putNew_write, addRet]
    all_goals first | (simp only [bind, Except.bind, hl, addRet]; done) | skip
    simp only [bind, Except.bind, SObj.sAddAll_append, loadSet_write hl, Bool.false_and, Bool.false_eq_true, if_false, write_write, addRet]

theorem zAdd_append (ext : Ext) (flag) (s : Store) (k : Bytes) (vs ws : List (F64 × Bytes)) :
    s.zAdd ext k (vs ++ ws) flag = s.zAdd ext k vs flag >>= fun p => p.1.zAdd ext k ws flag >>= fun q => .ok (q.1, addRet p.2 q.2) := by
  unfold zAdd
  cases hl : s.loadZSet k false with
  | error => rfl
  | ok x =>
    rcases x with (_ | _ | _ | _ | _ | _ | _) | ⟨r, l⟩
    · simp only [bind, Except.bind, ZObj.zAddAll_append]
      cases ZObj.empty.zAddAll ext flag vs s.rng with
      | error => rfl
      | ok p =>
        simp only [loadZSet_putNew]
        cases p.1.zAddAll ext flag ws p.2.2 with
        | error => rfl
        | ok q =>
          simp only [addRet]
          congr 2
          have := putNew_write s k .sortedSet (.zset p.1) (.zset q.1)
          simp only [write, putNew] at this ⊢
          rw [Store.mk.injEq] at this ⊢
          exact ⟨rfl, this.2.1.symm, rfl⟩
    all_goals first | (simp only [bind, Except.bind, hl, addRet]; done) | skip
    simp only [bind, Except.bind, ZObj.zAddAll_append]
    cases l.zAddAll ext flag vs s.rng with
    | error => rfl
    | ok p =>
      simp only [loadZSet_write hl, Bool.false_and, Bool.false_eq_true, if_false]
      cases p.1.zAddAll ext flag ws p.2.2 with
      | error => rfl
      | ok q => simp only [addRet, write, List.set_set]

theorem _root_.Godis.SObj.sRemAll_none {o : SObj} (h : ∀ v, o.m.has v = false) : ∀ vs, o.sRemAll vs = (o, 0)
  | [] => rfl
  | v :: vs => by
    have e : o.sRem v = (o, 0) := by
      unfold SObj.sRem SMap.deleteIfExists
      rw [h v]; rfl
    simp only [SObj.sRemAll, e, sRemAll_none h vs]; rfl

/-- the sum of two results, where a missing key counts as 0 -/
def remRet (a b : Ret Int) : Ret Int := match a.2 with
  | none => (a.1 + b.1, if b.2 = some .nil then none else b.2)
  | some e => (a.1, some e)

theorem sRem_append (s : Store) (k : Bytes) (vs ws : List Bytes)
    (h : ∀ r o, s.loadSet k true = .ok (.ok (r, o)) → (o.sRemAll vs).1.length = 0 → ∀ v, (o.sRemAll vs).1.m.has v = false) :
    s.sRem k (vs ++ ws) = s.sRem k vs >>= fun p => p.1.sRem k ws >>= fun q => .ok (q.1, remRet p.2 q.2) := by
  unfold sRem
  cases hl : s.loadSet k true with
  | error => rfl
  | ok x =>
    rcases x with e | ⟨r, l⟩
    · simp only [bind, Except.bind, hl, remRet]
    · simp only [bind, Except.bind, SObj.sRemAll_append, loadSet_write hl, Bool.true_and, beq_iff_eq]
      by_cases h0 : (l.sRemAll vs).1.length = 0
      · rw [if_pos h0]
        simp only [SObj.sRemAll_none (h r l hl h0), remRet, if_true]
      · rw [if_neg h0]
        simp only [write_write, remRet]; rfl

theorem zRem_append (s : Store) (k : Bytes) (vs ws : List Bytes)
    (h : ∀ r z z' n, s.loadZSet k true = .ok (.ok (r, z)) → z.zRemAll vs = .ok (z', n) → z'.zsl.length = 0 → z'.zRemAll ws = .ok (z', 0)) :
    s.zRem k (vs ++ ws) = s.zRem k vs >>= fun p => p.1.zRem k ws >>= fun q => .ok (q.1, remRet p.2 q.2) := by
  unfold zRem
  cases hl : s.loadZSet k true with
  | error => rfl
  | ok x =>
    rcases x with e | ⟨r, l⟩
    · simp only [bind, Except.bind, hl, remRet]
    · simp only [bind, Except.bind, ZObj.zRemAll_append]
      cases hz : l.zRemAll vs with
      | error => rfl
      | ok p =>
        obtain ⟨z', n⟩ := p
        have e : (s.write r (.zset z')).loadZSet k true = _ := loadZSet_write (g := s.rng) hl true
        simp only [e, Bool.true_and, beq_iff_eq]
        by_cases h0 : z'.zsl.length = 0
        · rw [if_pos h0, h r l z' n hl hz h0]
          simp only [remRet, if_true]
        · rw [if_neg h0]
          simp only
          cases z'.zRemAll ws with
          | error => rfl
          | ok q => simp only [write_write, remRet]; rfl

theorem sRem_nil {s s1 s2 : Store} {k : Bytes} {vs ws : List Bytes} {r1 r2 : Ret Int} (h1 : s.sRem k vs = .ok (s1, r1)) (h2 : s1.sRem k ws = .ok (s2, r2))
    (h : r1.2 = some .nil) : r2 = r1 ∧ r1.1 = 0 := by
  unfold sRem at h1 h2
  cases hl : s.loadSet k true with
  | error => rw [hl] at h1; cases h1
  | ok x =>
    rw [hl] at h1
    rcases x with e | ⟨r, l⟩
    · cases h1
      rw [hl] at h2; cases h2
      exact ⟨rfl, rfl⟩
    · cases h1; cases h

theorem zRem_nil {s s1 s2 : Store} {k : Bytes} {vs ws : List Bytes} {r1 r2 : Ret Int} (h1 : s.zRem k vs = .ok (s1, r1)) (h2 : s1.zRem k ws = .ok (s2, r2))
    (h : r1.2 = some .nil) : r2 = r1 ∧ r1.1 = 0 := by
  unfold zRem at h1 h2
  cases hl : s.loadZSet k true with
  | error => rw [hl] at h1; cases h1
  | ok x =>
    rw [hl] at h1
    rcases x with e | ⟨r, l⟩
    · cases h1
      rw [hl] at h2; cases h2
      exact ⟨rfl, rfl⟩
    · obtain ⟨p, _, h2⟩ := bind_ok (show (l.zRemAll vs >>= fun p => .ok (s.write r (.zset p.1), p.2, none)) = Except.ok (s1, r1) from h1)
      cases h2; cases h

end Store

namespace LObj

theorem lPop_cases {l l' : LObj} {v : Option Bytes} (h : l.lPop = .ok (l', v)) :
    (v = none ∧ l' = l) ∨ ∃ x, v = some x ∧ l'.length = l.length - 1 := by
  unfold lPop at h
  cases hd : l.head with
  | none => rw [hd] at h; cases h; exact .inl ⟨rfl, rfl⟩
  | some a =>
    rw [hd] at h
    obtain ⟨n, _, h⟩ := bind_ok h
    obtain ⟨n1, _, h⟩ := bind_ok h
    obtain ⟨n2, _, h⟩ := bind_ok h
    cases h
    exact .inr ⟨_, rfl, rfl⟩

theorem lPopLoop_zero (k : Nat) (l : LObj) : l.lPopLoop k 0 = .ok (l, []) := by
  cases k with
  | zero => rfl
  | succ k => unfold lPopLoop; simp

theorem lPopLoop_nat {l : LObj} (n : Int) (h : 0 < n) : l.lPopLoop l.length.toNat n =
    if l.length ≤ 0 then .ok (l, []) else l.lPop >>= fun p => match p.2 with
      | none => .ok (p.1, [])
      | some v => p.1.lPopLoop p.1.length.toNat (n - 1) >>= fun q => .ok (q.1, v :: q.2) := by
  split
  · next hl => rw [show l.length.toNat = 0 by omega]; rfl
  · next hl =>
    rw [show l.length.toNat = (l.length - 1).toNat + 1 by omega]
    conv => lhs; unfold lPopLoop
    rw [if_pos ⟨h, by omega⟩]
    cases hp : l.lPop with
    | error => rfl
    | ok p =>
      obtain ⟨l', v⟩ := p
      rcases lPop_cases hp with ⟨rfl, rfl⟩ | ⟨x, rfl, e⟩
      · rfl
      · simp only [bind, Except.bind, e]

/-- popping one, then `n` more -/
theorem lPopLoop_succ {l : LObj} {n : Int} (hn : 0 < n) : l.lPopLoop l.length.toNat (n + 1) =
    l.lPopLoop l.length.toNat 1 >>= fun p => p.1.lPopLoop p.1.length.toNat n >>= fun q => .ok (q.1, p.2 ++ q.2) := by
  rw [lPopLoop_nat (n + 1) (by omega), lPopLoop_nat 1 (by omega)]
  split
  · next hl =>
    simp only [bind, Except.bind]
    rw [lPopLoop_nat n hn, if_pos hl]; rfl
  · next hl =>
    cases hp : l.lPop with
    | error => rfl
    | ok p =>
      obtain ⟨l', v⟩ := p
      rcases lPop_cases hp with ⟨rfl, rfl⟩ | ⟨x, rfl, e⟩
      · simp only [bind, Except.bind]
        rw [lPopLoop_nat n hn, if_neg hl, hp]; rfl
      · simp only [bind, Except.bind, Int.sub_self, lPopLoop_zero, Int.add_sub_cancel]
        cases l'.lPopLoop l'.length.toNat n with
        | error => rfl
        | ok q => rfl

theorem rPop_cases {l l' : LObj} {v : Option Bytes} (h : l.rPop = .ok (l', v)) :
    (v = none ∧ l' = l) ∨ ∃ x, v = some x ∧ l'.length = l.length - 1 := by
  unfold rPop at h
  cases hd : l.tail with
  | none => rw [hd] at h; cases h; exact .inl ⟨rfl, rfl⟩
  | some a =>
    rw [hd] at h
    obtain ⟨n, _, h⟩ := bind_ok h
    obtain ⟨n1, _, h⟩ := bind_ok h
    obtain ⟨n2, _, h⟩ := bind_ok h
    cases h
    exact .inr ⟨_, rfl, rfl⟩

theorem rPopLoop_zero (k : Nat) (l : LObj) : l.rPopLoop k 0 = .ok (l, []) := by
  cases k with
  | zero => rfl
  | succ k => unfold rPopLoop; simp

theorem rPopLoop_nat {l : LObj} (n : Int) (h : 0 < n) : l.rPopLoop l.length.toNat n =
    if l.length ≤ 0 then .ok (l, []) else l.rPop >>= fun p => match p.2 with
      | none => .ok (p.1, [])
      | some v => p.1.rPopLoop p.1.length.toNat (n - 1) >>= fun q => .ok (q.1, v :: q.2) := by
  split
  · next hl => rw [show l.length.toNat = 0 by omega]; rfl
  · next hl =>
    rw [show l.length.toNat = (l.length - 1).toNat + 1 by omega]
    conv => lhs; unfold rPopLoop
    rw [if_pos ⟨h, by omega⟩]
    cases hp : l.rPop with
    | error => rfl
    | ok p =>
      obtain ⟨l', v⟩ := p
      rcases rPop_cases hp with ⟨rfl, rfl⟩ | ⟨x, rfl, e⟩
      · rfl
      · simp only [bind, Except.bind, e]

/-- popping one, then `n` more -/
theorem rPopLoop_succ {l : LObj} {n : Int} (hn : 0 < n) : l.rPopLoop l.length.toNat (n + 1) =
    l.rPopLoop l.length.toNat 1 >>= fun p => p.1.rPopLoop p.1.length.toNat n >>= fun q => .ok (q.1, p.2 ++ q.2) := by
  rw [rPopLoop_nat (n + 1) (by omega), rPopLoop_nat 1 (by omega)]
  split
  · next hl =>
    simp only [bind, Except.bind]
    rw [rPopLoop_nat n hn, if_pos hl]; rfl
  · next hl =>
    cases hp : l.rPop with
    | error => rfl
    | ok p =>
      obtain ⟨l', v⟩ := p
      rcases rPop_cases hp with ⟨rfl, rfl⟩ | ⟨x, rfl, e⟩
      · simp only [bind, Except.bind]
        rw [rPopLoop_nat n hn, if_neg hl, hp]; rfl
      · simp only [bind, Except.bind, Int.sub_self, rPopLoop_zero, Int.add_sub_cancel]
        cases l'.rPopLoop l'.length.toNat n with
        | error => rfl
        | ok q => rfl

end LObj

namespace Store

/-- the items of two results together; nothing is added when there is nothing -/
def joinRet (a b : Ret (List Bytes)) : Ret (List Bytes) := match a.2 with
  | none => if b.2 = some .nil then (a.1, none) else (a.1 ++ b.1, b.2)
  | some e => (a.1, some e)

theorem lPop_succ (s : Store) (k : Bytes) {n : Int} (hn : 0 < n) :
    s.lPop k (n + 1) = s.lPop k 1 >>= fun p => p.1.lPop k n >>= fun q => .ok (q.1, joinRet p.2 q.2) := by
  unfold lPop
  cases hl : s.loadList k true with
  | error => rfl
  | ok x =>
    rcases x with e | ⟨r, l⟩
    · simp only [bind, Except.bind, hl, joinRet]
    · simp only [bind, Except.bind, LObj.lPopLoop_succ hn]
      cases l.lPopLoop l.length.toNat 1 with
      | error => rfl
      | ok p =>
        obtain ⟨l', vs⟩ := p
        simp only [loadList_write hl, Bool.true_and, beq_iff_eq]
        by_cases h0 : l'.length = 0
        · rw [if_pos h0, LObj.lPopLoop_nat n hn, if_pos (by omega)]
          simp only [joinRet, if_true, List.append_nil]
        · rw [if_neg h0]
          simp only
          cases l'.lPopLoop l'.length.toNat n with
          | error => rfl
          | ok q => simp only [write_write, joinRet]; rfl

theorem rPop_succ (s : Store) (k : Bytes) {n : Int} (hn : 0 < n) :
    s.rPop k (n + 1) = s.rPop k 1 >>= fun p => p.1.rPop k n >>= fun q => .ok (q.1, joinRet p.2 q.2) := by
  unfold rPop
  cases hl : s.loadList k false with
  | error => rfl
  | ok x =>
    rcases x with e | ⟨r, l⟩
    · simp only [bind, Except.bind, hl, joinRet]
    · simp only [bind, Except.bind, LObj.rPopLoop_succ hn]
      cases l.rPopLoop l.length.toNat 1 with
      | error => rfl
      | ok p =>
        obtain ⟨l', vs⟩ := p
        simp only [loadList_write hl, Bool.false_and, Bool.false_eq_true, if_false]
        cases l'.rPopLoop l'.length.toNat n with
        | error => rfl
        | ok q => simp only [write_write, joinRet]; rfl

theorem loadSet_heap {s : Store} {k : Bytes} {b : Bool} {r : Nat} {o : SObj} (h : s.loadSet k b = .ok (.ok (r, o))) : s.heap[r]? = some (.set o) := by
  unfold loadSet at h
  cases hi : s.loadKeyInfo k .set with
  | error e => rw [hi] at h; cases h
  | ok info =>
    rw [hi] at h
    simp only at h
    cases hv : info.value with
    | str => rw [hv] at h; cases h
    | ref q =>
      rw [hv] at h
      simp only at h
      cases hq : s.heap[q]? with
      | none => rw [hq] at h; cases h
      | some o =>
        rw [hq] at h
        cases o with
        | set l0 =>
          simp only at h
          split at h
          · cases h
          · cases h; exact hq
        | _ => cases h

theorem loadZSet_ne {s : Store} {k : Bytes} {r : Nat} {z : ZObj} (h : s.loadZSet k true = .ok (.ok (r, z))) : z.zsl.length ≠ 0 := by
  unfold loadZSet at h
  cases hi : s.loadKeyInfo k .sortedSet with
  | error e => rw [hi] at h; cases h
  | ok info =>
    rw [hi] at h
    simp only at h
    cases hv : info.value with
    | str => rw [hv] at h; cases h
    | ref q =>
      rw [hv] at h
      simp only at h
      cases hq : s.heap[q]? with
      | none => rw [hq] at h; cases h
      | some o =>
        rw [hq] at h
        cases o with
        | zset l0 =>
          simp only at h
          split at h
          · cases h
          · next hne => cases h; simpa using hne
        | _ => cases h

theorem mSet_cons (s : Store) (k v : Bytes) (rest : List Bytes) : s.mSet (k :: v :: rest) = (s.set k v).mSet rest := rfl

theorem lPop_err {s s1 s2 : Store} {k : Bytes} {n n' : Int} {r1 r2 : Ret (List Bytes)} (h1 : s.lPop k n = .ok (s1, r1)) (h2 : s1.lPop k n' = .ok (s2, r2)) :
    ∀ e, r2.2 = some e → e = .nil ∨ r1.2 ≠ none := by
  intro e he
  unfold lPop at h1
  cases hl : s.loadList k true with
  | error => rw [hl] at h1; cases h1
  | ok x =>
    rw [hl] at h1
    rcases x with e | ⟨r, l⟩
    · cases h1; exact .inr (by simp)
    · obtain ⟨p, _, h3⟩ := bind_ok (show (l.lPopLoop l.length.toNat n >>= fun p => .ok (s.write r (.list p.1), p.2, none)) = Except.ok (s1, r1) from h1)
      cases h3
      left
      unfold lPop at h2
      rw [loadList_write hl] at h2
      split at h2
      · cases h2; cases he; rfl
      · obtain ⟨q, _, h4⟩ := bind_ok (show (p.1.lPopLoop p.1.length.toNat n' >>= fun q => .ok ((s.write r (.list p.1)).write r (.list q.1), q.2, none)) = Except.ok (s2, r2) from h2)
        cases h4; cases he

theorem rPop_err {s s1 s2 : Store} {k : Bytes} {n n' : Int} {r1 r2 : Ret (List Bytes)} (h1 : s.rPop k n = .ok (s1, r1)) (h2 : s1.rPop k n' = .ok (s2, r2)) :
    ∀ e, r2.2 = some e → e = .nil ∨ r1.2 ≠ none := by
  intro e he
  unfold rPop at h1
  cases hl : s.loadList k false with
  | error => rw [hl] at h1; cases h1
  | ok x =>
    rw [hl] at h1
    rcases x with e | ⟨r, l⟩
    · cases h1; exact .inr (by simp)
    · obtain ⟨p, _, h3⟩ := bind_ok (show (l.rPopLoop l.length.toNat n >>= fun p => .ok (s.write r (.list p.1), p.2, none)) = Except.ok (s1, r1) from h1)
      cases h3
      left
      unfold rPop at h2
      rw [loadList_write hl] at h2
      split at h2
      · cases h2; cases he; rfl
      · obtain ⟨q, _, h4⟩ := bind_ok (show (p.1.rPopLoop p.1.length.toNat n' >>= fun q => .ok ((s.write r (.list p.1)).write r (.list q.1), q.2, none)) = Except.ok (s2, r2) from h2)
        cases h4; cases he

end Store
end Godis
