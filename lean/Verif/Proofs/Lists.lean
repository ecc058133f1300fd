import Verif.Proofs.ListRem
import Verif.Proofs.Share
import Verif.Spec.Lists
/-! The list commands refine the list specification. -/
namespace Godis
open Resp (Reply bulks)
open ListSpec
open StrSpec (int64 lower isError Ascii counters setStores)

/-! ## pushes on a hollow list -/
namespace LObj

theorem lPush_hollow {l : LObj} (h : HollowL l) (v : Bytes) : ∃ l', l.lPush v = .ok l' ∧ l'.Is [v] := by
  obtain ⟨h1, h2, t, h3, h4⟩ := h
  refine ⟨_, by simp only [lPush, h2]; rfl, [(l.nodes.length, v)], ⟨?_, by simp, by simp [h1], rfl, rfl⟩, rfl⟩
  simp [Seg, first]

theorem lPushAll_hollow {l : LObj} (h : HollowL l) (w : Bytes) (ws : List Bytes) :
    ∃ l', l.lPushAll (w :: ws) = .ok l' ∧ l'.Is (w :: ws).reverse := by
  obtain ⟨l1, h1, h2⟩ := lPush_hollow h w
  obtain ⟨l2, h3, h4⟩ := lPushAll_is h2 ws
  exact ⟨l2, by simp only [lPushAll, h1, bind, Except.bind, h3], by simpa using h4⟩

theorem rPushAll_hollow {l : LObj} (h : HollowR l) (w : Bytes) (ws : List Bytes) :
    ∃ l', l.rPushAll (w :: ws) = .ok l' ∧ l'.Is (w :: ws) := by
  obtain ⟨l1, h1, h2⟩ := lPush_hollow (hollow_flip.mpr h) w
  have h2' := h2.flip
  obtain ⟨l2, h3, h4⟩ := rPushAll_is h2' ws
  refine ⟨l2, ?_, by simpa using h4⟩
  simp only [rPushAll, rPush_flip, h1, Except.map, bind, Except.bind, h3]

/-- a push at the unusable end still counts -/
theorem rPush_lost {l : LObj} {t : Nat} (h : l.tail = some t) (ht : t < l.nodes.length) (v : Bytes) :
    ∃ l' t', l.rPush v = .ok l' ∧ l'.length = l.length + 1 ∧ l'.tail = some t' ∧ t' < l'.nodes.length := by
  have hn : (l.nodes ++ [(⟨none, some t, v⟩ : LNode)])[t]? = some l.nodes[t] := by
    rw [List.getElem?_append_left ht]; simp [ht]
  refine ⟨_, _, by simp only [rPush, h, setNext_some hn, bind, Except.bind]; rfl, rfl, rfl, by simp⟩

theorem rPushAll_lost (ws : List Bytes) {l : LObj} {t : Nat} (h : l.tail = some t) (ht : t < l.nodes.length) :
    ∃ l', l.rPushAll ws = .ok l' ∧ l'.length = l.length + ws.length := by
  induction ws generalizing l t with
  | nil => exact ⟨l, rfl, by simp⟩
  | cons w ws ih =>
    obtain ⟨l1, t1, h1, h2, h3, h4⟩ := rPush_lost h ht w
    obtain ⟨l2, h5, h6⟩ := ih h3 h4
    refine ⟨l2, by simp only [rPushAll, h1, bind, Except.bind, h5], ?_⟩
    rw [h6, h2]; simp; omega

theorem lPush_rPush_flip (l : LObj) (v : Bytes) : l.lPush v = (l.flip.rPush v).map LObj.flip := by
  rw [rPush_flip, flip_flip]
  cases l.lPush v <;> simp [Except.map]

theorem lPush_lost {l : LObj} {t : Nat} (h : l.head = some t) (ht : t < l.nodes.length) (v : Bytes) :
    ∃ l' t', l.lPush v = .ok l' ∧ l'.length = l.length + 1 ∧ l'.head = some t' ∧ t' < l'.nodes.length := by
  obtain ⟨l', t', h1, h2, h3, h4⟩ := rPush_lost (l := l.flip) (t := t) h (by simpa [LObj.flip] using ht) v
  exact ⟨l'.flip, t', by rw [lPush_rPush_flip, h1]; rfl, h2, h3, by simpa [LObj.flip] using h4⟩

theorem lPushAll_lost (ws : List Bytes) {l : LObj} {t : Nat} (h : l.head = some t) (ht : t < l.nodes.length) :
    ∃ l', l.lPushAll ws = .ok l' ∧ l'.length = l.length + ws.length := by
  induction ws generalizing l t with
  | nil => exact ⟨l, rfl, by simp⟩
  | cons w ws ih =>
    obtain ⟨l1, t1, h1, h2, h3, h4⟩ := lPush_lost h ht w
    obtain ⟨l2, h5, h6⟩ := ih h3 h4
    refine ⟨l2, by simp only [lPushAll, h1, bind, Except.bind, h5], ?_⟩
    rw [h6, h2]; simp; omega

end LObj

/-! ## the relation between stores and views -/

/-- `k` holds the list object `o` -/
def ListAt (s : Store) (k : Bytes) (o : LObj) : Prop :=
  ∃ r, s.keys.get k = some ⟨.list, .ref r⟩ ∧ s.heap[r]? = some (.list o)

/-- the store and the view agree about key `k` -/
def LMatch (s : Store) (k : Bytes) : LView → Prop
  | .absent => s.keys.get k = none
  | .other => ∃ info, s.keys.get k = some info ∧ info.type ≠ .list
  | .list l => ∃ o, ListAt s k o ∧ o.Is l
  | .hollow true => ∃ o, ListAt s k o ∧ LObj.HollowL o
  | .hollow false => ∃ o, ListAt s k o ∧ LObj.HollowR o
  | .lost => ∃ o, ListAt s k o

variable {s s' : Store} {k : Bytes} {v : LView} {ext : Ext} {it : Iter}

theorem ListAt.write {o : LObj} {r : Nat} (hg : s.keys.get k = some ⟨.list, .ref r⟩) (ho : s.heap[r]? = some (.list o))
    (o' : LObj) : ListAt (s.write r (.list o')) k o' := by
  have hr : r < s.heap.length := (List.getElem?_eq_some_iff.mp ho).1
  exact ⟨r, hg, by simp [Store.write, hr]⟩

theorem ListAt.new (s : Store) (k : Bytes) (o : LObj) : ListAt (s.putNew k .list (.list o)) k o :=
  ⟨s.heap.length, by simp [Store.putNew], by simp [Store.putNew]⟩

theorem load_absent (h : s.keys.get k = none) (b) : s.loadList k b = .ok (.error .nil) := by
  simp [Store.loadList, loadKeyInfo_none h]
theorem load_other {info} (h : s.keys.get k = some info) (hi : info.type ≠ .list) (b) :
    s.loadList k b = .ok (.error .keyAndCommandNotMatch) := by
  simp [Store.loadList, loadKeyInfo_ne h hi]
theorem load_list {o : LObj} {r : Nat} (hg : s.keys.get k = some ⟨.list, .ref r⟩) (ho : s.heap[r]? = some (.list o)) (b : Bool) :
    s.loadList k b = if b && o.length == 0 then .ok (.error .nil) else .ok (.ok (r, o)) := by
  simp [Store.loadList, loadKeyInfo_ok hg, ho]

/-- what a command has to do: answer `m` and leave `k` in view `v'` -/
def Does (f : CmdFn) (ext : Ext) (it : Iter) (s : Store) (k : Bytes) (args : List Bytes) (m : Reply) (v' : LView) : Prop :=
  ∃ s' o, f ext it s (k :: args) = .ok (s', o) ∧ (setRsp o).reply = some m ∧ LMatch s' k v'

theorem Does.err {f : CmdFn} {e : Err} {args : List Bytes} (h : f ext it s (k :: args) = .ok (s, .error e)) (hv : LMatch s k v) :
    Does f ext it s k args (.error e.msg) v := ⟨s, _, h, by simp, hv⟩

theorem Does.ok {f : CmdFn} {r : Response} {args : List Bytes} {m} {v'} (h : f ext it s (k :: args) = .ok (s', .ok r))
    (hr : r.reply = some m) (hv : LMatch s' k v') : Does f ext it s k args m v' := ⟨s', _, h, hr, hv⟩

/-- the view after the reply `m` -/
def lnext (v : LView) (name : Bytes) (args : List Bytes) (m : Reply) : LView := if isError m then v else next v name args

theorem lnext_err {v : LView} {name : Bytes} {args : List Bytes} {e} : lnext v name args (.error e) = v := rfl
theorem lnext_int {v : LView} {name : Bytes} {args : List Bytes} {i} : lnext v name args (.int i) = next v name args := rfl
theorem lnext_simple {v : LView} {name : Bytes} {args : List Bytes} {i} : lnext v name args (.simple i) = next v name args := rfl
theorem lnext_bulk {v : LView} {name : Bytes} {args : List Bytes} {i} : lnext v name args (.bulk i) = next v name args := rfl
theorem lnext_bulks {v : LView} {name : Bytes} {args : List Bytes} {i} : lnext v name args (bulks i) = next v name args := rfl
theorem lnext_same {v : LView} {name : Bytes} {args : List Bytes} {m} (h : next v name args = v) : lnext v name args m = v := by
  unfold lnext; rw [h, ite_self]

theorem reply_lpush (v : LView) (args : List Bytes) : reply v (b! "lpush") args = if v = .lost then none else
    some (if args = [] then errArgs else if v = .other then errType else .int ((elems v).length + args.length)) := by
  unfold reply; rfl
theorem reply_rpush (v : LView) (args : List Bytes) : reply v (b! "rpush") args = if v = .lost then none else
    some (if args = [] then errArgs else if v = .other then errType else .int ((elems v).length + args.length)) := by
  unfold reply; rfl

theorem does_lpush (hv : LMatch s k v) {args : List Bytes} {m} (hr : reply v (b! "lpush") args = some m) :
    Does cmdLPush ext it s k args m (lnext v (b! "lpush") args m) := by
  rw [reply_lpush] at hr
  split at hr
  · cases hr
  next hlost =>
  cases hr
  cases args with
  | nil => exact Does.err (e := .commandArgsNotEnough) rfl hv
  | cons w ws =>
    simp only [reduceCtorEq, if_false]
    cases v with
    | lost => exact absurd rfl hlost
    | other =>
      obtain ⟨info, hg, hi⟩ := hv
      exact Does.err (e := .keyAndCommandNotMatch)
        (by simp [cmdLPush, Store.lPush, load_other hg hi, bind, Except.bind, intReply, retErr]) ⟨info, hg, hi⟩
    | absent =>
      obtain ⟨l', h1, h2⟩ := LObj.lPushAll_is LObj.is_empty (w :: ws)
      refine Does.ok (s' := s.putNew k .list (.list l'))
        (by simp [cmdLPush, Store.lPush, load_absent hv, bind, Except.bind, intReply, retOk, h1]; rfl)
        (by simp [h2.length, elems]) ?_
      exact ⟨l', .new s k l', by simpa using h2⟩
    | list l =>
      obtain ⟨o, ⟨r, hg, ho⟩, hI⟩ := hv
      obtain ⟨l', h1, h2⟩ := LObj.lPushAll_is hI (w :: ws)
      refine Does.ok (s' := s.write r (.list l'))
        (by simp [cmdLPush, Store.lPush, load_list hg ho, bind, Except.bind, intReply, retOk, h1]; rfl)
        (by simp [h2.length, elems]; omega) ?_
      exact ⟨l', .write hg ho l', h2⟩
    | hollow b =>
      cases b with
      | true =>
        obtain ⟨o, ⟨r, hg, ho⟩, hI⟩ := hv
        obtain ⟨l', h1, h2⟩ := LObj.lPushAll_hollow hI w ws
        refine Does.ok (s' := s.write r (.list l'))
          (by simp [cmdLPush, Store.lPush, load_list hg ho, bind, Except.bind, intReply, retOk, h1]; rfl)
          (by simp [h2.length, elems]) ?_
        exact ⟨l', .write hg ho l', h2⟩
      | false =>
        obtain ⟨o, ⟨r, hg, ho⟩, hl, _, t, hI, htl⟩ := hv
        obtain ⟨l', h1, h2⟩ := LObj.lPushAll_lost (w :: ws) hI htl
        refine Does.ok (s' := s.write r (.list l'))
          (by simp [cmdLPush, Store.lPush, load_list hg ho, bind, Except.bind, intReply, retOk, h1]; rfl)
          (by simp [h2, hl, elems]) ?_
        exact ⟨l', .write hg ho l'⟩

theorem does_rpush (hv : LMatch s k v) {args : List Bytes} {m} (hr : reply v (b! "rpush") args = some m) :
    Does cmdRPush ext it s k args m (lnext v (b! "rpush") args m) := by
  rw [reply_rpush] at hr
  split at hr
  · cases hr
  next hlost =>
  cases hr
  cases args with
  | nil => exact Does.err (e := .commandArgsNotEnough) rfl hv
  | cons w ws =>
    simp only [reduceCtorEq, if_false]
    cases v with
    | lost => exact absurd rfl hlost
    | other =>
      obtain ⟨info, hg, hi⟩ := hv
      exact Does.err (e := .keyAndCommandNotMatch)
        (by simp [cmdRPush, Store.rPush, load_other hg hi, bind, Except.bind, intReply, retErr]) ⟨info, hg, hi⟩
    | absent =>
      obtain ⟨l', h1, h2⟩ := LObj.rPushAll_is LObj.is_empty (w :: ws)
      refine Does.ok (s' := s.putNew k .list (.list l'))
        (by simp [cmdRPush, Store.rPush, load_absent hv, bind, Except.bind, intReply, retOk, h1]; rfl)
        (by simp [h2.length, elems]) ?_
      exact ⟨l', .new s k l', by simpa using h2⟩
    | list l =>
      obtain ⟨o, ⟨r, hg, ho⟩, hI⟩ := hv
      obtain ⟨l', h1, h2⟩ := LObj.rPushAll_is hI (w :: ws)
      refine Does.ok (s' := s.write r (.list l'))
        (by simp [cmdRPush, Store.rPush, load_list hg ho, bind, Except.bind, intReply, retOk, h1]; rfl)
        (by simp [h2.length, elems]) ?_
      exact ⟨l', .write hg ho l', h2⟩
    | hollow b =>
      cases b with
      | false =>
        obtain ⟨o, ⟨r, hg, ho⟩, hI⟩ := hv
        obtain ⟨l', h1, h2⟩ := LObj.rPushAll_hollow hI w ws
        refine Does.ok (s' := s.write r (.list l'))
          (by simp [cmdRPush, Store.rPush, load_list hg ho, bind, Except.bind, intReply, retOk, h1]; rfl)
          (by simp [h2.length, elems]) ?_
        exact ⟨l', .write hg ho l', h2⟩
      | true =>
        obtain ⟨o, ⟨r, hg, ho⟩, hl, _, t, hI, htl⟩ := hv
        obtain ⟨l', h1, h2⟩ := LObj.rPushAll_lost (w :: ws) hI htl
        refine Does.ok (s' := s.write r (.list l'))
          (by simp [cmdRPush, Store.rPush, load_list hg ho, bind, Except.bind, intReply, retOk, h1]; rfl)
          (by simp [h2, hl, elems]) ?_
        exact ⟨l', .write hg ho l'⟩


/-! ## pops -/

theorem HollowL.length0 {o : LObj} (h : LObj.HollowL o) : o.length = 0 := h.1
theorem HollowR.length0 {o : LObj} (h : LObj.HollowR o) : o.length = 0 := h.1

/-- a hollow list has length 0 -/
theorem LMatch.hollow {b : Bool} (h : LMatch s k (.hollow b)) : ∃ o, ListAt s k o ∧ o.length = 0 := by
  cases b <;> obtain ⟨o, ho, h⟩ := h <;> exact ⟨o, ho, h.1⟩

theorem popCount_eq (args : List Bytes) : Godis.popCount args = (ListSpec.popCount args).map (fun (n : Nat) => (n : Int)) := by
  cases args with
  | nil => rfl
  | cons c cs =>
    simp only [Godis.popCount, ListSpec.popCount, int64_eq, atoi]
    cases hp : parseInt c with
    | none => rfl
    | some n =>
      by_cases h : 0 < n
      · have : ¬ n ≤ 0 := by omega
        simp [h, this]; omega
      · have : n ≤ 0 := by omega
        simp [h, this]

theorem popCount_pos {args : List Bytes} {n : Nat} (h : ListSpec.popCount args = some n) : 0 < n := by
  cases args with
  | nil => cases h; decide
  | cons c cs =>
    simp only [ListSpec.popCount] at h
    split at h
    · split at h
      · cases h; omega
      · cases h
    · cases h

theorem reply_lpop (v : LView) (args : List Bytes) : reply v (b! "lpop") args = if v = .lost then none else
    some (match ListSpec.popCount args with
      | none => errRange
      | some n =>
        if v = .other then errType else if elems v = [] then .bulk none else bulks ((elems v).take n)) := by
  unfold reply; rfl
theorem reply_rpop (v : LView) (args : List Bytes) : reply v (b! "rpop") args = if v = .lost then none else
    some (match ListSpec.popCount args with
      | none => errRange
      | some n =>
        if v = .other then errType else if v = .absent then .bulk none else bulks ((elems v).reverse.take n)) := by
  unfold reply; rfl
theorem next_lpop (l : List Bytes) (args : List Bytes) :
    next (.list l) (b! "lpop") args = .list (l.drop ((ListSpec.popCount args).getD 0)) := by unfold next; rfl
theorem next_rpop (l : List Bytes) (args : List Bytes) :
    next (.list l) (b! "rpop") args = .list (l.take (l.length - (ListSpec.popCount args).getD 0)) := by unfold next; rfl

theorem isError_bulks (l : List Bytes) : isError (bulks l) = false := rfl

theorem does_lpop (hv : LMatch s k v) {args : List Bytes} {m} (hr : reply v (b! "lpop") args = some m) :
    Does cmdLPop ext it s k args m (lnext v (b! "lpop") args m) := by
  rw [reply_lpop] at hr
  split at hr
  · cases hr
  next hlost =>
  cases hr
  cases hp : ListSpec.popCount args with
  | none =>
    exact Does.err (e := .valueOutOfRange) (by simp [cmdLPop, popCount_eq, hp, retErr]) hv
  | some n =>
    have hn := popCount_pos hp
    dsimp only
    cases v with
    | lost => exact absurd rfl hlost
    | other =>
      obtain ⟨info, hg, hi⟩ := hv
      exact Does.err (e := .keyAndCommandNotMatch)
        (by simp [cmdLPop, popCount_eq, hp, Store.lPop, load_other hg hi, bind, Except.bind, arrReply, retErr]) ⟨info, hg, hi⟩
    | absent =>
      exact Does.ok (s' := s) (by simp [cmdLPop, popCount_eq, hp, Store.lPop, load_absent hv, bind, Except.bind, arrReply, retOk]; rfl)
        (by simp [elems]) hv
    | hollow b =>
      obtain ⟨o, ⟨r, hg, ho⟩, h0⟩ := hv.hollow
      refine Does.ok (s' := s) (by simp [cmdLPop, popCount_eq, hp, Store.lPop, load_list hg ho, h0, bind, Except.bind, arrReply, retOk]; rfl)
        (by simp [elems]) ?_
      exact hv
    | list l =>
      obtain ⟨o, ⟨r, hg, ho⟩, hI⟩ := hv
      have hlen := hI.length
      by_cases hl : l = []
      · subst hl
        refine Does.ok (s' := s) (by simp [cmdLPop, popCount_eq, hp, Store.lPop, load_list hg ho, hlen, bind, Except.bind, arrReply, retOk]; rfl)
          (by simp [elems]) ?_
        simp only [elems, if_true, reduceCtorEq, if_false, lnext_bulk, next_lpop]
        exact ⟨o, ⟨r, hg, ho⟩, by simpa using hI⟩
      · obtain ⟨l', h1, h2⟩ := LObj.lPopLoop_is hI o.length.toNat (by omega) n
        have h0 : ¬ o.length = 0 := by rw [hlen]; simpa using hl
        refine Does.ok (s' := s.write r (.list l'))
          (by simp [cmdLPop, popCount_eq, hp, Store.lPop, load_list hg ho, h0, h1, bind, Except.bind, arrReply, retOk]; rfl)
          (by simp [elems, hl]) ?_
        simp only [elems, hl, reduceCtorEq, if_false, lnext_bulks, next_lpop, hp, Option.getD_some]
        exact ⟨l', .write hg ho l', h2⟩

theorem does_rpop (hv : LMatch s k v) {args : List Bytes} {m} (hr : reply v (b! "rpop") args = some m) :
    Does cmdRPop ext it s k args m (lnext v (b! "rpop") args m) := by
  rw [reply_rpop] at hr
  split at hr
  · cases hr
  next hlost =>
  cases hr
  cases hp : ListSpec.popCount args with
  | none =>
    exact Does.err (e := .valueOutOfRange) (by simp [cmdRPop, popCount_eq, hp, retErr]) hv
  | some n =>
    have hn := popCount_pos hp
    dsimp only
    cases v with
    | lost => exact absurd rfl hlost
    | other =>
      obtain ⟨info, hg, hi⟩ := hv
      exact Does.err (e := .keyAndCommandNotMatch)
        (by simp [cmdRPop, popCount_eq, hp, Store.rPop, load_other hg hi, bind, Except.bind, arrReply, retErr]) ⟨info, hg, hi⟩
    | absent =>
      exact Does.ok (s' := s) (by simp [cmdRPop, popCount_eq, hp, Store.rPop, load_absent hv, bind, Except.bind, arrReply, retOk]; rfl)
        (by simp) hv
    | hollow b =>
      obtain ⟨o, ⟨r, hg, ho⟩, h0⟩ := hv.hollow
      have hw : s.write r (.list o) = s := by
        obtain ⟨hr, he⟩ := List.getElem?_eq_some_iff.mp ho
        simp only [Store.write, ← he, List.set_getElem_self]
      refine Does.ok (s' := s) (by simp [cmdRPop, popCount_eq, hp, Store.rPop, load_list hg ho, h0, LObj.rPopLoop, hw, bind, Except.bind, arrReply, retOk]; rfl)
        (by simp [elems]) ?_
      exact hv
    | list l =>
      obtain ⟨o, ⟨r, hg, ho⟩, hI⟩ := hv
      have hlen := hI.length
      obtain ⟨l', h1, h2⟩ := LObj.rPopLoop_is hI o.length.toNat (by omega) n
      refine Does.ok (s' := s.write r (.list l'))
        (by simp [cmdRPop, popCount_eq, hp, Store.rPop, load_list hg ho, h1, bind, Except.bind, arrReply, retOk]; rfl)
        (by simp [elems]) ?_
      simp only [elems, reduceCtorEq, if_false, lnext_bulks, next_rpop, hp, Option.getD_some]
      exact ⟨l', .write hg ho l', h2⟩

/-! ## LLEN and LRANGE -/

theorem reply_llen (v : LView) (args : List Bytes) : reply v (b! "llen") args = if v = .lost then none else
    some (if v = .other then errType else .int (elems v).length) := by
  unfold reply; rfl
theorem reply_lrange (v : LView) (args : List Bytes) : reply v (b! "lrange") args = if v = .lost then none else
    some (match args with
      | a :: b :: _ =>
        match int64 a, int64 b with
        | some start, some stop => if v = .other then errType else bulks (window (elems v) start stop)
        | _, _ => errRange
      | _ => errArgs) := by
  unfold reply; rfl

theorem next_llen (v : LView) (args : List Bytes) : next v (b! "llen") args = v := by
  unfold next; cases v <;> rfl
theorem next_lrange (v : LView) (args : List Bytes) : next v (b! "lrange") args = v := by
  unfold next; cases v <;> rfl

theorem does_llen (hv : LMatch s k v) {args : List Bytes} {m} (hr : reply v (b! "llen") args = some m) :
    Does cmdLLen ext it s k args m (lnext v (b! "llen") args m) := by
  rw [reply_llen] at hr
  split at hr
  · cases hr
  next hlost =>
  cases hr
  rw [lnext_same (next_llen _ _)]
  cases v with
  | lost => exact absurd rfl hlost
  | other =>
    obtain ⟨info, hg, hi⟩ := hv
    exact Does.err (e := .keyAndCommandNotMatch)
      (by simp [cmdLLen, Store.lLen, load_other hg hi, bind, Except.bind, intReplyNilOk, retErr]) ⟨info, hg, hi⟩
  | absent =>
    exact Does.ok (s' := s) (by simp [cmdLLen, Store.lLen, load_absent hv, bind, Except.bind, intReplyNilOk, retOk]; rfl)
      (by simp [elems]) hv
  | hollow b =>
    obtain ⟨o, ⟨r, hg, ho⟩, h0⟩ := hv.hollow
    exact Does.ok (s' := s) (by simp [cmdLLen, Store.lLen, load_list hg ho, bind, Except.bind, intReplyNilOk, retOk, h0]; rfl)
      (by simp [elems]) hv
  | list l =>
    obtain ⟨o, ⟨r, hg, ho⟩, hI⟩ := hv
    exact Does.ok (s' := s) (by simp [cmdLLen, Store.lLen, load_list hg ho, bind, Except.bind, intReplyNilOk, retOk, hI.length]; rfl)
      (by simp [elems]) ⟨o, ⟨r, hg, ho⟩, hI⟩

theorem window_nil (a b : Int) : window ([] : List Bytes) a b = [] := rfl

theorem does_lrange (hv : LMatch s k v) {args : List Bytes} {m} (hr : reply v (b! "lrange") args = some m) :
    Does cmdLRange ext it s k args m (lnext v (b! "lrange") args m) := by
  rw [reply_lrange] at hr
  split at hr
  · cases hr
  next hlost =>
  cases hr
  rw [lnext_same (next_lrange _ _)]
  rcases args with _ | ⟨a, _ | ⟨b, rest⟩⟩
  · exact Does.err (e := .commandArgsNotEnough) rfl hv
  · exact Does.err (e := .commandArgsNotEnough) rfl hv
  · dsimp only
    rw [int64_eq, int64_eq]
    cases ha : parseInt a with
    | none => exact Does.err (e := .valueOutOfRange) (by simp [cmdLRange, atoi, ha, retErr]) hv
    | some start =>
      cases hb : parseInt b with
      | none => exact Does.err (e := .valueOutOfRange) (by simp [cmdLRange, atoi, ha, hb, retErr]) hv
      | some stop =>
        dsimp only
        cases v with
        | lost => exact absurd rfl hlost
        | other =>
          obtain ⟨info, hg, hi⟩ := hv
          exact Does.err (e := .keyAndCommandNotMatch)
            (by simp [cmdLRange, atoi, ha, hb, Store.lRange, load_other hg hi, bind, Except.bind, retErr]) ⟨info, hg, hi⟩
        | absent =>
          exact Does.ok (s' := s) (by simp [cmdLRange, atoi, ha, hb, Store.lRange, load_absent hv, bind, Except.bind, retOk]; rfl)
            (by simp [elems, window_nil, bulks]) hv
        | hollow b' =>
          obtain ⟨o, ⟨r, hg, ho⟩, h0⟩ := hv.hollow
          exact Does.ok (s' := s) (by simp [cmdLRange, atoi, ha, hb, Store.lRange, load_list hg ho, h0, bind, Except.bind, retOk]; rfl)
            (by simp [elems, window_nil, bulks]) hv
        | list l =>
          obtain ⟨o, ⟨r, hg, ho⟩, hI⟩ := hv
          have hlen := hI.length
          have hr := LObj.lRange_is hI start stop
          by_cases hl : l = []
          · subst hl
            exact Does.ok (s' := s) (by simp [cmdLRange, atoi, ha, hb, Store.lRange, load_list hg ho, hlen, bind, Except.bind, retOk]; rfl)
              (by simp [elems, window_nil, bulks]) ⟨o, ⟨r, hg, ho⟩, hI⟩
          · have h0 : ¬ o.length = 0 := by rw [hlen]; simpa using hl
            cases hw : window l start stop with
            | nil =>
              exact Does.ok (s' := s) (by simp [cmdLRange, atoi, ha, hb, Store.lRange, load_list hg ho, h0, hr, hw, bind, Except.bind, retOk]; rfl)
                (by simp [elems, hw, bulks]) ⟨o, ⟨r, hg, ho⟩, hI⟩
            | cons x xs =>
              exact Does.ok (s' := s) (by simp [cmdLRange, atoi, ha, hb, Store.lRange, load_list hg ho, h0, hr, hw, bind, Except.bind, retOk]; rfl)
                (by simp [elems, hw]) ⟨o, ⟨r, hg, ho⟩, hI⟩

/-! ## LREM, LSET, LINSERT -/

theorem reply_lrem (v : LView) (args : List Bytes) : reply v (b! "lrem") args = if v = .lost then none else
    some (match args with
      | c :: x :: _ =>
        match int64 c with
        | some count =>
          if v = .other then errType else .int ((elems v).length - (remove x count (elems v)).length)
        | none => errRange
      | _ => errArgs) := by
  unfold reply; rfl
theorem reply_lset (v : LView) (args : List Bytes) : reply v (b! "lset") args = if v = .lost then none else
    some (match args with
      | i :: x :: _ =>
        match int64 i with
        | some index =>
          if v = .other then errType
          else if (assign index x (elems v)).isSome then .simple (b! "OK") else errNil
        | none => errRange
      | _ => errArgs) := by
  unfold reply; rfl
theorem reply_linsert (v : LView) (args : List Bytes) : reply v (b! "linsert") args = if v = .lost then none else
    some (match args with
      | w :: p :: x :: _ =>
        if lower w = b! "before" ∨ lower w = b! "after" then
          if v = .other then errType
          else match insertAt (lower w = b! "before") p x (elems v) with
            | some l => .int l.length
            | none => errNil
        else errArgs
      | _ => errArgs) := by
  unfold reply; rfl
theorem next_lrem (l : List Bytes) (c x : Bytes) (rest : List Bytes) (count : Int) (h : int64 c = some count) :
    next (.list l) (b! "lrem") (c :: x :: rest) =
      if l ≠ [] ∧ remove x count l = [] then .hollow (decide (0 ≤ count)) else .list (remove x count l) := by
  have : next (.list l) (b! "lrem") (c :: x :: rest) = match int64 c with
          | some count =>
            if l ≠ [] ∧ remove x count l = [] then .hollow (decide (0 ≤ count)) else .list (remove x count l)
          | none => .list l := by unfold next; rfl
  rw [this, h]
theorem next_lset (l : List Bytes) (i x : Bytes) (rest : List Bytes) :
    next (.list l) (b! "lset") (i :: x :: rest) =
      .list (((int64 i).bind (fun i => assign i x l)).getD l) := by unfold next; rfl
theorem next_linsert (l : List Bytes) (w p x : Bytes) (rest : List Bytes) :
    next (.list l) (b! "linsert") (w :: p :: x :: rest) =
      .list ((insertAt (lower w = b! "before") p x l).getD l) := by unfold next; rfl

theorem remove_nil (x : Bytes) (n : Int) : remove x n [] = [] := by
  unfold remove
  repeat' split
  · rfl
  · cases n.toNat <;> rfl
  · rfl
  · unfold removeLast; cases (-n).toNat <;> rfl

theorem insertAt_nil (b : Bool) (p x : Bytes) : insertAt b p x [] = none := rfl
theorem assign_nil (i : Int) (x : Bytes) : assign i x [] = none := by
  unfold assign; rw [if_neg]; simp [position]

theorem does_lrem (hv : LMatch s k v) {args : List Bytes} {m} (hr : reply v (b! "lrem") args = some m) :
    Does cmdLRem ext it s k args m (lnext v (b! "lrem") args m) := by
  rw [reply_lrem] at hr
  split at hr
  · cases hr
  next hlost =>
  cases hr
  rcases args with _ | ⟨c, _ | ⟨x, rest⟩⟩
  · exact Does.err (e := .commandArgsNotEnough) rfl hv
  · exact Does.err (e := .commandArgsNotEnough) rfl hv
  dsimp only
  cases hc : int64 c with
  | none => exact Does.err (e := .valueOutOfRange) (by simp [cmdLRem, atoi, ← int64_eq, hc, retErr]) hv
  | some count =>
    have hrange := parseInt_range (int64_eq c ▸ hc)
    dsimp only
    cases v with
    | lost => exact absurd rfl hlost
    | other =>
      obtain ⟨info, hg, hi⟩ := hv
      exact Does.err (e := .keyAndCommandNotMatch)
        (by simp [cmdLRem, atoi, ← int64_eq, hc, Store.lRem, load_other hg hi, bind, Except.bind, intReplyNilOk, retErr]) ⟨info, hg, hi⟩
    | absent =>
      exact Does.ok (s' := s) (by simp [cmdLRem, atoi, ← int64_eq, hc, Store.lRem, load_absent hv, bind, Except.bind, intReplyNilOk, retOk]; rfl)
        (by simp [elems, remove_nil]) hv
    | hollow b' =>
      obtain ⟨o, ⟨r, hg, ho⟩, h0⟩ := hv.hollow
      exact Does.ok (s' := s) (by simp [cmdLRem, atoi, ← int64_eq, hc, Store.lRem, load_list hg ho, h0, bind, Except.bind, intReplyNilOk, retOk]; rfl)
        (by simp [elems, remove_nil]) hv
    | list l =>
      obtain ⟨o, ⟨r, hg, ho⟩, hI⟩ := hv
      have hlen := hI.length
      by_cases hl : l = []
      · subst hl
        refine Does.ok (s' := s) (by simp [cmdLRem, atoi, ← int64_eq, hc, Store.lRem, load_list hg ho, hlen, bind, Except.bind, intReplyNilOk, retOk]; rfl)
          (by simp [elems, remove_nil]) ?_
        simp only [reduceCtorEq, if_false, lnext_int, next_lrem _ _ _ _ _ hc]
        simp only [ne_eq, not_true_eq_false, false_and, if_false, remove_nil]
        exact ⟨o, ⟨r, hg, ho⟩, hI⟩
      · have h0 : ¬ o.length = 0 := by rw [hlen]; simpa using hl
        simp only [reduceCtorEq, if_false, lnext_int, next_lrem _ _ _ _ _ hc]
        -- the object-level result
        have key : ∃ l', (if count > 0 then o.lRemCountFromHead x count
            else if count < 0 then o.lRemCountFromTail x (wrap64 (-count)) else o.lRemCountFromHead x o.length) =
              .ok (l', (l.length : Int) - (remove x count l).length) ∧
            (remove x count l ≠ [] → l'.Is (remove x count l)) ∧
            (remove x count l = [] → (if 0 ≤ count then LObj.HollowL l' else LObj.HollowR l')) := by
          by_cases h1 : count > 0
          · have e : remove x count l = removeFirst x count.toNat l := by
              unfold remove; rw [if_neg (by omega), if_pos h1]
            have hcn : 0 ≤ count := by omega
            simp only [e, h1, if_true, hcn]
            exact LObj.lRemHead_is hI hl x count
          · by_cases h2 : count < 0
            · have hcn : ¬ 0 ≤ count := by omega
              simp only [h1, h2, if_true, if_false, hcn]
              have e : remove x count l = removeLast x (wrap64 (-count)).toNat l := by
                unfold remove
                rw [if_neg (by omega), if_neg h1]
                by_cases h3 : count = -2 ^ 63
                · rw [if_pos h3, h3]
                  have : (wrap64 (-(-2 ^ 63))).toNat = 0 := by decide
                  rw [this, removeLast, LObj.removeFirst_zero, List.reverse_reverse]
                · rw [if_neg h3, wrap64_of_range _ (by omega) (by omega)]
              rw [e]
              exact LObj.lRemTail_is hI hl x _
            · have h3 : count = 0 := by omega
              have hcn : 0 ≤ count := by omega
              simp only [h1, h2, if_true, if_false, hcn]
              have e : remove x count l = removeFirst x o.length.toNat l := by
                unfold remove; rw [if_pos h3, LObj.removeFirst_all _ _ _ (by omega)]
              rw [e]
              exact LObj.lRemHead_is hI hl x _
        obtain ⟨l', h1, h2, h3⟩ := key
        refine Does.ok (s' := s.write r (.list l')) (r := newResponseWithInteger ((l.length : Int) - (remove x count l).length))
          ?_ rfl ?_
        · simp only [cmdLRem, atoi, ← int64_eq, hc, Store.lRem, load_list hg ho, bind, Except.bind, intReplyNilOk, retOk,
            Bool.true_and, beq_iff_eq, h0, if_false]
          by_cases c1 : count > 0
          · simp only [c1, if_true] at h1 ⊢; simp only [h1]
          · by_cases c2 : count < 0
            · simp only [c1, c2, if_true, if_false] at h1 ⊢; simp only [h1]
            · simp only [c1, c2, if_false] at h1 ⊢; simp only [h1]
        · by_cases he : remove x count l = []
          · rw [if_pos ⟨hl, he⟩]
            by_cases hcn : 0 ≤ count
            · rw [decide_eq_true hcn]
              exact ⟨l', .write hg ho l', by have := h3 he; rwa [if_pos hcn] at this⟩
            · rw [decide_eq_false hcn]
              exact ⟨l', .write hg ho l', by have := h3 he; rwa [if_neg hcn] at this⟩
          · rw [if_neg (fun h => he h.2)]
            exact ⟨l', .write hg ho l', h2 he⟩

theorem does_lset (hv : LMatch s k v) {args : List Bytes} {m} (hr : reply v (b! "lset") args = some m) :
    Does cmdLSet ext it s k args m (lnext v (b! "lset") args m) := by
  rw [reply_lset] at hr
  split at hr
  · cases hr
  next hlost =>
  cases hr
  rcases args with _ | ⟨i, _ | ⟨x, rest⟩⟩
  · exact Does.err (e := .commandArgsNotEnough) rfl hv
  · exact Does.err (e := .commandArgsNotEnough) rfl hv
  dsimp only
  cases hc : int64 i with
  | none => exact Does.err (e := .valueOutOfRange) (by simp [cmdLSet, atoi, ← int64_eq, hc, retErr]) hv
  | some index =>
    dsimp only
    cases v with
    | lost => exact absurd rfl hlost
    | other =>
      obtain ⟨info, hg, hi⟩ := hv
      exact Does.err (e := .keyAndCommandNotMatch)
        (by simp [cmdLSet, atoi, ← int64_eq, hc, Store.lSet, load_other hg hi, bind, Except.bind, retErr]) ⟨info, hg, hi⟩
    | absent =>
      simp only [elems, assign_nil, reduceCtorEq, if_false, Option.isSome_none, Bool.false_eq_true]
      exact Does.err (e := .nil) (by simp [cmdLSet, atoi, ← int64_eq, hc, Store.lSet, load_absent hv, bind, Except.bind, retErr]) hv
    | hollow b' =>
      obtain ⟨o, ⟨r, hg, ho⟩, h0⟩ := hv.hollow
      simp only [elems, assign_nil, reduceCtorEq, if_false, Option.isSome_none, Bool.false_eq_true]
      exact Does.err (e := .nil) (by simp [cmdLSet, atoi, ← int64_eq, hc, Store.lSet, load_list hg ho, h0, bind, Except.bind, retErr]) hv
    | list l =>
      obtain ⟨o, ⟨r, hg, ho⟩, hI⟩ := hv
      have hlen := hI.length
      by_cases hl : l = []
      · subst hl
        simp only [elems, assign_nil, reduceCtorEq, if_false, Option.isSome_none, Bool.false_eq_true]
        exact Does.err (e := .nil) (by simp [cmdLSet, atoi, ← int64_eq, hc, Store.lSet, load_list hg ho, hlen, bind, Except.bind, retErr])
          ⟨o, ⟨r, hg, ho⟩, hI⟩
      · have h0 : ¬ o.length = 0 := by rw [hlen]; simpa using hl
        obtain ⟨l', h1, h2⟩ := LObj.lSet_is hI index x
        simp only [elems, reduceCtorEq, if_false]
        have hd : assign index x l = none ∨ ∃ l2, assign index x l = some l2 := by
          generalize assign index x l = a; cases a <;> simp
        rcases hd with ha | ⟨l2, ha⟩
        · rw [ha] at h1 h2
          simp only [ha, Option.isSome_none, Bool.false_eq_true, if_false]
          refine ⟨s.write r (.list l'), .error .nil, ?_, rfl, ⟨l', .write hg ho l', h2⟩⟩
          simp [cmdLSet, atoi, ← int64_eq, hc, Store.lSet, load_list hg ho, h0, h1, bind, Except.bind, retErr]
        · rw [ha] at h1 h2
          simp only [ha, Option.isSome_some, if_true]
          refine Does.ok (s' := s.write r (.list l'))
            (by simp [cmdLSet, atoi, ← int64_eq, hc, Store.lSet, load_list hg ho, h0, h1, bind, Except.bind, retOk]; rfl) rfl ?_
          simp only [lnext_simple, next_lset, hc, Option.bind_some, ha]
          exact ⟨l', .write hg ho l', h2⟩

theorem does_linsert (hv : LMatch s k v) {args : List Bytes} {m} (hw : ∀ w ∈ args.head?, Ascii w)
    (hr : reply v (b! "linsert") args = some m) :
    Does cmdLInsert ext it s k args m (lnext v (b! "linsert") args m) := by
  rw [reply_linsert] at hr
  split at hr
  · cases hr
  next hlost =>
  cases hr
  rcases args with _ | ⟨w, _ | ⟨p, _ | ⟨x, rest⟩⟩⟩
  · exact Does.err (e := .commandArgsNotEnough) rfl hv
  · exact Does.err (e := .commandArgsNotEnough) rfl hv
  · exact Does.err (e := .commandArgsNotEnough) rfl hv
  dsimp only
  have hlow : toLower ext.lowerUni w = lower w := lower_eq (hw w rfl)
  have hcmd : cmdLInsert ext it s (k :: w :: p :: x :: rest) =
      if lower w = b! "before" ∨ lower w = b! "after" then
        (do let (s, r) ← s.lInsert k p x (if lower w = b! "before" then -1 else 1); intReply s r)
      else notEnough s := by
    simp only [cmdLInsert, hlow]
    by_cases h1 : lower w = b! "after"
    · rw [if_pos h1, if_pos (.inr h1), if_neg (by rw [h1]; decide)]
    · by_cases h2 : lower w = b! "before"
      · rw [if_neg h1, if_pos h2, if_pos (.inl h2), if_pos h2]
      · rw [if_neg h1, if_neg h2, if_neg (by simp [h1, h2])]
  by_cases hbw : lower w = b! "before" ∨ lower w = b! "after"
  swap
  · rw [if_neg hbw]
    exact Does.err (e := .commandArgsNotEnough) (by rw [hcmd, if_neg hbw]; rfl) hv
  rw [if_pos hbw]
  rw [if_pos hbw] at hcmd
  have hflag : (decide ((if lower w = b! "before" then (-1 : Int) else 1) = -1)) = decide (lower w = b! "before") := by
    by_cases h : lower w = b! "before" <;> simp [h]
  have hf1 : (if lower w = b! "before" then (-1 : Int) else 1) = 1 ∨ (if lower w = b! "before" then (-1 : Int) else 1) = -1 := by
    by_cases h : lower w = b! "before" <;> simp [h]
  generalize (if lower w = b! "before" then (-1 : Int) else 1) = flag at hcmd hflag hf1
  cases v with
  | lost => exact absurd rfl hlost
  | other =>
    obtain ⟨info, hg, hi⟩ := hv
    exact Does.err (e := .keyAndCommandNotMatch)
      (by simp [hcmd, Store.lInsert, load_other hg hi, bind, Except.bind, intReply, retErr]) ⟨info, hg, hi⟩
  | absent =>
    exact Does.err (e := .nil) (by simp [hcmd, Store.lInsert, load_absent hv, bind, Except.bind, intReply, retErr]) hv
  | hollow b' =>
    obtain ⟨o, ⟨r, hg, ho⟩, h0⟩ := hv.hollow
    exact Does.err (e := .nil) (by simp [hcmd, Store.lInsert, load_list hg ho, h0, bind, Except.bind, intReply, retErr]) hv
  | list l =>
    obtain ⟨o, ⟨r, hg, ho⟩, hI⟩ := hv
    have hlen := hI.length
    by_cases hl : l = []
    · subst hl
      exact Does.err (e := .nil) (by simp [hcmd, Store.lInsert, load_list hg ho, hlen, bind, Except.bind, intReply, retErr])
        ⟨o, ⟨r, hg, ho⟩, hI⟩
    · have h0 : ¬ o.length = 0 := by rw [hlen]; simpa using hl
      obtain ⟨l', h1, h2⟩ := LObj.lInsert_is hI p x flag hf1
      rw [hflag] at h1 h2
      simp only [elems, reduceCtorEq, if_false]
      cases ha : insertAt (decide (lower w = b! "before")) p x l with
      | none =>
        rw [ha] at h1 h2
        refine ⟨s.write r (.list l'), .error .nil, ?_, rfl, ⟨l', .write hg ho l', h2⟩⟩
        simp [hcmd, Store.lInsert, load_list hg ho, h0, h1, bind, Except.bind, intReply, retErr]
      | some l2 =>
        rw [ha] at h1 h2
        refine Does.ok (s' := s.write r (.list l'))
          (by simp [hcmd, Store.lInsert, load_list hg ho, h0, h1, bind, Except.bind, intReply, retOk]; rfl)
          (by simp [h2.length]) ?_
        simp only [lnext_int, next_linsert, ha]
        exact ⟨l', .write hg ho l', h2⟩

end Godis
