import Verif.Proofs.Rows
import Verif.Proofs.Lists3
/-! The list commands do exactly what the row specification says. -/
namespace Godis
open Resp (Reply bulks)
open StrSpec (int64 lower isError Ascii counters setStores)
open ListSpec (popCount errType errArgs errRange errNil listWriters)
open RowSpec (Row View Outcome typed answer)

variable {s s' : Store} {k : Bytes} {v : View} {ext : Ext} {it : Iter} {look : Bytes → View}

/-- the store and the view agree about key `k` -/
def RMatch (s : Store) (k : Bytes) : View → Prop
  | .absent => s.keys.get k = none
  | .other => ∃ info, s.keys.get k = some info ∧ info.type ≠ .list
  | .row c => ∃ o, ListAt s k o ∧ o.Holds c

/-- the view after the reply `m` -/
def rnext (v : View) (name : Bytes) (args : List Bytes) (m : Reply) : View := if isError m then v else RowSpec.next v name args

/-- a command ends in the outcome `out`; the store it leaves satisfies `P` -/
def Out (f : CmdFn) (ext : Ext) (it : Iter) (s : Store) (args : List Bytes) (out : Outcome) (P : Reply → Store → Prop) : Prop :=
  match out with
  | .reply m => ∃ s' o, f ext it s args = .ok (s', o) ∧ (setRsp o).reply = some m ∧ P m s'
  | .crash => f ext it s args = .error .nilDeref

/-- the list command `f`, called `name`, does what the specification says -/
def Does' (f : CmdFn) (name : Bytes) (ext : Ext) (it : Iter) (s : Store) (look : Bytes → View) (k : Bytes) (args : List Bytes) : Prop :=
  Out f ext it s (k :: args) (answer look name (k :: args)) (fun m s' => RMatch s' k (rnext (look k) name args m))

theorem Out.err {f : CmdFn} {e : Err} {args : List Bytes} {P : Reply → Store → Prop}
    (h : f ext it s args = .ok (s, .error e)) (hv : P (.error e.msg) s) :
    Out f ext it s args (.reply (.error e.msg)) P := ⟨s, _, h, by simp, hv⟩

theorem Out.ok {f : CmdFn} {r : Response} {args : List Bytes} {m} {P : Reply → Store → Prop} (h : f ext it s args = .ok (s', .ok r))
    (hr : r.reply = some m) (hv : P m s') : Out f ext it s args (.reply m) P := ⟨s', _, h, hr, hv⟩

theorem typed_other (o : Outcome) : typed .other o = .reply errType := rfl
theorem typed_absent (o : Outcome) : typed .absent o = o := rfl
theorem typed_row (c : Row) (o : Outcome) : typed (.row c) o = o := by simp [typed]

theorem write_self {r : Nat} {x : Obj} (ho : s.heap[r]? = some x) : s.write r x = s := by
  obtain ⟨hr, he⟩ := List.getElem?_eq_some_iff.mp ho
  simp only [Store.write, ← he, List.set_getElem_self]

/-! ## pushes -/

theorem exact_lpush (args : List Bytes) (hv : RMatch s k (look k)) : Does' cmdLPush (b! "lpush") ext it s look k args := by
  unfold Does'
  have e : answer look (b! "lpush") (k :: args) =
      if args = [] then .reply errArgs else typed (look k) (.reply (.int ((look k).list.count + args.length))) := rfl
  rw [e]
  have hn : ∀ m, rnext (look k) (b! "lpush") args m = if isError m then look k else .row (args.foldl Row.pushLeft (look k).list) :=
    fun m => rfl
  simp only [hn]
  generalize look k = v at hv
  rcases args with _ | ⟨w, ws⟩
  · exact Out.err (e := .commandArgsNotEnough) rfl hv
  rw [if_neg (by simp)]
  cases v with
  | other =>
    obtain ⟨info, hg, hi⟩ := hv
    exact Out.err (e := .keyAndCommandNotMatch)
      (by simp [cmdLPush, Store.lPush, load_other hg hi, bind, Except.bind, intReply, retErr]) ⟨info, hg, hi⟩
  | absent =>
    obtain ⟨l', h1, h2⟩ := LObj.lPushAll_holds LObj.holds_empty (w :: ws)
    have hc : l'.length = (w :: ws).length := by
      obtain ⟨r, h⟩ := h2; rw [h.count, LObj.foldl_count LObj.pushLeft_count]; simp [Row.good]
    rw [typed_absent]
    exact Out.ok (s' := s.putNew k .list (.list l'))
      (by simp [cmdLPush, Store.lPush, load_absent hv, bind, Except.bind, intReply, retOk, h1]; rfl)
      (by simp [hc, View.list, Row.good]) ⟨l', .new s k l', h2⟩
  | row c =>
    obtain ⟨o, ⟨r, hg, ho⟩, hI⟩ := hv
    obtain ⟨l', h1, h2⟩ := LObj.lPushAll_holds hI (w :: ws)
    have hc : l'.length = c.count + (w :: ws).length := by
      obtain ⟨r, h⟩ := h2; rw [h.count, LObj.foldl_count LObj.pushLeft_count]
    rw [typed_row]
    exact Out.ok (s' := s.write r (.list l'))
      (by simp [cmdLPush, Store.lPush, load_list hg ho, bind, Except.bind, intReply, retOk, h1]; rfl)
      (by simp [hc, View.list]) ⟨l', .write hg ho l', h2⟩

theorem exact_rpush (args : List Bytes) (hv : RMatch s k (look k)) : Does' cmdRPush (b! "rpush") ext it s look k args := by
  unfold Does'
  have e : answer look (b! "rpush") (k :: args) =
      if args = [] then .reply errArgs else typed (look k) (.reply (.int ((look k).list.count + args.length))) := rfl
  rw [e]
  have hn : ∀ m, rnext (look k) (b! "rpush") args m = if isError m then look k else .row (args.foldl Row.pushRight (look k).list) :=
    fun m => rfl
  simp only [hn]
  generalize look k = v at hv
  rcases args with _ | ⟨w, ws⟩
  · exact Out.err (e := .commandArgsNotEnough) rfl hv
  rw [if_neg (by simp)]
  cases v with
  | other =>
    obtain ⟨info, hg, hi⟩ := hv
    exact Out.err (e := .keyAndCommandNotMatch)
      (by simp [cmdRPush, Store.rPush, load_other hg hi, bind, Except.bind, intReply, retErr]) ⟨info, hg, hi⟩
  | absent =>
    obtain ⟨l', h1, h2⟩ := LObj.rPushAll_holds LObj.holds_empty (w :: ws)
    have hc : l'.length = (w :: ws).length := by
      obtain ⟨r, h⟩ := h2; rw [h.count, LObj.foldl_count LObj.pushRight_count]; simp [Row.good]
    rw [typed_absent]
    exact Out.ok (s' := s.putNew k .list (.list l'))
      (by simp [cmdRPush, Store.rPush, load_absent hv, bind, Except.bind, intReply, retOk, h1]; rfl)
      (by simp [hc, View.list, Row.good]) ⟨l', .new s k l', h2⟩
  | row c =>
    obtain ⟨o, ⟨r, hg, ho⟩, hI⟩ := hv
    obtain ⟨l', h1, h2⟩ := LObj.rPushAll_holds hI (w :: ws)
    have hc : l'.length = c.count + (w :: ws).length := by
      obtain ⟨r, h⟩ := h2; rw [h.count, LObj.foldl_count LObj.pushRight_count]
    rw [typed_row]
    exact Out.ok (s' := s.write r (.list l'))
      (by simp [cmdRPush, Store.rPush, load_list hg ho, bind, Except.bind, intReply, retOk, h1]; rfl)
      (by simp [hc, View.list]) ⟨l', .write hg ho l', h2⟩

/-! ## pops -/

theorem good_nil_popped (n : Nat) : (Row.good []).popped n = [] := by simp [Row.popped, Row.good]

theorem exact_lpop (args : List Bytes) (hv : RMatch s k (look k)) : Does' cmdLPop (b! "lpop") ext it s look k args := by
  unfold Does'
  have e : answer look (b! "lpop") (k :: args) = match ListSpec.popCount args with
      | none => .reply errRange
      | some n => typed (look k) (.reply (if (look k).list.count = 0 then .bulk none else bulks ((look k).list.popped n))) := rfl
  rw [e]
  have hn : ∀ m, rnext (look k) (b! "lpop") args m = if isError m then look k else
      match look k with
      | .row c => .row (c.popLeft ((ListSpec.popCount args).getD 0))
      | v => v := fun m => rfl
  simp only [hn]
  generalize look k = v at hv
  cases hp : ListSpec.popCount args with
  | none => exact Out.err (e := .valueOutOfRange) (by simp [cmdLPop, popCount_eq, hp, retErr]) hv
  | some n =>
    have hn := popCount_pos hp
    dsimp only
    cases v with
    | other =>
      obtain ⟨info, hg, hi⟩ := hv
      exact Out.err (e := .keyAndCommandNotMatch)
        (by simp [cmdLPop, popCount_eq, hp, Store.lPop, load_other hg hi, bind, Except.bind, arrReply, retErr]) ⟨info, hg, hi⟩
    | absent =>
      exact Out.ok (s' := s) (by simp [cmdLPop, popCount_eq, hp, Store.lPop, load_absent hv, bind, Except.bind, arrReply, retOk]; rfl)
        (by simp [View.list, Row.good]) hv
    | row c =>
      obtain ⟨o, ⟨r, hg, ho⟩, hI⟩ := hv
      have hc : o.length = c.count := by obtain ⟨r, h⟩ := hI; exact h.count
      rw [typed_row]
      by_cases h0 : c.count = 0
      · have h0' : o.length = 0 := by rw [hc, h0]
        refine Out.ok (s' := s)
          (by simp [cmdLPop, popCount_eq, hp, Store.lPop, load_list hg ho, h0', bind, Except.bind, arrReply, retOk]; rfl)
          (by simp [View.list, h0]) ?_
        simp only [View.list, h0, if_true, Option.getD_some]
        have hz := (LObj.popLeft_zero hI (n := n) (.inl (by simp [h0]))).1
        show RMatch s k (.row (c.popLeft n))
        rw [hz]
        exact ⟨o, ⟨r, hg, ho⟩, hI⟩
      · have h0' : ¬ o.length = 0 := by rw [hc]; exact h0
        obtain ⟨l', h1, h2⟩ := LObj.lPopLoop_holds hI n o.length.toNat (by rw [hc])
        refine Out.ok (s' := s.write r (.list l'))
          (by simp [cmdLPop, popCount_eq, hp, Store.lPop, load_list hg ho, h0', h1, bind, Except.bind, arrReply, retOk]; rfl)
          (by simp [View.list, h0]) ?_
        simp only [View.list, h0, if_false, Option.getD_some]
        exact ⟨l', .write hg ho l', h2⟩

theorem exact_rpop (args : List Bytes) (hv : RMatch s k (look k)) : Does' cmdRPop (b! "rpop") ext it s look k args := by
  unfold Does'
  have e : answer look (b! "rpop") (k :: args) = match ListSpec.popCount args with
      | none => .reply errRange
      | some n => typed (look k) (.reply (if look k = .absent then .bulk none else bulks ((look k).list.mirror.popped n))) := rfl
  rw [e]
  have hn : ∀ m, rnext (look k) (b! "rpop") args m = if isError m then look k else
      match look k with
      | .row c => .row (c.popRight ((ListSpec.popCount args).getD 0))
      | v => v := fun m => rfl
  simp only [hn]
  generalize look k = v at hv
  cases hp : ListSpec.popCount args with
  | none => exact Out.err (e := .valueOutOfRange) (by simp [cmdRPop, popCount_eq, hp, retErr]) hv
  | some n =>
    have hn := popCount_pos hp
    dsimp only
    cases v with
    | other =>
      obtain ⟨info, hg, hi⟩ := hv
      exact Out.err (e := .keyAndCommandNotMatch)
        (by simp [cmdRPop, popCount_eq, hp, Store.rPop, load_other hg hi, bind, Except.bind, arrReply, retErr]) ⟨info, hg, hi⟩
    | absent =>
      exact Out.ok (s' := s) (by simp [cmdRPop, popCount_eq, hp, Store.rPop, load_absent hv, bind, Except.bind, arrReply, retOk]; rfl)
        (by simp) hv
    | row c =>
      obtain ⟨o, ⟨r, hg, ho⟩, hI⟩ := hv
      rw [typed_row]
      have hc : o.length = c.count := by obtain ⟨r, h⟩ := hI; exact h.count
      obtain ⟨l', h1, h2⟩ := LObj.rPopLoop_holds hI n
      rw [← hc] at h1
      refine Out.ok (s' := s.write r (.list l'))
        (by simp [cmdRPop, popCount_eq, hp, Store.rPop, load_list hg ho, h1, bind, Except.bind, arrReply, retOk]; rfl)
        (by simp [View.list]) ?_
      simp only [View.list, reduceCtorEq, if_false, Option.getD_some]
      exact ⟨l', .write hg ho l', h2⟩

/-! ## reads -/

theorem exact_llen (args : List Bytes) (hv : RMatch s k (look k)) : Does' cmdLLen (b! "llen") ext it s look k args := by
  unfold Does'
  have e : answer look (b! "llen") (k :: args) = typed (look k) (.reply (.int (look k).list.count)) := rfl
  rw [e]
  have hn : ∀ m, rnext (look k) (b! "llen") args m = look k := by
    intro m; unfold rnext; split
    · rfl
    · cases look k <;> rfl
  simp only [hn]
  generalize look k = v at hv
  cases v with
  | other =>
    obtain ⟨info, hg, hi⟩ := hv
    exact Out.err (e := .keyAndCommandNotMatch)
      (by simp [cmdLLen, Store.lLen, load_other hg hi, bind, Except.bind, intReplyNilOk, retErr]) ⟨info, hg, hi⟩
  | absent =>
    exact Out.ok (s' := s) (by simp [cmdLLen, Store.lLen, load_absent hv, bind, Except.bind, intReplyNilOk, retOk]; rfl)
      (by simp [View.list, Row.good]) hv
  | row c =>
    obtain ⟨o, ⟨r, hg, ho⟩, hI⟩ := hv
    have hc : o.length = c.count := by obtain ⟨r, h⟩ := hI; exact h.count
    rw [typed_row]
    exact Out.ok (s' := s) (by simp [cmdLLen, Store.lLen, load_list hg ho, bind, Except.bind, intReplyNilOk, retOk, hc]; rfl)
      (by simp [View.list]) ⟨o, ⟨r, hg, ho⟩, hI⟩

theorem window_count_zero {c : Row} (h : c.count = 0) (a b : Int) : c.window a b = [] := by
  unfold Row.window
  split
  · rw [List.map_eq_nil_iff, List.filter_eq_nil_iff]
    intro p _
    simp [h]
  · rfl

theorem window_good_nil (a b : Int) : (Row.good []).window a b = [] := rfl

theorem exact_lrange (args : List Bytes) (hv : RMatch s k (look k)) : Does' cmdLRange (b! "lrange") ext it s look k args := by
  unfold Does'
  have e : answer look (b! "lrange") (k :: args) = match (generalizing := false) args with
      | a :: b :: _ =>
        match int64 a, int64 b with
        | some start, some stop => typed (look k) (.reply (bulks ((look k).list.window start stop)))
        | _, _ => .reply errRange
      | _ => .reply errArgs := rfl
  rw [e]
  have hn : ∀ m, rnext (look k) (b! "lrange") args m = look k := by
    intro m; unfold rnext; split
    · rfl
    · cases look k <;> rfl
  simp only [hn]
  generalize look k = v at hv
  rcases args with _ | ⟨a, _ | ⟨b, rest⟩⟩
  · exact Out.err (e := .commandArgsNotEnough) rfl hv
  · exact Out.err (e := .commandArgsNotEnough) rfl hv
  dsimp only
  rw [int64_eq, int64_eq]
  cases ha : parseInt a with
  | none => exact Out.err (e := .valueOutOfRange) (by simp [cmdLRange, atoi, ha, retErr]) hv
  | some start =>
    cases hb : parseInt b with
    | none => exact Out.err (e := .valueOutOfRange) (by simp [cmdLRange, atoi, ha, hb, retErr]) hv
    | some stop =>
      dsimp only
      cases v with
      | other =>
        obtain ⟨info, hg, hi⟩ := hv
        exact Out.err (e := .keyAndCommandNotMatch)
          (by simp [cmdLRange, atoi, ha, hb, Store.lRange, load_other hg hi, bind, Except.bind, retErr]) ⟨info, hg, hi⟩
      | absent =>
        exact Out.ok (s' := s) (by simp [cmdLRange, atoi, ha, hb, Store.lRange, load_absent hv, bind, Except.bind, retOk]; rfl)
          (by simp [View.list, window_good_nil, bulks]) hv
      | row c =>
        obtain ⟨o, ⟨r, hg, ho⟩, hI⟩ := hv
        have hc : o.length = c.count := by obtain ⟨r, h⟩ := hI; exact h.count
        have hr := LObj.lRange_holds hI start stop
        rw [typed_row]
        by_cases h0 : o.length = 0
        · exact Out.ok (s' := s) (by simp [cmdLRange, atoi, ha, hb, Store.lRange, load_list hg ho, h0, bind, Except.bind, retOk]; rfl)
            (by simp [View.list, window_count_zero (hc ▸ h0), bulks]) ⟨o, ⟨r, hg, ho⟩, hI⟩
        · cases hw : c.window start stop with
          | nil =>
            exact Out.ok (s' := s) (by simp [cmdLRange, atoi, ha, hb, Store.lRange, load_list hg ho, h0, hr, hw, bind, Except.bind, retOk]; rfl)
              (by simp [View.list, hw, bulks]) ⟨o, ⟨r, hg, ho⟩, hI⟩
          | cons x xs =>
            exact Out.ok (s' := s) (by simp [cmdLRange, atoi, ha, hb, Store.lRange, load_list hg ho, h0, hr, hw, bind, Except.bind, retOk]; rfl)
              (by simp [View.list, hw]) ⟨o, ⟨r, hg, ho⟩, hI⟩

theorem seek_zero {c : Row} (h : c.count = 0) (i : Int) : c.seek i = .missing := by
  unfold Row.seek
  rw [if_pos]
  rw [h]; omega

theorem seek_good_nil (i : Int) : (Row.good []).seek i = .missing := seek_zero rfl i

theorem exact_lindex (args : List Bytes) (hv : RMatch s k (look k)) (hi : ∀ i ∈ args.head?, RMatch s i (look i)) :
    Does' cmdLIndex (b! "lindex") ext it s look k args := by
  unfold Does'
  have e : answer look (b! "lindex") (k :: args) = match (generalizing := false) args with
      | i :: _ =>
        match int64 i with
        | some n =>
          typed (look i) (match (look i).list.seek n with
            | .found p => .reply (.bulk ((look i).list.items[p]?))
            | .missing => .reply (.bulk none)
            | .crash => .crash)
        | none => .reply errRange
      | _ => .reply errArgs := rfl
  rw [e]
  have hn : ∀ m, rnext (look k) (b! "lindex") args m = look k := by
    intro m; unfold rnext; split
    · rfl
    · cases look k <;> rfl
  simp only [hn]
  rcases args with _ | ⟨i, rest⟩
  · exact Out.err (e := .commandArgsNotEnough) rfl hv
  dsimp only
  have hi := hi i rfl
  cases hp : int64 i with
  | none => exact Out.err (e := .valueOutOfRange) (by simp [cmdLIndex, atoi, ← int64_eq, hp, retErr]) hv
  | some n =>
    rw [int64_eq] at hp
    dsimp only
    generalize look i = w at hi
    cases w with
    | other =>
      obtain ⟨info, hg, hi⟩ := hi
      exact Out.err (e := .keyAndCommandNotMatch)
        (by simp [cmdLIndex, atoi, hp, Store.lIndex, load_other hg hi, bind, Except.bind, retErr]) hv
    | absent =>
      rw [typed_absent]
      simp only [View.list, seek_good_nil]
      exact Out.ok (s' := s) (by simp [cmdLIndex, atoi, hp, Store.lIndex, load_absent hi, bind, Except.bind, retOk]; rfl)
        (by simp) hv
    | row c =>
      obtain ⟨o, ⟨r, hg, ho⟩, hI⟩ := hi
      have hc : o.length = c.count := by obtain ⟨r, h⟩ := hI; exact h.count
      rw [typed_row]
      simp only [View.list]
      by_cases h0 : o.length = 0
      · rw [seek_zero (hc ▸ h0)]
        exact Out.ok (s' := s) (by simp [cmdLIndex, atoi, hp, Store.lIndex, load_list hg ho, h0, bind, Except.bind, retOk]; rfl)
          (by simp) hv
      · have hs := LObj.lIndex_holds hI n
        cases hk : c.seek n with
        | found p =>
          rw [hk] at hs
          obtain ⟨x, h1, h2⟩ := hs
          exact Out.ok (s' := s) (by simp [cmdLIndex, atoi, hp, Store.lIndex, load_list hg ho, h0, h2, bind, Except.bind, retOk]; rfl)
            (by simp [h1]) hv
        | missing =>
          rw [hk] at hs
          simp only at hs
          exact Out.ok (s' := s) (by simp [cmdLIndex, atoi, hp, Store.lIndex, load_list hg ho, h0, hs, bind, Except.bind, retOk]; rfl)
            (by simp) hv
        | crash =>
          rw [hk] at hs
          simp only at hs
          show cmdLIndex ext it s (k :: i :: rest) = _
          simp [cmdLIndex, atoi, hp, Store.lIndex, load_list hg ho, h0, hs, bind, Except.bind]

/-! ## LREM, LSET, LINSERT -/

theorem lRem_holds {o : LObj} {c : Row} (h : o.Holds c) (x : Bytes) {n : Int} (hr : -2 ^ 63 ≤ n ∧ n < 2 ^ 63) :
    match c.remove x n with
    | none => (if n > 0 then o.lRemCountFromHead x n
        else if n < 0 then o.lRemCountFromTail x (wrap64 (-n)) else o.lRemCountFromHead x o.length) = .error .nilDeref
    | some c' => ∃ o', (if n > 0 then o.lRemCountFromHead x n
        else if n < 0 then o.lRemCountFromTail x (wrap64 (-n)) else o.lRemCountFromHead x o.length) = .ok (o', c.count - c'.count) ∧
          o'.Holds c' := by
  have hc : o.length = c.count := by obtain ⟨r, h⟩ := h; exact h.count
  unfold Row.remove
  by_cases h1 : 0 < n
  · simp only [h1, if_true]
    exact LObj.lRemHead_holds h x n
  · simp only [h1, if_false]
    by_cases h2 : n = 0
    · have h2' : ¬ n < 0 := by omega
      simp only [h2', if_pos h2, if_false, hc]
      exact LObj.lRemHead_holds h x c.count
    · have h2' : n < 0 := by omega
      simp only [h2', if_neg h2, if_true]
      have e : (if n = -2 ^ 63 then 0 else (-n).toNat) = (wrap64 (-n)).toNat := by
        by_cases h3 : n = -2 ^ 63
        · rw [if_pos h3, h3]; decide
        · rw [if_neg h3, wrap64_of_range _ (by omega) (by omega)]
      rw [e]
      exact LObj.lRemTail_holds h x _

theorem exact_lrem (args : List Bytes) (hv : RMatch s k (look k)) : Does' cmdLRem (b! "lrem") ext it s look k args := by
  unfold Does'
  have e : answer look (b! "lrem") (k :: args) = match (generalizing := false) args with
      | n :: x :: _ =>
        match int64 n with
        | some n =>
          typed (look k) (if (look k).list.count = 0 then .reply (.int 0) else
            match (look k).list.remove x n with
            | some c' => .reply (.int ((look k).list.count - c'.count))
            | none => .crash)
        | none => .reply errRange
      | _ => .reply errArgs := rfl
  rw [e]
  have hn : ∀ m, rnext (look k) (b! "lrem") args m = if isError m then look k else
      match look k with
      | .row c =>
        match (generalizing := false) args with
        | n :: x :: _ => if c.count = 0 then .row c else .row ((c.remove x ((int64 n).getD 0)).getD c)
        | _ => .row c
      | v => v := fun m => rfl
  simp only [hn]
  generalize look k = v at hv
  rcases args with _ | ⟨n, _ | ⟨x, rest⟩⟩
  · exact Out.err (e := .commandArgsNotEnough) rfl hv
  · exact Out.err (e := .commandArgsNotEnough) rfl hv
  dsimp only
  cases hp : int64 n with
  | none => exact Out.err (e := .valueOutOfRange) (by simp [cmdLRem, atoi, ← int64_eq, hp, retErr]) hv
  | some count =>
    have hrange := parseInt_range (int64_eq n ▸ hp)
    rw [int64_eq] at hp
    dsimp only
    cases v with
    | other =>
      obtain ⟨info, hg, hi⟩ := hv
      exact Out.err (e := .keyAndCommandNotMatch)
        (by simp [cmdLRem, atoi, hp, Store.lRem, load_other hg hi, bind, Except.bind, intReplyNilOk, retErr]) ⟨info, hg, hi⟩
    | absent =>
      rw [typed_absent, if_pos (show View.absent.list.count = 0 from rfl)]
      exact Out.ok (s' := s) (by simp [cmdLRem, atoi, hp, Store.lRem, load_absent hv, bind, Except.bind, intReplyNilOk, retOk]; rfl)
        (by simp) hv
    | row c =>
      obtain ⟨o, ⟨r, hg, ho⟩, hI⟩ := hv
      have hc : o.length = c.count := by obtain ⟨r, h⟩ := hI; exact h.count
      rw [typed_row]
      simp only [View.list]
      by_cases h0 : c.count = 0
      · have h0' : o.length = 0 := hc.trans h0
        simp only [h0, if_true]
        exact Out.ok (s' := s) (by simp [cmdLRem, atoi, hp, Store.lRem, load_list hg ho, h0', bind, Except.bind, intReplyNilOk, retOk]; rfl)
          (by simp) ⟨o, ⟨r, hg, ho⟩, hI⟩
      · have h0' : ¬ o.length = 0 := by rw [hc]; exact h0
        simp only [h0, if_false, Option.getD_some]
        have hr := lRem_holds hI x hrange
        have hcmd : cmdLRem ext it s (k :: n :: x :: rest) =
            (do let (l, n) ← (if count > 0 then o.lRemCountFromHead x count
                  else if count < 0 then o.lRemCountFromTail x (wrap64 (-count)) else o.lRemCountFromHead x o.length)
                intReplyNilOk (s.write r (.list l)) (n, none)) := by
          simp only [cmdLRem, atoi, hp, Store.lRem, load_list hg ho, bind, Except.bind,
            Bool.true_and, beq_iff_eq, h0', if_false]
          by_cases c1 : count > 0
          · simp only [c1, if_true]; cases o.lRemCountFromHead x count <;> rfl
          · by_cases c2 : count < 0
            · simp only [c1, c2, if_true, if_false]; cases o.lRemCountFromTail x (wrap64 (-count)) <;> rfl
            · simp only [c1, c2, if_false]; cases o.lRemCountFromHead x o.length <;> rfl
        cases hk : c.remove x count with
        | none =>
          rw [hk] at hr
          simp only at hr
          show cmdLRem ext it s (k :: n :: x :: rest) = _
          rw [hcmd, hr]; rfl
        | some c' =>
          rw [hk] at hr
          obtain ⟨o', h1, h2⟩ := hr
          refine Out.ok (s' := s.write r (.list o')) (r := newResponseWithInteger (c.count - c'.count)) (by rw [hcmd, h1]; rfl) rfl ?_
          exact ⟨o', .write hg ho o', h2⟩

theorem exact_lset (args : List Bytes) (hv : RMatch s k (look k)) : Does' cmdLSet (b! "lset") ext it s look k args := by
  unfold Does'
  have e : answer look (b! "lset") (k :: args) = match (generalizing := false) args with
      | i :: _ :: _ =>
        match int64 i with
        | some i => typed (look k) (match (look k).list.seek i with
            | .found _ => .reply (.simple (b! "OK"))
            | .missing => .reply errNil
            | .crash => .crash)
        | none => .reply errRange
      | _ => .reply errArgs := rfl
  rw [e]
  have hn : ∀ m, rnext (look k) (b! "lset") args m = if isError m then look k else
      match look k with
      | .row c =>
        match (generalizing := false) args with
        | i :: x :: _ =>
          match c.seek ((int64 i).getD 0) with
          | .found p => .row { c with items := c.items.set p x }
          | _ => .row c
        | _ => .row c
      | v => v := fun m => rfl
  simp only [hn]
  generalize look k = v at hv
  rcases args with _ | ⟨i, _ | ⟨x, rest⟩⟩
  · exact Out.err (e := .commandArgsNotEnough) rfl hv
  · exact Out.err (e := .commandArgsNotEnough) rfl hv
  dsimp only
  cases hp : int64 i with
  | none => exact Out.err (e := .valueOutOfRange) (by simp [cmdLSet, atoi, ← int64_eq, hp, retErr]) hv
  | some n =>
    rw [int64_eq] at hp
    dsimp only
    cases v with
    | other =>
      obtain ⟨info, hg, hi⟩ := hv
      exact Out.err (e := .keyAndCommandNotMatch)
        (by simp [cmdLSet, atoi, hp, Store.lSet, load_other hg hi, bind, Except.bind, retErr]) ⟨info, hg, hi⟩
    | absent =>
      rw [typed_absent]
      simp only [View.list, seek_good_nil]
      exact Out.err (e := .nil) (by simp [cmdLSet, atoi, hp, Store.lSet, load_absent hv, bind, Except.bind, retErr]) hv
    | row c =>
      obtain ⟨o, ⟨r, hg, ho⟩, hI⟩ := hv
      have hc : o.length = c.count := by obtain ⟨r, h⟩ := hI; exact h.count
      rw [typed_row]
      simp only [View.list]
      by_cases h0 : o.length = 0
      · rw [seek_zero (hc ▸ h0)]
        exact Out.err (e := .nil) (by simp [cmdLSet, atoi, hp, Store.lSet, load_list hg ho, h0, bind, Except.bind, retErr])
          ⟨o, ⟨r, hg, ho⟩, hI⟩
      · have hs := LObj.lSet_holds hI n x
        simp only [Option.getD_some]
        cases hk : c.seek n with
        | found p =>
          rw [hk] at hs
          obtain ⟨o', h1, h2⟩ := hs
          exact Out.ok (s' := s.write r (.list o'))
            (by simp [cmdLSet, atoi, hp, Store.lSet, load_list hg ho, h0, h1, bind, Except.bind, retOk]; rfl) rfl
            ⟨o', .write hg ho o', h2⟩
        | missing =>
          rw [hk] at hs
          simp only at hs
          exact Out.err (e := .nil)
            (by simp [cmdLSet, atoi, hp, Store.lSet, load_list hg ho, h0, hs, write_self ho, bind, Except.bind, retErr])
            ⟨o, ⟨r, hg, ho⟩, hI⟩
        | crash =>
          rw [hk] at hs
          simp only at hs
          show cmdLSet ext it s (k :: i :: x :: rest) = _
          simp [cmdLSet, atoi, hp, Store.lSet, load_list hg ho, h0, hs, bind, Except.bind]

theorem exact_linsert (args : List Bytes) (hv : RMatch s k (look k)) (hw : ∀ w ∈ args.head?, Ascii w) :
    Does' cmdLInsert (b! "linsert") ext it s look k args := by
  unfold Does'
  have e : answer look (b! "linsert") (k :: args) = match (generalizing := false) args with
      | w :: p :: x :: _ =>
        if lower w = b! "before" ∨ lower w = b! "after" then
          typed (look k) (if (look k).list.count = 0 then .reply errNil else
            match (look k).list.insert (decide (lower w = b! "before")) p x with
            | some c' => .reply (.int c'.count)
            | none => .reply errNil)
        else .reply errArgs
      | _ => .reply errArgs := rfl
  rw [e]
  have hn : ∀ m, rnext (look k) (b! "linsert") args m = if isError m then look k else
      match look k with
      | .row c =>
        match (generalizing := false) args with
        | w :: p :: x :: _ => .row ((c.insert (decide (lower w = b! "before")) p x).getD c)
        | _ => .row c
      | v => v := fun m => rfl
  simp only [hn]
  generalize look k = v at hv
  rcases args with _ | ⟨w, _ | ⟨p, _ | ⟨x, rest⟩⟩⟩
  · exact Out.err (e := .commandArgsNotEnough) rfl hv
  · exact Out.err (e := .commandArgsNotEnough) rfl hv
  · exact Out.err (e := .commandArgsNotEnough) rfl hv
  dsimp only
  have hlow : toLower ext.lowerUni w = lower w := lower_eq (hw w rfl)
  have hcmd : cmdLInsert ext it s (k :: w :: p :: x :: rest) =
      if lower w = b! "before" ∨ lower w = b! "after" then
        (do let (s, r) ← s.lInsert k p x (if lower w = b! "before" then -1 else 1); intReply s r)
      else notEnough s := by
    simp only [cmdLInsert, hlow]
    by_cases h1 : lower w = b! "after"
    · rw [if_pos h1, if_pos (.inr h1), if_neg (by rw [h1]; decide)]
    · by_cases h2 : lower w = b! "before"
      · rw [if_neg h1, if_pos h2, if_pos (.inl h2), if_pos h2]
      · rw [if_neg h1, if_neg h2, if_neg (by simp [h1, h2])]
  by_cases hbw : lower w = b! "before" ∨ lower w = b! "after"
  swap
  · rw [if_neg hbw]
    exact Out.err (e := .commandArgsNotEnough) (by rw [hcmd, if_neg hbw]; rfl) hv
  rw [if_pos hbw]
  rw [if_pos hbw] at hcmd
  have hflag : (decide ((if lower w = b! "before" then (-1 : Int) else 1) = -1)) = decide (lower w = b! "before") := by
    by_cases h : lower w = b! "before" <;> simp [h]
  have hf1 : (if lower w = b! "before" then (-1 : Int) else 1) = 1 ∨ (if lower w = b! "before" then (-1 : Int) else 1) = -1 := by
    by_cases h : lower w = b! "before" <;> simp [h]
  generalize (if lower w = b! "before" then (-1 : Int) else 1) = flag at hcmd hflag hf1
  cases v with
  | other =>
    obtain ⟨info, hg, hi⟩ := hv
    exact Out.err (e := .keyAndCommandNotMatch)
      (by simp [hcmd, Store.lInsert, load_other hg hi, bind, Except.bind, intReply, retErr]) ⟨info, hg, hi⟩
  | absent =>
    rw [typed_absent, if_pos (show View.absent.list.count = 0 from rfl)]
    exact Out.err (e := .nil) (by simp [hcmd, Store.lInsert, load_absent hv, bind, Except.bind, intReply, retErr]) hv
  | row c =>
    obtain ⟨o, ⟨r, hg, ho⟩, hI⟩ := hv
    have hc : o.length = c.count := by obtain ⟨r, h⟩ := hI; exact h.count
    rw [typed_row]
    simp only [View.list]
    by_cases h0 : c.count = 0
    · have h0' : o.length = 0 := hc.trans h0
      simp only [h0, if_true]
      exact Out.err (e := .nil) (by simp [hcmd, Store.lInsert, load_list hg ho, h0', bind, Except.bind, intReply, retErr])
        ⟨o, ⟨r, hg, ho⟩, hI⟩
    · have h0' : ¬ o.length = 0 := by rw [hc]; exact h0
      simp only [h0, if_false]
      have hs := LObj.lInsert_holds hI p x flag hf1
      rw [hflag] at hs
      cases hk : c.insert (decide (lower w = b! "before")) p x with
      | none =>
        rw [hk] at hs
        simp only at hs
        exact Out.err (e := .nil)
          (by simp [hcmd, Store.lInsert, load_list hg ho, h0', hs, write_self ho, bind, Except.bind, intReply, retErr])
          ⟨o, ⟨r, hg, ho⟩, hI⟩
      | some c' =>
        rw [hk] at hs
        obtain ⟨o', h1, h2, h3⟩ := hs
        exact Out.ok (s' := s.write r (.list o'))
          (by simp [hcmd, Store.lInsert, load_list hg ho, h0', h1, bind, Except.bind, intReply, retOk]; rfl)
          (by simp [h3]) ⟨o', .write hg ho o', h2⟩

end Godis
