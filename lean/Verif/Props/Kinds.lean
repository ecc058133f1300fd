import Verif.Spec.Kinds
import Verif.Props.Texts
/-!
# C80: the kind of the reply
-/
namespace Godis
open Resp (Reply)
open KindSpec

variable {ext : Ext} {it : Iter} {rng : Rng} {s s' : Store} {args : List Bytes} {m : Reply}

/-- the successful replies of a command -/
def KPost (P : Reply → Prop) (q : Store × Except Err Response) : Prop := ∀ rsp m, q.2 = .ok rsp → rsp.reply = some m → P m

variable {P : Reply → Prop}

theorem k_err {e : Err} : Wp (retErr s e) (KPost P) := Wp.pure (by intro rsp m h; cases h)
theorem k_short : Wp (notEnough s) (KPost P) := Wp.pure (by intro rsp m h; cases h)
theorem k_ok {r : Response} (h : ∀ m, r.reply = some m → P m) : Wp (retOk s r) (KPost P) := Wp.pure (by intro rsp m e; cases e; exact h m)
theorem k_int' {n : Int} (h : P (.int n)) : Wp (retOk s (newResponseWithInteger n)) (KPost P) := k_ok (by intro m e; cases e; exact h)
theorem k_line {t : Bytes} (h : P (.simple t)) : Wp (retOk s (newResponseWithSimpleString t)) (KPost P) :=
  k_ok (by
    intro m e
    simp only [newResponseWithSimpleString, Response.reply, Item.reply] at e
    simp only [Bool.false_eq_true, if_false] at e
    split at e <;> cases e
    exact h)
theorem k_bulk {t : Bytes} (h : P (.bulk (some t))) : Wp (retOk s (newResponseWithBulkString t)) (KPost P) := k_ok (by intro m e; cases e; exact h)
theorem k_nil (h : P (.bulk none)) : Wp (retOk s newResponseWithNilBulk) (KPost P) := k_ok (by intro m e; cases e; exact h)
theorem k_empty (h : P (.array [])) : Wp (retOk s newResponseWithEmptyArray) (KPost P) := k_ok (by intro m e; cases e; exact h)
theorem k_texts {ts : List Bytes} (h : isTexts (.array (ts.map fun t => .bulk (some t))) → P (.array (ts.map fun t => .bulk (some t)))) :
    Wp (retOk s (bulkStrings true ts)) (KPost P) :=
  k_ok (by intro m e; rw [reply_bulks] at e; cases e; exact h ⟨ts, rfl⟩)
theorem k_intReply {r : Ret Int} (h : ∀ n, P (.int n)) : Wp (intReply s r) (KPost P) := by
  unfold intReply
  split
  · exact k_err
  · exact k_int' (h _)
theorem k_intReplyNilOk {r : Ret Int} (h : ∀ n, P (.int n)) : Wp (intReplyNilOk s r) (KPost P) := by
  unfold intReplyNilOk
  split
  · exact k_int' (h _)
  · exact k_err
  · exact k_int' (h _)
theorem k_arr {n : Response} {r : Ret (List Bytes)} (hn : ∀ m, n.reply = some m → P m) (h : ∀ m, isTexts m → P m) : Wp (arrReply s n r) (KPost P) := by
  unfold arrReply
  split
  · exact k_ok hn
  · exact k_err
  · exact k_texts (h _)
theorem k_zPop {r : Ret (List Bytes)} (h : ∀ m, isTexts m → P m) : Wp (zPopReply s r) (KPost P) := by
  unfold zPopReply
  split
  · exact k_empty (h _ ⟨[], rfl⟩)
  · split
    · exact k_err
    · exact k_texts (h _)

theorem k_slots {vs : List Iface} (h : ∀ m, isSlots vs.length m → P m) : Wp (retOk s (bulkInterfaces true vs)) (KPost P) := by
  refine k_ok fun m e => h m ?_
  have : ∀ (vs : List Iface) rs, itemReplies (vs.map (⟨·, .bulkStrings⟩)) = some rs → ∃ ts : List (Option Bytes), rs = ts.map .bulk ∧ ts.length = vs.length := by
    intro vs
    induction vs with
    | nil => intro rs h; cases h; exact ⟨[], rfl, rfl⟩
    | cons v vs ih =>
      intro rs h
      rw [List.map_cons, itemReplies] at h
      split at h
      · next r rs' h1 h2 =>
        cases h
        obtain ⟨ts, rfl, hl⟩ := ih _ h2
        cases v <;> simp only [Item.reply] at h1 <;> cases h1
        · exact ⟨none :: ts, rfl, by simp [hl]⟩
        · exact ⟨some _ :: ts, rfl, by simp [hl]⟩
      · cases h
  simp only [bulkInterfaces, Response.reply, if_true] at e
  obtain ⟨rs, h1, rfl⟩ := Option.map_eq_some_iff.mp e
  obtain ⟨ts, rfl, hl⟩ := this vs rs h1
  exact ⟨ts, rfl, hl⟩

theorem mGet_length (ks : List Bytes) : Wp (s.mGet ks) fun r => r.length = ks.length := by
  induction ks with
  | nil => exact Wp.pure rfl
  | cons k ks ih =>
    unfold Store.mGet
    refine Wp.bind (Wp.triv _) fun _ _ _ => Wp.bind ih fun r _ hr => Wp.pure (by simp [hr])

/-- an error, or 0 or 1 -/
def Bit (r : Ret Int) : Prop := r.1 = 0 ∨ r.1 = 1

theorem k_bit {r : Ret Int} (hr : Bit r) (h : ∀ m, isBit m → P m) : Wp (intReply s r) (KPost P) := by
  unfold intReply
  split
  · exact k_err
  · exact k_int' (h _ (hr.imp (by intro h; dsimp only at h; rw [h]) (by intro h; dsimp only at h; rw [h])))

theorem k_bitNil {r : Ret Int} (hr : Bit r) (h : ∀ m, isBit m → P m) : Wp (intReplyNilOk s r) (KPost P) := by
  have := fun n (e : Option Err) (hr : Bit (n, e)) => h (.int n) (hr.imp (by intro h; dsimp only at h; rw [h]) (by intro h; dsimp only at h; rw [h]))
  unfold intReplyNilOk
  split
  · exact k_int' (this _ _ hr)
  · exact k_err
  · exact k_int' (this _ _ hr)

theorem sAdd_bit {k v : Bytes} : Wp (s.sAdd k [v]) fun q => Bit q.2 := by
  have hb : ∀ o : SObj, Bit ((o.sAddAll [v]).2, none) := by
    intro o
    simp only [SObj.sAddAll, SObj.sAdd, Bit]
    split <;> simp
  unfold Store.sAdd
  refine Wp.bind (Wp.triv _) fun r _ _ => ?_
  split
  · refine Wp.pure ?_; exact hb SObj.empty
  · exact Wp.pure (.inl rfl)
  · refine Wp.pure ?_; exact hb _

theorem sMove_bit {a b v : Bytes} : Wp (s.sMove a b v) fun q => Bit q.2 := by
  unfold Store.sMove
  refine Wp.bind (Wp.triv _) fun r _ _ => ?_
  split
  · exact Wp.pure (.inl rfl)
  · dsimp only
    split
    · exact Wp.pure (.inl rfl)
    · exact sAdd_bit

theorem sIsMember_bit {k v : Bytes} : Wp (s.sIsMember k v) Bit := by
  unfold Store.sIsMember
  refine Wp.bind (Wp.triv _) fun r _ _ => ?_
  split
  · exact Wp.pure (.inl rfl)
  · refine Wp.pure ?_
    unfold Bit
    dsimp only
    split <;> simp

theorem fn_kind {W Q : Bytes → Prop} (H : s.All W Q) (c : Cmd) : Wp (c.fn ext it s args) (KPost (Kind c.name args)) := by
  cases c <;> dsimp only [Cmd.fn]
  case incr | incrBy | decr | decrBy | stringAppend | lPush | rPush | lLen | lRem | lInsert | sAdd | sRem | sCard | sDiffStore | sInterStore | sUnionStore | hDel
    | hExists | hIncrBy | hLen | hSet | hSetNx | zAdd | zRem | zCard | zCount =>
    all_goals
      first | unfold cmdIncr | unfold cmdIncrBy | unfold cmdDecr | unfold cmdDecrBy | unfold cmdAppend | unfold cmdLPush | unfold cmdRPush | unfold cmdLLen
            | unfold cmdLRem | unfold cmdLInsert | unfold cmdSAdd | unfold cmdSRem | unfold cmdSCard | unfold cmdSOpStore | unfold cmdHDel | unfold cmdHExists
            | unfold cmdHIncrBy | unfold cmdHLen | unfold cmdHSet | unfold cmdHSetNx | unfold cmdZAdd | unfold cmdZRem | unfold cmdZCard | unfold cmdZCount
      try dsimp only
      repeat' first
        | exact k_short | exact k_err | exact k_intReply (fun n => ⟨n, rfl⟩) | exact k_intReplyNilOk (fun n => ⟨n, rfl⟩)
        | split | refine Wp.bind (Wp.triv _) fun _ _ _ => ?_
  case set | mSet | lSet | hMSet =>
    all_goals
      first | unfold cmdSet | unfold cmdMSet | unfold cmdLSet | unfold cmdHMSet
      repeat' first
        | exact k_short | exact k_err | exact k_line rfl
        | split | refine Wp.bind (Wp.triv _) fun _ _ _ => ?_
  case ping => exact k_line rfl
  case command => exact k_line rfl
  case keyType =>
    unfold cmdType
    split
    · split
      · exact k_line ⟨respNone, by decide, rfl⟩
      · next t ht =>
        refine k_line ?_
        unfold Store.type at ht
        obtain ⟨i, hi, rfl⟩ := Option.map_eq_some_iff.mp ht
        have := (H.keys.get hi).2.1
        revert this
        generalize i.type = tp
        intro this
        cases tp <;> first | exact absurd rfl this | exact ⟨_, by decide, rfl⟩
    · exact k_short
  case «exists» =>
    unfold cmdExists
    split
    · refine k_int' ?_
      split
      · exact .inr rfl
      · exact .inl rfl
    · exact k_short
  case del =>
    unfold cmdDel
    split
    · dsimp only [Store.del]
      refine k_int' ?_
      split
      · exact .inr rfl
      · exact .inl rfl
    · exact k_short
  case sIsMember =>
    unfold cmdSIsMember
    split
    · exact Wp.bind sIsMember_bit fun r _ hr => k_bitNil hr fun m h => h
    · exact k_short
  case sMove =>
    unfold cmdSMove
    split
    · exact Wp.bind sMove_bit fun r _ hr => k_bit hr fun m h => h
    · exact k_short
  case zRank =>
    unfold cmdZRank
    repeat' first
      | exact k_short | exact k_err | exact k_nil (.inr rfl) | exact k_int' (.inl ⟨_, rfl⟩)
      | split | refine Wp.bind (Wp.triv _) fun _ _ _ => ?_
  case zIncr =>
    unfold cmdZIncr
    repeat' first
      | exact k_short | exact k_err | exact k_bulk (.inl ⟨_, rfl⟩) | exact k_int' (.inr rfl)
      | split | refine Wp.bind (Wp.triv _) fun _ _ _ => ?_
  case get | hGet | lIndex | zScore =>
    all_goals
      first | unfold cmdGet | unfold cmdHGet | unfold cmdLIndex | unfold cmdZScore
      repeat' first
        | exact k_short | exact k_err | exact k_bulk (.inl ⟨_, rfl⟩) | exact k_nil (.inr rfl)
        | split | refine Wp.bind (Wp.triv _) fun _ _ _ => ?_
  case hIncrByFloat =>
    unfold cmdHIncrByFloat
    repeat' first
      | exact k_short | exact k_err | exact k_bulk ⟨_, rfl⟩
      | split | refine Wp.bind (Wp.triv _) fun _ _ _ => ?_
  case keys | lRange | sMembers | sDiff | sInter | sUnion | sPop | hKeys | hVals | zPopMin | zPopMix =>
    all_goals
      first | unfold cmdKeys | unfold cmdLRange | unfold cmdSMembers | unfold cmdSOp | unfold cmdSPop | unfold cmdHKeys | unfold cmdHVals | unfold cmdZPopMin
            | unfold cmdZPopMax
      try dsimp only
      repeat' first
        | exact k_short | exact k_err | exact k_empty ⟨[], rfl⟩ | exact k_texts (fun h => h)
        | exact k_arr (by intro m e; cases e; exact ⟨[], rfl⟩) (fun m h => h) | exact k_zPop (fun m h => h)
        | split | refine Wp.bind (Wp.triv _) fun _ _ _ => ?_
  case lPop | rPop | zRange | zRangeByScore | zRevRange =>
    all_goals
      first | unfold cmdLPop | unfold cmdRPop | unfold cmdZRange | unfold cmdZRangeByScore | unfold cmdZRevRange
      repeat' first
        | exact k_short | exact k_err
        | exact k_arr (by intro m e; cases e; exact .inr rfl) (fun m h => .inl h)
        | split | refine Wp.bind (Wp.triv _) fun _ _ _ => ?_
  case hGetAll =>
    unfold cmdHGetAll
    split
    · unfold Store.hGetAll
      refine wp_hash H fun e => ?_
      show Wp (if _ then _ else _) _
      rw [if_pos (.inr rfl)]
      exact k_nil rfl
    · exact k_short
  case mget =>
    unfold cmdMGet
    split
    · exact Wp.bind (mGet_length _) fun r _ hr => k_slots fun m h => by rw [List.length_map, hr] at h; exact h
    · exact k_short
  case hMGet =>
    unfold cmdHMGet
    split
    · unfold Store.hMGet
      refine wp_hash H fun e => ?_
      dsimp only [bind, Except.bind]
      split
      · exact k_slots fun m h => by rw [List.length_map] at h; exact h
      · exact k_err
      · next h => cases h
    · exact k_short

/-- one request -/
theorem kind_step {W Q : Bytes → Prop} {w : Bytes} (H : s.All W Q) (h : Answers ext it s (w :: args) m s') :
    (∃ e, m = .error e) ∨ Kind ((libOf ext).num.lower w) args m := by
  have hl : (libOf ext).num.lower w = toLower ext.lowerUni w := rfl
  obtain ⟨rsp, h1, h2⟩ := h
  have herr : ∀ (e : Err) (m : Reply), (setRsp (.error e)).reply = some m → ∃ e, m = .error e := by
    intro e m he
    exact ⟨e.msg, by cases e <;> cases he <;> rfl⟩
  simp only [runRequest, newCommand, execute] at h1
  cases hc : lookupCmd (toLower ext.lowerUni w) with
  | none =>
    rw [hc] at h1
    cases h1
    exact .inl (herr _ _ h2)
  | some c =>
    rw [hc] at h1
    dsimp only at h1
    have hw := fn_kind (ext := ext) (it := it) (args := args) H c
    cases hf : c.fn ext it s args with
    | error p => rw [hf] at h1; cases h1
    | ok q =>
      rw [hf] at h1
      have hk := hw q hf
      obtain ⟨s1, r⟩ := q
      cases h1
      cases r with
      | error e => exact .inl (herr _ _ h2)
      | ok rsp =>
        right
        rw [hl, lookup_name hc]
        exact hk _ _ rfl h2

/-- a reply of the right kind is not an error -/
theorem kind_no_error (name : Bytes) (args : List Bytes) (e : Bytes) : ¬ Kind name args (.error e) := by
  simp only [Kind, isOK, isInt, isBit, isText, isNil, isTexts, isSlots, reduceCtorEq, exists_false, and_false, false_and, or_self, ite_self, not_false_eq_true]

/-- **C80.**  Whatever was requested before: the reply to a request is an error, or of the kind `Kind` lists for the command's name
(in any case) and arguments.  A name that is not in the list is answered with an error. -/
theorem C80_kind {tr : List (List Bytes × Reply)} {w : Bytes} (h : Trace ext (Store.init rng) (tr ++ [(w :: args, m)]) s) :
    (∃ e, m = .error e) ∨ Kind ((libOf ext).num.lower w) args m := by
  obtain ⟨s1, it, h1, h2⟩ := h.last
  exact kind_step (texts_trace h1) h2

/-- Unlike Redis: LPOP without a count answers a list, ZRANGE of an absent key nothing, ZINCR by 0 the number 0 instead of the score,
HGETALL of a key with a string nothing. -/
theorem C80_redis_violated :
    replies [[b! "RPUSH", b! "l", b! "a"], [b! "LPOP", b! "l"], [b! "ZRANGE", b! "no", b! "0", b! "1"], [b! "ZADD", b! "z", b! "1", b! "a"],
        [b! "ZINCR", b! "z", b! "0", b! "a"], [b! "SET", b! "x", b! "5"], [b! "HGETALL", b! "x"]] =
      some [.int 1, .array [.bulk (some (b! "a"))], .bulk none, .int 1, .int 0, .simple (b! "OK"), .bulk none] := by decide +kernel

/-- every kind of reply occurs -/
example : replies [[b! "PING"], [b! "SET", b! "x", b! "5"], [b! "MGET", b! "x", b! "y"], [b! "TYPE", b! "x"], [b! "DEL", b! "x"], [b! "APPEND", b! "x", b! "abc"],
      [b! "HMGET", b! "h", b! "f"], [b! "LPOP", b! "l", b! "0"], [b! "LRANGE", b! "l", b! "0", b! "1"], [b! "NOPE"]] =
    some [.simple (b! "PONG"), .simple (b! "OK"), .array [.bulk (some (b! "5")), .bulk none], .simple (b! "string"), .int 1, .int 3, .array [.bulk none],
      .error Err.valueOutOfRange.msg, .array [], .error Err.unknownCommand.msg] := by decide +kernel

end Godis
namespace Godis.Event
open Resp (Reply)
open KindSpec

/-- **C80, concurrent clients.**  Whatever the schedule: what a client receives for its request is an error or of the command's kind. -/
theorem C80_clients {ext rng L σ} (h : Run ext 1 rng L σ) {i w args m} (si : CoordSpec.Sent Decodes (visible L) i (w :: args)) (gi : CoordSpec.Got (visible L) i m) :
    (∃ e, m = .error e) ∨ Kind ((libOf ext).num.lower w) args m := by
  obtain ⟨ops, he⟩ := explained h
  obtain ⟨p, hp, rfl, rfl⟩ := he.got _ _ gi
  have hq : p.req = w :: args := (sent_unique h si (he.sent p hp)).symm
  obtain ⟨A, B, e⟩ := List.mem_iff_append.mp hp
  have ht := he.trace
  have e2 : ops.map pair = (A.map pair ++ [(w :: args, p.reply)]) ++ B.map pair := by rw [e]; simp [pair, hq]
  rw [e2] at ht
  obtain ⟨s1, h1, _⟩ := ht.split
  exact C80_kind h1

end Godis.Event
namespace Godis.V1
open KindSpec
open Event (Decodes visible)

/-- **C80, version 1.** -/
theorem C80_v1_clients {ext rng L v} (h : VRun ext rng L v) {i w args m} (si : CoordSpec.Sent Decodes (visible (sysLabels L)) i (w :: args))
    (gi : CoordSpec.Got (visible (sysLabels L)) i m) : (∃ e, m = .error e) ∨ Kind ((libOf ext).num.lower w) args m :=
  Event.C80_clients h.run si gi

end Godis.V1
