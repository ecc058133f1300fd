import Verif.Model.Store
import Verif.Model.Protocol
/-!
# redis/*.go : the command functions, dispatch and `ExecuteAsync`

`c.Values` is the list of arguments after the command name.  `len(c.Values) < n` checks followed by
`c.Values[i]` become patterns with at least `n` elements.

Every command function either returns a non-nil response or an error, so its result is
`Except Err Response` (the `result == nil` branch of `setRsp` is not reachable).
-/
namespace Godis

/-- redis/consts.go:11-16 -/
def respOK : Bytes := b! "OK"
/-- redis/consts.go:13 -/
def respNone : Bytes := b! "none"
/-- redis/consts.go:14 -/
def respPong : Bytes := b! "PONG"
/-- redis/consts.go:15 -/
def respCommand : Bytes := b! "COMMAND"

/-- the store after the command and its `(*protocol.Response, error)` -/
abbrev CmdRes := Go (Store × Except Err Response)

/-- redis/command.go:17 `ExecuteFunc`, with the environment made explicit -/
abbrev CmdFn := Ext → Iter → Store → List Bytes → CmdRes

/-- `return nil, ErrCommandArgsNotEnough` -/
def notEnough (s : Store) : CmdRes := .ok (s, .error .commandArgsNotEnough)

/-- `return nil, err` -/
def retErr (s : Store) (e : Err) : CmdRes := .ok (s, .error e)

/-- `return rsp, nil` -/
def retOk (s : Store) (r : Response) : CmdRes := .ok (s, .ok r)

/-- `int64` reply of a numeric result, `return nil, err` on error -/
def intReply (s : Store) (r : Ret Int) : CmdRes :=
  match r with
  | (_, some e) => retErr s e
  | (n, none) => retOk s (newResponseWithInteger n)

/-- `if err != nil && err != datastruct.ErrNil { return nil, err }; integer reply` -/
def intReplyNilOk (s : Store) (r : Ret Int) : CmdRes :=
  match r with
  | (n, some .nil) => retOk s (newResponseWithInteger n)
  | (_, some e) => retErr s e
  | (n, none) => retOk s (newResponseWithInteger n)

/-- array reply; `ErrNil` gives `onNil` -/
def arrReply (s : Store) (onNil : Response) (r : Ret (List Bytes)) : CmdRes :=
  match r with
  | (_, some .nil) => retOk s onNil
  | (_, some e) => retErr s e
  | (vs, none) => retOk s (bulkStrings true vs)

/-! ## redis/string.go -/

/-- string.go:12-19 `set` -/
def cmdSet : CmdFn := fun _ _ s args =>
  match args with
  | k :: v :: _ => retOk (s.set k v) (newResponseWithSimpleString respOK)
  | _ => notEnough s

/-- string.go:22-29 `mSet`: `len < 2 && len%2 != 0` only rejects exactly one argument. -/
def cmdMSet : CmdFn := fun _ _ s args =>
  if args.length < 2 ∧ args.length % 2 ≠ 0 then notEnough s
  else retOk (s.mSet args) (newResponseWithSimpleString respOK)

/-- string.go:31-46 `get` -/
def cmdGet : CmdFn := fun _ _ s args =>
  match args with
  | k :: _ => do
    match ← s.get k with
    | (_, some .nil) => retOk s newResponseWithNilBulk
    | (_, some e) => retErr s e
    | (v, none) => retOk s (bulkInterfaces false [.str v])
  | _ => notEnough s

/-- the dynamic value of an `MGet` element -/
def Store.MGetItem.iface : Store.MGetItem → Iface
  | .nil => .nil
  | .err e => .err e.msg
  | .str s => .str s

/-- string.go:48-56 `mget` -/
def cmdMGet : CmdFn := fun _ _ s args =>
  match args with
  | _ :: _ => do
    let vs ← s.mGet args
    retOk s (bulkInterfaces true (vs.map (·.iface)))
  | _ => notEnough s

/-- string.go:58-69 `incr` -/
def cmdIncr : CmdFn := fun _ _ s args =>
  match args with
  | k :: _ => do let (s, r) ← s.incrBy k 1; intReply s r
  | _ => notEnough s

/-- string.go:71-87 `incrBy` -/
def cmdIncrBy : CmdFn := fun _ _ s args =>
  match args with
  | k :: d :: _ =>
    match parseInt d with
    | none => retErr s .notInteger
    | some d => do let (s, r) ← s.incrBy k d; intReply s r
  | _ => notEnough s

/-- string.go:89-100 `decr` -/
def cmdDecr : CmdFn := fun _ _ s args =>
  match args with
  | k :: _ => do let (s, r) ← s.incrBy k (-1); intReply s r
  | _ => notEnough s

/-- string.go:102-118 `decrBy`: `-decrement` wraps for the smallest int64. -/
def cmdDecrBy : CmdFn := fun _ _ s args =>
  match args with
  | k :: d :: _ =>
    match parseInt d with
    | none => retErr s .notInteger
    | some d => do let (s, r) ← s.incrBy k (wrap64 (-d)); intReply s r
  | _ => notEnough s

/-- string.go:121-132 `stringAppend` -/
def cmdAppend : CmdFn := fun _ _ s args =>
  match args with
  | k :: v :: _ => do let (s, r) ← s.append k v; intReply s r
  | _ => notEnough s

/-! ## redis/keys.go -/

/-- keys.go:12-19 `keys` -/
def cmdKeys : CmdFn := fun ext it s args =>
  match args with
  | p :: _ => do
    let ks ← s.keysMatching ext it p
    retOk s (bulkStrings true ks)
  | _ => notEnough s

/-- keys.go:21-33 `exists` -/
def cmdExists : CmdFn := fun _ _ s args =>
  match args with
  | k :: _ => retOk s (newResponseWithInteger (if s.exists k then 1 else 0))
  | _ => notEnough s

/-- keys.go:36-43 `del` -/
def cmdDel : CmdFn := fun _ _ s args =>
  match args with
  | k :: _ =>
    let (s, n) := s.del k
    retOk s (newResponseWithInteger n)
  | _ => notEnough s

/-- keys.go:46-59 `keyType` -/
def cmdType : CmdFn := fun _ _ s args =>
  match args with
  | k :: _ =>
    match s.type k with
    | none => retOk s (newResponseWithSimpleString respNone)
    | some t => retOk s (newResponseWithSimpleString t.text)
  | _ => notEnough s

/-- keys.go:61-63 `ping` -/
def cmdPing : CmdFn := fun _ _ s _ => retOk s (newResponseWithSimpleString respPong)

/-- keys.go:65-67 `command` -/
def cmdCommand : CmdFn := fun _ _ s _ => retOk s (newResponseWithSimpleString respCommand)

/-! ## redis/list.go -/

/-- list.go:14-25 `lPush` -/
def cmdLPush : CmdFn := fun _ _ s args =>
  match args with
  | k :: v :: vs => do let (s, r) ← s.lPush k (v :: vs); intReply s r
  | _ => notEnough s

/-- the count argument, list.go:33-41 / 75-83: absent = 1, otherwise a positive integer -/
def popCount (rest : List Bytes) : Option Int :=
  match rest with
  | [] => some 1
  | c :: _ => match atoi c with
    | none => none
    | some n => if n ≤ 0 then none else some n

/-- list.go:28-53 `lPop` -/
def cmdLPop : CmdFn := fun _ _ s args =>
  match args with
  | k :: rest =>
    match popCount rest with
    | none => retErr s .valueOutOfRange
    | some count => do
      let (s, r) ← s.lPop k count
      arrReply s newResponseWithNilBulk r
  | _ => notEnough s

/-- list.go:56-67 `rPush` -/
def cmdRPush : CmdFn := fun _ _ s args =>
  match args with
  | k :: v :: vs => do let (s, r) ← s.rPush k (v :: vs); intReply s r
  | _ => notEnough s

/-- list.go:70-95 `rPop` -/
def cmdRPop : CmdFn := fun _ _ s args =>
  match args with
  | k :: rest =>
    match popCount rest with
    | none => retErr s .valueOutOfRange
    | some count => do
      let (s, r) ← s.rPop k count
      arrReply s newResponseWithNilBulk r
  | _ => notEnough s

/-- list.go:98-109 `lLen` -/
def cmdLLen : CmdFn := fun _ _ s args =>
  match args with
  | k :: _ => do let r ← s.lLen k; intReplyNilOk s r
  | _ => notEnough s

/-- list.go:112-137 `lRange` -/
def cmdLRange : CmdFn := fun _ _ s args =>
  match args with
  | k :: a :: b :: _ =>
    match atoi a with
    | none => retErr s .valueOutOfRange
    | some start =>
      match atoi b with
      | none => retErr s .valueOutOfRange
      | some stop => do
        match ← s.lRange k start stop with
        | (_, some .nil) => retOk s newResponseWithEmptyArray
        | (_, some e) => retErr s e
        | ([], none) => retOk s newResponseWithEmptyArray
        | (vs, none) => retOk s (bulkStrings true vs)
  | _ => notEnough s

/-- list.go:140-156 `lRem` -/
def cmdLRem : CmdFn := fun _ _ s args =>
  match args with
  | k :: c :: v :: _ =>
    match atoi c with
    | none => retErr s .valueOutOfRange
    | some count => do let (s, r) ← s.lRem k count v; intReplyNilOk s r
  | _ => notEnough s

/-- list.go:159-179 `lIndex`: the key passed to `datastruct.LIndex` is `c.Values[1]`, the index text. -/
def cmdLIndex : CmdFn := fun _ _ s args =>
  match args with
  | _ :: i :: _ =>
    match atoi i with
    | none => retErr s .valueOutOfRange
    | some index => do
      match ← s.lIndex i index with
      | (_, some .nil) => retOk s newResponseWithNilBulk
      | (_, some e) => retErr s e
      | (v, none) => retOk s (newResponseWithBulkString v)
  | _ => notEnough s

/-- list.go:182-198 `lSet` -/
def cmdLSet : CmdFn := fun _ _ s args =>
  match args with
  | k :: i :: v :: _ =>
    match atoi i with
    | none => retErr s .valueOutOfRange
    | some index => do
      match ← s.lSet k index v with
      | (s, some e) => retErr s e
      | (s, none) => retOk s (newResponseWithSimpleString respOK)
  | _ => notEnough s

/-- list.go:201-222 `lInsert` -/
def cmdLInsert : CmdFn := fun ext _ s args =>
  match args with
  | k :: w :: p :: v :: _ =>
    let w := toLower ext.lowerUni w
    if w = b! "after" then do let (s, r) ← s.lInsert k p v 1; intReply s r
    else if w = b! "before" then do let (s, r) ← s.lInsert k p v (-1); intReply s r
    else notEnough s
  | _ => notEnough s

/-! ## redis/set.go -/

/-- set.go:13-25 `sAdd` -/
def cmdSAdd : CmdFn := fun _ _ s args =>
  match args with
  | k :: v :: vs => do let (s, r) ← s.sAdd k (v :: vs); intReply s r
  | _ => notEnough s

/-- set.go:28-39 `sCard` -/
def cmdSCard : CmdFn := fun _ _ s args =>
  match args with
  | k :: _ => do let r ← s.sCard k; intReplyNilOk s r
  | _ => notEnough s

/-- set.go:42-61 `sDiff`, 82-101 `sInter`, 122-141 `sUnion`: one key always gives the empty array. -/
def cmdSOp (op : Store.SetOp) : CmdFn := fun _ it s args =>
  match args with
  | [] => notEnough s
  | [_] => retOk s newResponseWithEmptyArray
  | _ => do let r ← Store.sOp it op s args; arrReply s newResponseWithEmptyArray r

/-- set.go:64-79 `sDiffStore`, 104-119 `sInterStore`, 144-159 `sUnionStore` -/
def cmdSOpStore (op : Store.SetOp) : CmdFn := fun _ it s args =>
  match args with
  | dst :: k :: ks => do let (s, r) ← Store.sOpStore it op s dst (k :: ks); intReply s r
  | _ => notEnough s

/-- set.go:162-173 `sIsMember` -/
def cmdSIsMember : CmdFn := fun _ _ s args =>
  match args with
  | k :: v :: _ => do let r ← s.sIsMember k v; intReplyNilOk s r
  | _ => notEnough s

/-- set.go:176-187 `sMembers`: `ErrNil` is returned as an error. -/
def cmdSMembers : CmdFn := fun _ it s args =>
  match args with
  | k :: _ => do
    match ← Store.sMembers it s k with
    | (_, some e) => retErr s e
    | (vs, none) => retOk s (bulkStrings true vs)
  | _ => notEnough s

/-- set.go:190-207 `sMove` -/
def cmdSMove : CmdFn := fun _ _ s args =>
  match args with
  | src :: dst :: v :: _ => do let (s, r) ← s.sMove src dst v; intReply s r
  | _ => notEnough s

/-- set.go:210-221 `sRem` -/
def cmdSRem : CmdFn := fun _ _ s args =>
  match args with
  | k :: v :: vs => do let (s, r) ← s.sRem k (v :: vs); intReplyNilOk s r
  | _ => notEnough s

/-- set.go:224-251 `SPop`: without a count argument `cnt` is 0. -/
def cmdSPop : CmdFn := fun _ it s args =>
  match args with
  | k :: rest =>
    let cnt : Option Int := match rest with | [] => some 0 | c :: _ => atoi c
    match cnt with
    | none => retErr s .notInteger
    | some cnt => do
      let (s, r) ← Store.sPop it s k cnt
      arrReply s newResponseWithEmptyArray r
  | _ => notEnough s

/-! ## redis/hash_table.go -/

/-- hash_table.go:14-25 `hDel` -/
def cmdHDel : CmdFn := fun _ _ s args =>
  match args with
  | k :: f :: _ => do let (s, r) ← s.hDel k f; intReplyNilOk s r
  | _ => notEnough s

/-- hash_table.go:28-40 `hExists` -/
def cmdHExists : CmdFn := fun _ _ s args =>
  match args with
  | k :: f :: _ => do let r ← s.hExists k f; intReplyNilOk s r
  | _ => notEnough s

/-- hash_table.go:43-67 `hGet` -/
def cmdHGet : CmdFn := fun ext _ s args =>
  match args with
  | k :: f :: _ => do
    match ← s.hGet k f with
    | .error .nil => retOk s newResponseWithNilBulk
    | .error e => retErr s e
    | .ok v => retOk s (newResponseWithBulkString (HObj.HVal.text ext v))
  | _ => notEnough s

/-- the dynamic value of a hash value -/
def HVal.iface : HVal → Iface
  | .str s => .str s
  | .int i => .int i
  | .float f => .float f

/-- hash_table.go:70-96 `hGetAll`: `len(m) == 0` is tested together with `ErrNil`, before other errors.
The order of the result's own map iteration is taken to be the order of the table's. -/
def cmdHGetAll : CmdFn := fun _ it s args =>
  match args with
  | k :: _ => do
    let (m, err) ← Store.hGetAll it s k
    if err = some .nil ∨ m = [] then retOk s newResponseWithNilBulk
    else match err with
      | some e => retErr s e
      | none => retOk s (bulkInterfaces true (m.flatMap (fun kv => [.str kv.1, kv.2.iface])))
  | _ => notEnough s

/-- hash_table.go:99-121 `hIncrBy` -/
def cmdHIncrBy : CmdFn := fun _ _ s args =>
  match args with
  | k :: f :: d :: _ =>
    match parseInt d with
    | none => retErr s .notInteger
    | some d => do let (s, r) ← s.hIncrBy k f d; intReply s r
  | _ => notEnough s

/-- hash_table.go:124-146 `hIncrByFloat` -/
def cmdHIncrByFloat : CmdFn := fun ext _ s args =>
  match args with
  | k :: f :: d :: _ =>
    match ext.parseFloat d with
    | none => retErr s .notInteger
    | some d => do
      match ← s.hIncrByFloat ext k f d with
      | (s, _, some e) => retErr s e
      | (s, v, none) => retOk s (newResponseWithBulkString (ext.formatFloat v))
  | _ => notEnough s

/-- hash_table.go:149-164 `hKeys` -/
def cmdHKeys : CmdFn := fun _ it s args =>
  match args with
  | k :: _ => do let r ← Store.hKeys it s k; arrReply s newResponseWithEmptyArray r
  | _ => notEnough s

/-- hash_table.go:167-182 `hLen` (the count returned with `ErrNil` is 0) -/
def cmdHLen : CmdFn := fun _ _ s args =>
  match args with
  | k :: _ => do let r ← s.hLen k; intReplyNilOk s r
  | _ => notEnough s

/-- an optional string as a dynamic value -/
def optIface : Option Bytes → Iface
  | none => .nil
  | some s => .str s

/-- hash_table.go:185-201 `hMGet` -/
def cmdHMGet : CmdFn := fun ext _ s args =>
  match args with
  | k :: f :: fs => do
    match ← s.hMGet ext k (f :: fs) with
    | (_, some .nil) => retOk s (bulkInterfaces true ((f :: fs).map (fun _ => .nil)))
    | (_, some e) => retErr s e
    | (vs, none) => retOk s (bulkInterfaces true (vs.map optIface))
  | _ => notEnough s

/-- the loops hash_table.go:214-219 / 240-245: pairs, an odd trailing argument is ignored -/
def hPairs (ext : Ext) : List Bytes → List (Bytes × HVal)
  | f :: v :: rest => (f, convertToValidValue ext v) :: hPairs ext rest
  | _ => []

/-- hash_table.go:204-227 `hMSet` -/
def cmdHMSet : CmdFn := fun ext _ s args =>
  match args with
  | k :: f :: v :: rest => do
    match ← s.hSet k false (hPairs ext (f :: v :: rest)) with
    | (s, _, some e) => retErr s e
    | (s, _, none) => retOk s (newResponseWithSimpleString respOK)
  | _ => notEnough s

/-- hash_table.go:230-253 `hSet` -/
def cmdHSet : CmdFn := fun ext _ s args =>
  match args with
  | k :: f :: v :: rest => do let (s, r) ← s.hSet k false (hPairs ext (f :: v :: rest)); intReply s r
  | _ => notEnough s

/-- hash_table.go:256-277 `hSetNx` -/
def cmdHSetNx : CmdFn := fun ext _ s args =>
  match args with
  | k :: f :: v :: _ => do let (s, r) ← s.hSet k true [(f, convertToValidValue ext v)]; intReply s r
  | _ => notEnough s

/-- hash_table.go:280-295 `hVals` -/
def cmdHVals : CmdFn := fun ext it s args =>
  match args with
  | k :: _ => do let r ← Store.hVals ext it s k; arrReply s newResponseWithEmptyArray r
  | _ => notEnough s

/-! ## redis/sorted_set.go -/

/-- the loop sorted_set.go:25-49 of `zAdd`; `none` = a score that does not parse.  The loop runs while
`i < len(c.Values)-1`, so a single trailing argument is ignored. -/
def zAddArgs (ext : Ext) : List Bytes → ZAddFlags → Option (List (F64 × Bytes) × ZAddFlags)
  | a :: b :: rest, flag =>
    let w := toLower ext.lowerUni a
    if w = b! "xx" then zAddArgs ext (b :: rest) { flag with xx := true }
    else if w = b! "nx" then zAddArgs ext (b :: rest) { flag with nx := true }
    else if w = b! "incr" then zAddArgs ext (b :: rest) { flag with incr := true }
    else
      match ext.parseFloat a with
      | none => none
      | some sc =>
        match zAddArgs ext rest flag with
        | none => none
        | some (ms, flag) => some ((sc, b) :: ms, flag)
  | _, flag => some ([], flag)
termination_by l => l.length

/-- sorted_set.go:14-57 `zAdd` -/
def cmdZAdd : CmdFn := fun ext _ s args =>
  match args with
  | k :: a :: b :: rest =>
    match zAddArgs ext (a :: b :: rest) {} with
    | none => retErr s .valueOutOfRange
    | some (ms, flag) => do let (s, r) ← s.zAdd ext k ms flag; intReply s r
  | _ => notEnough s

/-- sorted_set.go:60-75 `zScore` -/
def cmdZScore : CmdFn := fun ext _ s args =>
  match args with
  | k :: v :: _ => do
    match ← s.zScore k v with
    | (_, some .nil) => retOk s newResponseWithNilBulk
    | (_, some e) => retErr s e
    | (f, none) => retOk s (newResponseWithBulkString (ext.formatFloat f))
  | _ => notEnough s

/-- sorted_set.go:78-93 `zRank` -/
def cmdZRank : CmdFn := fun _ _ s args =>
  match args with
  | k :: v :: _ => do
    match ← s.zRank k v with
    | (_, some .nil) => retOk s newResponseWithNilBulk
    | (_, some e) => retErr s e
    | (r, none) => retOk s (newResponseWithInteger (ofUint r))
  | _ => notEnough s

/-- sorted_set.go:96-110 `zRem` (the count returned with `ErrNil` is 0) -/
def cmdZRem : CmdFn := fun _ _ s args =>
  match args with
  | k :: v :: vs => do let (s, r) ← s.zRem k (v :: vs); intReplyNilOk s r
  | _ => notEnough s

/-- sorted_set.go:113-127 `zCard` -/
def cmdZCard : CmdFn := fun _ _ s args =>
  match args with
  | k :: _ => do let r ← s.zCard k; intReplyNilOk s r
  | _ => notEnough s

/-- sorted_set.go:130-150 `zCount` -/
def cmdZCount : CmdFn := fun ext _ s args =>
  match args with
  | k :: a :: b :: _ => do
    let r ← s.zCount ext k (toLower ext.lowerUni a) (toLower ext.lowerUni b)
    intReplyNilOk s r
  | _ => notEnough s

/-- sorted_set.go:153-172 `zIncr` -/
def cmdZIncr : CmdFn := fun ext _ s args =>
  match args with
  | k :: d :: v :: _ =>
    match ext.parseFloat d with
    | none => retErr s .valueOutOfRange
    | some d => do
      match ← s.zIncr ext k d v with
      | (s, _, some .nil) => retOk s (newResponseWithInteger 0)
      | (s, _, some e) => retErr s e
      | (s, f, none) => retOk s (newResponseWithBulkString (ext.formatFloat f))
  | _ => notEnough s

/-- the loop sorted_set.go:187-195 over `c.Values[2:]` -/
def hasWord (ext : Ext) (word : Bytes) (ws : List Bytes) : Bool :=
  ws.any (fun w => toLower ext.lowerUni w = word)

/-- sorted_set.go:175-206 `zRange` -/
def cmdZRange : CmdFn := fun ext _ s args =>
  match args with
  | k :: a :: b :: rest => do
    let r ← s.zRange ext k a b
      ⟨hasWord ext (b! "withscores") (b :: rest), hasWord ext (b! "byscore") (b :: rest)⟩
    arrReply s newResponseWithNilBulk r
  | _ => notEnough s

/-- sorted_set.go:209-223 `zRangeByScore` (further arguments are ignored) -/
def cmdZRangeByScore : CmdFn := fun ext _ s args =>
  match args with
  | k :: a :: b :: _ => do
    let r ← s.zRange ext k a b ⟨false, true⟩
    arrReply s newResponseWithNilBulk r
  | _ => notEnough s

/-- sorted_set.go:226-254 `zRevRange` -/
def cmdZRevRange : CmdFn := fun ext _ s args =>
  match args with
  | k :: a :: b :: rest => do
    let r ← s.zRevRange ext k a b (hasWord ext (b! "withscores") (b :: rest))
    arrReply s newResponseWithNilBulk r
  | _ => notEnough s

/-- the reply of sorted_set.go:275-284 / 306-315: `len(values) == 0` is tested together with `ErrNil`,
before other errors. -/
def zPopReply (s : Store) (r : Ret (List Bytes)) : CmdRes :=
  if r.2 = some .nil ∨ r.1 = [] then retOk s newResponseWithEmptyArray
  else match r.2 with
    | some e => retErr s e
    | none => retOk s (bulkStrings true r.1)

/-- sorted_set.go:257-285 `zPopMin` -/
def cmdZPopMin : CmdFn := fun ext _ s args =>
  match args with
  | k :: rest =>
    let cnt : Option Int := match rest with | [] => some 1 | c :: _ => atoi c
    match cnt with
    | none => retErr s .notInteger
    | some cnt => do let (s, r) ← s.zPopMin ext k cnt; zPopReply s r
  | _ => notEnough s

/-- sorted_set.go:288-316 `zPopMix` -/
def cmdZPopMax : CmdFn := fun ext _ s args =>
  match args with
  | k :: rest =>
    let cnt : Option Int := match rest with | [] => some 1 | c :: _ => atoi c
    match cnt with
    | none => retErr s .notInteger
    | some cnt => do let (s, r) ← s.zPopMax ext k cnt; zPopReply s r
  | _ => notEnough s

/-! ## redis/*.cmd.go and redis/command.go -/

/-- The command functions (one constructor per function registered in redis/*.cmd.go). -/
inductive Cmd where
  | set | mSet | get | mget | incr | incrBy | decr | decrBy | stringAppend
  | keys | «exists» | del | keyType | ping | command
  | lPush | lPop | rPush | rPop | lLen | lRange | lRem | lIndex | lSet | lInsert
  | sAdd | sCard | sDiff | sDiffStore | sInter | sInterStore | sUnion | sUnionStore
  | sIsMember | sMembers | sMove | sRem | sPop
  | hDel | hExists | hGet | hGetAll | hIncrBy | hIncrByFloat | hKeys | hLen | hMGet | hMSet | hSet
  | hSetNx | hVals
  | zAdd | zScore | zRank | zRem | zCard | zCount | zIncr | zRange | zRangeByScore | zRevRange
  | zPopMin | zPopMix
deriving DecidableEq, Repr

/-- the function behind each constructor -/
def Cmd.fn : Cmd → CmdFn
  | .set => cmdSet | .mSet => cmdMSet | .get => cmdGet | .mget => cmdMGet | .incr => cmdIncr
  | .incrBy => cmdIncrBy | .decr => cmdDecr | .decrBy => cmdDecrBy | .stringAppend => cmdAppend
  | .keys => cmdKeys | .exists => cmdExists | .del => cmdDel | .keyType => cmdType | .ping => cmdPing
  | .command => cmdCommand
  | .lPush => cmdLPush | .lPop => cmdLPop | .rPush => cmdRPush | .rPop => cmdRPop | .lLen => cmdLLen
  | .lRange => cmdLRange | .lRem => cmdLRem | .lIndex => cmdLIndex | .lSet => cmdLSet
  | .lInsert => cmdLInsert
  | .sAdd => cmdSAdd | .sCard => cmdSCard | .sDiff => cmdSOp .diff | .sDiffStore => cmdSOpStore .diff
  | .sInter => cmdSOp .inter | .sInterStore => cmdSOpStore .inter | .sUnion => cmdSOp .union
  | .sUnionStore => cmdSOpStore .union | .sIsMember => cmdSIsMember | .sMembers => cmdSMembers
  | .sMove => cmdSMove | .sRem => cmdSRem | .sPop => cmdSPop
  | .hDel => cmdHDel | .hExists => cmdHExists | .hGet => cmdHGet | .hGetAll => cmdHGetAll
  | .hIncrBy => cmdHIncrBy | .hIncrByFloat => cmdHIncrByFloat | .hKeys => cmdHKeys | .hLen => cmdHLen
  | .hMGet => cmdHMGet | .hMSet => cmdHMSet | .hSet => cmdHSet | .hSetNx => cmdHSetNx | .hVals => cmdHVals
  | .zAdd => cmdZAdd | .zScore => cmdZScore | .zRank => cmdZRank | .zRem => cmdZRem | .zCard => cmdZCard
  | .zCount => cmdZCount | .zIncr => cmdZIncr | .zRange => cmdZRange
  | .zRangeByScore => cmdZRangeByScore | .zRevRange => cmdZRevRange | .zPopMin => cmdZPopMin
  | .zPopMix => cmdZPopMax

/-- `implementedCommands` as filled by redis/string.cmd.go:5-15, keys.cmd.go:5-12, list.cmd.go:5-16,
set.cmd.go:5-19, hash_table.cmd.go:5-19, sorted_set.cmd.go:5-18. -/
def implementedCommands : List (Bytes × Cmd) := [
  (b! "set", .set), (b! "mset", .mSet), (b! "get", .get), (b! "mget", .mget), (b! "incr", .incr),
  (b! "incrby", .incrBy), (b! "decr", .decr), (b! "decrby", .decrBy), (b! "append", .stringAppend),
  (b! "keys", .keys), (b! "exists", .exists), (b! "del", .del), (b! "type", .keyType),
  (b! "ping", .ping), (b! "command", .command),
  (b! "lpush", .lPush), (b! "lpop", .lPop), (b! "rpush", .rPush), (b! "rpop", .rPop),
  (b! "llen", .lLen), (b! "lrange", .lRange), (b! "lrem", .lRem), (b! "lindex", .lIndex),
  (b! "lset", .lSet), (b! "linsert", .lInsert),
  (b! "sadd", .sAdd), (b! "scard", .sCard), (b! "sdiff", .sDiff), (b! "sdiffstore", .sDiffStore),
  (b! "sinter", .sInter), (b! "sinterstore", .sInterStore), (b! "sunion", .sUnion),
  (b! "sunionstore", .sUnionStore), (b! "sismember", .sIsMember), (b! "smembers", .sMembers),
  (b! "smove", .sMove), (b! "srem", .sRem), (b! "spop", .sPop),
  (b! "hdel", .hDel), (b! "hexists", .hExists), (b! "hget", .hGet), (b! "hgetall", .hGetAll),
  (b! "hincrby", .hIncrBy), (b! "hincrbyfloat", .hIncrByFloat), (b! "hkeys", .hKeys),
  (b! "hlen", .hLen), (b! "hmget", .hMGet), (b! "hmset", .hMSet), (b! "hset", .hSet),
  (b! "hsetnx", .hSetNx), (b! "hvals", .hVals),
  (b! "zadd", .zAdd), (b! "zscore", .zScore), (b! "zrank", .zRank), (b! "zrem", .zRem),
  (b! "zcard", .zCard), (b! "zcount", .zCount), (b! "zincr", .zIncr), (b! "zrange", .zRange),
  (b! "zrangebyscore", .zRangeByScore), (b! "zrevrange", .zRevRange), (b! "zpopmin", .zPopMin),
  (b! "zpopmax", .zPopMix)]

/-- the map lookup `implementedCommands[name]` -/
def lookupCmd (name : Bytes) : Option Cmd := GoMap.get implementedCommands name

/-- redis/command.go:66-83 `setRsp`: `c.Ctx` is never set (command.go:27-30), so the context test never
suppresses the reply; `result == nil` with `err == nil` does not occur. -/
def setRsp : Except Err Response → Response
  | .error e => newResponseWithError e.msg
  | .ok r => r

/-- redis/command.go:41-64 `ExecuteAsync` of the command `name` with arguments `args`: the reply put on
the result channel. -/
def execute (ext : Ext) (it : Iter) (s : Store) (name : Bytes) (args : List Bytes) : Go (Store × Response) :=
  match lookupCmd name with
  | none => .ok (s, setRsp (.error .unknownCommand))
  | some c => do
    let (s, r) ← c.fn ext it s args
    .ok (s, setRsp r)

/-- redis/command.go:22-33 `NewCommandFromReceive`: `none` = nil -/
def newCommand (ext : Ext) (elements : List Bytes) : Option (Bytes × List Bytes) :=
  match elements with
  | [] => none
  | name :: args => some (toLower ext.lowerUni name, args)

/-- `HandleRequest` (event/handler.go:15-52) without the queue: the store and the reply to one decoded
request; `none` = no reply at all. -/
def runRequest (ext : Ext) (it : Iter) (s : Store) (elements : List Bytes) : Go (Store × Option Response) :=
  match newCommand ext elements with
  | none => .ok (s, none)
  | some (name, args) => do
    let (s, r) ← execute ext it s name args
    .ok (s, some r)

end Godis
