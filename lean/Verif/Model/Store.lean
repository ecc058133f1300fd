import Verif.Model.ListObj
import Verif.Model.SetObj
import Verif.Model.HashObj
import Verif.Model.SkipList
/-!
# The key space and the package-level functions of `datastruct`

`defaultCache.keys` maps keys to `*KeyInfo`.  Collections are pointers: they live in an object heap and a
key holds a reference, so two keys can share one object.  Each `KeyInfo` is allocated by the call that
stores it and is reachable through one key only, so updating it in place is the same as replacing the
map entry.

Every function returns the Go result values as a pair `(value, err)` plus the new store.
-/
namespace Godis

/-- datastruct/consts.go:7-15 `KeyType` -/
inductive KeyType where
  | string | list | set | sortedSet | hashTable
deriving DecidableEq, Repr

/-- the text of a `KeyType` (datastruct/consts.go:10-14) -/
def KeyType.text : KeyType → Bytes
  | .string => b! "string"
  | .list => b! "list"
  | .set => b! "setIfNotExists"
  | .sortedSet => b! "sortedSet"
  | .hashTable => b! "hashTable"

/-- a collection object -/
inductive Obj where
  | list (l : LObj)
  | set (s : SObj)
  | hash (h : HObj)
  | zset (z : ZObj)

/-- the dynamic value of `KeyInfo.Value` -/
inductive Val where
  | str (s : Bytes)
  | ref (r : Nat)
deriving DecidableEq, Repr

/-- datastruct/keys.go:22-25 `KeyInfo` -/
structure KeyInfo where
  type : KeyType
  value : Val
deriving DecidableEq, Repr

/-- The errors of packages datastruct (consts.go:17-22) and redis (consts.go:5-9). -/
inductive Err where
  | nil | keyAndCommandNotMatch | notInteger | notFloat
  | unknownCommand | commandArgsNotEnough | valueOutOfRange
deriving DecidableEq, Repr

/-- the error messages -/
def Err.msg : Err → Bytes
  | .nil => b! "redis: not found"
  | .keyAndCommandNotMatch => b! "key type and command not match"
  | .notInteger => b! "value is not an integer or out of range"
  | .notFloat => b! "ERR value is not a valid float"
  | .unknownCommand => b! "unknown command key"
  | .commandArgsNotEnough => b! "command args not enough"
  | .valueOutOfRange => b! " ERR value is out of range, must be positive"

/-- The server's data: `defaultCache` (keys.go:11-20), the object heap and the random source. -/
structure Store where
  keys : SMap KeyInfo
  heap : List Obj
  rng : Rng

/-- the initial store; the random source is arbitrary -/
def Store.init (rng : Rng) : Store := ⟨SMap.empty, [], rng⟩

/-- Go's `(value, error)` result -/
abbrev Ret (α : Type) := α × Option Err

namespace Store

/-- `defaultCache.keys.Set(key, &KeyInfo{Type: tp, Value: o})` with a new object -/
def putNew (s : Store) (key : Bytes) (tp : KeyType) (o : Obj) : Store :=
  { s with keys := s.keys.set key ⟨tp, .ref s.heap.length⟩, heap := s.heap ++ [o] }

/-- mutation of the object behind a pointer -/
def write (s : Store) (r : Nat) (o : Obj) : Store := { s with heap := s.heap.set r o }

/-! ## keys.go -/

/-- keys.go:31-43 `loadKeyInfo` -/
def loadKeyInfo (s : Store) (key : Bytes) (tp : KeyType) : Except Err KeyInfo :=
  match s.keys.get key with
  | none => .error .nil
  | some info => if info.type ≠ tp then .error .keyAndCommandNotMatch else .ok info

/-- keys.go:49-51 `Exists` -/
def «exists» (s : Store) (key : Bytes) : Bool := s.keys.has key

/-- keys.go:53-60 `Type` -/
def type (s : Store) (key : Bytes) : Option KeyType := (s.keys.get key).map (·.type)

/-- keys.go:62-72 `Keys` -/
def keysMatching (ext : Ext) (it : Iter) (s : Store) (pattern : Bytes) : Go (List Bytes) :=
  match ext.glob pattern with
  | none => .error .globCompile
  | some m => .ok (s.keys.range it (fun ks key _ => if m key then ks ++ [key] else ks) [])

/-- keys.go:74-82 `Del` -/
def del (s : Store) (key : Bytes) : Store × Int :=
  let (keys, removed) := s.keys.deleteIfExists key
  ({ s with keys := keys }, if removed then 1 else 0)

/-! ## string.go -/

/-- string.go:12-14 `Set` (options are ignored) -/
def set (s : Store) (key value : Bytes) : Store :=
  { s with keys := s.keys.set key ⟨.string, .str value⟩ }

/-- string.go:16-20 `MSet` -/
def mSet (s : Store) : List Bytes → Store
  | k :: v :: rest => mSet (s.set k v) rest
  | _ => s

/-- string.go:22-38 `Append` -/
def append (s : Store) (key value : Bytes) : Go (Store × Ret Int) :=
  match s.keys.get key with
  | none => .ok (s.set key value, value.length, none)
  | some info =>
    if info.type ≠ .string then .ok (s, 0, some .keyAndCommandNotMatch)
    else match info.value with
      | .str old =>
        .ok ({ s with keys := s.keys.set key ⟨info.type, .str (old ++ value)⟩ },
          (old.length + value.length : Nat), none)
      | .ref _ => .error .typeAssertion

/-- string.go:40-60 `IncrBy` -/
def incrBy (s : Store) (key : Bytes) (incr : Int) : Go (Store × Ret Int) :=
  match s.keys.get key with
  | none => .ok (s.set key (formatInt incr), incr, none)
  | some info =>
    if info.type ≠ .string then .ok (s, 0, some .keyAndCommandNotMatch)
    else match info.value with
      | .str old =>
        match parseInt old with
        | none => .ok (s, 0, some .notInteger)
        | some i64 =>
          let value := wrap64 (i64 + incr)
          .ok ({ s with keys := s.keys.set key ⟨info.type, .str (formatInt value)⟩ }, value, none)
      | .ref _ => .error .typeAssertion

/-- string.go:62-74 `Get` -/
def get (s : Store) (key : Bytes) : Go (Ret Bytes) :=
  match s.keys.get key with
  | none => .ok ([], some .nil)
  | some info =>
    if info.type ≠ .string then .ok ([], some .keyAndCommandNotMatch)
    else match info.value with
      | .str v => .ok (v, none)
      | .ref _ => .error .typeAssertion

/-- one element of an `MGet` result: nil, an error or a string -/
inductive MGetItem where
  | nil | err (e : Err) | str (s : Bytes)
deriving DecidableEq, Repr

/-- string.go:76-96 `MGet` -/
def mGet (s : Store) : List Bytes → Go (List MGetItem)
  | [] => .ok []
  | k :: ks => do
    let (v, err) ← s.get k
    let rest ← mGet s ks
    .ok ((match err with
      | some .nil => .nil
      | some e => .err e
      | none => .str v) :: rest)

/-! ## list.go -/

/-- list.go:423-435 `loadAndCheckList`: the reference and the object -/
def loadList (s : Store) (key : Bytes) (checkLen : Bool) : Go (Except Err (Nat × LObj)) :=
  match s.loadKeyInfo key .list with
  | .error e => .ok (.error e)
  | .ok info =>
    match info.value with
    | .str _ => .error .typeAssertion
    | .ref r => match s.heap[r]? with
      | some (.list l) => if checkLen && l.length == 0 then .ok (.error .nil) else .ok (.ok (r, l))
      | _ => .error .typeAssertion

/-- list.go:437-458 `LPush` -/
def lPush (s : Store) (key : Bytes) (values : List Bytes) : Go (Store × Ret Int) := do
  match ← s.loadList key false with
  | .error .nil =>
    let l ← LObj.empty.lPushAll values
    .ok (s.putNew key .list (.list l), l.length, none)
  | .error e => .ok (s, 0, some e)
  | .ok (r, l) =>
    let l ← l.lPushAll values
    .ok (s.write r (.list l), l.length, none)

/-- list.go:479-500 `RPush` -/
def rPush (s : Store) (key : Bytes) (values : List Bytes) : Go (Store × Ret Int) := do
  match ← s.loadList key false with
  | .error .nil =>
    let l ← LObj.empty.rPushAll values
    .ok (s.putNew key .list (.list l), l.length, none)
  | .error e => .ok (s, 0, some e)
  | .ok (r, l) =>
    let l ← l.rPushAll values
    .ok (s.write r (.list l), l.length, none)

/-- list.go:460-477 `LPop` -/
def lPop (s : Store) (key : Bytes) (count : Int) : Go (Store × Ret (List Bytes)) := do
  match ← s.loadList key true with
  | .error e => .ok (s, [], some e)
  | .ok (r, l) =>
    let (l, vs) ← l.lPopLoop l.length.toNat count
    .ok (s.write r (.list l), vs, none)

/-- list.go:502-519 `RPop` -/
def rPop (s : Store) (key : Bytes) (count : Int) : Go (Store × Ret (List Bytes)) := do
  match ← s.loadList key false with
  | .error e => .ok (s, [], some e)
  | .ok (r, l) =>
    let (l, vs) ← l.rPopLoop l.length.toNat count
    .ok (s.write r (.list l), vs, none)

/-- list.go:521-529 `LLen` -/
def lLen (s : Store) (key : Bytes) : Go (Ret Int) := do
  match ← s.loadList key false with
  | .error e => .ok (0, some e)
  | .ok (_, l) => .ok (l.length, none)

/-- list.go:531-539 `LRange` -/
def lRange (s : Store) (key : Bytes) (start stop : Int) : Go (Ret (List Bytes)) := do
  match ← s.loadList key true with
  | .error e => .ok ([], some e)
  | .ok (_, l) =>
    let vs ← l.lRange start stop
    .ok (vs, none)

/-- list.go:542-557 `LRem`; `-count` wraps for the smallest int. -/
def lRem (s : Store) (key : Bytes) (count : Int) (value : Bytes) : Go (Store × Ret Int) := do
  match ← s.loadList key true with
  | .error e => .ok (s, 0, some e)
  | .ok (r, l) =>
    if count > 0 then
      let (l, n) ← l.lRemCountFromHead value count
      .ok (s.write r (.list l), n, none)
    else if count < 0 then
      let (l, n) ← l.lRemCountFromTail value (wrap64 (-count))
      .ok (s.write r (.list l), n, none)
    else
      let (l, n) ← l.lRemCountFromHead value l.length
      .ok (s.write r (.list l), n, none)

/-- list.go:559-571 `LIndex` -/
def lIndex (s : Store) (key : Bytes) (index : Int) : Go (Ret Bytes) := do
  match ← s.loadList key true with
  | .error e => .ok ([], some e)
  | .ok (_, l) =>
    match ← l.lIndex index with
    | none => .ok ([], some .nil)
    | some v => .ok (v, none)

/-- list.go:573-585 `LSet` -/
def lSet (s : Store) (key : Bytes) (index : Int) (value : Bytes) : Go (Store × Option Err) := do
  match ← s.loadList key true with
  | .error e => .ok (s, some e)
  | .ok (r, l) =>
    let (l, ok) ← l.lSet index value
    .ok (s.write r (.list l), if ok then none else some .nil)

/-- list.go:592-603 `LInsert` -/
def lInsert (s : Store) (key target newValue : Bytes) (pos : Int) : Go (Store × Ret Int) := do
  match ← s.loadList key true with
  | .error e => .ok (s, 0, some e)
  | .ok (r, l) =>
    let (l, ok) ← l.lInsert target newValue pos
    if ok then .ok (s.write r (.list l), l.length, none)
    else .ok (s.write r (.list l), 0, some .nil)

/-! ## set.go -/

/-- set.go:98-110 `loadAndCheckSet` -/
def loadSet (s : Store) (key : Bytes) (check : Bool) : Go (Except Err (Nat × SObj)) :=
  match s.loadKeyInfo key .set with
  | .error e => .ok (.error e)
  | .ok info =>
    match info.value with
    | .str _ => .error .typeAssertion
    | .ref r => match s.heap[r]? with
      | some (.set o) => if check && o.length == 0 then .ok (.error .nil) else .ok (.ok (r, o))
      | _ => .error .typeAssertion

/-- set.go:112-133 `SAdd` -/
def sAdd (s : Store) (key : Bytes) (values : List Bytes) : Go (Store × Ret Int) := do
  match ← s.loadSet key false with
  | .error .nil =>
    let (o, cnt) := SObj.empty.sAddAll values
    .ok (s.putNew key .set (.set o), cnt, none)
  | .error e => .ok (s, 0, some e)
  | .ok (r, o) =>
    let (o, cnt) := o.sAddAll values
    .ok (s.write r (.set o), cnt, none)

/-- set.go:135-142 `SCard` -/
def sCard (s : Store) (key : Bytes) : Go (Ret Int) := do
  match ← s.loadSet key true with
  | .error e => .ok (0, some e)
  | .ok (_, o) => .ok (o.length, none)

/-- set.go:144-156 `SRem` -/
def sRem (s : Store) (key : Bytes) (values : List Bytes) : Go (Store × Ret Int) := do
  match ← s.loadSet key true with
  | .error e => .ok (s, 0, some e)
  | .ok (r, o) =>
    let (o, cnt) := o.sRemAll values
    .ok (s.write r (.set o), cnt, none)

/-- set.go:158-170 `SIsMember` -/
def sIsMember (s : Store) (key value : Bytes) : Go (Ret Int) := do
  match ← s.loadSet key true with
  | .error e => .ok (0, some e)
  | .ok (_, o) => .ok (if o.m.has value then 1 else 0, none)

/-- set.go:172-179 `SMembers` -/
def sMembers (it : Iter) (s : Store) (key : Bytes) : Go (Ret (List Bytes)) := do
  match ← s.loadSet key true with
  | .error e => .ok ([], some e)
  | .ok (_, o) => .ok (o.m.keys it, none)

/-- set.go:182-195 `SMove`: the source's `length` is not updated. -/
def sMove (s : Store) (source target value : Bytes) : Go (Store × Ret Int) := do
  match ← s.loadSet source true with
  | .error e => .ok (s, 0, some e)
  | .ok (r, o) =>
    let (m, exist) := o.m.deleteIfExists value
    let s := s.write r (.set ⟨m, o.length⟩)
    if !exist then .ok (s, 0, some .nil)
    else s.sAdd target [value]

/-- which set operation -/
inductive SetOp where
  | diff | inter | union
deriving DecidableEq, Repr

/-- set.go:55-92: the binary operation (`sUnion(result, s)` for union) -/
def SetOp.apply (it : Iter) : SetOp → SObj → SObj → SObj
  | .diff, a, b => a.sDiff it b
  | .inter, a, b => a.sInter it b
  | .union, a, b => SObj.sUnion it [a, b]

/-- A set pointer: an object of the heap (with its reference) or a freshly computed one. -/
abbrev SPtr := Option Nat × SObj

/-- the loops set.go:200-212, 224-236, 254-266, 278-290, 308-320, 332-344.  `result` is nil before the
first key, then the first key's own object, then a fresh set. -/
def setOpLoop (it : Iter) (op : SetOp) (s : Store) : List Bytes → Option SPtr → Go (Except Err (Option SPtr))
  | [], res => .ok (.ok res)
  | key :: keys, res => do
    match ← s.loadSet key true with
    | .error e => .ok (.error e)
    | .ok (r, o) =>
      match res with
      | none => setOpLoop it op s keys (some (some r, o))
      | some (_, a) => setOpLoop it op s keys (some (none, op.apply it a o))

/-- set.go:197-219 `SDiff`, 251-273 `SInter`, 305-327 `SUnion` -/
def sOp (it : Iter) (op : SetOp) (s : Store) (keys : List Bytes) : Go (Ret (List Bytes)) := do
  match ← setOpLoop it op s keys none with
  | .error e => .ok ([], some e)
  | .ok none => .ok ([], some .nil)
  | .ok (some (_, o)) => if o.length == 0 then .ok ([], some .nil) else .ok (o.m.keys it, none)

/-- set.go:221-248 `SDiffStore`, 275-302 `SInterStore`, 329-356 `SUnionStore`: the stored pointer is the
result's, which for one source key is that key's own object. -/
def sOpStore (it : Iter) (op : SetOp) (s : Store) (storeKey : Bytes) (keys : List Bytes) : Go (Store × Ret Int) := do
  match ← setOpLoop it op s keys none with
  | .error e => .ok (s, 0, some e)
  | .ok none => .ok (s.putNew storeKey .set (.set SObj.empty), 0, none)
  | .ok (some (none, o)) => .ok (s.putNew storeKey .set (.set o), o.length, none)
  | .ok (some (some r, o)) =>
    .ok ({ s with keys := s.keys.set storeKey ⟨.set, .ref r⟩ }, o.length, none)

/-- set.go:358-365 `SPop` -/
def sPop (it : Iter) (s : Store) (key : Bytes) (cnt : Int) : Go (Store × Ret (List Bytes)) := do
  match ← s.loadSet key true with
  | .error e => .ok (s, [], some e)
  | .ok (r, o) =>
    let (o, vs) := o.sPop it cnt
    .ok (s.write r (.set o), vs, none)

/-! ## hash_table.go -/

/-- hash_table.go:167-179 `loadAndCheckHashTable` -/
def loadHash (s : Store) (key : Bytes) (checkLen : Bool) : Go (Except Err (Nat × HObj)) :=
  match s.loadKeyInfo key .hashTable with
  | .error e => .ok (.error e)
  | .ok info =>
    match info.value with
    | .str _ => .error .typeAssertion
    | .ref r => match s.heap[r]? with
      | some (.hash h) => if checkLen && h.length == 0 then .ok (.error .nil) else .ok (.ok (r, h))
      | _ => .error .typeAssertion

/-- hash_table.go:181-188 `HDel` -/
def hDel (s : Store) (key field : Bytes) : Go (Store × Ret Int) := do
  match ← s.loadHash key true with
  | .error e => .ok (s, 0, some e)
  | .ok (r, h) =>
    let (h, n) := h.del field
    .ok (s.write r (.hash h), n, none)

/-- hash_table.go:190-201 `HExists`: both branches return 1. -/
def hExists (s : Store) (key _field : Bytes) : Go (Ret Int) := do
  match ← s.loadHash key true with
  | .error e => .ok (0, some e)
  | .ok _ => .ok (1, none)

/-- hash_table.go:203-215 `HGet` (the value is only used when there is no error) -/
def hGet (s : Store) (key field : Bytes) : Go (Except Err HVal) := do
  match ← s.loadHash key true with
  | .error e => .ok (.error e)
  | .ok (_, h) => match h.get field with
    | none => .ok (.error .nil)
    | some v => .ok (.ok v)

/-- hash_table.go:217-224 `HGetAll` (a map: given as its entries in iteration order) -/
def hGetAll (it : Iter) (s : Store) (key : Bytes) : Go (Ret (List (Bytes × HVal))) := do
  match ← s.loadHash key true with
  | .error e => .ok ([], some e)
  | .ok (_, h) => .ok (h.table.entries it, none)

/-- `HErr` as a package error -/
def HErr.toErr : HErr → Err
  | .notInteger => .notInteger
  | .notFloat => .notFloat

/-- hash_table.go:226-238 `HIncrBy`: a table created here is never stored under the key. -/
def hIncrBy (s : Store) (key field : Bytes) (i : Int) : Go (Store × Ret Int) := do
  match ← s.loadHash key false with
  | .error .nil =>
    match (HObj.empty.incrBy field i).2 with
    | .ok v => .ok (s, v, none)
    | .error e => .ok (s, 0, some (HErr.toErr e))
  | .error e => .ok (s, 0, some e)
  | .ok (r, h) =>
    let (h, res) := h.incrBy field i
    match res with
    | .ok v => .ok (s.write r (.hash h), v, none)
    | .error e => .ok (s.write r (.hash h), 0, some (HErr.toErr e))

/-- hash_table.go:240-252 `HIncrByFloat` -/
def hIncrByFloat (ext : Ext) (s : Store) (key field : Bytes) (f : F64) : Go (Store × Ret F64) := do
  match ← s.loadHash key false with
  | .error .nil =>
    match (HObj.empty.incrByFloat ext field f).2 with
    | .ok v => .ok (s, v, none)
    | .error e => .ok (s, 0, some (HErr.toErr e))
  | .error e => .ok (s, 0, some e)
  | .ok (r, h) =>
    let (h, res) := h.incrByFloat ext field f
    match res with
    | .ok v => .ok (s.write r (.hash h), v, none)
    | .error e => .ok (s.write r (.hash h), 0, some (HErr.toErr e))

/-- hash_table.go:254-261 `HKeys` -/
def hKeys (it : Iter) (s : Store) (key : Bytes) : Go (Ret (List Bytes)) := do
  match ← s.loadHash key true with
  | .error e => .ok ([], some e)
  | .ok (_, h) => .ok (h.keys it, none)

/-- hash_table.go:263-270 `HLen` -/
def hLen (s : Store) (key : Bytes) : Go (Ret Int) := do
  match ← s.loadHash key true with
  | .error e => .ok (0, some e)
  | .ok (_, h) => .ok (h.length, none)

/-- hash_table.go:272-280 `HMGet` -/
def hMGet (ext : Ext) (s : Store) (key : Bytes) (fields : List Bytes) : Go (Ret (List (Option Bytes))) := do
  match ← s.loadHash key true with
  | .error e => .ok ([], some e)
  | .ok (_, h) => .ok (h.mGet ext fields, none)

/-- hash_table.go:283-300 `HSet`: a table created here is never stored under the key. -/
def hSet (s : Store) (key : Bytes) (nx : Bool) (kvs : List (Bytes × HVal)) : Go (Store × Ret Int) := do
  match ← s.loadHash key false with
  | .error .nil => .ok (s, (HObj.empty.setAll kvs nx).2, none)
  | .error e => .ok (s, 0, some e)
  | .ok (r, h) =>
    let (h, cnt) := h.setAll kvs nx
    .ok (s.write r (.hash h), cnt, none)

/-- hash_table.go:302-309 `HVals` -/
def hVals (ext : Ext) (it : Iter) (s : Store) (key : Bytes) : Go (Ret (List Bytes)) := do
  match ← s.loadHash key true with
  | .error e => .ok ([], some e)
  | .ok (_, h) => .ok (h.values ext it, none)

/-! ## sorted_set.go -/

/-- sorted_set.go:577-589 `loadAndCheckZSet` -/
def loadZSet (s : Store) (key : Bytes) (checkLen : Bool) : Go (Except Err (Nat × ZObj)) :=
  match s.loadKeyInfo key .sortedSet with
  | .error e => .ok (.error e)
  | .ok info =>
    match info.value with
    | .str _ => .error .typeAssertion
    | .ref r => match s.heap[r]? with
      | some (.zset z) => if checkLen && z.zsl.length == 0 then .ok (.error .nil) else .ok (.ok (r, z))
      | _ => .error .typeAssertion

/-- sorted_set.go:596-618 `ZAdd` -/
def zAdd (ext : Ext) (s : Store) (key : Bytes) (members : List (F64 × Bytes)) (flag : ZAddFlags) :
    Go (Store × Ret Int) := do
  match ← s.loadZSet key false with
  | .error .nil =>
    let (z, cnt, rng) ← ZObj.empty.zAddAll ext flag members s.rng
    .ok ({ s.putNew key .sortedSet (.zset z) with rng := rng }, cnt, none)
  | .error e => .ok (s, 0, some e)
  | .ok (r, z) =>
    let (z, cnt, rng) ← z.zAddAll ext flag members s.rng
    .ok ({ s.write r (.zset z) with rng := rng }, cnt, none)

/-- sorted_set.go:620-632 `ZScore` -/
def zScore (s : Store) (key value : Bytes) : Go (Ret F64) := do
  match ← s.loadZSet key true with
  | .error e => .ok (0, some e)
  | .ok (_, z) =>
    match z.m.get value with
    | none => .ok (0, some .nil)
    | some x => do
      let n ← ZSL.load z.zsl.nodes x
      .ok (n.score, none)

/-- sorted_set.go:634-647 `ZRank` -/
def zRank (s : Store) (key value : Bytes) : Go (Ret Nat) := do
  match ← s.loadZSet key true with
  | .error e => .ok (0, some e)
  | .ok (_, z) =>
    match z.m.get value with
    | none => .ok (0, some .nil)
    | some x => do
      let n ← ZSL.load z.zsl.nodes x
      let r ← z.zsl.rank n.score value
      .ok (r, none)

/-- sorted_set.go:649-668 `ZRem` -/
def zRem (s : Store) (key : Bytes) (values : List Bytes) : Go (Store × Ret Int) := do
  match ← s.loadZSet key true with
  | .error e => .ok (s, 0, some e)
  | .ok (r, z) =>
    let (z, cnt) ← z.zRemAll values
    .ok (s.write r (.zset z), cnt, none)

/-- sorted_set.go:670-677 `ZCard` -/
def zCard (s : Store) (key : Bytes) : Go (Ret Int) := do
  match ← s.loadZSet key true with
  | .error e => .ok (0, some e)
  | .ok (_, z) => .ok (z.zsl.length, none)

/-- sorted_set.go:825-846 `handleFloatScoreStr`: score and open-interval flag -/
def handleFloatScoreStr (ext : Ext) (str : Bytes) : Except Err (F64 × Bool) :=
  let str := toLower ext.lowerUni str
  if str = b! "-inf" then .ok (F64.negInf, false)
  else if str = b! "+inf" then .ok (F64.posInf, false)
  else
    let tmp := trimPrefix str (b! "(")
    match ext.parseFloat tmp with
    | none => .error .notFloat
    | some f => .ok (f, tmp ≠ str)

/-- sorted_set.go:679-696 `ZCount` -/
def zCount (ext : Ext) (s : Store) (key minStr maxStr : Bytes) : Go (Ret Int) := do
  match ← s.loadZSet key true with
  | .error e => .ok (0, some e)
  | .ok (_, z) =>
    match handleFloatScoreStr ext minStr with
    | .error e => .ok (0, some e)
    | .ok (mn, mnO) =>
      match handleFloatScoreStr ext maxStr with
      | .error e => .ok (0, some e)
      | .ok (mx, mxO) => do
        let c ← z.zsl.count mn mnO mx mxO
        .ok (c, none)

/-- sorted_set.go:698-718 `ZIncr` -/
def zIncr (ext : Ext) (s : Store) (key : Bytes) (score : F64) (value : Bytes) : Go (Store × Ret F64) := do
  match ← s.loadZSet key false with
  | .error .nil =>
    let (z, node, rng) ← ZObj.empty.zAdd ext score value { incr := true } s.rng
    let s := { s.putNew key .sortedSet (.zset z) with rng := rng }
    match node with
    | none => .ok (s, 0, some .nil)
    | some x => do
      let n ← ZSL.load z.zsl.nodes x
      .ok (s, n.score, none)
  | .error e => .ok (s, 0, some e)
  | .ok (r, z) =>
    let (z, node, rng) ← z.zAdd ext score value { incr := true } s.rng
    let s := { s.write r (.zset z) with rng := rng }
    match node with
    | none => .ok (s, 0, some .nil)
    | some x => do
      let n ← ZSL.load z.zsl.nodes x
      .ok (s, n.score, none)

/-- the ZRANGE flags (datastruct/consts.go:33-38) that are used -/
structure ZRangeFlags where
  withScores : Bool := false
  byScore : Bool := false
deriving DecidableEq, Repr

/-- sorted_set.go:722-756 `ZRange` -/
def zRange (ext : Ext) (s : Store) (key minStr maxStr : Bytes) (flag : ZRangeFlags) : Go (Ret (List Bytes)) := do
  match ← s.loadZSet key true with
  | .error e => .ok ([], some e)
  | .ok (_, z) =>
    if flag.byScore then
      match handleFloatScoreStr ext minStr with
      | .error e => .ok ([], some e)
      | .ok (mn, mnO) =>
        match handleFloatScoreStr ext maxStr with
        | .error e => .ok ([], some e)
        | .ok (mx, mxO) => do
          let vs ← z.zsl.zRangeByScore ext mn mnO mx mxO flag.withScores
          .ok (vs, none)
    else
      match atoi minStr with
      | none => .ok ([], some .notInteger)
      | some start =>
        match atoi maxStr with
        | none => .ok ([], some .notInteger)
        | some stop => do
          let vs ← z.zsl.zRange ext start stop flag.withScores
          .ok (vs, none)

/-- sorted_set.go:758-777 `ZRevRange` -/
def zRevRange (ext : Ext) (s : Store) (key minStr maxStr : Bytes) (withScores : Bool) : Go (Ret (List Bytes)) := do
  match ← s.loadZSet key true with
  | .error e => .ok ([], some e)
  | .ok (_, z) =>
    match atoi minStr with
    | none => .ok ([], some .notInteger)
    | some start =>
      match atoi maxStr with
      | none => .ok ([], some .notInteger)
      | some stop => do
        let vs ← z.zsl.zRevRange ext start stop withScores
        .ok (vs, none)

/-- sorted_set.go:779-799 `ZPopMin`: the dict entry of a popped member is not removed. -/
def zPopMin (ext : Ext) (s : Store) (key : Bytes) (cnt : Int) : Go (Store × Ret (List Bytes)) := do
  match ← s.loadZSet key true with
  | .error e => .ok (s, [], some e)
  | .ok (r, z) =>
    let (zsl, vs) ← ZObj.zPopMinLoop ext cnt.toNat z.zsl
    .ok (s.write r (.zset ⟨z.m, zsl⟩), vs, none)

/-- sorted_set.go:801-821 `ZPopMax` -/
def zPopMax (ext : Ext) (s : Store) (key : Bytes) (cnt : Int) : Go (Store × Ret (List Bytes)) := do
  match ← s.loadZSet key true with
  | .error e => .ok (s, [], some e)
  | .ok (r, z) =>
    let (zsl, vs) ← ZObj.zPopMaxLoop ext cnt.toNat z.zsl
    .ok (s.write r (.zset ⟨z.m, zsl⟩), vs, none)

end Store
end Godis
