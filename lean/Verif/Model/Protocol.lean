import Verif.Model.Strconv
import Verif.Model.F64
/-!
# protocol/encode.go and protocol/decode.go
-/
namespace Godis

/-- protocol/consts.go:12 `CRLF` -/
def CRLF : Bytes := [13, 10]

/-! ## encode.go -/

/-- The dynamic values stored in `ResponseItem.Value interface{}`. -/
inductive Iface where
  | nil
  | str (s : Bytes)
  /-- an `error`; the string is its message -/
  | err (msg : Bytes)
  | int (i : Int)
  | float (f : F64)
deriving DecidableEq, Repr

/-- protocol/consts.go:20-26 `ProtocolDataType` (`TypeArrays` is never used for an item). -/
inductive PType where
  | simpleStrings | errors | integers | bulkStrings
deriving DecidableEq, Repr

/-- encode.go:19-22 `ResponseItem` -/
structure Item where
  value : Iface
  type : PType
deriving DecidableEq, Repr

/-- encode.go:14-17 `Response` -/
structure Response where
  items : List Item
  isArray : Bool
deriving DecidableEq, Repr

/-- encode.go:36-46 -/
def newResponseWithSimpleString (s : Bytes) : Response := ⟨[⟨.str s, .simpleStrings⟩], false⟩
/-- encode.go:48-58 -/
def newResponseWithBulkString (s : Bytes) : Response := ⟨[⟨.str s, .bulkStrings⟩], false⟩
/-- encode.go:60-70 -/
def newResponseWithError (msg : Bytes) : Response := ⟨[⟨.err msg, .errors⟩], false⟩
/-- encode.go:72-75 -/
def newResponseWithNilBulk : Response := ⟨[], false⟩
/-- encode.go:77-80 -/
def newResponseWithEmptyArray : Response := ⟨[], true⟩
/-- encode.go:82-92 -/
def newResponseWithInteger (i : Int) : Response := ⟨[⟨.int i, .integers⟩], false⟩
/-- encode.go:98-108: `NewResponse(arr).AppendBulkInterfaces(vs...)` -/
def bulkInterfaces (arr : Bool) (vs : List Iface) : Response := ⟨vs.map (⟨·, .bulkStrings⟩), arr⟩
/-- encode.go:110-120: `NewResponse(arr).AppendBulkStrings(vs...)` -/
def bulkStrings (arr : Bool) (vs : List Bytes) : Response := ⟨vs.map (fun s => ⟨.str s, .bulkStrings⟩), arr⟩

/-- encode.go:148-171 `ResponseItem.encode` (the bytes it appends to the buffer).  A failed type assertion
panics.  util/strings.go:7-15 `StringConcat` is concatenation. -/
def Item.encode (it : Item) : Go Bytes :=
  match it.type, it.value with
  | .simpleStrings, .str s => .ok (43 :: s ++ CRLF)
  | .simpleStrings, _ => .error .typeAssertion
  | .errors, .err m => .ok (45 :: m ++ CRLF)
  | .errors, _ => .error .typeAssertion
  | .integers, .int i => .ok (58 :: formatInt i ++ CRLF)
  | .integers, _ => .error .typeAssertion
  | .bulkStrings, .nil => .ok (b! "$-1\r\n")
  | .bulkStrings, .str s => .ok (36 :: formatNat s.length ++ CRLF ++ s ++ CRLF)
  | .bulkStrings, _ => .error .typeAssertion

/-- the loop encode.go:141-143 -/
def encodeItems : List Item → Go Bytes
  | [] => .ok []
  | it :: its => do
    let a ← it.encode
    let b ← encodeItems its
    .ok (a ++ b)

/-- encode.go:122-146 `Response.Encode` -/
def Response.encode (r : Response) : Go Bytes :=
  match r.items with
  | [] => if r.isArray then .ok (b! "*0\r\n") else .ok (b! "$-1\r\n")
  | it :: its =>
    if !r.isArray then it.encode
    else do
      let body ← encodeItems (it :: its)
      .ok (42 :: formatNat (it :: its).length ++ CRLF ++ body)

/-! ## decode.go -/

/-- decode.go:19-22 `Receive` -/
structure Receive where
  elements : List Bytes
  orgStr : Bytes
deriving DecidableEq, Repr

/-- The errors `DecodeFromReader` returns. -/
inductive DecErr where
  /-- `io.EOF` from the reader -/
  | eof
  /-- "unsupported protocol" -/
  | unsupported
  /-- "invalid length" -/
  | invalidLength
deriving DecidableEq, Repr

/-- Result of a decoding step: a value and the unread rest of the buffer, an error (with the rest), or a
panic. -/
inductive DRes (α : Type) where
  | ok (a : α) (rest : Bytes)
  | err (e : DecErr) (rest : Bytes)
  | panic (p : Panic)
deriving DecidableEq, Repr

/-- `(*bytes.Buffer).ReadBytes('\n')`: the bytes up to and including the first `\n`; without a `\n` the
whole buffer is consumed and `io.EOF` returned. -/
def readLine : Bytes → DRes Bytes
  | [] => .err .eof []
  | c :: cs =>
    if c = 10 then .ok [10] cs
    else match readLine cs with
      | .ok l rest => .ok (c :: l) rest
      | .err e rest => .err e rest
      | .panic p => .panic p

/-- the loop decode.go:155-157 starting at `line[i:]` -/
def lengthLoop : Bytes → Int → Go Int
  | [], _ => .error .indexOutOfRange
  | c :: cs, ln =>
    if c = 13 then .ok ln
    else lengthLoop cs (wrap64 (ln * 10 + (c - 48).toNat))

/-- decode.go:147-160 `readBulkOrArrayLength`; `line[i]-'0'` is byte arithmetic. -/
def readBulkOrArrayLength (line : Bytes) : Go Int :=
  match line with
  | [] => .error .indexOutOfRange
  | c :: cs => if c = 45 then .ok (-1) else lengthLoop cs 0

/-- decode.go:39-46 `Receive.append` -/
def Receive.append (r : Receive) (ele org : Bytes) : Receive :=
  ⟨r.elements ++ [ele], r.orgStr ++ org⟩

/-- decode.go:48-50 `Receive.addOrg` -/
def Receive.addOrg (r : Receive) (s : Bytes) : Receive := ⟨r.elements, r.orgStr ++ s⟩

/-- `line[1:len(line)-CRLFLen]` (decode.go:134; `len(line) >= 3` there) -/
def lineBody (line : Bytes) : Bytes := (line.drop 1).take (line.length - 3)

/-- decode.go:121-145 `decodeSingleLine`: the updated record, the length and the descriptor byte. -/
def decodeSingleLine (r : Receive) (line : Bytes) : Go (Except DecErr (Receive × Int × UInt8)) :=
  if line.length < 3 then .ok (.error .unsupported)
  else
    let r := r.addOrg line
    let desc := line.headD 0
    if desc = 36 ∨ desc = 42 then do
      let length ← readBulkOrArrayLength line
      .ok (.ok (r, length, desc))
    else if desc = 43 ∨ desc = 45 ∨ desc = 58 then
      .ok (.ok (r.append (lineBody line) [], 0, desc))
    else if line = b! "PING\r\n" then
      .ok (.ok (r.append (b! "PING") (b! "PING\r\n"), 0, 43))
    else .ok (.error .unsupported)

/-- The largest `n` for which `make([]byte, n)` does not panic with "len out of range"
(runtime `maxAlloc`, 2^48 on linux/amd64). -/
def maxAlloc : Int := 2 ^ 48

/-- decode.go:162-177 `readBulkStrings` over a `bytes.Buffer`: `Read` copies what is there (at least one
byte, else `io.EOF`) and the rest of `val` keeps its zero bytes; the returned count is ignored. -/
def readBulkStrings (r : Receive) (buf : Bytes) (ln : Int) : DRes Receive :=
  if ln < 0 then .err .invalidLength buf
  else if wrap64 (ln + 2) < 0 ∨ maxAlloc < wrap64 (ln + 2) then .panic .makeSlice
  else if buf = [] then .err .eof []
  else
    let n := ln.toNat
    let got := buf.take (n + 2)
    let val := got ++ List.replicate (n + 2 - got.length) 0
    .ok (r.append (val.take n) val) (buf.drop (n + 2))

/-- decode.go:179-208 `readArray`.  `todo` is the number of iterations left (`ln - i`); every iteration
reads at least one byte, so `fuel` larger than the buffer is never exhausted. -/
def readArray : (fuel : Nat) → Receive → Bytes → (todo : Int) → DRes Receive
  | 0, _, _, _ => .panic .diverge
  | fuel + 1, r, buf, todo =>
    if todo ≤ 0 then .ok r buf
    else match readLine buf with
      | .err e rest => .err e rest
      | .panic p => .panic p
      | .ok line buf =>
        -- nested array first (decode.go:186-191)
        let sub : DRes Receive :=
          if line.headD 0 = 42 then
            match readBulkOrArrayLength line with
            | .error p => .panic p
            | .ok n => readArray fuel r buf n
          else .ok r buf
        match sub with
        | .err e rest => .err e rest
        | .panic p => .panic p
        | .ok r buf =>
          match decodeSingleLine r line with
          | .error p => .panic p
          | .ok (.error e) => .err e buf
          | .ok (.ok (r, length, desc)) =>
            if desc = 36 then
              match readBulkStrings r buf length with
              | .err e rest => .err e rest
              | .panic p => .panic p
              | .ok r buf => readArray fuel r buf (todo - 1)
            else readArray fuel r buf (todo - 1)

/-- decode.go:87-119 `DecodeFromReader` -/
def decodeFromReader (buf : Bytes) : DRes Receive :=
  match readLine buf with
  | .err e rest => .err e rest
  | .panic p => .panic p
  | .ok line rest =>
    match decodeSingleLine ⟨[], []⟩ line with
    | .error p => .panic p
    | .ok (.error e) => .err e rest
    | .ok (.ok (r, length, desc)) =>
      if desc = 36 then readBulkStrings r rest length
      else if desc = 42 then readArray (rest.length + 1) r rest length
      else .ok r rest

end Godis
