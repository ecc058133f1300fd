import Verif.Model.Protocol
/-!
# The decoder over a network connection (v1 server)

server/v1/server.go:93 wraps the connection in a `bufio.Reader` and hands it to `ReceiveDataAsync`, which calls
`DecodeFromReader` (protocol/decode.go:87-208) with it.  `Model/Protocol.lean` models the decoder over a
`bytes.Buffer` (the v2 server); here is the same decoder over a `bufio.Reader`.

Library code taken over as an assumption (Go standard library, package bufio, default size 4096):
* `ReadBytes` collects buffered bytes up to the delimiter; while there is none it reads from the connection into
  the free part of the buffer, and empties a full buffer into the result;
* `Read(p)` with a non-empty buffer copies what is buffered, at most `len(p)` bytes, and does not touch the
  connection; with an empty buffer it reads from the connection once: directly into `p` if `len(p) >= 4096`, else
  into the buffer, from which it copies.

The connection is the list of the segments that `net.Conn.Read` will find: it returns the front segment, or the
part of it that fits.  Every sequence of results of `net.Conn.Read` is that of some list of segments.  After the
last segment the peer has closed its side (`io.EOF`).
-/
namespace Godis

/-- `bufio.defaultBufSize` -/
def bufSize : Nat := 4096

/-- a `bufio.Reader` on a connection: the unread bytes of its buffer, and the segments still to come -/
structure Rd where
  buf : Bytes
  segs : List Bytes
deriving DecidableEq, Repr

/-- `net.Conn.Read` into `room` bytes; `none` is `io.EOF` -/
def connRead (room : Nat) : List Bytes → Option (Bytes × List Bytes)
  | [] => none
  | s :: ss =>
    if s = [] then connRead room ss
    else if s.length ≤ room then some (s, ss) else some (s.take room, s.drop room :: ss)

/-- Result of a step of the decoder over a `bufio.Reader`. -/
inductive RRes (α : Type) where
  | ok (a : α) (rd : Rd)
  | err (e : DecErr) (rd : Rd)
  | panic (p : Panic)
deriving DecidableEq, Repr

/-- `(*bufio.Reader).ReadBytes('\n')`; `acc` is what earlier full buffers contributed.  Every turn ends the loop,
takes bytes from the connection, or empties a full buffer, so `fuel` above twice the number of bytes to come
suffices. -/
def bufReadBytes : (fuel : Nat) → (acc : Bytes) → Rd → RRes Bytes
  | 0, _, _ => .panic .diverge
  | fuel + 1, acc, rd =>
    match readLine rd.buf with
    | .ok line rest => .ok (acc ++ line) ⟨rest, rd.segs⟩
    | _ =>
      if bufSize ≤ rd.buf.length then bufReadBytes fuel (acc ++ rd.buf) ⟨[], rd.segs⟩
      else match connRead (bufSize - rd.buf.length) rd.segs with
        | none => .err .eof ⟨[], []⟩
        | some (got, segs) => bufReadBytes fuel acc ⟨rd.buf ++ got, segs⟩

/-- the bytes to come -/
def Rd.size (rd : Rd) : Nat := rd.buf.length + rd.segs.flatten.length

/-- `ReadBytes('\n')` -/
def Rd.readBytes (rd : Rd) : RRes Bytes := bufReadBytes (2 * rd.size + 2) [] rd

/-- `(*bufio.Reader).Read` into `n > 0` bytes; `none` is `io.EOF` -/
def Rd.read (rd : Rd) (n : Nat) : Option (Bytes × Rd) :=
  if rd.buf = [] then
    if bufSize ≤ n then
      match connRead n rd.segs with
      | none => none
      | some (got, segs) => some (got, ⟨[], segs⟩)
    else
      match connRead bufSize rd.segs with
      | none => none
      | some (got, segs) => some (got.take n, ⟨got.drop n, segs⟩)
  else some (rd.buf.take n, ⟨rd.buf.drop n, rd.segs⟩)

/-- decode.go:162-177 `readBulkStrings`: the number of bytes `Read` returns is ignored. -/
def rdBulkStrings (r : Receive) (rd : Rd) (ln : Int) : RRes Receive :=
  if ln < 0 then .err .invalidLength rd
  else if wrap64 (ln + 2) < 0 ∨ maxAlloc < wrap64 (ln + 2) then .panic .makeSlice
  else
    let n := ln.toNat
    match rd.read (n + 2) with
    | none => .err .eof ⟨[], []⟩
    | some (got, rd) =>
      let val := got ++ List.replicate (n + 2 - got.length) 0
      .ok (r.append (val.take n) val) rd

/-- decode.go:179-208 `readArray` -/
def rdArray : (fuel : Nat) → Receive → Rd → (todo : Int) → RRes Receive
  | 0, _, _, _ => .panic .diverge
  | fuel + 1, r, rd, todo =>
    if todo ≤ 0 then .ok r rd
    else match rd.readBytes with
      | .err e rd => .err e rd
      | .panic p => .panic p
      | .ok line rd =>
        let sub : RRes Receive :=
          if line.headD 0 = 42 then
            match readBulkOrArrayLength line with
            | .error p => .panic p
            | .ok n => rdArray fuel r rd n
          else .ok r rd
        match sub with
        | .err e rd => .err e rd
        | .panic p => .panic p
        | .ok r rd =>
          match decodeSingleLine r line with
          | .error p => .panic p
          | .ok (.error e) => .err e rd
          | .ok (.ok (r, length, desc)) =>
            if desc = 36 then
              match rdBulkStrings r rd length with
              | .err e rd => .err e rd
              | .panic p => .panic p
              | .ok r rd => rdArray fuel r rd (todo - 1)
            else rdArray fuel r rd (todo - 1)

/-- decode.go:87-119 `DecodeFromReader` -/
def rdDecode (rd : Rd) : RRes Receive :=
  match rd.readBytes with
  | .err e rd => .err e rd
  | .panic p => .panic p
  | .ok line rd =>
    match decodeSingleLine ⟨[], []⟩ line with
    | .error p => .panic p
    | .ok (.error e) => .err e rd
    | .ok (.ok (r, length, desc)) =>
      if desc = 36 then rdBulkStrings r rd length
      else if desc = 42 then rdArray (rd.size + 1) r rd length
      else .ok r rd

end Godis
