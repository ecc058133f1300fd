/-!
# RESP, the Redis serialization protocol (specification)

This file does not use the model.  It says what the bytes of a reply mean, as a client reads them, and how a
client writes a request.  Source: the protocol description, redis.io/docs/reference/protocol-spec (RESP2).
-/
namespace Resp

/-- A byte string. -/
abbrev Str := List UInt8

/-- What a client understands from the server. -/
inductive Reply where
  | simple (s : Str)
  | error (s : Str)
  | int (i : Int)
  /-- bulk string; `none` is the nil reply -/
  | bulk (s : Option Str)
  | array (rs : List Reply)
deriving Repr

/-- Split at the first CR LF. -/
def line : Str → Option (Str × Str)
  | [] => none
  | 13 :: 10 :: rest => some ([], rest)
  | c :: rest =>
    match line rest with
    | none => none
    | some (l, r) => some (c :: l, r)

/-- One more decimal digit: what was read before moves up one decimal place. -/
def digit (acc : Option Nat) (c : UInt8) : Option Nat :=
  match acc with
  | none => none
  | some n => if 48 ≤ c.toNat ∧ c.toNat ≤ 57 then some (10 * n + (c.toNat - 48)) else none

/-- Decimal digits (at least one) to a number. -/
def dec (s : Str) : Option Nat := if s = [] then none else s.foldl digit (some 0)

/-- Signed decimal. -/
def sdec : Str → Option Int
  | 45 :: cs => (dec cs).map (fun (n : Nat) => -(n : Int))
  | cs => (dec cs).map (fun (n : Nat) => (n : Int))

/-- an array of bulk strings -/
def bulks (vs : List Str) : Reply := .array (vs.map (fun v => .bulk (some v)))

mutual
/-- Read one reply from the front of the input; `fuel` bounds the nesting and the number of elements. -/
def parse : (fuel : Nat) → Str → Option (Reply × Str)
  | 0, _ => none
  | fuel + 1, s =>
    match s with
    | [] => none
    | ty :: s =>
      match line s with
      | none => none
      | some (l, rest) =>
        if ty = 43 then some (.simple l, rest)                       -- '+'
        else if ty = 45 then some (.error l, rest)                   -- '-'
        else if ty = 58 then (sdec l).map (fun i => (.int i, rest))  -- ':'
        else if ty = 36 then                                         -- '$'
          match sdec l with
          | none => none
          | some n =>
            if n = -1 then some (.bulk none, rest)
            else if n < 0 then none
            else if rest.length < n.toNat + 2 then none
            else if (rest.drop n.toNat).take 2 ≠ [13, 10] then none
            else some (.bulk (some (rest.take n.toNat)), rest.drop (n.toNat + 2))
        else if ty = 42 then                                         -- '*'
          match dec l with
          | none => none
          | some n => (parseN fuel n rest).map (fun (rs, rest) => (.array rs, rest))
        else none
/-- Read `n` replies. -/
def parseN : (fuel : Nat) → (n : Nat) → Str → Option (List Reply × Str)
  | _, 0, s => some ([], s)
  | 0, _ + 1, _ => none
  | fuel + 1, n + 1, s =>
    match parse fuel s with
    | none => none
    | some (r, s) => (parseN fuel n s).map (fun (rs, s) => (r :: rs, s))
end

/-- `bytes` is exactly the wire form of `r`: whatever follows it, the parser reads `r` and leaves what
follows (for every large enough fuel). -/
def Denotes (bytes : Str) (r : Reply) : Prop :=
  ∃ fuel, ∀ fuel', fuel ≤ fuel' → ∀ rest, parse fuel' (bytes ++ rest) = some (r, rest)

/-- `s` is the text of the bulk strings `args`, as a client sends them (any decimal text of the length). -/
inductive IsBulks : Str → List Str → Prop
  | nil : IsBulks [] []
  | cons {d a s as} : dec d = some a.length → IsBulks s as →
      IsBulks (36 :: d ++ [13, 10] ++ a ++ [13, 10] ++ s) (a :: as)

/-- A whole request: an array of bulk strings. -/
def IsRequest (s : Str) (args : List Str) : Prop :=
  ∃ d b, dec d = some args.length ∧ IsBulks b args ∧ s = 42 :: d ++ [13, 10] ++ b

end Resp
