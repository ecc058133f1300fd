import Verif.Model.Store
import Verif.Model.Protocol
import Verif.Spec.Resp
/-!
# Words used in the statements of the theorems (specification)

How the model's responses, stored values and input lines are read in the terms of the specifications.
-/
namespace Godis
open Resp

/-- The reply an item stands for; `none` if its dynamic value does not fit its declared type or a
single-line text contains a line feed. -/
def Item.reply (i : Item) : Option Reply :=
  match i.type, i.value with
  | .simpleStrings, .str s => if 10 ∈ s then none else some (.simple s)
  | .errors, .err s => if 10 ∈ s then none else some (.error s)
  | .integers, .int i => some (.int i)
  | .bulkStrings, .nil => some (.bulk none)
  | .bulkStrings, .str s => some (.bulk (some s))
  | _, _ => none

/-- the replies of a list of items, `none` if one of them has none -/
def itemReplies : List Item → Option (List Reply)
  | [] => some []
  | i :: is =>
    match i.reply, itemReplies is with
    | some r, some rs => some (r :: rs)
    | _, _ => none

/-- The reply a response stands for. -/
def Response.reply (r : Response) : Option Reply :=
  if r.isArray then (itemReplies r.items).map .array
  else match r.items with
    | [] => some (.bulk none)
    | i :: _ => i.reply

/-- `l` is one line: it ends with the only line feed in it. -/
def IsLine (l : Bytes) : Prop := ∃ b, l = b ++ [10] ∧ 10 ∉ b

/-- A header line that can crash the decoder: a `$` or `*` line without carriage return, or a `$` line of more
than 14 bytes (a length of more than 11 digits). -/
def BadHeader (buf : Bytes) : Prop :=
  ∃ l, IsLine l ∧ l <:+: buf ∧
    ((l.head? = some 36 ∨ l.head? = some 42) ∧ 13 ∉ l ∨ l.head? = some 36 ∧ 14 < l.length)

/-- a key holds a value that is not a string -/
def Wrong (s : Store) (k : Bytes) : Prop := ∃ info, s.keys.get k = some info ∧ info.type ≠ .string

/-- `ParseFloat` followed by `FormatFloat` -/
def refloat (ext : Ext) (x : Bytes) : Option Bytes := (ext.parseFloat x).map ext.formatFloat

end Godis
