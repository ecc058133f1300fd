import Verif.Spec.Resp
import Verif.Spec.Strings
/-!
# What a server makes of a text that was written as a reply (specification)

This file does not use the model.  A client of the package builds its requests with the functions that build replies.
-/
namespace ClientSpec
open Resp (Str Reply)

/-- The word that a reply that is not an array stands for in a request: its text, or the number in decimal digits; the nil reply stands
for no word. -/
def word : Reply → Option Str
  | .simple s => some s
  | .error s => some s
  | .int i => some (StrSpec.decimal i)
  | .bulk (some s) => some s
  | _ => none

/-- The words of a reply: those of its items if it is an array. -/
def words : Reply → Option (List Str)
  | .array ms => ms.mapM word
  | m => (word m).map fun w => [w]

/-- The bounds of the platform: lengths are 64-bit integers, one allocation is below 2^48 bytes. -/
def Sendable (ws : List Str) : Prop := ws.length < 2 ^ 63 ∧ ∀ w ∈ ws, w.length + 2 ≤ 2 ^ 48

end ClientSpec
