import Mathlib.Data.Finset.Basic
import Verif.Props.Keys
/-! Vocabulary for the set properties. -/
namespace Godis
open StrSpec (Ascii)

/-- The request has an ASCII command name and is not SDIFFSTORE, SINTERSTORE or SUNIONSTORE with exactly one source. -/
def Regular (req : List Bytes) : Prop := (∀ name ∈ req.head?, Ascii name) ∧ ¬ oneSourceStore req

instance (req : List Bytes) : Decidable (Regular req) := by unfold Regular Ascii; infer_instance

/-- SISMEMBER shows exactly the members `X` -/
def Members (ext : Ext) (s : Store) (k : Bytes) (X : Finset Bytes) : Prop :=
  ∀ x, Reads ext s [b! "sismember", k, x] (.int (if x ∈ X then 1 else 0))

end Godis
