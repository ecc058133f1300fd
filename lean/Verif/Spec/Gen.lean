import Verif.Spec.Strings
/-!
# Command declarations in Go source text (specification)

This file does not use the model.  It says, in terms of the lines of a source file, what a command function is and
what name its comment gives it.
-/
namespace GenSpec
open KeySpec (Str)
open StrSpec (lower Ascii)

/-- a space, tab, line feed, form feed or carriage return -/
def Space (c : UInt8) : Prop := c ∈ ([32, 9, 10, 12, 13] : Str)
/-- a letter -/
def Letter (c : UInt8) : Prop := 65 ≤ c.toNat ∧ c.toNat ≤ 90 ∨ 97 ≤ c.toNat ∧ c.toNat ≤ 122
/-- a blank: space or one of the control characters 9..13 -/
def Blank (c : UInt8) : Prop := c.toNat = 32 ∨ 9 ≤ c.toNat ∧ c.toNat ≤ 13

/-- one or more spaces -/
def Spaces (s : Str) : Prop := s ≠ [] ∧ ∀ c ∈ s, Space c
/-- one or more letters -/
def Word (s : Str) : Prop := s ≠ [] ∧ ∀ c ∈ s, Letter c

/-- After `pre`, the line reads `func name(c *Command) (*protocol.Response, error)`: the header of the command function
`name`. (Spaces may be repeated; the `.` may be any one character, as the generator's pattern does not quote it.) -/
def HeaderAt (line pre name : Str) : Prop :=
  Word name ∧ ∃ s1 s2 s3 post : Str, ∃ d : UInt8, Spaces s1 ∧ Spaces s2 ∧ Spaces s3 ∧ d ≠ 10 ∧
    line = pre ++ (s!! "func" ++ (s1 ++ (name ++ (s!! "(c *Command)" ++ (s2 ++ (s!! "(*protocol" ++ (d :: (s!! "Response," ++
      (s3 ++ (s!! "error)" ++ post))))))))))

/-- The line declares the command function `name`: the first header in it is for `name`. -/
def Declares (line name : Str) : Prop :=
  ∃ pre, HeaderAt line pre name ∧ ∀ pre' name', HeaderAt line pre' name' → pre.length ≤ pre'.length

/-- `t` is not empty and neither begins nor ends with a blank -/
def Tight (t : Str) : Prop := (∃ c u, t = c :: u ∧ ¬ Blank c) ∧ ∃ u c, t = u ++ [c] ∧ ¬ Blank c

/-- The line is a comment that names `w`: `// w .` or `// w` (the final full stop is optional). -/
def CommentNames (line w : Str) : Prop :=
  Tight w ∧ Ascii w ∧ ∃ a b c : Str, ∃ dot : Str, (∀ x ∈ a ++ b ++ c, Blank x) ∧
    line = a ++ (s!! "//" ++ (b ++ (w ++ dot ++ c))) ∧
    ((∃ d, (∀ x ∈ d, Blank x) ∧ dot = d ++ s!! ".") ∨ dot = [] ∧ w.getLast? ≠ some 46)

/-- `text` consists of the lines `ls`: each is ended by a line feed (or by carriage return and line feed), the last one
may lack its ending. -/
inductive IsText : List Str → Str → Prop
  | nil : IsText [] []
  | last {l} : l ≠ [] → (10 : UInt8) ∉ l → l.getLast? ≠ some 13 → IsText [l] l
  | line {l ls t} (eol : Str) : eol = s!! "\n" ∨ eol = s!! "\r\n" → (10 : UInt8) ∉ l → l.getLast? ≠ some 13 → IsText ls t →
      IsText (l :: ls) (l ++ (eol ++ t))

/-- The table (command name, function) that the lines prescribe, `prev` being the line before them: every command
function is registered once, in order; under the name in the comment line directly above it, in lower case, or, if there is no
line or only a blank line above it, under its own name in lower case. Lines of code directly above a command function
prescribe nothing. -/
inductive Prescribes : Option Str → List Str → List (Str × Str) → Prop
  | nil {prev} : Prescribes prev [] []
  | other {prev l ls es} : (∀ pre fn, ¬ HeaderAt l pre fn) → Prescribes (some l) ls es → Prescribes prev (l :: ls) es
  | own {prev l ls es fn} : Declares l fn → (∀ p ∈ prev, ∀ c ∈ p, Blank c) → Prescribes (some l) ls es →
      Prescribes prev (l :: ls) ((lower fn, fn) :: es)
  | comment {p l ls es fn w} : Declares l fn → CommentNames p w → Prescribes (some l) ls es →
      Prescribes (some p) (l :: ls) ((lower w, fn) :: es)

/-- The command functions declared in the lines, in order. -/
inductive Functions : List Str → List Str → Prop
  | nil : Functions [] []
  | other {l ls fns} : (∀ pre fn, ¬ HeaderAt l pre fn) → Functions ls fns → Functions (l :: ls) fns
  | decl {l ls fns fn} : Declares l fn → Functions ls fns → Functions (l :: ls) (fn :: fns)

/-- The Go file that registers the entries `es`. -/
def tableFile (es : List (Str × Str)) : Str :=
  s!! "// Code generated by gen_redis_cmd. DO NOT EDIT.\n\npackage redis\n\nfunc init() {\n" ++
  es.flatMap (fun e => s!! "\timplementedCommands[\"" ++ e.1 ++ s!! "\"] = " ++ e.2 ++ s!! "\n") ++
  s!! "}\n"

/-- The assignments made by the registering files, one after the other, to the command table: the last assignment to a
name counts. -/
def assigned (es : List (Str × Str)) (name : Str) : Option Str :=
  ((es.filter (fun e => e.1 = name)).getLast?).map (fun e => e.2)

/-- An ordinary source path: it ends in `.go`, which occurs nowhere else in it, and not in `.cmd.go`. -/
def SourcePath (stem : Str) : Prop :=
  (∀ a b, stem ++ s!! ".go" = a ++ (s!! ".go" ++ b) → b = []) ∧ ∀ a, stem ≠ a ++ s!! ".cmd"

end GenSpec
