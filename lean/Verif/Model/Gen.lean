import Verif.Model.Commands
/-!
# The command-table generator, cmd/gen_redis_cmd/main.go

`main` (main.go:12-28) is run once per source file by `go generate`; it reads the file line by line, looks for
command functions, and writes a Go file whose `init` fills `implementedCommands`.

Simplifications: the regular expression is written out as a matcher (`matchHere`), in which the unescaped `.` of
`protocol.Response` matches one byte other than a line feed (Go: one UTF-8 character other than a line feed).
`strings.ToLower`/`strings.TrimSpace` of text with non-ASCII bytes are left abstract (`GenExt`).  I/O errors other than
"no such file" are not modelled, nor is the log output.
-/
namespace Godis.Gen

/-- what the Unicode parts of package `strings` do to text that is not pure ASCII -/
structure GenExt where
  /-- `strings.ToLower` -/
  lowerUni : Bytes → Bytes
  /-- `strings.TrimSpace` -/
  trimUni : Bytes → Bytes

/-- main.go:30-33 `KV` -/
structure KV where
  cmdName : Bytes
  funcName : Bytes
deriving DecidableEq, Repr

/-! ## bufio.Scanner with ScanLines -/

/-- the text cut at line feeds; a last line without a line feed counts if it is not empty; `acc` is the current line,
reversed -/
def rawLines : Bytes → Bytes → List Bytes
  | [], acc => if acc = [] then [] else [acc.reverse]
  | c :: cs, acc => if c = 10 then acc.reverse :: rawLines cs [] else rawLines cs (c :: acc)

/-- `dropCR` of bufio/scan.go: one trailing carriage return is removed -/
def dropCR (l : Bytes) : Bytes := if l.getLast? = some 13 then l.dropLast else l

/-- the successive `scanner.Text()` of main.go:59: a line of 64 KiB or more ends the scan (`ErrTooLong`), which
main.go never looks at -/
def scanLines (text : Bytes) : List Bytes :=
  ((rawLines text []).takeWhile (fun l => l.length < 65536)).map dropCR

/-! ## The regular expression of main.go:126
`func\s+([A-Za-z]+)\(c \*Command\)\s+\(\*protocol.Response,\s+error\)` -/

/-- `\s` -/
def isSpace (c : UInt8) : Bool := c = 32 ∨ c = 9 ∨ c = 10 ∨ c = 12 ∨ c = 13

/-- `[A-Za-z]` -/
def isAlpha (c : UInt8) : Bool := (65 ≤ c ∧ c ≤ 90) ∨ (97 ≤ c ∧ c ≤ 122)

/-- a literal piece: the rest of the text after it -/
def lit (p s : Bytes) : Option Bytes := if p.isPrefixOf s then some (s.drop p.length) else none

/-- `\s+` (greedy; what follows it in the expression never starts with a space, so no backtracking is needed) -/
def spaces1 (s : Bytes) : Option Bytes :=
  match s with
  | [] => none
  | c :: cs => if isSpace c then some (cs.dropWhile isSpace) else none

/-- `.` -/
def anyByte (s : Bytes) : Option Bytes :=
  match s with
  | [] => none
  | c :: cs => if c = 10 then none else some cs

/-- the expression tried at the start of `s`: the text of the first group -/
def matchHere (s : Bytes) : Option Bytes := do
  let s ← lit (b! "func") s
  let s ← spaces1 s
  let name := s.takeWhile isAlpha
  if name = [] then none else
  let s ← lit (b! "(c *Command)") (s.dropWhile isAlpha)
  let s ← spaces1 s
  let s ← lit (b! "(*protocol") s
  let s ← anyByte s
  let s ← lit (b! "Response,") s
  let s ← spaces1 s
  let _ ← lit (b! "error)") s
  some name

/-- main.go:134-142 `regexCmdFuncStr`: the leftmost match, `[]` if there is none -/
def regexCmdFuncStr : Bytes → Bytes
  | [] => []
  | c :: cs => match matchHere (c :: cs) with
    | some n => n
    | none => regexCmdFuncStr cs

/-! ## readAndParseFile -/

/-- the ASCII white space of `strings.TrimSpace` -/
def isTrim (c : UInt8) : Bool := c = 32 ∨ (9 ≤ c ∧ c ≤ 13)

/-- `strings.TrimSpace` -/
def trimSpace (ext : GenExt) (s : Bytes) : Bytes :=
  if s.all (· < 128) then ((s.dropWhile isTrim).reverse.dropWhile isTrim).reverse else ext.trimUni s

/-- `strings.TrimSuffix` -/
def trimSuffix (s p : Bytes) : Bytes :=
  if p.isSuffixOf s then s.take (s.length - p.length) else s

/-- main.go:61-75: the entry for the function `fName` declared below the (trimmed) line `lastLine` -/
def mkKV (ext : GenExt) (lastLine fName : Bytes) : KV :=
  if lastLine = [] then ⟨toLower ext.lowerUni fName, fName⟩
  else ⟨toLower ext.lowerUni (trimSpace ext (trimPrefix (trimSuffix lastLine (b! ".")) (b! "//"))), fName⟩

/-- main.go:59-85: the scan loop, over the lines -/
def parseLines (ext : GenExt) : (lastLine : Bytes) → List Bytes → List KV
  | _, [] => []
  | lastLine, l :: ls =>
    let fName := regexCmdFuncStr l
    let rest := parseLines ext (trimSpace ext l) ls
    if fName = [] then rest else mkKV ext lastLine fName :: rest

/-- main.go:59-87: the entries for the text of a file -/
def parseText (ext : GenExt) (text : Bytes) : List KV := parseLines ext [] (scanLines text)

/-! ## writeFile -/

/-- main.go:112-120 `templateText`, executed on `kvs` -/
def render (kvs : List KV) : Bytes :=
  b! "// Code generated by gen_redis_cmd. DO NOT EDIT.\n\npackage redis\n\nfunc init() {" ++
  kvs.flatMap (fun kv =>
    b! "\n\timplementedCommands[\"" ++ kv.cmdName ++ b! "\"] = " ++ kv.funcName) ++
  b! "\n}\n"

/-- `strings.Replace(s, old, new, 1)` for a non-empty `old`: the first occurrence is replaced -/
def replace1 (old new : Bytes) : Bytes → Bytes
  | [] => []
  | c :: cs => if old.isPrefixOf (c :: cs) then new ++ (c :: cs).drop old.length else c :: replace1 old new cs

/-- main.go:91: the name of the file that is written -/
def outName (name : Bytes) : Bytes := replace1 (b! ".go") (b! ".cmd.go") name

/-- the files, by path -/
abbrev Files := Bytes → Option Bytes

/-- main.go:39-51,87 `readAndParseFile`; `none` = an error (no such file), which `main` turns into a panic -/
def readAndParseFile (ext : GenExt) (fs : Files) (fp : Bytes) : Option (List KV) :=
  if !(b! ".go").isSuffixOf fp then some []
  else if (b! ".cmd.go").isSuffixOf fp then some []
  else match fs fp with
    | none => none
    | some text => some (parseText ext text)

/-- main.go:12-28 `main` with the argument `fp`: the files afterwards; `none` = panic, nothing written -/
def run (ext : GenExt) (fs : Files) (fp : Bytes) : Option Files :=
  match readAndParseFile ext fs fp with
  | none => none
  | some kvs => some (fun p => if p = outName fp then some (render kvs) else fs p)

end Godis.Gen
