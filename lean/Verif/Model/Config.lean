import Mathlib.Logic.Function.Basic
import Verif.Model.Basic
/-!
# The configuration: config/config.go

The package is not used by the server yet; it is modelled as the library it is.  Any number of goroutines call
`InitConfig` and `GetDefaultTimeout` at the same time; each read and each write of the variable `cfg` is one step (a pointer is
read and written at once; a `Config` is not changed once `cfg` points to it).

The YAML decoder (lines 16, 19) is an arbitrary function from what the reader delivers to a `Config` or an error (no document at all
is the error `io.EOF`).
-/
namespace Godis.Config

/-- config.go:10-13 -/
structure Config where
  /-- `DefaultTimeout`, in nanoseconds (an `int64`) -/
  timeout : Int
  /-- `Persistence` -/
  persistence : Bytes
deriving DecidableEq

/-- config.go:16,19 `yaml.NewDecoder(r).Decode(tmp)`: an error, or what `tmp` points to afterwards -/
abbrev Decoder := Bytes → Except Bytes Config

/-- config.go:31 `time.Second * 5` -/
def fiveSeconds : Int := 5 * 1000000000

/-- Where a goroutine is. -/
inductive Pc where
  /-- outside the package -/
  | out
  /-- config.go:15-19: `InitConfig` is called, the reader delivers `doc` -/
  | decoding (doc : Bytes)
  /-- config.go:23: about to assign `tmp`, which points to `c` -/
  | assigning (c : Config)
  /-- config.go:20,24: about to return from `InitConfig` -/
  | initDone (err : Option Bytes)
  /-- config.go:30: about to compare `cfg` with nil -/
  | comparing
  /-- config.go:30: `cfg` was not nil; about to read `cfg.DefaultTimeout` -/
  | checking
  /-- config.go:34: about to read `cfg.DefaultTimeout` again -/
  | reading
  /-- config.go:31,34: about to return `t` from `GetDefaultTimeout` -/
  | getDone (t : Int)
  /-- a nil pointer was dereferenced -/
  | crashed
deriving DecidableEq

/-- The variable `cfg` (config.go:27) and where every goroutine is. -/
structure St where
  /-- config.go:27 -/
  cfg : Option Config
  /-- the goroutines -/
  pc : Nat → Pc

/-- config.go:27: `cfg` is nil -/
def St.init : St := ⟨none, fun _ => .out⟩

/-- What can be seen of a step. -/
inductive Label where
  /-- `InitConfig` is called with a reader that delivers `doc` -/
  | callInit (doc : Bytes)
  /-- `InitConfig` returns; `none` is nil -/
  | retInit (err : Option Bytes)
  /-- `GetDefaultTimeout` is called -/
  | callGet
  /-- `GetDefaultTimeout` returns -/
  | retGet (t : Int)
  /-- the process panics -/
  | crash
  /-- nothing -/
  | tau
deriving DecidableEq

/-- goroutine `i` goes on to `p` -/
def St.goto (s : St) (i : Nat) (p : Pc) : St := { s with pc := Function.update s.pc i p }

/-- A step of goroutine `i`. -/
inductive Step (dec : Decoder) (i : Nat) : St → Label → St → Prop where
  /-- config.go:15 -/
  | callInit {s} (doc : Bytes) : s.pc i = .out → Step dec i s (.callInit doc) (s.goto i (.decoding doc))
  /-- config.go:18-21: the document is refused -/
  | refuse {s doc e} : s.pc i = .decoding doc → dec doc = .error e → Step dec i s .tau (s.goto i (.initDone (some e)))
  /-- config.go:18-19: the document is accepted -/
  | accept {s doc c} : s.pc i = .decoding doc → dec doc = .ok c → Step dec i s .tau (s.goto i (.assigning c))
  /-- config.go:23 -/
  | assign {s c} : s.pc i = .assigning c → Step dec i s .tau ({ s with cfg := some c }.goto i (.initDone none))
  /-- config.go:20,24 -/
  | retInit {s e} : s.pc i = .initDone e → Step dec i s (.retInit e) (s.goto i .out)
  /-- config.go:29 -/
  | callGet {s} : s.pc i = .out → Step dec i s .callGet (s.goto i .comparing)
  /-- config.go:30 `cfg == nil` -/
  | isNil {s} : s.pc i = .comparing → s.cfg = none → Step dec i s .tau (s.goto i (.getDone fiveSeconds))
  /-- config.go:30 `cfg != nil` -/
  | notNil {s c} : s.pc i = .comparing → s.cfg = some c → Step dec i s .tau (s.goto i .checking)
  /-- config.go:30 `cfg.DefaultTimeout == 0` -/
  | isZero {s c} : s.pc i = .checking → s.cfg = some c → c.timeout = 0 → Step dec i s .tau (s.goto i (.getDone fiveSeconds))
  /-- config.go:30 `cfg.DefaultTimeout != 0` -/
  | notZero {s c} : s.pc i = .checking → s.cfg = some c → c.timeout ≠ 0 → Step dec i s .tau (s.goto i .reading)
  /-- config.go:34 -/
  | read {s c} : s.pc i = .reading → s.cfg = some c → Step dec i s .tau (s.goto i (.getDone c.timeout))
  /-- config.go:30,34 with `cfg == nil` -/
  | nilDeref {s} : s.pc i = .checking ∨ s.pc i = .reading → s.cfg = none → Step dec i s .crash (s.goto i .crashed)
  /-- config.go:31,34 -/
  | retGet {s t} : s.pc i = .getDone t → Step dec i s (.retGet t) (s.goto i .out)

/-- The runs from the start of the process: what happened, in order, each with the goroutine that did it. -/
inductive Run (dec : Decoder) : List (Nat × Label) → St → Prop where
  | nil : Run dec [] St.init
  | step {L s i l s'} : Run dec L s → Step dec i s l s' → Run dec (L ++ [(i, l)]) s'

end Godis.Config
