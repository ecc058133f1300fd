import Verif.Spec.Strings
import Verif.Spec.ZSets
/-!
# Where the texts of a reply may come from (specification)

This file does not use the model.
-/
namespace TextSpec
open Resp

/-- The bulk text `t` occurs in the reply. -/
inductive Quotes : Reply → Str → Prop
  | bulk {t} : Quotes (.bulk (some t)) t
  | inside {rs r t} : r ∈ rs → Quotes r t → Quotes (.array rs) t

/-- The single-line text `t` occurs in the reply. -/
inductive Prints : Reply → Str → Prop
  | line {t} : Prints (.simple t) t
  | inside {rs r t} : r ∈ rs → Prints r t → Prints (.array rs) t

/-- The error text `t` occurs in the reply. -/
inductive Complains : Reply → Str → Prop
  | error {t} : Complains (.error t) t
  | inside {rs r t} : r ∈ rs → Complains r t → Complains (.array rs) t

/-- The texts the value of a string key may be made of, if the clients sent the texts `sent`: a text that was sent, such a
text with sent texts appended, or a 64-bit decimal number. -/
inductive Made (sent : Str → Prop) : Str → Prop
  | word {t} : sent t → Made sent t
  | app {t u} : Made sent t → sent u → Made sent (t ++ u)
  | num {i : Int} : -2 ^ 63 ≤ i ∧ i < 2 ^ 63 → Made sent (StrSpec.decimal i)

/-- Where a bulk text in the reply to command `name` may come from; `fmt` is how scores are written. -/
def Source (fmt : Godis.F64 → Str) (sent : Str → Prop) (name t : Str) : Prop :=
  if name ∈ [s!! "get", s!! "mget"] then Made sent t
  else if name ∈ [s!! "keys", s!! "sdiff", s!! "sinter", s!! "sunion", s!! "smembers", s!! "spop"] then sent t
  else if name ∈ [s!! "lpop", s!! "rpop", s!! "lrange", s!! "lindex"] then sent t ∨ t = []
  else if name ∈ [s!! "zrange", s!! "zrangebyscore", s!! "zrevrange", s!! "zpopmin", s!! "zpopmax"] then sent t ∨ t = [] ∨ ∃ f, t = fmt f
  else if name ∈ [s!! "zscore", s!! "zincr", s!! "hincrbyfloat"] then ∃ f, t = fmt f
  else False

/-- the single-line texts of the server -/
def lines : List Str := [s!! "OK", s!! "PONG", s!! "COMMAND", s!! "none", s!! "string", s!! "list", s!! "setIfNotExists", s!! "sortedSet"]

/-- the error texts of the server -/
def errors : List Str := [s!! "redis: not found", s!! "key type and command not match", s!! "value is not an integer or out of range",
  s!! "ERR value is not a valid float", s!! "unknown command key", s!! "command args not enough",
  s!! " ERR value is out of range, must be positive"]

/-- `t` is an argument of one of the requests. -/
def Arg (reqs : List (List Str)) (t : Str) : Prop := ∃ r ∈ reqs, t ∈ r.tail

end TextSpec
