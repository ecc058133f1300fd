import Verif.Spec.Coord
import Verif.Spec.ZSets
/-!
# A leaderboard that many clients share (specification)

This file uses of the model only the type of 64-bit floating point numbers and their comparison.  As in Spec/Coord.lean, it is
about what all clients together see at their sockets.
-/
namespace CoordSpec
open Resp (Reply bulks)
open StrSpec (lower int64)
open KeySpec (keyArgs readOnly)
open ListSpec (Plain window)
open Linear (Ev Str)
open ZSpec (Num Entry addArgs members before listing)
open Godis (F64)

/-- The request is `ZADD k score member …`, without flags, and every score is a number. -/
def Scores (N : Num) (k : Str) (req : List Str) (es : List Entry) : Prop :=
  ∃ name a b rest, req = name :: k :: a :: b :: rest ∧ lower name = s!! "zadd" ∧
    addArgs N (a :: b :: rest) {} = some (es, {}) ∧ ∀ e ∈ es, e.1.isNaN = false

/-- The request is such a ZADD and gives the member `x` the score `sc` (the last one if it names `x` several times). -/
def Gives (N : Num) (k x : Str) (req : List Str) (sc : F64) : Prop :=
  ∃ es es₁ es₂, Scores N k req es ∧ es = es₁ ++ (sc, x) :: es₂ ∧ x ∉ members es₂

/-- All clients agree to use the key `k` only with such ZADDs and with commands that only inspect data; they may do anything
with other keys. -/
def OnlyScores (N : Num) (carries : Str → List Str → Prop) (h : List Ev) (k : Str) : Prop :=
  ∀ i req, Sent carries h i req → Plain req ∧
    (k ∈ keyArgs (lower (req.headD [])) req.tail → (∃ es, Scores N k req es) ∨ lower (req.headD []) ∈ readOnly)

/-- All requests together have fewer than 2^61 words. -/
def Few (carries : Str → List Str → Prop) (h : List Ev) : Prop :=
  ∀ l : List (Nat × List Str), (l.map (·.1)).Nodup → (∀ p ∈ l, Sent carries h p.1 p.2) → (l.map (fun p => p.2.length)).sum < 2 ^ 61

/-- `l` is a board: ascending by score, and by member where scores are equal; every member once. -/
def Ranked (l : List Entry) : Prop := l.Pairwise (fun a b => before a b = true) ∧ (members l).Nodup

/-- What a client that asks for the score or the rank of a member (counted from 1), for the number of members, or for a part of the
board hears if the board is `l`. -/
def HearsBoard (N : Num) (k : Str) (l : List Entry) (req : List Str) (m : Reply) : Prop :=
  (∀ name x, req = [name, k, x] → lower name = s!! "zscore" →
    (∀ sc, (sc, x) ∈ l → m = .bulk (some (N.fmt sc))) ∧ (x ∉ members l → m = .bulk none)) ∧
  (∀ name x, req = [name, k, x] → lower name = s!! "zrank" →
    (∀ (p : Nat) sc, l[p]? = some (sc, x) → m = .int (p + 1)) ∧ (x ∉ members l → m = .bulk none)) ∧
  (∀ name, req = [name, k] → lower name = s!! "zcard" → m = .int l.length) ∧
  (∀ name a b i j, req = [name, k, a, b] → lower name = s!! "zrange" → int64 a = some i → int64 b = some j →
    m = if l = [] then .bulk none else bulks (members (window l i j))) ∧
  (∀ name a b i j, req = [name, k, a, b, s!! "WITHSCORES"] → lower name = s!! "zrange" → int64 a = some i → int64 b = some j →
    m = if l = [] then .bulk none else listing N true (window l i j))

end CoordSpec
