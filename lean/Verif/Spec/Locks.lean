import Verif.Spec.Coord
/-!
# A lock kept in a counter (specification)

This file does not use the model.  As in Spec/Coord.lean, it is about what all clients together see at their sockets.

The clients agree: whoever wants the lock `k` sends `INCR k`; whoever gets the reply 1 has the lock and gives it back with `DEL k`.
-/
namespace CoordSpec
open Linear (Ev Before Str)

/-- Request `i` is an INCR of the lock and was answered 1: its sender has the lock. -/
def Takes (carries : Str → List Str → Prop) (h : List Ev) (k : Str) (i : Nat) : Prop :=
  (∃ req, Sent carries h i req ∧ On (s!! "incr") k req) ∧ Got h i (.int 1)

/-- Request `r` is a DEL of the lock. -/
def Frees (carries : Str → List Str → Prop) (h : List Ev) (k : Str) (r : Nat) : Prop := ∃ req, Sent carries h r req ∧ On (s!! "del") k req

/-- The agreement; `owner r` is the INCR with which the client that sent the DEL `r` got the lock.  Each DEL is sent by a client after it
got the lock, and at most one for each time. -/
structure LockRules (carries : Str → List Str → Prop) (h : List Ev) (k : Str) (owner : Nat → Nat) : Prop where
  reserved : Reserved carries h k [s!! "incr", s!! "del"]
  owned : ∀ r, Frees carries h k r → Takes carries h k (owner r) ∧ Answered h (owner r) r
  once : ∀ r r', Frees carries h k r → Frees carries h k r' → owner r = owner r' → r = r'

/-- Request `r` arrived before the reply to request `j` was sent. -/
def ArrivedBefore (h : List Ev) (r j : Nat) : Prop := ∃ c b c' b', Before h (.call r c b) (.ret j c' b')

/-- Request `a` was sent while its sender had the lock that it got with request `i`: after the reply to `i`; and it was answered before
the lock was given back (if it ever was). -/
def Within (carries : Str → List Str → Prop) (h : List Ev) (k : Str) (owner : Nat → Nat) (a i : Nat) : Prop :=
  Takes carries h k i ∧ Answered h i a ∧ ∀ r, Frees carries h k r → owner r = i → Answered h a r

/-- All clients use the key `x` only with SET, DEL and reads, change it and read it with GET only while they have the lock, and one
request at a time. -/
structure Guarded (carries : Str → List Str → Prop) (h : List Ev) (k : Str) (owner : Nat → Nat) (x : Str) : Prop where
  reserved : Reserved carries h x [s!! "set", s!! "del"]
  within : ∀ a req, Sent carries h a req → (∃ w, Puts x req w) ∨ On (s!! "get") x req → ∃ i, Within carries h k owner a i
  alone : ∀ a b i, a ≠ b → Within carries h k owner a i → Within carries h k owner b i → Answered h a b ∨ Answered h b a

/-- Request `q` is a SET or DEL of `x`. -/
def Changes (carries : Str → List Str → Prop) (h : List Ev) (x : Str) (q : Nat) (w : Option Str) : Prop :=
  ∃ req, Sent carries h q req ∧ Puts x req w

/-- Every change of `x` is the second half of a read-modify-write with the function `f`: the same holder of the lock has read `x`
before, got `m`, and puts `f m`; and it changes `x` only once. -/
def Updates (carries : Str → List Str → Prop) (h : List Ev) (k : Str) (owner : Nat → Nat) (x : Str)
    (f : Option Str → Option Str) : Prop :=
  ∀ p w i, Changes carries h x p w → Within carries h k owner p i →
    (∃ g req m, Sent carries h g req ∧ On (s!! "get") x req ∧ Got h g (.bulk m) ∧ Within carries h k owner g i ∧ Answered h g p ∧ w = f m) ∧
    ∀ p' w', Changes carries h x p' w' → Within carries h k owner p' i → p' = p

end CoordSpec
