import Verif.Spec.Coord
/-!
# What a client can know of another client's request (specification)

This file does not use the model.  As in Spec/Coord.lean, it is about what all clients together see at their sockets.  Source: L. Lamport,
Time, clocks, and the ordering of events in a distributed system (1978).
-/
namespace CoordSpec
open Resp (Reply)
open StrSpec (lower int64 CountsAs counters)
open ListSpec (items)
open Linear (Ev Str)

/-- Request `j` tells about request `i`:
* `answered`: `i` was answered before `j` was sent (by the same client, or by one it told outside the server);
* `read`: `j` read from a register the text that only `i` put there;
* `popped`: `j` popped from a queue an item that only `i` pushed there;
* `listed`: `j` read in a log an item that only `i` appended;
* `refused`: `j` was told that a member it wanted to add is in the set already, and only `i` added it;
* `counted`: `j` read a counter and saw as much as all its increments, by one each, come to; `i` is one of them (a barrier: who
  sees that all have come). -/
inductive Informs (carries : Str → List Str → Prop) (h : List Ev) : Nat → Nat → Prop where
  | answered {i j} : Answered h i j → Informs carries h i j
  | read {i j ri rj f w} : Reserved carries h f [s!! "set", s!! "del"] →
      Sent carries h i ri → Puts f ri (some w) → (∀ n r, Sent carries h n r → Puts f r (some w) → n = i) →
      Sent carries h j rj → On (s!! "get") f rj → Got h j (.bulk (some w)) → Informs carries h i j
  | popped {i j rj q x m} : Reserved carries h q [s!! "rpush", s!! "lpop"] →
      (∀ n name vs, Sent carries h n (name :: q :: vs) → lower name = s!! "rpush" → x ∈ vs → n = i) →
      Sent carries h j rj → On (s!! "lpop") q rj → Got h j m → x ∈ items m → Informs carries h i j
  | listed {i j name q a b rest x m ia ib} : Reserved carries h q [s!! "rpush"] →
      (∀ n name vs, Sent carries h n (name :: q :: vs) → lower name = s!! "rpush" → x ∈ vs → n = i) →
      Sent carries h j (name :: q :: a :: b :: rest) → lower name = s!! "lrange" → int64 a = some ia → int64 b = some ib →
      Got h j m → x ∈ items m → Informs carries h i j
  | refused {i j name s x} : Reserved carries h s [s!! "sadd"] →
      (∀ n name xs, n ≠ j → Sent carries h n (name :: s :: xs) → lower name = s!! "sadd" → x ∈ xs → n = i) →
      Sent carries h j [name, s, x] → lower name = s!! "sadd" → Got h j (.int 0) → Informs carries h i j
  | counted {i j rj c m} {ps : List Nat} : Reserved carries h c counters → ps.length < 2 ^ 63 →
      (∀ n r d, Sent carries h n r → Adds c r d → d = 1 ∧ n ∈ ps) →
      Sent carries h j rj → On (s!! "get") c rj → Got h j m → CountsAs m ps.length → i ∈ ps → Informs carries h i j

/-- Word of request `i` reached request `j`, in any number of steps. -/
inductive Reaches (carries : Str → List Str → Prop) (h : List Ev) : Nat → Nat → Prop where
  | one {i j} : Informs carries h i j → Reaches carries h i j
  | step {i j k} : Reaches carries h i j → Informs carries h j k → Reaches carries h i k

end CoordSpec
