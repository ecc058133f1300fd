import Verif.Model.Basic
/-!
# lib/shard_map/shard_map.go

A Go `map[string]interface{}` is an association list; its iteration order is not the list order but an
arbitrary permutation supplied by `Iter`.
-/
namespace Godis

/-- Go's `map[string]V` (shard_map.go:13 `items`). -/
abbrev GoMap (V : Type) := List (Bytes × V)

namespace GoMap
variable {V : Type}

/-- `v, ok := m[k]` -/
def get (m : GoMap V) (k : Bytes) : Option V :=
  match m with
  | [] => none
  | (k', v) :: m => if k' = k then some v else get m k

/-- `m[k] = v` -/
def set (m : GoMap V) (k : Bytes) (v : V) : GoMap V :=
  match m with
  | [] => [(k, v)]
  | (k', v') :: m => if k' = k then (k, v) :: m else (k', v') :: set m k v

/-- `delete(m, k)` -/
def del (m : GoMap V) (k : Bytes) : GoMap V :=
  match m with
  | [] => []
  | (k', v') :: m => if k' = k then m else (k', v') :: del m k

/-- the keys, in storage order -/
def keys (m : GoMap V) : List Bytes := m.map (·.1)

end GoMap

/-- An iteration order for `for k, v := range m`: for shard `i` whose keys are `l` the loop visits
`f i l`, which is some permutation of `l` (the Go specification leaves the order open). -/
structure Iter where
  f : Nat → List Bytes → List Bytes
  perm : ∀ i l, (f i l).Perm l

/-- shard_map.go:5 `shardCount` -/
def shardCount : Nat := 32

/-- shard_map.go:154-163 `fnv32` (uint32 arithmetic) -/
def fnv32 (key : Bytes) : Nat :=
  key.foldl (fun hash c => ((hash * 16777619) % 2 ^ 32) ^^^ c.toNat) 2166136261

/-- shard_map.go:150-152 `GetShard`: the index of the shard of a key. -/
def shardIdx (key : Bytes) : Fin 32 := ⟨fnv32 key % shardCount, Nat.mod_lt _ (by decide)⟩

/-- shard_map.go:8 `Map`: 32 shards. -/
structure SMap (V : Type) where
  shards : Fin 32 → GoMap V

namespace SMap
variable {V : Type}

/-- shard_map.go:16-23 `New` -/
def empty : SMap V := ⟨fun _ => []⟩

/-- replace one shard -/
def upd (m : SMap V) (i : Fin 32) (g : GoMap V) : SMap V :=
  ⟨fun j => if j = i then g else m.shards j⟩

/-- shard_map.go:25-30 `Get` -/
def get (m : SMap V) (key : Bytes) : Option V := (m.shards (shardIdx key)).get key

/-- shard_map.go:32-36 `Has` -/
def has (m : SMap V) (key : Bytes) : Bool := (m.get key).isSome

/-- shard_map.go:38-41 `Set` -/
def set (m : SMap V) (key : Bytes) (v : V) : SMap V :=
  m.upd (shardIdx key) ((m.shards (shardIdx key)).set key v)

/-- shard_map.go:43-52 `SetIfAbsent` -/
def setIfAbsent (m : SMap V) (key : Bytes) (v : V) : SMap V × Bool :=
  if m.has key then (m, false) else (m.set key v, true)

/-- shard_map.go:76-79 `Delete` -/
def del (m : SMap V) (key : Bytes) : SMap V :=
  m.upd (shardIdx key) ((m.shards (shardIdx key)).del key)

/-- shard_map.go:54-63 `DeleteIfExists` -/
def deleteIfExists (m : SMap V) (key : Bytes) : SMap V × Bool :=
  if m.has key then (m.del key, true) else (m, false)

/-- shard_map.go:65-74 `LoadAndDelete` -/
def loadAndDelete (m : SMap V) (key : Bytes) : SMap V × Option V :=
  match m.get key with
  | none => (m, none)
  | some v => (m.del key, some v)

/-- shard_map.go:113-122 `Upsert`; the callback returns the result and whether to abort. -/
def upsert {R : Type} (m : SMap V) (key : Bytes) (f : Option V → Except R V) : SMap V × Except R V :=
  match f (m.get key) with
  | .error r => (m, .error r)
  | .ok v => (m.set key v, .ok v)

/-- The entries of one shard in the order the `range` loop visits them. -/
def shardEntries (it : Iter) (m : SMap V) (i : Fin 32) : List (Bytes × V) :=
  (it.f i.val (m.shards i).keys).filterMap
    (fun k => ((m.shards i).get k).map (fun v => (k, v)))

/-- The entries in the order `Range` (shard_map.go:81-90) visits them when the callback never stops it:
shards in index order, each shard in the order chosen by `it`. -/
def entries (it : Iter) (m : SMap V) : List (Bytes × V) :=
  (List.finRange 32).flatMap (m.shardEntries it)

/-- shard_map.go:124-134 `Keys` -/
def keys (it : Iter) (m : SMap V) : List Bytes := (m.entries it).map (·.1)

/-- shard_map.go:81-90 `Range` with a callback that threads `σ` and never stops the loop. -/
def range {σ : Type} (it : Iter) (m : SMap V) (f : σ → Bytes → V → σ) (s : σ) : σ :=
  (m.entries it).foldl (fun s kv => f s kv.1 kv.2) s

/-- The loop of `RangeAndDelete` over the remaining entries.  Deleting the current entry while ranging
over a Go map does not affect the entries still to come, so iterating over the initial entries is
exact. -/
def rangeAndDeleteLoop {σ : Type} (f : σ → Bytes → V → σ × Bool × Bool) :
    List (Bytes × V) → SMap V → σ → SMap V × σ
  | [], m, s => (m, s)
  | (k, v) :: es, m, s =>
    let (s', d, rng) := f s k v
    let m' := if d then m.del k else m
    if rng then rangeAndDeleteLoop f es m' s' else (m', s')

/-- shard_map.go:92-106 `RangeAndDelete`; the callback returns `(state, del, rng)`. -/
def rangeAndDelete {σ : Type} (it : Iter) (m : SMap V) (f : σ → Bytes → V → σ × Bool × Bool) (s : σ) :
    SMap V × σ :=
  rangeAndDeleteLoop f (m.entries it) m s

end SMap
end Godis
