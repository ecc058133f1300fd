import Verif.Model.ShardMap
import Verif.Model.F64
import Verif.Model.Strconv
/-!
# datastruct/sorted_set.go, skip list and `zSet` object (lines 17-571)

Nodes live in a heap private to the sorted set; an address is an index into `nodes`, nil is `none`, the
list head is address 0.  Spans are `uint` (arithmetic modulo 2^64).  The random heights are drawn from an
arbitrary stream.  `fmt.Println` debugging output (lines 318, 484) is not modelled.
-/
namespace Godis

/-- sorted_set.go:60-63 `zSkipListLeve` -/
structure ZLevel where
  forward : Option Nat
  span : Nat
deriving DecidableEq, Repr

/-- sorted_set.go:53-58 `zSkipListNode` -/
structure ZNode where
  value : Bytes
  score : F64
  backward : Option Nat
  levels : List ZLevel
deriving DecidableEq, Repr

/-- sorted_set.go:47-51 `zSkipList` with the heap of its nodes (`head` = address 0).  `tail` is written by
`insert` and never read. -/
structure ZSL where
  nodes : List ZNode
  tail : Option Nat
  length : Int
  level : Nat
deriving DecidableEq, Repr

/-- sorted_set.go:70 `ZSkipListMaxLevel` -/
def maxLevel : Nat := 32

/-- sorted_set.go:95-107 `newZslNode` -/
def newZslNode (level : Nat) (score : F64) (value : Bytes) : ZNode :=
  ⟨value, score, none, List.replicate level ⟨none, 0⟩⟩

/-- sorted_set.go:73-80 `newZSkipList` -/
def ZSL.empty : ZSL := ⟨[newZslNode maxLevel 0 []], none, 0, 1⟩

/-- sorted_set.go:109-124 `zslRandomLevel`: `successes` is the number of consecutive successful draws
before the first failing one (a run without failing draw is not modelled). -/
def zslRandomLevel (successes : Nat) : Nat := if 1 + successes < maxLevel then 1 + successes else maxLevel

/-- The stream of random outcomes; drawing takes the first and shifts. -/
abbrev Rng := Nat → Nat

namespace ZSL

/-- dereference of a node address -/
def load (h : List ZNode) (x : Nat) : Go ZNode :=
  match h[x]? with
  | some n => .ok n
  | none => .error .nilDeref

/-- `x.levels[i]` -/
def level? (h : List ZNode) (x i : Nat) : Go ZLevel := do
  let n ← load h x
  match n.levels[i]? with
  | some l => .ok l
  | none => .error .indexOutOfRange

/-- `x.levels[i] = l` (both fields) -/
def setLevel (h : List ZNode) (x i : Nat) (l : ZLevel) : Go (List ZNode) := do
  let n ← load h x
  match n.levels[i]? with
  | some _ => .ok (h.set x { n with levels := n.levels.set i l })
  | none => .error .indexOutOfRange

/-- `x.backward = p` -/
def setBackward (h : List ZNode) (x : Nat) (p : Option Nat) : Go (List ZNode) := do
  let n ← load h x
  .ok (h.set x { n with backward := p })

/-- `x.score = s` -/
def setScore (h : List ZNode) (x : Nat) (s : F64) : Go (List ZNode) := do
  let n ← load h x
  .ok (h.set x { n with score := s })

/-- the comparison at sorted_set.go:146-148, 202-204, 265-267: the node is before (score, value) -/
def before (n : ZNode) (score : F64) (value : Bytes) : Bool :=
  n.score.lt score || (n.score.eq score && bytesLt n.value value)

/-- the comparison at sorted_set.go:295-297 (`<=` on values) -/
def beforeOrAt (n : ZNode) (score : F64) (value : Bytes) : Bool :=
  n.score.lt score || (n.score.eq score && !bytesLt value n.value)

/-- the inner loops `for x.levels[i].forward != nil && cond { rank += span; x = forward }`
(sorted_set.go:145-151, 201-206): walk at level `i`, summing spans. -/
def walk (h : List ZNode) (i : Nat) (cond : ZNode → Bool) : (fuel : Nat) → (x rank : Nat) → Go (Nat × Nat)
  | 0, _, _ => .error .diverge
  | fuel + 1, x, rank => do
    let l ← level? h x i
    match l.forward with
    | none => .ok (x, rank)
    | some y => do
      let n ← load h y
      if cond n then walk h i cond fuel y (uadd rank l.span) else .ok (x, rank)

/-- The `update`/`rank` arrays filled by the descent. -/
structure Descent where
  update : Nat → Option Nat
  rank : Nat → Nat

/-- array store -/
def upd {α : Type} (f : Nat → α) (i : Nat) (v : α) : Nat → α := fun j => if j = i then v else f j

/-- the descent sorted_set.go:142-154 of `insert`: `k` levels remain (the next index is `k-1`).
`rank[i+1]` is an argument of `tripleOp`, so it is evaluated even when not used: index 32 panics. -/
def insertDescent (h : List ZNode) (top : Nat) (score : F64) (value : Bytes) :
    (k : Nat) → (x : Nat) → Descent → Go (Nat × Descent)
  | 0, x, d => .ok (x, d)
  | i + 1, x, d =>
    if i + 1 ≥ maxLevel then .error .indexOutOfRange
    else do
      let r0 := if i + 1 = top then 0 else d.rank (i + 1)
      let (x, r) ← walk h i (before · score value) (h.length + 1) x r0
      insertDescent h top score value i x ⟨upd d.update i (some x), upd d.rank i r⟩

/-- the loop sorted_set.go:158-162: new levels `i .. i+k-1` start at the head -/
def raiseLevels (len : Int) : (k i : Nat) → List ZNode → Descent → Go (List ZNode × Descent)
  | 0, _, h, d => .ok (h, d)
  | k + 1, i, h, d => do
    let l ← level? h 0 i
    let h ← setLevel h 0 i ⟨l.forward, toUint len⟩
    raiseLevels len k (i + 1) h ⟨upd d.update i (some 0), upd d.rank i 0⟩

/-- `update[i]` used as a node -/
def updAt (d : Descent) (i : Nat) : Go Nat :=
  match d.update i with
  | some u => .ok u
  | none => .error .nilDeref

/-- the loop sorted_set.go:168-174: link the new node `x` at levels `i .. i+k-1` -/
def linkLevels (x : Nat) (d : Descent) : (k i : Nat) → List ZNode → Go (List ZNode)
  | 0, _, h => .ok h
  | k + 1, i, h => do
    let u ← updAt d i
    let lu ← level? h u i
    let gap := usub (d.rank 0) (d.rank i)
    let h ← setLevel h x i ⟨lu.forward, usub lu.span gap⟩
    let h ← setLevel h u i ⟨some x, uadd gap 1⟩
    linkLevels x d k (i + 1) h

/-- the loop sorted_set.go:176-178: levels above the new node get one wider -/
def widenLevels (d : Descent) : (k i : Nat) → List ZNode → Go (List ZNode)
  | 0, _, h => .ok h
  | k + 1, i, h => do
    let u ← updAt d i
    let lu ← level? h u i
    let h ← setLevel h u i ⟨lu.forward, uadd lu.span 1⟩
    widenLevels d k (i + 1) h

/-- sorted_set.go:134-192 `insert`; `draw` is the random outcome.  Returns the new node's address. -/
def insert (z : ZSL) (score : F64) (value : Bytes) (draw : Nat) : Go (ZSL × Nat) := do
  let (_, d) ← insertDescent z.nodes z.level score value z.level 0 ⟨fun _ => none, fun _ => 0⟩
  let lvl := zslRandomLevel draw
  let (h, d) ← raiseLevels z.length (lvl - z.level) z.level z.nodes d
  let newLevel := if lvl > z.level then lvl else z.level
  let x := h.length
  let h := h ++ [newZslNode lvl score value]
  let h ← linkLevels x d lvl 0 h
  let h ← widenLevels d (newLevel - lvl) lvl h
  let u0 ← updAt d 0
  let h ← if u0 ≠ 0 then setBackward h x (some u0) else .ok h
  let l0 ← level? h x 0
  match l0.forward with
  | some y => do
    let h ← setBackward h y (some x)
    .ok (⟨h, z.tail, z.length + 1, newLevel⟩, x)
  | none => .ok (⟨h, some x, z.length + 1, newLevel⟩, x)

/-- the loop sorted_set.go:230-241 of `deleteNode` -/
def unlinkLevels (node : Nat) (update : Nat → Option Nat) : (k i : Nat) → List ZNode → Go (List ZNode)
  | 0, _, h => .ok h
  | k + 1, i, h => do
    let u ← updAt ⟨update, fun _ => 0⟩ i
    let lu ← level? h u i
    if lu.forward = some node then
      let ln ← level? h node i
      let h ← setLevel h u i ⟨ln.forward, uadd lu.span (usub ln.span 1)⟩
      unlinkLevels node update k (i + 1) h
    else
      let h ← setLevel h u i ⟨lu.forward, usub lu.span 1⟩
      unlinkLevels node update k (i + 1) h

/-- the loop sorted_set.go:249-251: drop empty top levels -/
def shrinkLevel (h : List ZNode) : (level : Nat) → Go Nat
  | 0 => .ok 0
  | 1 => .ok 1
  | l + 2 => do
    let c ← level? h 0 (l + 1)
    if c.forward = none then shrinkLevel h (l + 1) else .ok (l + 2)

/-- sorted_set.go:229-254 `deleteNode` -/
def deleteNode (z : ZSL) (node : Nat) (update : Nat → Option Nat) : Go ZSL := do
  let h ← unlinkLevels node update z.level 0 z.nodes
  let l0 ← level? h node 0
  let n ← load h node
  let h ← match l0.forward with
    | some y => setBackward h y n.backward
    | none => .ok h
  let level ← shrinkLevel h z.level
  .ok ⟨h, z.tail, z.length - 1, level⟩

/-- the descent sorted_set.go:199-208 of `updateScore` (a full search) -/
def searchDescent (h : List ZNode) (score : F64) (value : Bytes) :
    (k : Nat) → (x : Nat) → (Nat → Option Nat) → Go (Nat × (Nat → Option Nat))
  | 0, x, u => .ok (x, u)
  | i + 1, x, u => do
    let (x, _) ← walk h i (before · score value) (h.length + 1) x 0
    searchDescent h score value i x (upd u i (some x))

/-- sorted_set.go:195-227 `updateScore`; `none` = nil.  Also returns the remaining random stream. -/
def updateScore (z : ZSL) (curScore newScore : F64) (value : Bytes) (rng : Rng) :
    Go (ZSL × Option Nat × Rng) := do
  let (x, update) ← searchDescent z.nodes curScore value z.level 0 (fun _ => none)
  let l ← level? z.nodes x 0
  match l.forward with
  | none => .ok (z, none, rng)
  | some x => do
    let n ← load z.nodes x
    if !(n.score.eq curScore) || n.value ≠ value then .ok (z, none, rng)
    else
      let okBack ← match n.backward with
        | none => .ok true
        | some b => do let nb ← load z.nodes b; .ok (nb.score.lt newScore)
      -- `&&` is short-circuit, but evaluating the right operand has no side effect
      let l0 ← level? z.nodes x 0
      let okFwd ← match l0.forward with
        | none => .ok true
        | some f => do let nf ← load z.nodes f; .ok (newScore.lt nf.score)
      if okBack && okFwd then do
        let h ← setScore z.nodes x newScore
        .ok ({ z with nodes := h }, some x, rng)
      else do
        let z ← deleteNode z x update
        let (z, y) ← insert z newScore value (rng 0)
        .ok (z, some y, fun i => rng (i + 1))

/-- the descent sorted_set.go:263-272 of `delete`: an `if` where `updateScore` has a loop, so at most one
step per level. -/
def deleteDescent (h : List ZNode) (score : F64) (value : Bytes) :
    (k : Nat) → (x : Nat) → (Nat → Option Nat) → Go (Nat × (Nat → Option Nat))
  | 0, x, u => .ok (x, u)
  | i + 1, x, u => do
    let l ← level? h x i
    let x ← match l.forward with
      | none => .ok x
      | some y => do
        let n ← load h y
        .ok (if before n score value then y else x)
    deleteDescent h score value i x (upd u i (some x))

/-- sorted_set.go:258-286 `delete` (all callers pass a nil `node`) -/
def delete (z : ZSL) (score : F64) (value : Bytes) : Go (ZSL × Nat) := do
  let (x, update) ← deleteDescent z.nodes score value z.level 0 (fun _ => none)
  let l ← level? z.nodes x 0
  match l.forward with
  | none => .ok (z, 0)
  | some x => do
    let n ← load z.nodes x
    if n.score.eq score && n.value == value then do
      let z ← deleteNode z x update
      .ok (z, 1)
    else .ok (z, 0)

/-- the inner loop sorted_set.go:294-303 of `rank`; the flag says the node was reached (`break LevelLoop`) -/
def rankWalk (h : List ZNode) (i : Nat) (score : F64) (value : Bytes) :
    (fuel : Nat) → (x rank : Nat) → Go (Nat × Nat × Bool)
  | 0, _, _ => .error .diverge
  | fuel + 1, x, rank => do
    let l ← level? h x i
    match l.forward with
    | none => .ok (x, rank, false)
    | some y => do
      let n ← load h y
      if beforeOrAt n score value then
        let rank := uadd rank l.span
        if n.score.eq score && n.value == value then .ok (y, rank, true)
        else rankWalk h i score value fuel y rank
      else .ok (x, rank, false)

/-- the outer loop of `rank` -/
def rankLoop (h : List ZNode) (score : F64) (value : Bytes) : (k : Nat) → (x rank : Nat) → Go Nat
  | 0, _, rank => .ok rank
  | i + 1, x, rank => do
    let (x, rank, found) ← rankWalk h i score value (h.length + 1) x rank
    if found then .ok rank else rankLoop h score value i x rank

/-- sorted_set.go:289-307 `rank` -/
def rank (z : ZSL) (score : F64) (value : Bytes) : Go Nat := rankLoop z.nodes score value z.level 0 0

/-- the inner loop sorted_set.go:345-364 of `minScoreRank`.  `x` just moved to is tested: `x.score > score`
cannot hold there (the loop condition was `<=`), so the break happens exactly when the interval is open
and the scores are equal; the code is followed literally. -/
def minWalk (h : List ZNode) (i : Nat) (score : F64) (openI : Bool) :
    (fuel : Nat) → (x rank : Nat) → Go (Nat × Nat × Bool)
  | 0, _, _ => .error .diverge
  | fuel + 1, x, rank => do
    let l ← level? h x i
    match l.forward with
    | none => .ok (x, rank, false)
    | some y => do
      let n ← load h y
      if n.score.le score then
        let rank := uadd rank l.span
        let cur ← load h x
        if score.lt n.score || (openI && n.score.eq score) then
          let rank := if cur.score.lt score && score.lt n.score then uadd rank 1 else rank
          let rank := if n.score.eq score && openI then uadd rank 1 else rank
          .ok (y, rank, true)
        else minWalk h i score openI fuel y rank
      else .ok (x, rank, false)

/-- the outer loop of `minScoreRank` -/
def minLoop (h : List ZNode) (score : F64) (openI : Bool) : (k : Nat) → (x rank : Nat) → Go Nat
  | 0, _, rank => .ok rank
  | i + 1, x, rank => do
    let (x, rank, stop) ← minWalk h i score openI (h.length + 1) x rank
    if stop then .ok rank else minLoop h score openI i x rank

/-- sorted_set.go:333-368 `minScoreRank` -/
def minScoreRank (z : ZSL) (score : F64) (openI : Bool) : Go Int :=
  if score.isInf then .ok (-1)
  else do
    let r ← minLoop z.nodes score openI z.level 0 0
    .ok (ofUint r)

/-- the inner loop sorted_set.go:382-395 of `maxScoreRank` -/
def maxWalk (h : List ZNode) (i : Nat) (score : F64) (openI : Bool) :
    (fuel : Nat) → (x rank : Nat) → Go (Nat × Nat × Bool)
  | 0, _, _ => .error .diverge
  | fuel + 1, x, rank => do
    let l ← level? h x i
    match l.forward with
    | none => .ok (x, rank, false)
    | some y => do
      let n ← load h y
      if n.score.le score then
        let rank := uadd rank l.span
        if score.lt n.score || (openI && n.score.eq score) then
          let rank := if n.score.eq score && openI then usub rank 1 else rank
          .ok (y, rank, true)
        else maxWalk h i score openI fuel y rank
      else .ok (x, rank, false)

/-- the outer loop of `maxScoreRank` -/
def maxLoop (h : List ZNode) (score : F64) (openI : Bool) : (k : Nat) → (x rank : Nat) → Go Nat
  | 0, _, rank => .ok rank
  | i + 1, x, rank => do
    let (x, rank, stop) ← maxWalk h i score openI (h.length + 1) x rank
    if stop then .ok rank else maxLoop h score openI i x rank

/-- sorted_set.go:371-399 `maxScoreRank` -/
def maxScoreRank (z : ZSL) (score : F64) (openI : Bool) : Go Int :=
  if score.isInf then .ok (-1)
  else do
    let r ← maxLoop z.nodes score openI z.level 0 0
    .ok (ofUint r)

/-- sorted_set.go:310-330 `count` -/
def count (z : ZSL) (min : F64) (minOpen : Bool) (max : F64) (maxOpen : Bool) : Go Int :=
  if min.isNegInf && max.isPosInf then .ok z.length
  else do
    let minRank ← minScoreRank z min minOpen
    let maxRank ← maxScoreRank z max maxOpen
    if minRank ≤ 0 then .ok maxRank
    else if maxRank < 0 then .ok (z.length - minRank + 1)
    else .ok (maxRank - minRank + 1)

/-- the inner loop sorted_set.go:504-507 of `findElementByRank` -/
def findWalk (h : List ZNode) (i rank : Nat) : (fuel : Nat) → (x traversed : Nat) → Go (Nat × Nat)
  | 0, _, _ => .error .diverge
  | fuel + 1, x, traversed => do
    let l ← level? h x i
    match l.forward with
    | none => .ok (x, traversed)
    | some y =>
      if uadd traversed l.span ≤ rank then findWalk h i rank fuel y (uadd traversed l.span)
      else .ok (x, traversed)

/-- the outer loop of `findElementByRank` -/
def findLoop (h : List ZNode) (rank : Nat) : (k : Nat) → (x traversed : Nat) → Go (Option Nat)
  | 0, _, _ => .ok none
  | i + 1, x, traversed => do
    let (x, traversed) ← findWalk h i rank (h.length + 1) x traversed
    if traversed = rank then .ok (some x) else findLoop h rank i x traversed

/-- sorted_set.go:497-514 `findElementByRank` -/
def findElementByRank (z : ZSL) (rank : Nat) : Go (Option Nat) := findLoop z.nodes rank z.level 0 0

/-- the loop sorted_set.go:425-433 of `zRange`: collect `k` nodes following `levels[0].forward` -/
def collectFwd (ext : Ext) (h : List ZNode) (withScores : Bool) : (k : Nat) → Option Nat → Go (List Bytes)
  | 0, _ => .ok []
  | _ + 1, none => .error .nilDeref
  | k + 1, some x => do
    let n ← load h x
    let l ← level? h x 0
    let rest ← collectFwd ext h withScores k l.forward
    .ok (n.value :: (if withScores then ext.formatFloat n.score :: rest else rest))

/-- the loop sorted_set.go:463-471 of `zRevRange` -/
def collectBwd (ext : Ext) (h : List ZNode) (withScores : Bool) : (k : Nat) → Option Nat → Go (List Bytes)
  | 0, _ => .ok []
  | _ + 1, none => .error .nilDeref
  | k + 1, some x => do
    let n ← load h x
    let rest ← collectBwd ext h withScores k n.backward
    .ok (n.value :: (if withScores then ext.formatFloat n.score :: rest else rest))

/-- sorted_set.go:402-418 / 440-456: index normalisation; `none` = return nil -/
def normRange (len start stop : Int) : Option (Int × Int) :=
  let start := if start < 0 then (if start + len < 0 then 0 else start + len) else start
  let stop := if stop < 0 then stop + len else stop
  if start > stop ∨ start ≥ len then none
  else some (start, if stop ≥ len then len - 1 else stop)

/-- sorted_set.go:401-436 `zRange` -/
def zRange (ext : Ext) (z : ZSL) (start stop : Int) (withScores : Bool) : Go (List Bytes) :=
  match normRange z.length start stop with
  | none => .ok []
  | some (start, stop) => do
    let node ← findElementByRank z (uadd (toUint start) 1)
    collectFwd ext z.nodes withScores (stop - start + 1).toNat node

/-- sorted_set.go:439-474 `zRevRange` -/
def zRevRange (ext : Ext) (z : ZSL) (start stop : Int) (withScores : Bool) : Go (List Bytes) :=
  match normRange z.length start stop with
  | none => .ok []
  | some (start, stop) => do
    let node ← findElementByRank z (uadd (toUint stop) 1)
    collectBwd ext z.nodes withScores (stop - start + 1).toNat node

/-- sorted_set.go:476-495 `zRangeByScore` -/
def zRangeByScore (ext : Ext) (z : ZSL) (min : F64) (minOpen : Bool) (max : F64) (maxOpen : Bool)
    (withScores : Bool) : Go (List Bytes) :=
  if min.isNegInf && max.isPosInf then zRange ext z 0 z.length withScores
  else do
    let minRank ← minScoreRank z min minOpen
    let maxRank ← maxScoreRank z max maxOpen
    if minRank ≤ 0 then zRange ext z 0 (maxRank - 1) withScores
    else if maxRank < 0 then zRange ext z (minRank - 1) z.length withScores
    else zRange ext z (minRank - 1) (maxRank - 1) withScores

end ZSL

/-- sorted_set.go:17-22 `zSet`.  A dict entry (sorted_set.go:31-45) holds `&node.score`: it is modelled by
the address of that node. -/
structure ZObj where
  m : SMap Nat
  zsl : ZSL

/-- the ZADD flags (datastruct/consts.go:26-31) -/
structure ZAddFlags where
  incr : Bool := false
  nx : Bool := false
  xx : Bool := false
deriving DecidableEq, Repr

namespace ZObj

/-- sorted_set.go:24-29 `newZSet` -/
def empty : ZObj := ⟨SMap.empty, ZSL.empty⟩

/-- sorted_set.go:516-553 `zAdd`: returns the set, the node returned (`none` = nil) and the random stream -/
def zAdd (ext : Ext) (zs : ZObj) (score : F64) (value : Bytes) (flag : ZAddFlags) (rng : Rng) :
    Go (ZObj × Option Nat × Rng) := do
  match zs.m.get value with
  | none =>
    if flag.xx then .ok (zs, none, rng)
    else do
      let (z, x) ← zs.zsl.insert score value (rng 0)
      .ok (⟨zs.m.set value x, z⟩, some x, fun i => rng (i + 1))
  | some de =>
    if flag.nx then .ok (zs, none, rng)
    else do
      let n ← ZSL.load zs.zsl.nodes de
      let oldScore := n.score
      let score := if flag.incr then ext.fadd score oldScore else score
      if !(score.eq oldScore) then do
        let (z, node, rng) ← zs.zsl.updateScore oldScore score value rng
        match node with
        | none => .ok (⟨zs.m, z⟩, none, rng)
        | some x => .ok (⟨zs.m.set value x, z⟩, some x, rng)
      else .ok (zs, none, rng)

/-- the loop sorted_set.go:610-615 of `ZAdd`: the number of members added or changed -/
def zAddAll (ext : Ext) (flag : ZAddFlags) : ZObj → List (F64 × Bytes) → Rng → Go (ZObj × Int × Rng)
  | zs, [], rng => .ok (zs, 0, rng)
  | zs, (sc, v) :: ms, rng => do
    let (zs, node, rng) ← zs.zAdd ext sc v flag rng
    let (zs, cnt, rng) ← zAddAll ext flag zs ms rng
    .ok (zs, (if node.isSome then cnt + 1 else cnt), rng)

/-- the loop sorted_set.go:655-665 of `ZRem` -/
def zRemAll : ZObj → List Bytes → Go (ZObj × Int)
  | zs, [] => .ok (zs, 0)
  | zs, v :: vs => do
    let (m, de) := zs.m.loadAndDelete v
    match de with
    | none => zRemAll ⟨m, zs.zsl⟩ vs
    | some x => do
      let n ← ZSL.load zs.zsl.nodes x
      let (z, _) ← zs.zsl.delete n.score v
      let (zs, cnt) ← zRemAll ⟨m, z⟩ vs
      .ok (zs, cnt + 1)

/-- the loop sorted_set.go:785-798 of `ZPopMin` -/
def zPopMinLoop (ext : Ext) : (k : Nat) → ZSL → Go (ZSL × List Bytes)
  | 0, z => .ok (z, [])
  | k + 1, z => do
    match ← z.findElementByRank 1 with
    | none => .ok (z, [])
    | some x => do
      let n ← ZSL.load z.nodes x
      let (z, _) ← z.delete n.score n.value
      let (z, rest) ← zPopMinLoop ext k z
      .ok (z, n.value :: ext.formatFloat n.score :: rest)

/-- the loop sorted_set.go:807-820 of `ZPopMax` -/
def zPopMaxLoop (ext : Ext) : (k : Nat) → ZSL → Go (ZSL × List Bytes)
  | 0, z => .ok (z, [])
  | k + 1, z => do
    match ← z.findElementByRank (toUint z.length) with
    | none => .ok (z, [])
    | some x => do
      let n ← ZSL.load z.nodes x
      let (z, _) ← z.delete n.score n.value
      let (z, rest) ← zPopMaxLoop ext k z
      .ok (z, n.value :: ext.formatFloat n.score :: rest)

end ZObj
end Godis
