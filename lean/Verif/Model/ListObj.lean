import Verif.Model.Basic
/-!
# datastruct/list.go, the `List` object (lines 8-395)

Nodes live in a heap private to the list object; an address is an index into `nodes`, nil is `none`.
Freed nodes are never reused (garbage collection is not modelled).
-/
namespace Godis

/-- list.go:13-16 `listNode` -/
structure LNode where
  next : Option Nat
  prev : Option Nat
  value : Bytes
deriving DecidableEq, Repr

/-- list.go:8-11 `List`, together with the heap of its nodes. -/
structure LObj where
  length : Int
  head : Option Nat
  tail : Option Nat
  nodes : List LNode
deriving DecidableEq, Repr

namespace LObj

/-- `new(List)` -/
def empty : LObj := ⟨0, none, none, []⟩

/-- dereference of a node pointer -/
def load (h : List LNode) (p : Option Nat) : Go LNode :=
  match p with
  | none => .error .nilDeref
  | some a => match h[a]? with
    | some n => .ok n
    | none => .error .nilDeref

/-- `p.next = v` -/
def setNext (h : List LNode) (p v : Option Nat) : Go (List LNode) :=
  match p with
  | none => .error .nilDeref
  | some a => match h[a]? with
    | some n => .ok (h.set a { n with next := v })
    | none => .error .nilDeref

/-- `p.prev = v` -/
def setPrev (h : List LNode) (p v : Option Nat) : Go (List LNode) :=
  match p with
  | none => .error .nilDeref
  | some a => match h[a]? with
    | some n => .ok (h.set a { n with prev := v })
    | none => .error .nilDeref

/-- `p.value = v` -/
def setValue (h : List LNode) (p : Option Nat) (v : Bytes) : Go (List LNode) :=
  match p with
  | none => .error .nilDeref
  | some a => match h[a]? with
    | some n => .ok (h.set a { n with value := v })
    | none => .error .nilDeref

/-- `if p != nil { p.prev = v }` -/
def setPrevIf (h : List LNode) (p v : Option Nat) : Go (List LNode) :=
  match p with
  | none => .ok h
  | some _ => setPrev h p v

/-- `if p != nil { p.next = v }` -/
def setNextIf (h : List LNode) (p v : Option Nat) : Go (List LNode) :=
  match p with
  | none => .ok h
  | some _ => setNext h p v

/-- list.go:82-92 `List.LPush` (with list.go:42-48 `addToHead`) -/
def lPush (l : LObj) (val : Bytes) : Go LObj := do
  let a := l.nodes.length
  match l.head with
  | some h =>
    -- addToHead: node := newListNode(val); n.prev = node; node.next = n
    let nodes ← setPrev (l.nodes ++ [⟨some h, none, val⟩]) (some h) (some a)
    .ok ⟨l.length + 1, some a, l.tail, nodes⟩
  | none => .ok ⟨l.length + 1, some a, some a, l.nodes ++ [⟨none, none, val⟩]⟩

/-- list.go:109-119 `List.RPush` (with list.go:74-80 `addToTail`) -/
def rPush (l : LObj) (val : Bytes) : Go LObj := do
  let a := l.nodes.length
  match l.tail with
  | some t =>
    let nodes ← setNext (l.nodes ++ [⟨none, some t, val⟩]) (some t) (some a)
    .ok ⟨l.length + 1, l.head, some a, nodes⟩
  | none => .ok ⟨l.length + 1, some a, some a, l.nodes ++ [⟨none, none, val⟩]⟩

/-- list.go:94-107 `List.LPop` (with list.go:51-60 `popAndNext`); `none` = `("", false)` -/
def lPop (l : LObj) : Go (LObj × Option Bytes) := do
  match l.head with
  | none => .ok (l, none)
  | some a =>
    let n ← load l.nodes (some a)
    let next := n.next
    let nodes ← setNext l.nodes (some a) none
    let nodes ← setPrevIf nodes next none
    .ok (⟨l.length - 1, next, if next = none then none else l.tail, nodes⟩, some n.value)

/-- list.go:121-134 `List.RPop` (with list.go:63-72 `popAndPrev`) -/
def rPop (l : LObj) : Go (LObj × Option Bytes) := do
  match l.tail with
  | none => .ok (l, none)
  | some a =>
    let n ← load l.nodes (some a)
    let prev := n.prev
    let nodes ← setPrev l.nodes (some a) none
    let nodes ← setNextIf nodes prev none
    .ok (⟨l.length - 1, if prev = none then none else l.head, prev, nodes⟩, some n.value)

/-- the loop list.go:165-172; `k` bounds the iterations (`stop + 1 - idx`) -/
def lRangeLoop (h : List LNode) (start : Int) : (k : Nat) → (cur : Option Nat) → (idx : Int) → Go (List Bytes)
  | 0, _, _ => .ok []
  | k + 1, cur, idx =>
    match cur with
    | none => .ok []
    | some _ => do
      let n ← load h cur
      let rest ← lRangeLoop h start k n.next (idx + 1)
      .ok (if idx ≥ start then n.value :: rest else rest)

/-- list.go:136-175 `List.LRange` -/
def lRange (l : LObj) (start stop : Int) : Go (List Bytes) :=
  if l.head = none then .ok []
  else
    let start := if start < 0 then (if start + l.length < 0 then 0 else start + l.length) else start
    let stop := if stop < 0 then stop + l.length else stop
    if start > stop ∨ start > l.length then .ok []
    else
      let stop := if stop ≥ l.length then l.length - 1 else stop
      lRangeLoop l.nodes start (stop + 1).toNat l.head 0

/-- the loop list.go:193-213; returns the heap, `prev` and `cnt` at loop exit.  `fuel` bounds the nodes
visited. -/
def lRemHeadLoop (value : Bytes) : (fuel : Nat) → List LNode → (prev cur next : Option Nat) → (n cnt : Int) →
    Go (List LNode × Option Nat × Int)
  | 0, h, prev, cur, _, n, cnt =>
    if cur = none ∨ n ≤ 0 then .ok (h, prev, cnt) else .error .diverge
  | fuel + 1, h, prev, cur, next, n, cnt =>
    if cur = none ∨ n ≤ 0 then .ok (h, prev, cnt)
    else do
      let c ← load h cur
      let next' (h : List LNode) : Go (Option Nat) :=
        match next with
        | none => .ok none
        | some _ => do let x ← load h next; .ok x.next
      if c.value = value then
        let h ← setNext h prev next
        let h ← setPrevIf h next prev
        let h ← setPrev h cur none
        let h ← setNext h cur none
        lRemHeadLoop value fuel h prev next (← next' h) (n - 1) (cnt + 1)
      else
        let p ← load h prev
        lRemHeadLoop value fuel h p.next next (← next' h) n cnt

/-- list.go:183-228 `LRemCountFromHead`; returns the number removed. -/
def lRemCountFromHead (l : LObj) (value : Bytes) (n : Int) : Go (LObj × Int) := do
  let dumb := l.nodes.length
  let h := l.nodes ++ [⟨l.head, none, []⟩]
  let hd ← load h l.head          -- l.head.next: nil dereference if the list has no head
  let (h, prev, cnt) ← lRemHeadLoop value h.length h (some dumb) l.head hd.next n 0
  let p ← load h prev
  let tail := if p.next = none then prev else l.tail
  let d ← load h (some dumb)
  let head := d.next
  let h ← setPrevIf h head none
  .ok (⟨l.length - cnt, head, tail, h⟩, cnt)

/-- the loop list.go:245-265 (`prev`/`next` are as named in the code: it walks backwards) -/
def lRemTailLoop (value : Bytes) : (fuel : Nat) → List LNode → (prev cur next : Option Nat) → (n cnt : Int) →
    Go (List LNode × Option Nat × Int)
  | 0, h, prev, cur, _, n, cnt =>
    if cur = none ∨ n ≤ 0 then .ok (h, prev, cnt) else .error .diverge
  | fuel + 1, h, prev, cur, next, n, cnt =>
    if cur = none ∨ n ≤ 0 then .ok (h, prev, cnt)
    else do
      let c ← load h cur
      let next' (h : List LNode) : Go (Option Nat) :=
        match next with
        | none => .ok none
        | some _ => do let x ← load h next; .ok x.prev
      if c.value = value then
        let h ← setPrev h prev next
        let h ← setNextIf h next prev
        let h ← setPrev h cur none
        let h ← setNext h cur none
        lRemTailLoop value fuel h prev next (← next' h) (n - 1) (cnt + 1)
      else
        let p ← load h prev
        lRemTailLoop value fuel h p.prev next (← next' h) n cnt

/-- list.go:231-281 `LRemCountFromTail` -/
def lRemCountFromTail (l : LObj) (value : Bytes) (n : Int) : Go (LObj × Int) := do
  let dumb := l.nodes.length
  let h := l.nodes ++ [⟨none, l.tail, []⟩]
  let tl ← load h l.tail
  let (h, prev, cnt) ← lRemTailLoop value h.length h (some dumb) l.tail tl.prev n 0
  let p ← load h prev
  let head := if p.prev = none then prev else l.head
  let d ← load h (some dumb)
  let tail := d.prev
  let h ← setNextIf h tail none
  .ok (⟨l.length - cnt, head, tail, h⟩, cnt)

/-- the loop list.go:307-315; `k = |i - idx|` iterations -/
def lIndexLoop (h : List LNode) (reverse : Bool) : (k : Nat) → (cur : Option Nat) → Go (Option Nat)
  | 0, cur => .ok cur
  | k + 1, cur => do
    let n ← load h cur
    lIndexLoop h reverse k (if reverse then n.prev else n.next)

/-- list.go:283-318 `lIndexNode`; Go's `/` truncates, `l.length` is never negative. -/
def lIndexNode (l : LObj) (i : Int) : Go (Option Nat) :=
  if l.head = none then .ok none
  else
    let i := if i < 0 then i + l.length else i
    if i ≥ l.length ∨ i < 0 then .ok none
    else
      let reverse := decide (i > l.length.tdiv 2 + 1)
      let idx := if reverse then l.length - 1 else 0
      let cur := if reverse then l.tail else l.head
      lIndexLoop l.nodes reverse (i - idx).natAbs cur

/-- list.go:320-327 `List.LIndex` -/
def lIndex (l : LObj) (i : Int) : Go (Option Bytes) := do
  match ← lIndexNode l i with
  | none => .ok none
  | some a => let n ← load l.nodes (some a); .ok (some n.value)

/-- list.go:329-337 `List.LSet` -/
def lSet (l : LObj) (i : Int) (val : Bytes) : Go (LObj × Bool) := do
  match ← lIndexNode l i with
  | none => .ok (l, false)
  | some a => let h ← setValue l.nodes (some a) val; .ok ({ l with nodes := h }, true)

/-- list.go:385-395 `findNode` -/
def findNode (h : List LNode) (val : Bytes) : (fuel : Nat) → Option Nat → Go (Option Nat)
  | _, none => .ok none
  | 0, some _ => .error .diverge
  | fuel + 1, some a => do
    let n ← load h (some a)
    if n.value = val then .ok (some a) else findNode h val fuel n.next

/-- list.go:339-383 `List.LInsert` -/
def lInsert (l : LObj) (target newValue : Bytes) (flag : Int) : Go (LObj × Bool) := do
  if l.head = none then .ok (l, false)
  else
    match ← findNode l.nodes target l.nodes.length l.head with
    | none => .ok (l, false)
    | some node =>
      if flag = 0 then
        let h ← setValue l.nodes (some node) newValue
        .ok ({ l with nodes := h }, true)
      else
        let new := l.nodes.length
        let n ← load l.nodes (some node)
        if flag > 0 then
          match n.next with
          | none =>
            let h ← setNext (l.nodes ++ [⟨none, some node, newValue⟩]) (some node) (some new)
            .ok (⟨l.length + 1, l.head, some new, h⟩, true)
          | some next =>
            let h ← setNext (l.nodes ++ [⟨some next, some node, newValue⟩]) (some node) (some new)
            let h ← setPrev h (some next) (some new)
            .ok (⟨l.length + 1, l.head, l.tail, h⟩, true)
        else
          match n.prev with
          | none =>
            let h ← setPrev (l.nodes ++ [⟨some node, none, newValue⟩]) (some node) (some new)
            .ok (⟨l.length + 1, some new, l.tail, h⟩, true)
          | some prev =>
            let h ← setPrev (l.nodes ++ [⟨some node, some prev, newValue⟩]) (some node) (some new)
            let h ← setNext h (some prev) (some new)
            .ok (⟨l.length + 1, l.head, l.tail, h⟩, true)

/-- the loops list.go:20-22 / 453-455 (`list.LPush` for each value) -/
def lPushAll : LObj → List Bytes → Go LObj
  | l, [] => .ok l
  | l, v :: vs => do let l ← l.lPush v; lPushAll l vs

/-- the loops list.go:29-31 / 495-497 -/
def rPushAll : LObj → List Bytes → Go LObj
  | l, [] => .ok l
  | l, v :: vs => do let l ← l.rPush v; rPushAll l vs

/-- the loop list.go:466-474; every iteration decrements `length`, so `length` bounds it -/
def lPopLoop : (k : Nat) → LObj → (count : Int) → Go (LObj × List Bytes)
  | 0, l, _ => .ok (l, [])
  | k + 1, l, count =>
    if count > 0 ∧ l.length > 0 then do
      let (l', v) ← l.lPop
      match v with
      | none => .ok (l', [])
      | some v => do
        let (l'', vs) ← lPopLoop k l' (count - 1)
        .ok (l'', v :: vs)
    else .ok (l, [])

/-- the loop list.go:508-516 -/
def rPopLoop : (k : Nat) → LObj → (count : Int) → Go (LObj × List Bytes)
  | 0, l, _ => .ok (l, [])
  | k + 1, l, count =>
    if count > 0 ∧ l.length > 0 then do
      let (l', v) ← l.rPop
      match v with
      | none => .ok (l', [])
      | some v => do
        let (l'', vs) ← rPopLoop k l' (count - 1)
        .ok (l'', v :: vs)
    else .ok (l, [])

end LObj
end Godis
