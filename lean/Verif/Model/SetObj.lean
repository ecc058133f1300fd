import Verif.Model.ShardMap
/-!
# datastruct/set.go, the `set` object (lines 7-92)
-/
namespace Godis

/-- set.go:7-10 `set` (the stored values are the constant 0) -/
structure SObj where
  m : SMap Unit
  length : Int

namespace SObj

/-- set.go:12-16 `newSet` -/
def empty : SObj := ⟨SMap.empty, 0⟩

/-- set.go:18-25 `sAdd` -/
def sAdd (s : SObj) (key : Bytes) : SObj × Int :=
  let (m, absent) := s.m.setIfAbsent key ()
  if absent then (⟨m, s.length + 1⟩, 1) else (⟨m, s.length⟩, 0)

/-- set.go:27-36 `sRem` -/
def sRem (s : SObj) (key : Bytes) : SObj × Int :=
  let (m, exist) := s.m.deleteIfExists key
  if exist then (⟨m, s.length - 1⟩, 1) else (⟨m, s.length⟩, 0)

/-- set.go:38-53 `sPop`: note that `length` is not updated. -/
def sPop (it : Iter) (s : SObj) (cnt : Int) : SObj × List Bytes :=
  let (m, _, result) := s.m.rangeAndDelete it
    (fun (st : Int × List Bytes) key _ =>
      if st.1 ≤ 0 then (st, false, false)
      else ((st.1 - 1, st.2 ++ [key]), true, true)) (cnt, [])
  (⟨m, s.length⟩, result)

/-- set.go:55-66 `sDiff` -/
def sDiff (it : Iter) (s1 s2 : SObj) : SObj :=
  s1.m.range it (fun r key _ => if !s2.m.has key then (r.sAdd key).1 else r) empty

/-- set.go:68-79 `sInter` -/
def sInter (it : Iter) (s1 s2 : SObj) : SObj :=
  s1.m.range it (fun r key _ => if s2.m.has key then (r.sAdd key).1 else r) empty

/-- set.go:81-92 `sUnion(sets...)` -/
def sUnion (it : Iter) (sets : List SObj) : SObj :=
  sets.foldl (fun r s => s.m.range it (fun r key _ => (r.sAdd key).1) r) empty

/-- the loop set.go:127-130 -/
def sAddAll : SObj → List Bytes → SObj × Int
  | s, [] => (s, 0)
  | s, v :: vs =>
    let (s1, c) := s.sAdd v
    let (s2, c') := sAddAll s1 vs
    (s2, c + c')

/-- the loop set.go:150-153 -/
def sRemAll : SObj → List Bytes → SObj × Int
  | s, [] => (s, 0)
  | s, v :: vs =>
    let (s1, c) := s.sRem v
    let (s2, c') := sRemAll s1 vs
    (s2, c + c')

end SObj
end Godis
