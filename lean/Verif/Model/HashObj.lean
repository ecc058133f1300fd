import Verif.Model.ShardMap
import Verif.Model.Strconv
import Verif.Model.F64
/-!
# datastruct/hash_table.go, the `hashTable` object (lines 9-161), and util/strconv.go
-/
namespace Godis

/-- The dynamic types stored in a hash table (util.ConvertToValidValue): string, int64 or float64. -/
inductive HVal where
  | str (s : Bytes)
  | int (i : Int)
  | float (f : F64)
deriving DecidableEq, Repr

/-- util/strconv.go:8-21 `ConvertToValidValue` -/
def convertToValidValue (ext : Ext) (s : Bytes) : HVal :=
  match parseInt s with
  | some i => .int i
  | none => match ext.parseFloat s with
    | some f => .float f
    | none => .str s

/-- hash_table.go:9-12 `hashTable` -/
structure HObj where
  table : SMap HVal
  length : Int

/-- the errors `incrBy`/`incrByFloat` can return -/
inductive HErr where
  | notInteger | notFloat
deriving DecidableEq, Repr

namespace HObj

/-- hash_table.go:20-24 `newHashTable` -/
def empty : HObj := ⟨SMap.empty, 0⟩

/-- hash_table.go:26-34 `del`: `remove := !h.table.DeleteIfExists(field)`. -/
def del (h : HObj) (field : Bytes) : HObj × Int :=
  let (t, existed) := h.table.deleteIfExists field
  let remove := !existed
  if remove then (⟨t, h.length - 1⟩, 1) else (⟨t, h.length⟩, 0)

/-- hash_table.go:36-53 `set`; `nx` = `flag&HSetInNx != 0` -/
def set (h : HObj) (field : Bytes) (v : HVal) (nx : Bool) : HObj × Int :=
  if nx then
    let (t, absent) := h.table.setIfAbsent field v
    if absent then (⟨t, h.length + 1⟩, 1) else (⟨t, h.length⟩, 0)
  else
    let len := if !h.table.has field then h.length + 1 else h.length
    (⟨h.table.set field v, len⟩, 1)

/-- hash_table.go:55-57 `exists` -/
def hexists (h : HObj) (field : Bytes) : Bool := h.table.has field

/-- hash_table.go:59-61 `get` -/
def get (h : HObj) (field : Bytes) : Option HVal := h.table.get field

/-- hash_table.go:67-87 `incrBy` -/
def incrBy (h : HObj) (field : Bytes) (i : Int) : HObj × Except HErr Int :=
  let (t, r) := h.table.upsert field (fun old =>
    match old with
    | none => .ok (.int i)
    | some (.int j) => .ok (.int (wrap64 (j + i)))
    | some _ => Except.error HErr.notInteger)
  match r with
  | .error e => (⟨t, h.length⟩, .error e)
  | .ok (.int v) => (⟨t, h.length⟩, .ok v)
  | .ok _ => (⟨t, h.length⟩, .error .notInteger)   -- unreachable: the callback returns an int64

/-- hash_table.go:89-109 `incrByFloat` -/
def incrByFloat (ext : Ext) (h : HObj) (field : Bytes) (f : F64) : HObj × Except HErr F64 :=
  let (t, r) := h.table.upsert field (fun old =>
    match old with
    | none => .ok (.float f)
    | some (.float g) => .ok (.float (ext.fadd g f))
    | some _ => Except.error HErr.notFloat)
  match r with
  | .error e => (⟨t, h.length⟩, .error e)
  | .ok (.float v) => (⟨t, h.length⟩, .ok v)
  | .ok _ => (⟨t, h.length⟩, .error .notFloat)     -- unreachable: the callback returns a float64

/-- the conversions at hash_table.go:124-131, 146-153 and redis/hash_table.go:57-64 -/
def HVal.text (ext : Ext) : HVal → Bytes
  | .str s => s
  | .int i => formatInt i
  | .float f => ext.formatFloat f

/-- hash_table.go:115-135 `mGet` (`none` = nil interface) -/
def mGet (ext : Ext) (h : HObj) (fields : List Bytes) : List (Option Bytes) :=
  fields.map (fun f => (h.get f).map (HVal.text ext))

/-- hash_table.go:111-113 `keys` -/
def keys (it : Iter) (h : HObj) : List Bytes := h.table.keys it

/-- hash_table.go:143-161 `values` -/
def values (ext : Ext) (it : Iter) (h : HObj) : List Bytes :=
  (h.table.entries it).map (fun kv => HVal.text ext kv.2)

/-- the loop hash_table.go:294-297 (and 137-141 `mSet`) -/
def setAll : HObj → List (Bytes × HVal) → Bool → HObj × Int
  | h, [], _ => (h, 0)
  | h, (k, v) :: kvs, nx =>
    let (h1, c) := h.set k v nx
    let (h2, c') := setAll h1 kvs nx
    (h2, c + c')

end HObj
end Godis
