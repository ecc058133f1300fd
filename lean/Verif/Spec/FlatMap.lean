/-!
# A flat map (specification for the sharded map)
-/
namespace FlatMap

/-- operations on a map with keys `K` and values `V` -/
inductive Op (K V : Type) where
  | get (k : K)
  | has (k : K)
  | set (k : K) (v : V)
  | setIfAbsent (k : K) (v : V)
  | delete (k : K)
  | deleteIfExists (k : K)
  | loadAndDelete (k : K)
  /-- compute the new value from the old one; `none` leaves the map as it is -/
  | upsert (k : K) (f : Option V → Option V)
  | keys
  /-- visit every entry -/
  | range
  /-- visit the entries one by one; after each of them, decide (knowing those visited before) whether to delete it and
  whether to go on -/
  | rangeAndDelete (f : List (K × V) → K → V → Bool × Bool)

/-- results -/
inductive Out (K V : Type) where
  | unit
  | bool (b : Bool)
  | val (v : Option V)
  | keys (ks : List K)
  | visited (es : List (K × V))

/-- What a loop over the entries `es` that decides by `f` visits and deletes; `seen` are the entries visited before. -/
def visit {K V : Type} (f : List (K × V) → K → V → Bool × Bool) : List (K × V) → List (K × V) → List (K × V) × List K
  | _, [] => ([], [])
  | seen, (k, v) :: es =>
    let rest := if (f seen k v).2 then visit f (seen ++ [(k, v)]) es else ([], [])
    ((k, v) :: rest.1, if (f seen k v).1 then k :: rest.2 else rest.2)

/-- `Step m op out m'`: on the flat map `m` the operation may answer `out` and leaves `m'`. -/
inductive Step {K V : Type} [DecidableEq K] : (K → Option V) → Op K V → Out K V → (K → Option V) → Prop
  | get {m k} : Step m (.get k) (.val (m k)) m
  | has {m k} : Step m (.has k) (.bool (m k).isSome) m
  | set {m k v} : Step m (.set k v) .unit (fun x => if x = k then some v else m x)
  | setIfAbsentNew {m k v} : m k = none →
      Step m (.setIfAbsent k v) (.bool true) (fun x => if x = k then some v else m x)
  | setIfAbsentOld {m k v w} : m k = some w → Step m (.setIfAbsent k v) (.bool false) m
  | delete {m k} : Step m (.delete k) .unit (fun x => if x = k then none else m x)
  | deleteIfExists {m k} :
      Step m (.deleteIfExists k) (.bool (m k).isSome) (fun x => if x = k then none else m x)
  | loadAndDelete {m k} : Step m (.loadAndDelete k) (.val (m k)) (fun x => if x = k then none else m x)
  | upsert {m k f v} : f (m k) = some v →
      Step m (.upsert k f) (.val (some v)) (fun x => if x = k then some v else m x)
  | upsertAbort {m k f} : f (m k) = none → Step m (.upsert k f) (.val none) m
  | keys {m ks} : ks.Nodup → (∀ k, k ∈ ks ↔ (m k).isSome) → Step m .keys (.keys ks) m
  | range {m es} : (es.map (·.1)).Nodup → (∀ k v, (k, v) ∈ es ↔ m k = some v) → Step m .range (.visited es) m
  | rangeAndDelete {m f es} : (es.map (·.1)).Nodup → (∀ k v, (k, v) ∈ es ↔ m k = some v) →
      Step m (.rangeAndDelete f) (.visited (visit f [] es).1) (fun x => if x ∈ (visit f [] es).2 then none else m x)

/-- a history of operations and answers accepted by the flat map -/
inductive Run {K V : Type} [DecidableEq K] : (K → Option V) → List (Op K V × Out K V) → (K → Option V) → Prop
  | nil {m} : Run m [] m
  | cons {m m' m'' op out h} : Step m op out m' → Run m' h m'' → Run m ((op, out) :: h) m''

end FlatMap
