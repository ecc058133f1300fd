import Verif.Model.Persistence
/-!
# Standard output

The command log is written to standard output (persistence/persistence.go:14 `fmt.Println`).  Two functions of
datastruct/sorted_set.go print a line to standard output as well, left over from debugging.  `log.Println` writes to
standard error and is not modelled.  The other functions that print (datastruct/list.go:401 and sorted_set.go:82 `print`)
are called by tests only.

Each `fmt.Println` is one write, so lines are not mixed.
-/
namespace Godis

/-- sorted_set.go:318 and 484: `fmt.Println(minRank, maxRank)`, reached after sorted_set.go:312-317 and 478-483; nothing is
printed if computing a rank panics before -/
def ZSL.rankLine (z : ZSL) (min : F64) (minOpen : Bool) (max : F64) (maxOpen : Bool) : Bytes :=
  if min.isNegInf && max.isPosInf then []
  else match z.minScoreRank min minOpen, z.maxScoreRank max maxOpen with
    | .ok a, .ok b => formatInt a ++ 32 :: formatInt b ++ [10]
    | _, _ => []

/-- sorted_set.go:679-696 `ZCount` and 722-756 `ZRange` with the flag ByScore: what is printed -/
def Store.rankLine (ext : Ext) (s : Store) (key minStr maxStr : Bytes) : Bytes :=
  match s.loadZSet key true with
  | .ok (.ok (_, z)) =>
    match handleFloatScoreStr ext minStr, handleFloatScoreStr ext maxStr with
    | .ok (mn, mnO), .ok (mx, mxO) => z.zsl.rankLine mn mnO mx mxO
    | _, _ => []
  | _ => []

/-- what a command prints (redis/sorted_set.go:130-150 `zCount`, 175-206 `zRange`, 209-223 `zRangeByScore`; no other command
prints) -/
def printed (ext : Ext) (s : Store) (name : Bytes) (args : List Bytes) : Bytes :=
  match lookupCmd name, args with
  | some .zCount, k :: a :: b :: _ => s.rankLine ext k (toLower ext.lowerUni a) (toLower ext.lowerUni b)
  | some .zRange, k :: a :: b :: rest => if hasWord ext (b! "byscore") (b :: rest) then s.rankLine ext k a b else []
  | some .zRangeByScore, k :: a :: b :: _ => s.rankLine ext k a b
  | _, _ => []

namespace Event

/-- what a step writes to standard output; a command prints when it takes effect, or before it panics -/
def emitted (ext : Ext) (σ : Sys) : Label → Bytes
  | .log _ text => writeCommand text
  | .exec w _ _ | .crash w _ _ =>
    match σ.worker w with
    | .running e snap => printed ext snap e.name e.args
    | _ => []
  | _ => []

/-- A run (see `Run`) together with what was written to standard output. -/
inductive Output (ext : Ext) (n : Nat) (rng : Rng) : List Label → Sys → Bytes → Prop
  | nil : Output ext n rng [] (Sys.init rng) []
  | snoc {L σ t l σ'} : Output ext n rng L σ t → σ.crashed = false → Step ext n σ l σ' →
      Output ext n rng (L ++ [l]) σ' (t ++ emitted ext σ l)

end Event
end Godis
