import Verif.Spec.Surplus
import Verif.Props.Play
import Verif.Proofs.Strings2
/-!
# C71: surplus arguments change nothing
-/
namespace Godis
open Resp (Reply bulks)
open StrSpec (lower Ascii)

/-- the table has each command once -/
theorem params_lookup (name : Bytes) (n : Nat) (h : (name, n) ∈ KeySpec.params) : n = (KeySpec.params.lookup name).getD 0 := by
  have : ∀ p ∈ KeySpec.params, p.2 = (KeySpec.params.lookup p.1).getD 0 := by decide +kernel
  exact this _ h

theorem fn_take (c : Cmd) (h : c.name ∈ KeySpec.params.map (·.1)) (ext : Ext) (it : Iter) (s : Store) (args : List Bytes) :
    c.fn ext it s args = c.fn ext it s (args.take ((KeySpec.params.lookup c.name).getD 0)) := by
  cases c
  all_goals first
    | (exfalso; revert h; decide +kernel)
    | (rcases args with _ | ⟨a, _ | ⟨b, _ | ⟨c, _ | ⟨d, args⟩⟩⟩⟩ <;> rfl)

/-- C71.  For every command with a fixed number `n` of parameters (`KeySpec.params`, optional ones counted), in any spelling of its
name, in every store and for every argument list, the request with surplus arguments does exactly what the request cut to its first
`n` arguments does: the same reply, the same new store, the same panic.  So no argument past the last parameter, whatever it says
(`NX`, `EX 10`, another key), has any effect. -/
theorem C71_surplus {name : Bytes} {n : Nat} (h : (lower name, n) ∈ KeySpec.params) (ha : Ascii name) (ext : Ext) (it : Iter) (s : Store) (args : List Bytes) :
    runRequest ext it s (name :: args) = runRequest ext it s (name :: args.take n) := by
  have el : toLower ext.lowerUni name = lower name := lower_eq ha
  show (execute ext it s (toLower ext.lowerUni name) args >>= _) = (execute ext it s (toLower ext.lowerUni name) (args.take n) >>= _)
  rw [el]
  unfold execute
  cases hc : lookupCmd (lower name) with
  | none => rfl
  | some c =>
    rw [lookup_name hc] at h
    simp only
    rw [fn_take c (List.mem_map.mpr ⟨_, h, rfl⟩), ← params_lookup _ n h]

/-- C71 on a concrete history: the options of `SET` have no effect (`NX` overwrites an existing key), and `DEL` of several keys deletes
the first one only. -/
example : (play ext0 it0 (Store.init rng0) [[b! "SET", b! "k", b! "1"], [b! "SET", b! "k", b! "2", b! "NX"], [b! "GET", b! "k"],
      [b! "SET", b! "j", b! "3"], [b! "DEL", b! "k", b! "j"], [b! "GET", b! "j"]]).map (·.1.map (·.2))
    = some [.simple (b! "OK"), .simple (b! "OK"), .bulk (b! "2"), .simple (b! "OK"), .int 1, .bulk (b! "3")] := by
  decide +kernel

/-- a request that meets the hypotheses -/
example : (lower (b! "SET"), 2) ∈ KeySpec.params ∧ Ascii (b! "SET") := ⟨by decide +kernel, by unfold Ascii; decide⟩

end Godis
