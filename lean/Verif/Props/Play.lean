import Verif.Props.Defs
import Verif.Proofs.Strconv
/-!
# Concrete runs

Used only to show that hypotheses of theorems are met by concrete histories, and to exhibit histories that violate a
property.
-/
namespace Godis
open Resp (Reply)

/-- Serve the requests in order; `none` if the server crashes or a request is not answered. -/
def play (ext : Ext) (it : Iter) : Store → List (List Bytes) → Option (List (List Bytes × Reply) × Store)
  | s, [] => some ([], s)
  | s, req :: rest =>
    match runRequest ext it s req with
    | .ok (s', some rsp) =>
      match rsp.reply with
      | some m =>
        match play ext it s' rest with
        | some (tr, s'') => some ((req, m) :: tr, s'')
        | none => none
      | none => none
    | _ => none

theorem Trace.cons {ext s it req m s1 tr s'} (ha : Answers ext it s req m s1) (h : Trace ext s1 tr s') :
    Trace ext s ((req, m) :: tr) s' := by
  induction h with
  | nil => exact .snoc .nil ha
  | snoc _ hb ih => exact .snoc ih hb

theorem Trace.append {ext s tr s1 tr' s2} (h : Trace ext s tr s1) (h' : Trace ext s1 tr' s2) :
    Trace ext s (tr ++ tr') s2 := by
  induction h' with
  | nil => rw [List.append_nil]; exact h
  | snoc _ ha ih => rw [← List.append_assoc]; exact .snoc ih ha

theorem play_trace {ext it} : ∀ {reqs s tr s'}, play ext it s reqs = some (tr, s') → Trace ext s tr s'
  | [], s, tr, s', h => by cases h; exact .nil
  | req :: rest, s, tr, s', h => by
    unfold play at h
    split at h
    · next s1 rsp hr =>
      split at h
      · next m hm =>
        split at h
        · next tr1 s2 hp =>
          cases h
          exact .cons ⟨rsp, hr, hm⟩ (play_trace hp)
        · cases h
      · cases h
    · cases h

theorem play_reachable {ext it reqs rng tr s} (h : play ext it (Store.init rng) reqs = some (tr, s)) :
    Reachable ext s := ⟨rng, tr, play_trace h⟩

theorem play_fst {ext it} : ∀ {reqs s tr s'}, play ext it s reqs = some (tr, s') → tr.map (·.1) = reqs
  | [], s, tr, s', h => by cases h; rfl
  | req :: rest, s, tr, s', h => by
    unfold play at h
    split at h
    · split at h
      · split at h
        · next hp => cases h; simp [play_fst hp]
        · cases h
      · cases h
    · cases h

/-- iteration in the order the model keeps the entries -/
def it0 : Iter := ⟨fun _ l => l, fun _ _ => List.Perm.refl _⟩

/-- the float64 of a small natural number (exact for the numbers used in examples) -/
def smallF64 (n : Nat) : F64 :=
  if n = 0 then 0#64
  else let e := Nat.log2 n
    BitVec.ofNat 64 ((1023 + e) * 2 ^ 52 + (n - 2 ^ e) * 2 ^ (52 - e))

/-- back to a natural number (for the examples) -/
def ofSmallF64 (x : F64) : Nat :=
  if x.toNat = 0 then 0
  else let e := x.toNat / 2 ^ 52 - 1023
    2 ^ e + (x.toNat % 2 ^ 52) / 2 ^ (52 - e)

/-- An environment for examples: numbers are small natural numbers, a pattern matches itself (`*` everything). -/
def ext0 : Ext where
  parseFloat s := (parseNat s).map smallF64
  formatFloat x := formatNat (ofSmallF64 x)
  fadd x y := smallF64 (ofSmallF64 x + ofSmallF64 y)
  glob p := if p = b! "*" then some (fun _ => true) else if p = b! "[" then none else some (fun k => k == p)
  lowerUni s := s

/-- random heights 0 -/
def rng0 : Rng := fun _ => 0

mutual
/-- equality of replies is decidable -/
def decReply : (a b : Reply) → Decidable (a = b)
  | .simple a, .simple b => if h : a = b then isTrue (h ▸ rfl) else isFalse (fun e => by cases e; exact h rfl)
  | .error a, .error b => if h : a = b then isTrue (h ▸ rfl) else isFalse (fun e => by cases e; exact h rfl)
  | .int a, .int b => if h : a = b then isTrue (h ▸ rfl) else isFalse (fun e => by cases e; exact h rfl)
  | .bulk a, .bulk b => if h : a = b then isTrue (h ▸ rfl) else isFalse (fun e => by cases e; exact h rfl)
  | .array a, .array b =>
    match decReplies a b with
    | isTrue h => isTrue (h ▸ rfl)
    | isFalse h => isFalse (fun e => by cases e; exact h rfl)
  | .simple _, .error _ | .simple _, .int _ | .simple _, .bulk _ | .simple _, .array _
  | .error _, .simple _ | .error _, .int _ | .error _, .bulk _ | .error _, .array _
  | .int _, .simple _ | .int _, .error _ | .int _, .bulk _ | .int _, .array _
  | .bulk _, .simple _ | .bulk _, .error _ | .bulk _, .int _ | .bulk _, .array _
  | .array _, .simple _ | .array _, .error _ | .array _, .int _ | .array _, .bulk _ => isFalse nofun
/-- equality of lists of replies is decidable -/
def decReplies : (a b : List Reply) → Decidable (a = b)
  | [], [] => isTrue rfl
  | [], _ :: _ => isFalse nofun
  | _ :: _, [] => isFalse nofun
  | a :: as, b :: bs =>
    match decReply a b with
    | isFalse h => isFalse (fun e => by cases e; exact h rfl)
    | isTrue h =>
      match decReplies as bs with
      | isTrue h' => isTrue (h ▸ h' ▸ rfl)
      | isFalse h' => isFalse (fun e => by cases e; exact h' rfl)
end

instance : DecidableEq Reply := decReply

/-- the replies of a run from an empty server, in the example environment -/
def replies (reqs : List (List Bytes)) : Option (List Reply) :=
  (play ext0 it0 (Store.init rng0) reqs).map (fun p => p.1.map (·.2))

end Godis
