import Verif.Proofs.Sets2
import Verif.Props.Lists2
/-!
# C25–C30: sets

`SetSpec.after tr` (Spec/Sets.lean) is what the keys hold after the history `tr`, computed from requests and replies
alone; `SetSpec.Fits w name args m` says that `m` is a correct reply.  "The set at `k` is `X`" is also said through the
API: `Members ext s k X`, SISMEMBER replies 1 exactly for the elements of `X` (and never the type error).

`Regular` requests are all but S*STORE with exactly one source key, which makes two keys share one set
(`C28_alias_violated`).
-/
namespace Godis
open Resp (Reply bulks)
open SetSpec
open ListSpec (errType errNil)
open StrSpec (int64 lower Ascii)
open KeySpec (KView keyArgs)

/-! ## C25 -/

/-- C25, what the code does, for every set command.  After any history of regular requests, every regular set request
is answered (no crash), whatever order Go iterates over maps, and the reply is correct for the sets that the history
left. -/
theorem C25_sets_partial {ext rng tr s} (h : Trace ext (Store.init rng) tr s) (hp : ∀ p ∈ tr, Regular p.1)
    {name : Bytes} {args : List Bytes} (hr : Regular (name :: args)) (hc : lower name ∈ commands) :
    (∀ it, ∃ m s', Answers ext it s (name :: args) m s') ∧
    ∀ it m s', Answers ext it s (name :: args) m s' → Fits (after tr) (lower name) args m :=
  (h.sgood hp).fits hr hc

/-- C25, SISMEMBER: after any history of regular requests, the members of a key that holds a set, or nothing, are the
ones computed from the history. -/
theorem C25_membership_partial {ext rng tr s} (h : Trace ext (Store.init rng) tr s) (hp : ∀ p ∈ tr, Regular p.1) {k : Bytes}
    (hk : after tr k ≠ .other) : Members ext s k (mems (after tr k)) :=
  (h.sgood hp).members.mpr ⟨hk, rfl⟩

/-- C25, SADD replies the number of members actually added, and adds exactly those. -/
theorem C25_sadd {ext s} (hs : Reachable ext s) {k : Bytes} {X : Finset Bytes} (hX : Members ext s k X)
    {xs : List Bytes} (hx : xs ≠ []) {it m s'} (ha : Answers ext it s (b! "sadd" :: k :: xs) m s') :
    m = .int (xs.toFinset \ X).card ∧ Members ext s' k (X ∪ xs.toFinset) := by
  obtain ⟨w, hg⟩ := hs.sok
  obtain ⟨hne, rfl⟩ := hg.members.mp hX
  have hr : Regular (b! "sadd" :: k :: xs) := regular_name (by unfold Ascii; decide) (by decide) _
  obtain ⟨hf, w', hg', hw'⟩ := hg.next hs hr (by decide) (by decide) ha
  rcases xs with _ | ⟨x, xs⟩
  · exact absurd rfl hx
  have hm : m = .int ((x :: xs).toFinset \ mems (w k)).card := by
    have : m = if w k = .other then errType else .int ((x :: xs).toFinset \ mems (w k)).card := hf
    rw [this, if_neg hne]
  refine ⟨hm, hg'.members.mpr ?_⟩
  have : SetSpec.step w (b! "sadd") (k :: x :: xs) m k = add (x :: xs) (w k) := by
    subst hm; exact if_pos rfl
  rw [hw', show SetSpec.step w (lower (b! "sadd")) (k :: x :: xs) m k = _ from this]
  revert hne
  generalize w k = v
  intro hne
  rcases v with _ | _ | ⟨X, g⟩
  · exact ⟨nofun, by simp [add, mems]⟩
  · exact absurd rfl hne
  · exact ⟨nofun, rfl⟩

/-- C25, SREM replies the number of members actually removed, and removes exactly those. -/
theorem C25_srem {ext s} (hs : Reachable ext s) {k : Bytes} {X : Finset Bytes} (hX : Members ext s k X)
    {xs : List Bytes} (hx : xs ≠ []) {it m s'} (ha : Answers ext it s (b! "srem" :: k :: xs) m s') :
    m = .int (X ∩ xs.toFinset).card ∧ Members ext s' k (X \ xs.toFinset) := by
  obtain ⟨w, hg⟩ := hs.sok
  obtain ⟨hne, rfl⟩ := hg.members.mp hX
  have hr : Regular (b! "srem" :: k :: xs) := regular_name (by unfold Ascii; decide) (by decide) _
  obtain ⟨hf, w', hg', hw'⟩ := hg.next hs hr (by decide) (by decide) ha
  rcases xs with _ | ⟨x, xs⟩
  · exact absurd rfl hx
  have hm : m = .int (mems (w k) ∩ (x :: xs).toFinset).card := by
    have : m = if w k = .other then errType else .int (mems (w k) ∩ (x :: xs).toFinset).card := hf
    rw [this, if_neg hne]
  refine ⟨hm, hg'.members.mpr ?_⟩
  have : SetSpec.step w (b! "srem") (k :: x :: xs) m k = remove (x :: xs) (w k) := by
    subst hm; exact if_pos rfl
  rw [hw', show SetSpec.step w (lower (b! "srem")) (k :: x :: xs) m k = _ from this]
  revert hne
  generalize w k = v
  intro hne
  rcases v with _ | _ | ⟨X, g⟩
  · exact ⟨nofun, by simp [remove, mems]⟩
  · exact absurd rfl hne
  · exact ⟨nofun, rfl⟩

/-- C25, SMEMBERS lists every member exactly once, if there are any. -/
theorem C25_smembers_partial {ext s} (hs : Reachable ext s) {k : Bytes} {X : Finset Bytes} (hX : Members ext s k X)
    (h0 : X ≠ ∅) {it m s'} (ha : Answers ext it s [b! "smembers", k] m s') :
    ∃ l : List Bytes, m = bulks l ∧ l.Nodup ∧ ∀ x, x ∈ l ↔ x ∈ X := by
  obtain ⟨w, hg⟩ := hs.sok
  obtain ⟨hne, rfl⟩ := hg.members.mp hX
  have hr : Regular [b! "smembers", k] := regular_name (by unfold Ascii; decide) (by decide) _
  have hf : if w k = .other then m = errType else if size (w k) = 0 then m = errNil else Lists (mems (w k)) m :=
    (hg.next hs hr (by decide) (by decide) ha).1
  have hsz : size (w k) ≠ 0 := by
    rw [size_eq]
    have := Finset.card_pos.mpr (Finset.nonempty_iff_ne_empty.mpr h0)
    omega
  rw [if_neg hne, if_neg hsz] at hf
  obtain ⟨l, h1, h2, h3⟩ := hf
  exact ⟨l, h1, h2, fun x => by rw [← h3, List.mem_toFinset]⟩

/-- C25 fails for SMEMBERS of an absent or emptied set: the reply is an error, not the empty array. -/
theorem C25_smembers_violated :
    replies [[b! "smembers", b! "s"], [b! "sadd", b! "s", b! "a"], [b! "srem", b! "s", b! "a"], [b! "smembers", b! "s"]] =
      some [.error (b! "redis: not found"), .int 1, .int 1, .error (b! "redis: not found")] := by decide +kernel

/-- a history for the cases below -/
def setDemo : List (List Bytes) :=
  [[b! "SADD", b! "s", b! "a", b! "b", b! "c", b! "a"], [b! "sadd", b! "t", b! "b", b! "d"], [b! "srem", b! "s", b! "c", b! "x"],
   [b! "set", b! "k", b! "v"], [b! "sinterstore", b! "u", b! "s", b! "t"], [b! "smove", b! "t", b! "s", b! "d"]]

theorem setDemo_good : ∃ s, Trace ext0 (Store.init rng0) (setDemo.zip ((replies setDemo).getD [])) s ∧
    (∀ p ∈ setDemo.zip ((replies setDemo).getD []), Regular p.1) := by
  obtain ⟨s, h⟩ := demo (reqs := setDemo) (by decide +kernel)
  exact ⟨s, h, by decide +kernel⟩

/-- Case: the replies of the history, and the sets it leaves: s = {a, b, d}, t = {b} (with one ghost), u = {b}, and k is
not a set. -/
example : replies setDemo = some [.int 3, .int 2, .int 1, .simple (b! "OK"), .int 1, .int 1] ∧
    ∃ s, ReachableBy ext0 Regular s ∧ Members ext0 s (b! "s") {b! "a", b! "b", b! "d"} ∧ Members ext0 s (b! "t") {b! "b"} ∧
      Members ext0 s (b! "u") {b! "b"} := by
  refine ⟨by decide +kernel, ?_⟩
  obtain ⟨s, h, hp⟩ := setDemo_good
  refine ⟨s, ⟨_, _, h, hp⟩, ?_, ?_, ?_⟩
  · have := C25_membership_partial h hp (k := b! "s") (by decide +kernel)
    rwa [show mems (after (setDemo.zip ((replies setDemo).getD [])) (b! "s")) = {b! "a", b! "b", b! "d"} by decide +kernel] at this
  · have := C25_membership_partial h hp (k := b! "t") (by decide +kernel)
    rwa [show mems (after (setDemo.zip ((replies setDemo).getD [])) (b! "t")) = {b! "b"} by decide +kernel] at this
  · have := C25_membership_partial h hp (k := b! "u") (by decide +kernel)
    rwa [show mems (after (setDemo.zip ((replies setDemo).getD [])) (b! "u")) = {b! "b"} by decide +kernel] at this

/-! ## C26 -/

/-- C26, for keys that were never the source of SPOP or SMOVE: SCARD replies the number of members. -/
theorem C26_scard_partial {ext rng tr s} (h : Trace ext (Store.init rng) tr s) (hp : ∀ p ∈ tr, Regular p.1) {k : Bytes}
    (hno : ∀ p ∈ tr, lower (p.1.headD []) ∈ [b! "spop", b! "smove"] → p.1[1]? ≠ some k)
    {X : Finset Bytes} (hX : Members ext s k X) : Reads ext s [b! "scard", k] (.int X.card) := by
  have hg := h.sgood hp
  obtain ⟨hne, rfl⟩ := hg.members.mp hX
  refine hg.reads (regular_name (by unfold Ascii; decide) (by decide) _) (by decide) (fun m' hm' => ?_)
  have : m' = if after tr k = .other then errType else .int (size (after tr k)) := hm'
  rw [this, if_neg hne, size_eq, ghosts_after hno]
  rfl

/-- C26, in general: SCARD never replies less than the number of members; the excess is the number of members that left
through SPOP or SMOVE since the key was last overwritten. -/
theorem C26_scard_excess_partial {ext rng tr s} (h : Trace ext (Store.init rng) tr s) (hp : ∀ p ∈ tr, Regular p.1) {k : Bytes}
    {X : Finset Bytes} (hX : Members ext s k X) : ∃ n : Nat, Reads ext s [b! "scard", k] (.int n) ∧ X.card ≤ n ∧ n = size (after tr k) := by
  have hg := h.sgood hp
  obtain ⟨hne, rfl⟩ := hg.members.mp hX
  refine ⟨size (after tr k), hg.reads (regular_name (by unfold Ascii; decide) (by decide) _) (by decide) (fun m' hm' => ?_), ?_, rfl⟩
  · have : m' = if after tr k = .other then errType else .int (size (after tr k)) := hm'
    rw [this, if_neg hne]
  · rw [size_eq]; omega

/-- C26 fails in full: SPOP and SMOVE do not reduce the size that SCARD reports. -/
theorem C26_violated :
    replies [[b! "sadd", b! "s", b! "a", b! "b"], [b! "spop", b! "s", b! "1"], [b! "smove", b! "s", b! "t", b! "a"],
        [b! "smembers", b! "s"], [b! "scard", b! "s"]] =
      some [.int 2, .array [.bulk (some (b! "b"))], .int 1, .array [], .int 2] := by decide +kernel

/-- Case: in the history of `setDemo` the key `u` was never popped from and SCARD is exact; `t` shows an excess of one. -/
example : ∃ s, ReachableBy ext0 Regular s ∧ Reads ext0 s [b! "scard", b! "u"] (.int 1) ∧ Reads ext0 s [b! "scard", b! "t"] (.int 2) := by
  obtain ⟨s, h, hp⟩ := setDemo_good
  refine ⟨s, ⟨_, _, h, hp⟩, ?_, ?_⟩
  · have := C26_scard_partial h hp (k := b! "u") (by decide +kernel) (C25_membership_partial h hp (by decide +kernel))
    rwa [show mems (after (setDemo.zip ((replies setDemo).getD [])) (b! "u")) = {b! "b"} by decide +kernel] at this
  · obtain ⟨n, h1, _, h2⟩ := C26_scard_excess_partial h hp (k := b! "t") (C25_membership_partial h hp (by decide +kernel))
    rw [show size (after (setDemo.zip ((replies setDemo).getD [])) (b! "t")) = 2 by decide +kernel] at h2
    subst h2; exact h1

/-! ## C27 -/

/-- the names of the three operations -/
def opName : Op → Bytes
  | .diff => b! "sdiff"
  | .inter => b! "sinter"
  | .union => b! "sunion"

/-- the names of the three storing operations -/
def opStoreName : Op → Bytes
  | .diff => b! "sdiffstore"
  | .inter => b! "sinterstore"
  | .union => b! "sunionstore"

theorem trouble_none {ext s} {w : Bytes → SView} (hg : SOk s w) {X : Bytes → Finset Bytes} : ∀ {ks : List Bytes},
    (∀ k ∈ ks, Members ext s k (X k) ∧ X k ≠ ∅) → trouble w ks = none ∧ ks.map (fun k => mems (w k)) = ks.map X
  | [], _ => ⟨rfl, rfl⟩
  | k :: ks, h => by
    obtain ⟨h1, h2⟩ := trouble_none hg (ks := ks) (fun k hk => h k (by simp [hk]))
    obtain ⟨h3, h4⟩ := h k (by simp)
    obtain ⟨h5, h6⟩ := hg.members.mp h3
    have hsz : size (w k) ≠ 0 := by
      rw [size_eq, h6]
      have := Finset.card_pos.mpr (Finset.nonempty_iff_ne_empty.mpr h4)
      omega
    constructor
    · unfold trouble
      rw [if_neg h5, if_neg hsz, h1]
    · simp [h6, h2]

/-- C27, for two or more keys that all hold non-empty sets: SDIFF, SINTER, SUNION list exactly the members of the first
set minus all others / the intersection / the union, each once. -/
theorem C27_setops_partial {ext s} (hs : Reachable ext s) (op : Op) {ks : List Bytes} (h2 : 2 ≤ ks.length)
    {X : Bytes → Finset Bytes} (hX : ∀ k ∈ ks, Members ext s k (X k) ∧ X k ≠ ∅) {it m s'}
    (ha : Answers ext it s (opName op :: ks) m s') :
    ∃ l : List Bytes, m = bulks l ∧ l.Nodup ∧ l.toFinset = combine op (ks.map X) := by
  obtain ⟨w, hg⟩ := hs.sok
  have hr : Regular (opName op :: ks) := by
    cases op <;> exact regular_name (by unfold Ascii; decide) (by decide) _
  have hf := ((hg.fits (ext := ext) hr (by cases op <;> decide)
    (fun h => absurd (show lower (opName op) = b! "smove" from h) (by cases op <;> decide))).2 it m s' ha).1
  obtain ⟨ht, hm⟩ := trouble_none (ext := ext) hg hX
  rcases ks with _ | ⟨k, _ | ⟨k1, ks⟩⟩
  · simp at h2
  · simp at h2
  · have hL : Lists (combine op ((k :: k1 :: ks).map (fun k => mems (w k)))) m := by
      have hf' : (match trouble w (k :: k1 :: ks) with
          | some .other => m = errType
          | some _ => m = bulks []
          | none => Lists (combine op ((k :: k1 :: ks).map (fun k => mems (w k)))) m) := by
        cases op <;> exact hf
      simpa only [ht] using hf'
    rw [hm] at hL
    exact hL

/-- membership in a combination of sets, spelled out -/
theorem C27_combine_mem (x : Bytes) (X : Finset Bytes) (Xs : List (Finset Bytes)) :
    (x ∈ combine .diff (X :: Xs) ↔ x ∈ X ∧ ∀ Y ∈ Xs, x ∉ Y) ∧
    (x ∈ combine .inter (X :: Xs) ↔ ∀ Y ∈ X :: Xs, x ∈ Y) ∧
    (x ∈ combine .union (X :: Xs) ↔ ∃ Y ∈ X :: Xs, x ∈ Y) := by
  simp only [combine]
  induction Xs generalizing X with
  | nil => simp
  | cons Y Ys ih =>
    simp only [List.foldl_cons]
    obtain ⟨h1, h2, h3⟩ := ih (Op.diff.on X Y)
    obtain ⟨h4, h5, h6⟩ := ih (Op.inter.on X Y)
    obtain ⟨h7, h8, h9⟩ := ih (Op.union.on X Y)
    refine ⟨?_, ?_, ?_⟩
    · rw [h1]; simp only [Op.on, Finset.mem_sdiff, List.forall_mem_cons]; exact and_assoc
    · rw [h5]; simp only [Op.on, Finset.mem_inter, List.forall_mem_cons]; exact and_assoc
    · rw [h9]; simp only [Op.on, Finset.mem_union, List.exists_mem_cons_iff]; exact or_assoc

/-- C27 fails in full: with one key the result is always empty, and an absent key makes the whole result empty. -/
theorem C27_violated :
    replies [[b! "sadd", b! "s", b! "a"], [b! "sunion", b! "s"], [b! "sdiff", b! "s"], [b! "sunion", b! "s", b! "none"],
        [b! "sdiff", b! "s", b! "none"]] = some [.int 1, .array [], .array [], .array [], .array []] := by decide +kernel

/-- Case: three sets of which two are non-trivially combined. -/
example : replies (setDemo ++ [[b! "sdiff", b! "s", b! "t"], [b! "sinter", b! "s", b! "t", b! "u"], [b! "sunion", b! "t", b! "s"]]) =
    some [.int 3, .int 2, .int 1, .simple (b! "OK"), .int 1, .int 1, bulks [b! "d", b! "a"], bulks [b! "b"],
      bulks [b! "d", b! "b", b! "a"]] := by decide +kernel

/-! ## C28 -/

/-- C28, for two or more sources that all hold non-empty sets.  The destination then holds exactly the computed set, the
reply is its size, and it is a copy: through any further history of regular requests a key that is not named keeps its
members, be it the destination while the sources change, or a source while the destination changes. -/
theorem C28_store_partial {ext s} (hs : ReachableBy ext Regular s) (op : Op) {dst : Bytes} {ks : List Bytes} (h2 : 2 ≤ ks.length)
    {X : Bytes → Finset Bytes} (hX : ∀ k ∈ ks, Members ext s k (X k) ∧ X k ≠ ∅) {it m s'}
    (ha : Answers ext it s (opStoreName op :: dst :: ks) m s') :
    m = .int (combine op (ks.map X)).card ∧ Members ext s' dst (combine op (ks.map X)) ∧
    ∀ {tr s''}, Trace ext s' tr s'' → (∀ p ∈ tr, Regular p.1) → ∀ k Y, (∀ p ∈ tr, k ∉ keyArgs (lower (p.1.headD [])) p.1.tail) →
      Members ext s' k Y → Members ext s'' k Y := by
  obtain ⟨w, hg⟩ := hs.sgood
  have hr : Regular (opStoreName op :: dst :: ks) := by
    refine ⟨?_, fun h => ?_⟩
    · intro n hn
      simp only [List.head?_cons, Option.mem_def, Option.some.injEq] at hn
      subst hn; cases op <;> (unfold Ascii; decide)
    · have := h.2; simp at this; omega
  have hf := (hg.fits (ext := ext) hr (by cases op <;> decide)).2 it m s' ha
  have hg' := hg.step hr ha
  obtain ⟨ht, hm⟩ := trouble_none (ext := ext) hg.toSOk hX
  have hmi : m = .int (combine op (ks.map X)).card := by
    rcases ks with _ | ⟨k, ks⟩
    · simp at h2
    · have hf' : (match trouble w (k :: ks) with
          | some .other => m = errType
          | some _ => m = errNil
          | none => m = .int (combine op ((k :: ks).map (fun k => mems (w k)))).card) := by
        cases op <;> exact hf
      simp only [ht] at hf'
      rw [hf', hm]
  refine ⟨hmi, hg'.members.mpr ?_, ?_⟩
  · have : SetSpec.step w (lower (opStoreName op)) (dst :: ks) m dst = .here (combine op (ks.map (fun k => mems (w k))), 0) := by
      subst hmi
      cases op <;> exact if_pos rfl
    show SetSpec.step w (lower (opStoreName op)) (dst :: ks) m dst ≠ .other ∧
      mems (SetSpec.step w (lower (opStoreName op)) (dst :: ks) m dst) = _
    rw [this, hm]
    exact ⟨nofun, rfl⟩
  · intro tr s'' htr hp k Y hk hY
    have hg'' := hg'.trace htr hp
    have hv := sets_unnamed_fold (w := SetSpec.step w (lower ((opStoreName op :: dst :: ks).headD [])) (opStoreName op :: dst :: ks).tail m) hk
    rw [hg''.members, hv]
    exact hg'.members.mp hY

/-- C28 fails in full: with one source the destination is the very same set; adding to it adds to the source. -/
theorem C28_alias_violated :
    replies [[b! "sadd", b! "s", b! "a"], [b! "sunionstore", b! "d", b! "s"], [b! "sadd", b! "d", b! "b"],
        [b! "sismember", b! "s", b! "b"]] = some [.int 1, .int 1, .int 1, .int 1] := by decide +kernel

/-- Case: the destination keeps its members while a source changes. -/
example : replies (setDemo ++ [[b! "sunionstore", b! "d", b! "s", b! "t"], [b! "sadd", b! "t", b! "q"], [b! "srem", b! "s", b! "a"],
      [b! "scard", b! "d"], [b! "sismember", b! "d", b! "a"], [b! "sismember", b! "d", b! "q"]]) =
    some [.int 3, .int 2, .int 1, .simple (b! "OK"), .int 1, .int 1, .int 3, .int 1, .int 1, .int 3, .int 1, .int 0] := by
  decide +kernel

/-! ## C29 -/

/-- C29.  SPOP with a count returns `min n size` distinct members, in an order chosen by Go's map iteration, and removes
exactly those. -/
theorem C29_spop {ext s} (hs : Reachable ext s) {k c : Bytes} {X : Finset Bytes} (hX : Members ext s k X) {n : Int}
    (hn : int64 c = some n) {it m s'} (ha : Answers ext it s [b! "spop", k, c] m s') :
    ∃ l : List Bytes, m = bulks l ∧ l.Nodup ∧ l.toFinset ⊆ X ∧ l.length = min n.toNat X.card ∧ Members ext s' k (X \ l.toFinset) := by
  obtain ⟨w, hg⟩ := hs.sok
  obtain ⟨hne, rfl⟩ := hg.members.mp hX
  have hr : Regular [b! "spop", k, c] := regular_name (by unfold Ascii; decide) (by decide) _
  obtain ⟨hf, w', hg', hw'⟩ := hg.next hs hr (by decide) (by decide) ha
  have hf' : (match int64 c with
      | none => m = .error (b! "value is not an integer or out of range")
      | some n =>
        if w k = .other then m = errType
        else ∃ X : Finset Bytes, X ⊆ mems (w k) ∧ X.card = min n.toNat (mems (w k)).card ∧ Lists X m) := hf
  rw [hn] at hf'
  simp only [if_neg hne] at hf'
  obtain ⟨Y, h1, h2, l, rfl, h3, rfl⟩ := hf'
  refine ⟨l, rfl, h3, h1, by rw [← List.toFinset_card_of_nodup h3, h2], hg'.members.mpr ?_⟩
  have : SetSpec.step w (b! "spop") [k, c] (bulks l) k = leave l (w k) := by
    have : SetSpec.step w (b! "spop") [k, c] (bulks l) k = leave (ListSpec.items (bulks l)) (w k) := if_pos rfl
    rw [this, items_bulks]
  rw [hw', show SetSpec.step w (lower (b! "spop")) [k, c] (bulks l) k = _ from this]
  revert hne
  generalize w k = v
  intro hne
  rcases v with _ | _ | ⟨X, g⟩
  · exact ⟨nofun, by simp [leave, mems]⟩
  · exact absurd rfl hne
  · exact ⟨nofun, rfl⟩

/-- C29 fails without a count: nothing is popped. -/
theorem C29_spop_violated :
    replies [[b! "sadd", b! "s", b! "a"], [b! "spop", b! "s"], [b! "sismember", b! "s", b! "a"]] =
      some [.int 1, .array [], .int 1] := by decide +kernel

/-- Case: two of three members are popped, the third stays. -/
example : replies [[b! "sadd", b! "s", b! "a", b! "b", b! "c"], [b! "spop", b! "s", b! "2"], [b! "smembers", b! "s"]] =
    some [.int 3, bulks [b! "c", b! "b"], bulks [b! "a"]] := by decide +kernel

/-! ## C30 -/

/-- C30, if the destination holds a set or nothing.  A member that is in the source is afterwards in the destination and,
unless both keys are the same, no longer in the source, and nothing else changed in either set; if it is not in the
source the reply is an error and both sets are unchanged. -/
theorem C30_smove_partial {ext s} (hs : ReachableBy ext Regular s) {src dst x : Bytes} {X Y : Finset Bytes} (hX : Members ext s src X)
    (hY : Members ext s dst Y) {it m s'} (ha : Answers ext it s [b! "smove", src, dst, x] m s') :
    (x ∈ X ∧ src ≠ dst ∧ m = .int (if x ∈ Y then 0 else 1) ∧ Members ext s' src (X \ {x}) ∧ Members ext s' dst (Y ∪ {x})) ∨
    (x ∈ X ∧ src = dst ∧ m = .int 1 ∧ Members ext s' src X) ∨
    (x ∉ X ∧ m = .error (b! "redis: not found") ∧ Members ext s' src X ∧ Members ext s' dst Y) := by
  obtain ⟨w, hg⟩ := hs.sgood
  obtain ⟨hne, rfl⟩ := hg.members.mp hX
  obtain ⟨hne2, rfl⟩ := hg.members.mp hY
  have hr : Regular [b! "smove", src, dst, x] := regular_name (by unfold Ascii; decide) (by decide) _
  have hf : m = if w src = .other then errType
        else if x ∉ mems (w src) then errNil
        else if w dst = .other then errType
        else .int (if x ∈ mems (w dst) ∧ dst ≠ src then 0 else 1) := (hg.fits (ext := ext) hr (by decide)).2 it m s' ha
  have hg' := hg.step hr ha
  have hst : SetSpec.step w (b! "smove") [src, dst, x] m =
        if x ∈ mems (w src) then
          put (put w src (leave [x] (w src))) dst (add [x] (put w src (leave [x] (w src)) dst))
        else w := rfl
  have hg'' : SGood s' (SetSpec.step w (b! "smove") [src, dst, x] m) := hg'
  rw [hst] at hg''
  rw [if_neg hne] at hf
  have hleave : leave [x] (w src) ≠ .other ∧ mems (leave [x] (w src)) = mems (w src) \ {x} := by
    revert hne
    generalize w src = v
    intro hne
    rcases v with _ | _ | ⟨X, g⟩
    · exact ⟨nofun, by simp [leave, mems]⟩
    · exact absurd rfl hne
    · exact ⟨nofun, by simp [leave, mems]⟩
  have hadd : ∀ v : SView, v ≠ .other → add [x] v ≠ .other ∧ mems (add [x] v) = mems v ∪ {x} := by
    intro v hv
    rcases v with _ | _ | ⟨X, g⟩
    · exact ⟨nofun, by simp [add, mems]⟩
    · exact absurd rfl hv
    · exact ⟨nofun, by simp [add, mems]⟩
  by_cases hx : x ∈ mems (w src)
  · rw [if_neg (by simpa using hx), if_neg hne2] at hf
    rw [if_pos hx] at hg''
    by_cases hsd : src = dst
    · subst hsd
      refine .inr (.inl ⟨hx, rfl, by rw [hf]; simp, hg''.members.mpr ?_⟩)
      simp only [put, if_true]
      obtain ⟨h1, h2⟩ := hadd _ hleave.1
      refine ⟨h1, ?_⟩
      rw [h2, hleave.2]
      ext y; simp only [Finset.mem_union, Finset.mem_sdiff, Finset.mem_singleton]
      by_cases e : y = x
      · subst e; simp [hx]
      · simp [e]
    · refine .inl ⟨hx, hsd, by rw [hf]; simp [Ne.symm hsd], hg''.members.mpr ?_, hg''.members.mpr ?_⟩
      · simp only [put, if_neg hsd, if_true]
        exact hleave
      · simp only [put, if_neg (Ne.symm hsd), if_true]
        exact hadd _ hne2
  · rw [if_pos hx] at hf
    rw [if_neg hx] at hg''
    exact .inr (.inr ⟨hx, hf, hg''.members.mpr ⟨hne, rfl⟩, hg''.members.mpr ⟨hne2, rfl⟩⟩)

/-- C30 fails in full: if the destination holds another type, the member is gone from the source and in neither key. -/
theorem C30_violated :
    replies [[b! "sadd", b! "s", b! "a", b! "b"], [b! "set", b! "k", b! "v"], [b! "smove", b! "s", b! "k", b! "a"],
        [b! "sismember", b! "s", b! "a"], [b! "get", b! "k"]] =
      some [.int 2, .simple (b! "OK"), .error (b! "key type and command not match"), .int 0, .bulk (some (b! "v"))] := by
  decide +kernel

/-- Case: a member moves, also to the same key, and a missing one does not. -/
example : replies (setDemo ++ [[b! "smove", b! "s", b! "t", b! "a"], [b! "sismember", b! "s", b! "a"], [b! "sismember", b! "t", b! "a"],
      [b! "smove", b! "s", b! "s", b! "b"], [b! "sismember", b! "s", b! "b"], [b! "smove", b! "s", b! "t", b! "zz"]]) =
    some [.int 3, .int 2, .int 1, .simple (b! "OK"), .int 1, .int 1, .int 1, .int 0, .int 1, .int 1, .int 1,
      .error (b! "redis: not found")] := by decide +kernel

end Godis
