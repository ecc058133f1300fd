import Verif.Proofs.Shared2
import Verif.Props.Sets
/-!
# C57, C58: sets and frames after every history

These are C25, C26, C28, C30 and C18 without the restriction to regular histories.

S*STORE with exactly one source makes the destination name the *same* set as the source.  `SharedSpec` (Spec/Shared.lean)
says which key names which set after a history; with it, every set command is specified after **every** history of requests
with ASCII names, and so is which keys a request can touch.
-/
namespace Godis
open Resp (Reply bulks)
open SetSpec (SView mems size commands combine Op)
open SharedSpec (World)
open ListSpec (errType errNil)
open StrSpec (int64 lower Ascii setStores)
open KeySpec (KView keyArgs)

/-- SISMEMBER and the world say the same -/
theorem Linked.members {ext s W} (h : Linked s W) {k : Bytes} {X : Finset Bytes} :
    Members ext s k X ↔ W.view k ≠ .other ∧ mems (W.view k) = X :=
  (SOk.mk h.typed h.all).members

theorem asciiName {name : Bytes} (h : Ascii name) (args : List Bytes) : AsciiName (name :: args) := by
  intro n hn
  simp only [List.head?_cons, Option.mem_def, Option.some.injEq] at hn
  subst hn; exact h

/-- C57, replies.  After every history, every set request is answered (no crash), whatever order Go iterates over maps, and the reply
is correct for the sets, and the names of sets, that the history left. -/
theorem C57_sets {ext rng tr s} (h : Trace ext (Store.init rng) tr s) (hp : ∀ p ∈ tr, AsciiName p.1)
    {name : Bytes} {args : List Bytes} (hr : Ascii name) (hc : lower name ∈ commands) :
    (∀ it, ∃ m s', Answers ext it s (name :: args) m s') ∧
    ∀ it m s', Answers ext it s (name :: args) m s' → SharedSpec.Fits (SharedSpec.after tr) (lower name) args m :=
  (h.linked hp).fits hr hc

/-- C57, SISMEMBER: the members of a key that holds a set, or nothing, are the ones computed from the
history. -/
theorem C57_members {ext rng tr s} (h : Trace ext (Store.init rng) tr s) (hp : ∀ p ∈ tr, AsciiName p.1) {k : Bytes}
    (hk : (SharedSpec.after tr).view k ≠ .other) : Members ext s k (mems ((SharedSpec.after tr).view k)) :=
  (h.linked hp).members.mpr ⟨hk, rfl⟩

/-- C57, SCARD: SCARD replies the number of members plus the number of members that left the set through SPOP
or SMOVE under any of its names, so never less than the number of members. -/
theorem C57_scard {ext rng tr s} (h : Trace ext (Store.init rng) tr s) (hp : ∀ p ∈ tr, AsciiName p.1) {k : Bytes}
    {X : Finset Bytes} (hX : Members ext s k X) :
    ∃ n : Nat, Reads ext s [b! "scard", k] (.int n) ∧ X.card ≤ n ∧ n = size ((SharedSpec.after tr).view k) := by
  have hl := h.linked hp
  have hg : SOk s (SharedSpec.after tr).view := ⟨hl.typed, hl.all⟩
  obtain ⟨hne, rfl⟩ := hg.members.mp hX
  refine ⟨size ((SharedSpec.after tr).view k), hg.reads (regular_name (by unfold Ascii; decide) (by decide) _) (by decide) (fun m' hm' => ?_), ?_, rfl⟩
  · have : m' = if (SharedSpec.after tr).view k = .other then errType else .int (size ((SharedSpec.after tr).view k)) := hm'
    rw [this, if_neg hne]
  · rw [size_eq]; omega

/-! ## S*STORE -/

/-- C57, S*STORE with one source: the reply is the size that SCARD reports for the source, and from then on the two keys are
two names of one set.  Through any further history, until one of the two keys is deleted, overwritten with a string or is
the destination of another S*STORE, every command that changes the set under one name changes it under the other. -/
theorem C57_one_source {ext rng tr s} (h : Trace ext (Store.init rng) tr s) (hp : ∀ p ∈ tr, AsciiName p.1) (op : Op)
    {dst src : Bytes} {X : Finset Bytes} (hX : Members ext s src X) (hne : X ≠ ∅) {it m s'}
    (ha : Answers ext it s [opStoreName op, dst, src] m s') :
    Reads ext s [b! "scard", src] m ∧
    ∀ {tr' s''}, Trace ext s' tr' s'' → (∀ p ∈ tr', AsciiName p.1) →
      (∀ p ∈ tr', ¬ Rebinds (lower (p.1.headD [])) p.1.tail dst ∧ ¬ Rebinds (lower (p.1.headD [])) p.1.tail src) →
      ∃ Y, Members ext s'' dst Y ∧ Members ext s'' src Y := by
  have hl := h.linked hp
  have hasc : AsciiName [opStoreName op, dst, src] := asciiName (by cases op <;> (unfold Ascii; decide)) _
  have hf := (hl.fits (ext := ext) (name := opStoreName op) (args := [dst, src]) (hasc _ rfl) (by cases op <;> decide)).2 it m s' ha
  obtain ⟨n, hn1, _, hn2⟩ := C57_scard h hp hX
  obtain ⟨hno, rfl⟩ := hl.members.mp hX
  generalize hW : SharedSpec.after tr = W at *
  have hsz : size (W.view src) ≠ 0 := by
    rw [size_eq]
    have := Finset.card_pos.mpr (Finset.nonempty_iff_ne_empty.mpr hne)
    omega
  have htr : SetSpec.trouble W.view [src] = none := by
    show (if W.view src = .other then some .other else if size (W.view src) = 0 then some .absent else none) = (none : Option SView)
    rw [if_neg hno, if_neg hsz]
  have hm : m = .int (size (W.view src)) := by
    have hf' : (match SetSpec.trouble W.view [src] with
        | some .other => m = errType
        | some _ => m = errNil
        | none => m = .int (size (W.view src))) := by
      cases op <;> exact hf
    rw [htr] at hf'
    exact hf'
  refine ⟨by rw [hm, ← hn2]; exact hn1, ?_⟩
  intro tr' s'' ht' hp' hno'
  have hl' := hl.step hasc ha
  have hst : SharedSpec.step W (lower (opStoreName op)) [dst, src] m = W.name dst (W.names src) := by
    subst hm; cases op <;> rfl
  rw [show SharedSpec.step W (lower ([opStoreName op, dst, src].headD [])) [opStoreName op, dst, src].tail m = _ from hst] at hl'
  have hv : ∃ i, W.names src = .here i := by
    cases hn : W.names src with
    | absent => rw [view_absent hn] at hsz; exact absurd rfl hsz
    | other => exact absurd (view_other hn) hno
    | here i => exact ⟨i, rfl⟩
  obtain ⟨i, hi⟩ := hv
  have h1 : (W.name dst (W.names src)).names dst = .here i := by
    show (if dst = dst then _ else _) = _
    rw [if_pos rfl, hi]
  have h2 : (W.name dst (W.names src)).names src = .here i := by
    show (if src = dst then W.names src else W.names src) = _
    rw [ite_self, hi]
  have hl'' := hl'.trace ht' hp'
  have g1 := fold_names h1 (fun p hp => (hno' p hp).1)
  have g2 := fold_names h2 (fun p hp => (hno' p hp).2)
  generalize tr'.foldl _ _ = W' at *
  refine ⟨(W'.sets i).1, hl''.members.mpr ?_, hl''.members.mpr ?_⟩
  · rw [view_here g1]; exact ⟨nofun, rfl⟩
  · rw [view_here g2]; exact ⟨nofun, rfl⟩

/-- Case: `b` becomes a name of the set of `a`; what is done to `b`, and SMOVE from `c` to `a`, shows under both names. -/
example : replies [[b! "sadd", b! "a", b! "1", b! "2"], [b! "sinterstore", b! "b", b! "a"], [b! "sadd", b! "b", b! "3"],
      [b! "srem", b! "a", b! "1"], [b! "sadd", b! "c", b! "4"], [b! "smove", b! "c", b! "a", b! "4"], [b! "smembers", b! "a"],
      [b! "smembers", b! "b"], [b! "scard", b! "b"]] =
    some [.int 2, .int 2, .int 1, .int 1, .int 1, .int 1, bulks [b! "4", b! "3", b! "2"], bulks [b! "4", b! "3", b! "2"], .int 3] := by
  decide +kernel

/-- values decide membership -/
theorem members_congr {ext s s'} {k : Bytes} {X} (hs : Reachable ext s) (hs' : Reachable ext s') (hv : s'.valueAt k = s.valueAt k)
    (h : Members ext s k X) : Members ext s' k X := by
  obtain ⟨w, hw⟩ := hs.sok
  obtain ⟨w', hw'⟩ := hs'.sok
  have : w' k = w k := (hw'.all k).unique (by rw [kview_congr hv]; exact hw.all k)
  rw [hw'.members, this]
  exact hw.members.mp h

/-- C57, S*STORE with two or more sources that all hold non-empty sets.  The destination then holds exactly the
computed set, the reply is its size, and it is a copy: through any further history of requests that do not name the
destination it keeps its members. -/
theorem C57_copy {ext rng tr s} (h : Trace ext (Store.init rng) tr s) (hp : ∀ p ∈ tr, AsciiName p.1) (op : Op)
    {dst : Bytes} {ks : List Bytes} (h2 : 2 ≤ ks.length)
    {X : Bytes → Finset Bytes} (hX : ∀ k ∈ ks, Members ext s k (X k) ∧ X k ≠ ∅) {it m s'}
    (ha : Answers ext it s (opStoreName op :: dst :: ks) m s') :
    m = .int (combine op (ks.map X)).card ∧ Members ext s' dst (combine op (ks.map X)) ∧
    ∀ {tr' s''}, Trace ext s' tr' s'' → (∀ p ∈ tr', ∀ name args, p.1 = name :: args → Ascii name ∧ dst ∉ keyArgs (lower name) args) →
      Members ext s'' dst (combine op (ks.map X)) := by
  have hl := h.linked hp
  have hasc : AsciiName (opStoreName op :: dst :: ks) := asciiName (by cases op <;> (unfold Ascii; decide)) _
  have hf := (hl.fits (ext := ext) (name := opStoreName op) (args := dst :: ks) (hasc _ rfl) (by cases op <;> decide)).2 it m s' ha
  have hl' := hl.step hasc ha
  obtain ⟨ht, hm⟩ := trouble_none (ext := ext) (SOk.mk hl.typed hl.all) hX
  have hs : Reachable ext s := ⟨rng, tr, h⟩
  have hfr := hl.fresh
  generalize SharedSpec.after tr = W at *
  rcases ks with _ | ⟨k, _ | ⟨k1, ks⟩⟩
  · simp at h2
  · simp at h2
  · have hmi : m = .int (combine op ((k :: k1 :: ks).map X)).card := by
      have hf' : (match SetSpec.trouble W.view (k :: k1 :: ks) with
          | some .other => m = errType
          | some _ => m = errNil
          | none => m = .int (combine op ((k :: k1 :: ks).map (fun k => mems (W.view k)))).card) := by
        cases op <;> exact hf
      rw [ht] at hf'
      rw [← hm]; exact hf'
    have hst : SharedSpec.step W (lower (opStoreName op)) (dst :: k :: k1 :: ks) m =
        W.create dst (combine op ((k :: k1 :: ks).map (fun k => mems (W.view k))), 0) := by
      subst hmi; cases op <;> rfl
    change Linked s' (SharedSpec.step W (lower (opStoreName op)) (dst :: k :: k1 :: ks) m) at hl'
    rw [hst, hm] at hl'
    generalize hY : combine op ((k :: k1 :: ks).map X) = Y at *
    have hn : ∀ k', (W.create dst (Y, 0)).names k' = if k' = dst then .here W.next else W.names k' := fun _ => rfl
    have hnd : (W.create dst (Y, 0)).names dst = .here W.next := by rw [hn, if_pos rfl]
    have hmem : Members ext s' dst Y := by
      rw [hl'.members, view_here hnd, show (W.create dst (Y, 0)).sets W.next = (Y, 0) from if_pos rfl]
      exact ⟨nofun, rfl⟩
    refine ⟨hmi, hmem, ?_⟩
    intro tr' s'' ht' hp'
    have hs' := hs.snoc ha
    have hsole : Sole s' dst := by
      refine hl'.sole hs'.shareSets ?_
      rintro k' ⟨i, h1, h2⟩
      rw [hnd] at h2
      cases h2
      by_contra hne
      rw [hn, if_neg hne] at h1
      exact absurd (hfr _ _ h1) (by simp)
    have hv := (ht'.sole hs'.typed hsole hp').2
    refine members_congr hs' ?_ hv hmem
    obtain ⟨rng', tr0, h0⟩ := hs'
    exact ⟨rng', _, h0.append ht'⟩

/-- a history with shared sets: `a`, `b` and `c` name one set, then `a` is deleted and created anew; `d` is a copy -/
def sharedDemo : List (List Bytes) :=
  [[b! "sadd", b! "a", b! "1", b! "2"], [b! "sunionstore", b! "b", b! "a"], [b! "SDIFFSTORE", b! "c", b! "b"],
   [b! "del", b! "a"], [b! "sadd", b! "a", b! "9"], [b! "srem", b! "c", b! "1"], [b! "sunionstore", b! "d", b! "b", b! "c"],
   [b! "sadd", b! "d", b! "7"], [b! "smove", b! "b", b! "c", b! "2"], [b! "set", b! "k", b! "v"]]

theorem sharedDemo_good : ∃ s, Trace ext0 (Store.init rng0) (sharedDemo.zip ((replies sharedDemo).getD [])) s ∧
    (∀ p ∈ sharedDemo.zip ((replies sharedDemo).getD []), AsciiName p.1) := by
  obtain ⟨s, h⟩ := demo (reqs := sharedDemo) (by decide +kernel)
  exact ⟨s, h, by decide +kernel⟩

/-- Case: what the specification makes of this history.  `b` and `c` are {2} with one ghost, `a` is {9}, `d` is {2, 7}. -/
example : (fun W : World => [W.view (b! "a"), W.view (b! "b"), W.view (b! "c"), W.view (b! "d"), W.view (b! "k"), W.view (b! "e")])
      (SharedSpec.after (sharedDemo.zip ((replies sharedDemo).getD []))) =
    [.here ({b! "9"}, 0), .here ({b! "2"}, 1), .here ({b! "2"}, 1), .here ({b! "2", b! "7"}, 0), .other, .absent] := by
  decide +kernel

example : ∃ s, Reachable ext0 s ∧ Members ext0 s (b! "c") {b! "2"} ∧ Reads ext0 s [b! "scard", b! "c"] (.int 2) := by
  obtain ⟨s, h, hp⟩ := sharedDemo_good
  have hm := C57_members h hp (k := b! "c") (by decide +kernel)
  obtain ⟨n, h1, _, h2⟩ := C57_scard h hp hm
  rw [show mems ((SharedSpec.after (sharedDemo.zip ((replies sharedDemo).getD []))).view (b! "c")) = {b! "2"} by decide +kernel] at hm
  rw [show size ((SharedSpec.after (sharedDemo.zip ((replies sharedDemo).getD []))).view (b! "c")) = 2 by decide +kernel] at h2
  subst h2
  exact ⟨s, ⟨rng0, _, h⟩, hm, h1⟩

/-! ## C58 -/

/-- C58: after every history a request changes a key's value only if it names the key, or another name of the same set. -/
theorem C58_request_frame {ext rng tr s} (h : Trace ext (Store.init rng) tr s) (hp : ∀ p ∈ tr, AsciiName p.1)
    {name : Bytes} {args : List Bytes} (hr : Ascii name) {it m s'} (ha : Answers ext it s (name :: args) m s') {j : Bytes}
    (hj : j ∉ keyArgs (lower name) args) (hn : ∀ k ∈ keyArgs (lower name) args, ¬ (SharedSpec.after tr).Same k j) :
    s'.valueAt j = s.valueAt j :=
  (h.linked hp).frame (Reachable.shareSets ⟨rng, tr, h⟩) hr ha hj hn

/-- C58, in terms of the requests only.  Split a history at any point.  If no later request names `j`,
or a key connected to `j` through one-source S*STORE requests of the history, then the value under `j` stays the same. -/
theorem C58_frame {ext rng tr tr' s s'} (h : Trace ext (Store.init rng) tr s) (h' : Trace ext s tr' s')
    (hp : ∀ p ∈ tr ++ tr', AsciiName p.1) {j : Bytes}
    (hk : ∀ p ∈ tr', ∀ name args, p.1 = name :: args → ∀ k ∈ keyArgs (lower name) args, ¬ Connected (tr ++ tr') k j) :
    s'.valueAt j = s.valueAt j := by
  suffices H : ∀ tr1, (∀ p ∈ tr1, p ∈ tr') → Trace ext s tr1 s' → s'.valueAt j = s.valueAt j ∧ Trace ext (Store.init rng) (tr ++ tr1) s' from
    (H tr' (fun _ h => h) h').1
  intro tr1 hsub h1
  clear h'
  induction h1 with
  | nil => exact ⟨rfl, by simpa using h⟩
  | @snoc tr1 s1 it req m s2 h0 ha ih =>
    obtain ⟨i1, i2⟩ := ih (fun p hp' => hsub p (by simp [hp']))
    have hmem : (req, m) ∈ tr' := hsub _ (by simp)
    have hsub' : ∀ p ∈ tr ++ tr1, p ∈ tr ++ tr' := by
      intro p hp'
      rcases List.mem_append.mp hp' with h | h
      · exact List.mem_append_left _ h
      · exact List.mem_append_right _ (hsub p (by simp [h]))
    refine ⟨?_, by rw [← List.append_assoc]; exact .snoc i2 ha⟩
    rw [← i1]
    have hreq := hp (req, m) (List.mem_append_right _ hmem)
    obtain ⟨name, args, rfl, _⟩ := ha.cases
    have hconn := hk _ hmem name args rfl
    refine C58_request_frame i2 (fun p hp' => hp p (hsub' p hp')) (hreq name rfl) ha (fun hj => hconn j hj (.refl _)) ?_
    intro k hk' hs
    exact hconn k hk' (((kin_after _).2 _ _ hs).mono hsub')

/-- Connected keys agree on everything that the two keys of every one-source S*STORE agree on. -/
theorem Connected.inv {tr} {P : Bytes → Prop} (h : ∀ p ∈ tr, p.1.length = 3 → lower (p.1.headD []) ∈ setStores → (P (p.1.getD 1 []) ↔ P (p.1.getD 2 []))) {a b : Bytes} (hc : Connected tr a b) : P a ↔ P b := by
  have hs : ∀ {a b}, StoredFrom tr a b → (P a ↔ P b) := by
    rintro a b ⟨⟨req, m⟩, hp, name, rfl, hn⟩
    exact h _ hp rfl hn
  induction hc with
  | refl => exact Iff.rfl
  | fwd _ h ih => exact ih.trans (hs h)
  | bwd _ h ih => exact ih.trans (hs h).symm

/-- Case: after the history of `sharedDemo`, `d` is connected to no other key, so SADD to `c` (which is connected to `a`
and `b`) leaves it. -/
example : ∃ s m s', Trace ext0 (Store.init rng0) (sharedDemo.zip ((replies sharedDemo).getD [])) s ∧
    Trace ext0 s [([b! "sadd", b! "c", b! "x"], m)] s' ∧ s'.valueAt (b! "d") = s.valueAt (b! "d") := by
  obtain ⟨s, h, hp⟩ := sharedDemo_good
  obtain ⟨m, s', ha⟩ := (C57_sets h hp (name := b! "sadd") (args := [b! "c", b! "x"]) (by unfold Ascii; decide) (by decide)).1 it0
  have h' : Trace ext0 s ([] ++ [([b! "sadd", b! "c", b! "x"], m)]) s' := .snoc .nil ha
  refine ⟨s, m, s', h, h', C58_frame h h' ?_ ?_⟩
  · intro p hp'
    rcases List.mem_append.mp hp' with h1 | h1
    · exact hp p h1
    · simp only [List.nil_append, List.mem_singleton] at h1
      subst h1; exact asciiName (by unfold Ascii; decide) _
  · intro p hp' name args he k hk hc
    simp only [List.nil_append, List.mem_singleton] at hp'
    subst hp'
    cases he
    have hkc : k = b! "c" := by simpa using (show k ∈ [b! "c"] from hk)
    subst hkc
    have := (Connected.inv (P := fun k => k = b! "d") ?_ hc).mpr rfl
    · exact absurd this (by decide)
    · intro p hp'
      rcases List.mem_append.mp hp' with h1 | h1
      · clear hp'
        revert p
        decide +kernel
      · simp only [List.nil_append, List.mem_singleton] at h1
        subst h1
        intro _ h; exact absurd (show lower (b! "sadd") ∈ setStores from h) (by decide)

/-! ## SMOVE -/

/-- C57, SMOVE, if the destination holds a set or nothing.  A member of the source is afterwards in the
destination and, unless both keys name the same set, no longer in the source, and nothing else changed in either set; if
it is not in the source the reply is an error and both sets are unchanged. -/
theorem C57_smove {ext rng tr s} (h : Trace ext (Store.init rng) tr s) (hp : ∀ p ∈ tr, AsciiName p.1)
    {src dst x : Bytes} {X Y : Finset Bytes} (hX : Members ext s src X)
    (hY : Members ext s dst Y) {it m s'} (ha : Answers ext it s [b! "smove", src, dst, x] m s') :
    (x ∈ X ∧ ¬ (SharedSpec.after tr).Same src dst ∧ m = .int (if x ∈ Y then 0 else 1) ∧ Members ext s' src (X \ {x}) ∧
      Members ext s' dst (Y ∪ {x})) ∨
    (x ∈ X ∧ (SharedSpec.after tr).Same src dst ∧ X = Y ∧ m = .int 1 ∧ Members ext s' src X ∧ Members ext s' dst X) ∨
    (x ∉ X ∧ m = .error (b! "redis: not found") ∧ Members ext s' src X ∧ Members ext s' dst Y) := by
  have hl := h.linked hp
  have hasc : AsciiName [b! "smove", src, dst, x] := asciiName (by unfold Ascii; decide) _
  obtain ⟨hne, rfl⟩ := hl.members.mp hX
  obtain ⟨hne2, rfl⟩ := hl.members.mp hY
  have hl' := hl.step hasc ha
  have hf := (hl.fits (ext := ext) (name := b! "smove") (args := [src, dst, x]) (by unfold Ascii; decide) (by decide)).2 it m s' ha
  generalize SharedSpec.after tr = W at *
  have hst : SharedSpec.step W (b! "smove") [src, dst, x] m =
      if x ∈ mems (W.view src) then
        (W.change src (SetSpec.leave [x] (W.view src))).change dst
          (SetSpec.add [x] ((W.change src (SetSpec.leave [x] (W.view src))).view dst))
      else W := rfl
  change Linked s' (SharedSpec.step W (b! "smove") [src, dst, x] m) at hl'
  rw [hst] at hl'
  have hf : (W.view src = .other ∧ m = errType) ∨
      (W.view src ≠ .other ∧ x ∉ mems (W.view src) ∧ m = errNil) ∨
      (x ∈ mems (W.view src) ∧ W.view dst = .other ∧ m = errType) ∨
      (x ∈ mems (W.view src) ∧ W.view dst ≠ .other ∧ (W.Same src dst ∨ x ∉ mems (W.view dst)) ∧ m = .int 1) ∨
      (x ∈ mems (W.view src) ∧ x ∈ mems (W.view dst) ∧ ¬ W.Same src dst ∧ m = .int 0) := hf
  by_cases hx : x ∈ mems (W.view src)
  · rw [if_pos hx] at hl'
    obtain ⟨i, hi⟩ : ∃ i, W.names src = .here i := by
      cases hn : W.names src with
      | absent => rw [view_absent hn] at hx; simp [mems] at hx
      | other => exact absurd (view_other hn) hne
      | here i => exact ⟨i, rfl⟩
    have hvs := view_here hi
    rcases hwi : W.sets i with ⟨X, g⟩
    rw [hwi] at hvs
    rw [hvs, show SetSpec.leave [x] (KView.here (X, g)) = .here (X \ [x].toFinset, g + (X ∩ [x].toFinset).card) from rfl] at hl'
    have hX0 : mems (W.view src) = X := by rw [hvs]; rfl
    rw [hX0] at hx hf ⊢
    have hcn := fun k' => change_names (k' := k') (x := (X \ [x].toFinset, g + (X ∩ [x].toFinset).card)) hi
    have hcv := fun k' => change_view (k' := k') (x := (X \ [x].toFinset, g + (X ∩ [x].toFinset).card)) hi
    have hnx : (W.change src (.here (X \ [x].toFinset, g + (X ∩ [x].toFinset).card))).next = W.next := by simp [World.change, hi]
    have hlt := hl.fresh _ _ hi
    generalize W.change src (.here (X \ [x].toFinset, g + (X ∩ [x].toFinset).card)) = W1 at hl' hcn hcv hnx
    have hsame := same_iff (k' := dst) hi
    by_cases hs : W.Same src dst
    · have hm : m = .int 1 := by
        rcases hf with ⟨h1, _⟩ | ⟨_, h1, _⟩ | ⟨_, h1, _⟩ | ⟨_, _, _, h1⟩ | ⟨_, _, h1, _⟩
        · exact absurd h1 hne
        · exact absurd hx h1
        · exact absurd h1 hne2
        · exact h1
        · exact absurd hs h1
      have hd := hsame.mp hs
      have hvd : mems (W.view dst) = X := by rw [view_here hd, hwi]; rfl
      have h1d : W1.view dst = .here (X \ [x].toFinset, g + (X ∩ [x].toFinset).card) := by rw [hcv, if_pos hd]
      rw [h1d, show SetSpec.add [x] (KView.here (X \ [x].toFinset, g + (X ∩ [x].toFinset).card)) =
        .here (X \ [x].toFinset ∪ [x].toFinset, g + (X ∩ [x].toFinset).card) from rfl] at hl'
      have hXX : X \ [x].toFinset ∪ [x].toFinset = X := by
        ext y
        simp only [List.toFinset_cons, List.toFinset_nil, insert_empty_eq, Finset.mem_union, Finset.mem_sdiff, Finset.mem_singleton]
        by_cases e : y = x
        · subst e; simp [hx]
        · simp [e]
      rw [hXX] at hl'
      have hcv2 := fun k' => change_view (W := W1) (k' := k') (x := (X, g + (X ∩ [x].toFinset).card)) ((hcn dst).trans hd)
      refine .inr (.inl ⟨hx, hs, hvd.symm, hm, hl'.members.mpr ?_, hl'.members.mpr ?_⟩)
      · rw [hcv2, if_pos ((hcn src).trans hi)]; exact ⟨nofun, rfl⟩
      · rw [hcv2, if_pos ((hcn dst).trans hd)]; exact ⟨nofun, rfl⟩
    · have hd : ¬ W.names dst = .here i := fun h => hs (hsame.mpr h)
      have hm : m = .int (if x ∈ mems (W.view dst) then 0 else 1) := by
        rcases hf with ⟨h1, _⟩ | ⟨_, h1, _⟩ | ⟨_, h1, _⟩ | ⟨_, _, h1 | h1, h2⟩ | ⟨_, h1, _, h2⟩
        · exact absurd h1 hne
        · exact absurd hx h1
        · exact absurd h1 hne2
        · exact absurd h1 hs
        · rw [if_neg h1]; exact h2
        · rw [if_pos h1]; exact h2
      have h1d : W1.view dst = W.view dst := by rw [hcv, if_neg hd]
      have h1s : W1.view src = .here (X \ [x].toFinset, g + (X ∩ [x].toFinset).card) := by rw [hcv, if_pos hi]
      rw [h1d] at hl'
      have hfin : ∀ v : SView, v = W.view dst → Linked s' (W1.change dst (SetSpec.add [x] v)) →
          Members ext s' src (X \ {x}) ∧ Members ext s' dst (mems v ∪ {x}) := by
        intro v hv hl'
        rcases v with _ | _ | ⟨Y, g'⟩
        · have hna : W1.names dst = .absent := (hcn dst).trans (names_absent hv.symm)
          have hsd : src ≠ dst := by rintro rfl; rw [hcn, hi] at hna; cases hna
          rw [show SetSpec.add [x] (KView.absent : SView) = .here ([x].toFinset, 0) from rfl, change_absent (view_absent hna)] at hl'
          have hvn : ∀ k', (W1.create dst ([x].toFinset, 0)).names k' = if k' = dst then .here W1.next else W1.names k' := fun _ => rfl
          refine ⟨hl'.members.mpr ?_, hl'.members.mpr ?_⟩
          · have hi1 : (W1.create dst ([x].toFinset, 0)).names src = .here i := by rw [hvn, if_neg hsd, hcn, hi]
            have hlt : (W1.create dst ([x].toFinset, 0)).sets i = W1.sets i := by
              show (if i = W1.next then _ else _) = _
              rw [if_neg (by omega)]
            rw [view_here hi1, hlt]
            have := view_here ((hcn src).trans hi)
            rw [h1s] at this
            simp only [KView.here.injEq] at this
            rw [← this]
            exact ⟨nofun, by simp [mems]⟩
          · have hi1 : (W1.create dst ([x].toFinset, 0)).names dst = .here W1.next := by rw [hvn, if_pos rfl]
            have hlt : (W1.create dst ([x].toFinset, 0)).sets W1.next = ([x].toFinset, 0) := if_pos rfl
            rw [view_here hi1, hlt]
            exact ⟨nofun, by simp [mems]⟩
        · exact absurd hv.symm hne2
        · obtain ⟨j, hj, hsj⟩ := names_here hv.symm
          rw [show SetSpec.add [x] (KView.here (Y, g')) = .here (Y ∪ [x].toFinset, g') from rfl] at hl'
          have hcv2 := fun k' => change_view (W := W1) (k' := k') (x := (Y ∪ [x].toFinset, g')) ((hcn dst).trans hj)
          refine ⟨hl'.members.mpr ?_, hl'.members.mpr ?_⟩
          · rw [hcv2, if_neg, h1s]
            · exact ⟨nofun, by simp [mems]⟩
            · rw [hcn, hi]; rintro ⟨rfl⟩; exact hd hj
          · rw [hcv2, if_pos ((hcn dst).trans hj)]
            exact ⟨nofun, by simp [mems]⟩
      obtain ⟨h1, h2⟩ := hfin _ rfl hl'
      exact .inl ⟨hx, hs, hm, h1, h2⟩
  · rw [if_neg hx] at hl'
    have hm : m = errNil := by
      rcases hf with ⟨h1, _⟩ | ⟨_, _, h1⟩ | ⟨h1, _⟩ | ⟨h1, _⟩ | ⟨h1, _⟩
      · exact absurd h1 hne
      · exact h1
      · exact absurd h1 hx
      · exact absurd h1 hx
      · exact absurd h1 hx
    exact .inr (.inr ⟨hx, hm, hl'.members.mpr ⟨hne, rfl⟩, hl'.members.mpr ⟨hne2, rfl⟩⟩)

/-- Case: in the history of `sharedDemo`, SMOVE between the two names `b` and `c` of one set replied 1 and left the member;
SMOVE to the copy `d` moves it away from both. -/
example : replies (sharedDemo ++ [[b! "smove", b! "b", b! "d", b! "2"], [b! "sismember", b! "c", b! "2"]]) =
    some [.int 2, .int 2, .int 2, .int 1, .int 1, .int 1, .int 1, .int 1, .int 1, .simple (b! "OK"), .int 0, .int 0] := by
  decide +kernel

end Godis
