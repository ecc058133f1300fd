import Verif.Props.Sets
import Verif.Props.Keys
/-!
# C14, C15, C27, C29, C30: what the exceptions are, exactly

The `_partial` theorems of these properties leave out some requests, and `_violated` theorems show single cases.  Here is what
happens to the requests that are left out, in every state.
-/
namespace Godis
open Resp (Reply bulks)
open StrSpec (int64 Ascii lower)
open SetSpec
open ListSpec (errType errNil errArgs)

variable {ext : Ext} {s s' : Store} {it : Iter} {m : Reply}

/-- a key of another type -/
theorem typed_info {k t : Bytes} {kd : KeySpec.Kind} (hty : Reads ext s [b! "type", k] (.simple t)) (hne : t ≠ b! "none") (hkd : t ≠ typeName kd) :
    ∃ info, s.keys.get k = some info ∧ info.type ≠ kindTag kd := by
  have htt := (type_answers.mp (hty it0)).1
  cases hg : s.keys.get k with
  | none => simp only [typeText, hg] at htt; cases htt; exact absurd rfl hne
  | some info =>
    simp only [typeText, hg] at htt
    cases htt
    exact ⟨info, rfl, fun h => hkd (by rw [h, typeName_eq])⟩

/-- C14, HGETALL: on a key of another type the reply is a nil, as if the key did not exist. -/
theorem C14_hgetall_exactly {k t : Bytes} (rest : List Bytes) (hty : Reads ext s [b! "type", k] (.simple t)) (hne : t ≠ b! "none")
    (hkd : t ≠ typeName .hash) : Reads ext s (b! "hgetall" :: k :: rest) (.bulk none) := by
  obtain ⟨info, hg, hi⟩ := typed_info hty hne hkd
  refine fun it => (answers_iff (c := .hGetAll) rfl).mpr ⟨.ok newResponseWithNilBulk, ?_, rfl⟩
  have hi' : info.type ≠ .hashTable := hi
  simp only [Cmd.fn, cmdHGetAll, Store.hGetAll, Store.loadHash, Store.loadKeyInfo, hg, if_pos hi', bind, Except.bind]
  rfl

/-- C14, ZPOPMIN and ZPOPMAX: on a key of another type the reply is an empty array, unless the count is no number. -/
theorem C14_zpop_exactly {k t name : Bytes} (rest : List Bytes) (hn : name = b! "zpopmin" ∨ name = b! "zpopmax")
    (hty : Reads ext s [b! "type", k] (.simple t)) (hne : t ≠ b! "none") (hkd : t ≠ typeName .zset) :
    Reads ext s (name :: k :: rest) (match rest with
      | [] => .array []
      | c :: _ => if (int64 c).isSome then .array [] else .error (b! "value is not an integer or out of range")) := by
  obtain ⟨info, hg, hi⟩ := typed_info hty hne hkd
  have hi' : info.type ≠ .sortedSet := hi
  have hmin : ∀ c, s.zPopMin ext k c = .ok (s, [], some .keyAndCommandNotMatch) := by
    intro c; simp only [Store.zPopMin, Store.loadZSet, Store.loadKeyInfo, hg, if_pos hi', bind, Except.bind]
  have hmax : ∀ c, s.zPopMax ext k c = .ok (s, [], some .keyAndCommandNotMatch) := by
    intro c; simp only [Store.zPopMax, Store.loadZSet, Store.loadKeyInfo, hg, if_pos hi', bind, Except.bind]
  intro it
  rcases hn with rfl | rfl
  · cases rest with
    | nil =>
      refine (answers_iff (c := .zPopMin) rfl).mpr ⟨.ok newResponseWithEmptyArray, ?_, rfl⟩
      simp only [Cmd.fn, cmdZPopMin, hmin, bind, Except.bind]; rfl
    | cons c r =>
      have e : int64 c = atoi c := int64_eq c
      cases hc : atoi c with
      | none =>
        refine (answers_iff (c := .zPopMin) rfl).mpr ⟨.error .notInteger, ?_, ?_⟩
        · simp only [Cmd.fn, cmdZPopMin, hc]; rfl
        · simp only [e, hc]; rfl
      | some n =>
        refine (answers_iff (c := .zPopMin) rfl).mpr ⟨.ok newResponseWithEmptyArray, ?_, ?_⟩
        · simp only [Cmd.fn, cmdZPopMin, hc, hmin, bind, Except.bind]; rfl
        · simp only [e, hc]; rfl
  · cases rest with
    | nil =>
      refine (answers_iff (c := .zPopMix) rfl).mpr ⟨.ok newResponseWithEmptyArray, ?_, rfl⟩
      simp only [Cmd.fn, cmdZPopMax, hmax, bind, Except.bind]; rfl
    | cons c r =>
      have e : int64 c = atoi c := int64_eq c
      cases hc : atoi c with
      | none =>
        refine (answers_iff (c := .zPopMix) rfl).mpr ⟨.error .notInteger, ?_, ?_⟩
        · simp only [Cmd.fn, cmdZPopMax, hc]; rfl
        · simp only [e, hc]; rfl
      | some n =>
        refine (answers_iff (c := .zPopMix) rfl).mpr ⟨.ok newResponseWithEmptyArray, ?_, ?_⟩
        · simp only [Cmd.fn, cmdZPopMax, hc, hmax, bind, Except.bind]; rfl
        · simp only [e, hc]; rfl

/-- C14, LINDEX: the key it names makes no difference at all. -/
theorem C14_lindex_exactly (k k' i : Bytes) (rest rest' : List Bytes) :
    Answers ext it s (b! "lindex" :: k :: i :: rest) m s' ↔ Answers ext it s (b! "lindex" :: k' :: i :: rest') m s' := by
  rw [answers_iff (c := .lIndex) rfl, answers_iff (c := .lIndex) rfl]
  exact Iff.rfl

/-- C14, C27: SDIFF, SINTER and SUNION of one key always reply an empty array, whatever the key holds. -/
theorem C27_one_key_exactly (op : Op) (k : Bytes) : Reads ext s [opName op, k] (.array []) := by
  intro it
  cases op
  · exact (answers_iff (c := .sDiff) rfl).mpr ⟨_, rfl, rfl⟩
  · exact (answers_iff (c := .sInter) rfl).mpr ⟨_, rfl, rfl⟩
  · exact (answers_iff (c := .sUnion) rfl).mpr ⟨_, rfl, rfl⟩

/-- C15, MSET: it is refused for exactly one argument only; otherwise it stores the complete pairs, in order, and replies OK.  Without
arguments it does nothing. -/
theorem C15_mset_exactly (args : List Bytes) :
    (args.length = 1 → Answers ext it s (b! "mset" :: args) (.error (b! "command args not enough")) s) ∧
    (args.length ≠ 1 → ∃ s', Answers ext it s (b! "mset" :: args) (.simple (b! "OK")) s' ∧
      Answers ext it s (b! "mset" :: args.take (2 * (args.length / 2))) (.simple (b! "OK")) s') := by
  have take : ∀ (n : Nat) (args : List Bytes) (s : Store), args.length / 2 = n → s.mSet (args.take (2 * n)) = s.mSet args := by
    intro n
    induction n with
    | zero =>
      intro args s h
      rcases args with _ | ⟨a, _ | ⟨b, r⟩⟩
      · rfl
      · rfl
      · simp only [List.length_cons] at h; omega
    | succ n ih =>
      intro args s h
      rcases args with _ | ⟨a, _ | ⟨b, r⟩⟩
      · simp at h
      · simp at h
      · rw [show 2 * (n + 1) = 2 * n + 1 + 1 by omega, List.take_succ_cons, List.take_succ_cons]
        exact ih r _ (by simp at h; omega)
  constructor
  · intro h
    refine (answers_iff (c := .mSet) rfl).mpr ⟨.error .commandArgsNotEnough, ?_, rfl⟩
    simp only [Cmd.fn, cmdMSet, h]; rfl
  · intro h
    refine ⟨s.mSet args, (answers_iff (c := .mSet) rfl).mpr ⟨.ok (newResponseWithSimpleString respOK), ?_, rfl⟩,
      (answers_iff (c := .mSet) rfl).mpr ⟨.ok (newResponseWithSimpleString respOK), ?_, rfl⟩⟩
    · simp only [Cmd.fn, cmdMSet]; rw [if_neg (by omega)]; rfl
    · simp only [Cmd.fn, cmdMSet]; rw [if_neg, take _ _ _ rfl]; rfl
      rw [List.length_take]; omega

/-- C29, SPOP without a count: it replies an empty array and removes nothing. -/
theorem C29_no_count_exactly (hs : Reachable ext s) {k : Bytes} {X : Finset Bytes} (hX : Members ext s k X)
    (ha : Answers ext it s [b! "spop", k] m s') : m = .array [] ∧ Members ext s' k X := by
  obtain ⟨w, hg⟩ := hs.sok
  obtain ⟨hne, rfl⟩ := hg.members.mp hX
  have hr : Regular [b! "spop", k] := regular_name (by unfold Ascii; decide) (by decide) _
  obtain ⟨hf, w', hg', hw'⟩ := hg.next hs hr (by decide) (by decide) ha
  have hf' : (if w k = .other then m = errType
        else ∃ X : Finset Bytes, X ⊆ mems (w k) ∧ X.card = min (0 : Int).toNat (mems (w k)).card ∧ Lists X m) := hf
  rw [if_neg hne] at hf'
  obtain ⟨Y, h1, h2, l, rfl, h3, rfl⟩ := hf'
  have hl : l = [] := by
    have : l.toFinset = ∅ := Finset.card_eq_zero.mp (by simpa using h2)
    cases l with
    | nil => rfl
    | cons a t => simp at this
  subst hl
  refine ⟨rfl, hg'.members.mpr ?_⟩
  have : SetSpec.step w (b! "spop") [k] (bulks []) k = leave [] (w k) := by
    have : SetSpec.step w (b! "spop") [k] (bulks []) k = leave (ListSpec.items (bulks [])) (w k) := if_pos rfl
    rw [this, items_bulks]
  rw [hw', show SetSpec.step w (lower (b! "spop")) [k] (bulks []) k = _ from this]
  revert hne
  generalize w k = v
  intro hne
  rcases v with _ | _ | ⟨X, g⟩
  · exact ⟨nofun, rfl⟩
  · exact absurd rfl hne
  · exact ⟨nofun, by simp [leave, mems]⟩

/-- C30, if the destination holds another type: the type error is replied, and the member is nevertheless gone from the source. -/
theorem C30_lost_exactly (hs : ReachableBy ext Regular s) {src dst x : Bytes} {X : Finset Bytes} (hX : Members ext s src X) (hx : x ∈ X)
    (hY : ¬ ∃ Y, Members ext s dst Y) (ha : Answers ext it s [b! "smove", src, dst, x] m s') :
    m = .error (b! "key type and command not match") ∧ Members ext s' src (X \ {x}) := by
  obtain ⟨w, hg⟩ := hs.sgood
  obtain ⟨hne, rfl⟩ := hg.members.mp hX
  have hdst : w dst = .other := by
    by_contra h
    exact hY ⟨_, hg.members.mpr ⟨h, rfl⟩⟩
  have hsd : src ≠ dst := fun e => hne (e ▸ hdst)
  have hr : Regular [b! "smove", src, dst, x] := regular_name (by unfold Ascii; decide) (by decide) _
  have hf : m = if w src = .other then errType
        else if x ∉ mems (w src) then errNil
        else if w dst = .other then errType
        else .int (if x ∈ mems (w dst) ∧ dst ≠ src then 0 else 1) := (hg.fits (ext := ext) hr (by decide)).2 it m s' ha
  rw [if_neg hne, if_neg (by simpa using hx), if_pos hdst] at hf
  have hst : SetSpec.step w (b! "smove") [src, dst, x] m =
        if x ∈ mems (w src) then
          put (put w src (leave [x] (w src))) dst (add [x] (put w src (leave [x] (w src)) dst))
        else w := rfl
  have hg'' : SGood s' (SetSpec.step w (b! "smove") [src, dst, x] m) := hg.step hr ha
  rw [hst, if_pos hx] at hg''
  refine ⟨hf, hg''.members.mpr ?_⟩
  have e : put (put w src (leave [x] (w src))) dst (add [x] (put w src (leave [x] (w src)) dst)) src = leave [x] (w src) := by
    simp [put, hsd]
  rw [e]
  revert hne
  generalize w src = v
  intro hne
  rcases v with _ | _ | ⟨X, g⟩
  · exact ⟨nofun, by simp [leave, mems]⟩
  · exact absurd rfl hne
  · exact ⟨nofun, by simp [leave, mems]⟩

/-- C27, if one of two or more keys holds nothing (SCARD 0) and none holds another type: the reply is an empty array, also for SUNION and SDIFF. -/
theorem C27_empty_key_exactly (hs : Reachable ext s) (op : Op) {ks : List Bytes} (h2 : 2 ≤ ks.length)
    (hX : ∀ k ∈ ks, ∃ X, Members ext s k X) {k0 : Bytes} (hk0 : k0 ∈ ks) (h0 : Reads ext s [b! "scard", k0] (.int 0))
    (ha : Answers ext it s (opName op :: ks) m s') : m = .array [] := by
  obtain ⟨w, hg⟩ := hs.sok
  have hr : Regular (opName op :: ks) := by
    cases op <;> exact regular_name (by unfold Ascii; decide) (by decide) _
  have hf := ((hg.fits (ext := ext) hr (by cases op <;> decide)
    (fun h => absurd (show lower (opName op) = b! "smove" from h) (by cases op <;> decide))).2 it m s' ha).1
  have hno : ∀ k ∈ ks, w k ≠ .other := fun k hk => by
    obtain ⟨X, h⟩ := hX k hk
    exact (hg.members.mp h).1
  have hsz : size (w k0) = 0 := by
    have hr0 : Regular [b! "scard", k0] := regular_name (by unfold Ascii; decide) (by decide) _
    have := (hg.next hs hr0 (by decide) (by decide) (h0 it)).1
    have : (.int 0 : Reply) = if w k0 = .other then errType else .int (size (w k0)) := this
    rw [if_neg (hno k0 hk0)] at this
    injection this with this
    omega
  have htr : ∀ ks : List Bytes, (∀ k ∈ ks, w k ≠ .other) → k0 ∈ ks → trouble w ks = some .absent := by
    intro ks
    induction ks with
    | nil => intro _ h; cases h
    | cons k ks ih =>
      intro h1 h2
      unfold trouble
      rw [if_neg (h1 k (by simp))]
      split
      · rfl
      · next hne =>
        refine ih (fun k' hk' => h1 k' (by simp [hk'])) ?_
        rcases List.mem_cons.mp h2 with rfl | h2
        · exact absurd hsz hne
        · exact h2
  rcases ks with _ | ⟨k, _ | ⟨k1, ks⟩⟩
  · simp at h2
  · simp at h2
  · have hf' : (match trouble w (k :: k1 :: ks) with
      | some .other => m = errType
      | some _ => m = bulks []
      | none => Lists (combine op ((k :: k1 :: ks).map (fun k => mems (w k)))) m) := by
      cases op <;> exact hf
    rw [htr _ hno hk0] at hf'
    exact hf'

/-- Case: a key of another type (for C14 and C30), an empty key (for C27). -/
example : replies [[b! "set", b! "k", b! "v"], [b! "sadd", b! "s", b! "a", b! "b"], [b! "type", b! "k"], [b! "sismember", b! "k", b! "a"],
      [b! "scard", b! "e"], [b! "sismember", b! "e", b! "a"]] =
    some [.simple (b! "OK"), .int 2, .simple (b! "string"), .error (b! "key type and command not match"), .int 0, .int 0] := by decide +kernel

end Godis
