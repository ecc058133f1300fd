import Verif.Spec.Contents
import Verif.Proofs.Reference
/-!
# The contents decide the answers, and the contents afterwards
-/
namespace RefSpec
open Resp
open KeySpec hiding Str
open StrSpec (int64 lower isError decimal counters delta Wraps setStores)
open ListSpec (errType errArgs errNil items)
open SetSpec (SVal SView mems size add remove leave combine opOf trouble)
open ZSpec (ZVal)

/-! ## replies -/

theorem Alike.refl (m : Reply) : Alike m m := .inl rfl

theorem bulks_inj {l l' : List Str} (h : bulks l = bulks l') : l = l' := by
  have h : l.map (fun v => Reply.bulk (some v)) = l'.map (fun v => Reply.bulk (some v)) := by simpa [bulks] using h
  exact List.map_injective_iff.mpr (fun a b h => by simpa using h) h

theorem Alike.isError {m m' : Reply} (h : Alike m m') : isError m = isError m' := by
  rcases h with rfl | ⟨l, l', rfl, rfl, _⟩ <;> rfl

theorem items_bulks (l : List Str) : items (bulks l) = l := by
  simp [items, bulks, List.filterMap_map]

theorem Alike.items {m m' : Reply} (h : Alike m m') : (items m).Perm (items m') := by
  rcases h with rfl | ⟨l, l', rfl, rfl, h⟩
  · exact .refl _
  · rw [items_bulks, items_bulks]; exact h

theorem Alike.int {m m' : Reply} (h : Alike m m') {i : Int} (hi : m = .int i) : m' = .int i := by
  rcases h with rfl | ⟨l, l', rfl, rfl, h⟩
  · exact hi
  · cases hi

theorem Alike.symm {m m' : Reply} (h : Alike m m') : Alike m' m := by
  rcases h with rfl | ⟨l, l', rfl, rfl, h⟩
  · exact .inl rfl
  · exact .inr ⟨l', l, rfl, rfl, h.symm⟩

theorem Outcome.Alike.refl (o : Outcome) : o.Alike o := by cases o <;> first | rfl | exact RefSpec.Alike.refl _

/-! ## sets -/

/-- the same sets under the same names -/
structure SameSets (U U' : SharedSpec.World) : Prop where
  view : ∀ k, U.view k = U'.view k
  same : ∀ k j, U.Same k j ↔ U'.Same k j

/-- the numbers in use have been given -/
def Fresh (U : SharedSpec.World) : Prop := ∀ k i, U.names k = .here i → i < U.next

theorem view_here_iff {U : SharedSpec.World} {k : Str} {x : SVal} : U.view k = .here x ↔ ∃ i, U.names k = .here i ∧ U.sets i = x := by
  unfold SharedSpec.World.view
  split <;> simp_all

theorem SameSets.names {U U' : SharedSpec.World} (h : SameSets U U') (k : Str) :
    (U.names k = .absent ∧ U'.names k = .absent) ∨ (U.names k = .other ∧ U'.names k = .other) ∨
      ∃ i j, U.names k = .here i ∧ U'.names k = .here j ∧ U.sets i = U'.sets j := by
  have := h.view k
  unfold SharedSpec.World.view at this
  cases h1 : U.names k <;> cases h2 : U'.names k <;> simp_all

theorem create_view {U : SharedSpec.World} (hf : Fresh U) (k : Str) (x : SVal) (k' : Str) :
    (U.create k x).view k' = if k' = k then .here x else U.view k' := by
  by_cases hk : k' = k
  · subst hk; simp [SharedSpec.World.view, SharedSpec.World.create]
  · rw [if_neg hk]
    unfold SharedSpec.World.view SharedSpec.World.create
    simp only [if_neg hk]
    cases hn : U.names k' with
    | absent => rfl
    | other => rfl
    | here i =>
      have := hf _ _ hn
      simp only [if_neg (show i ≠ U.next by omega)]

theorem create_same {U : SharedSpec.World} (hf : Fresh U) (k : Str) (x : SVal) (a b : Str) :
    (U.create k x).Same a b ↔ (a = k ∧ b = k) ∨ (a ≠ k ∧ b ≠ k ∧ U.Same a b) := by
  unfold SharedSpec.World.Same SharedSpec.World.create
  by_cases ha : a = k <;> by_cases hb : b = k
  · simp [ha, hb]
  · simp only [ha, hb, if_true, if_false]
    constructor
    · rintro ⟨i, h1, h2⟩; cases h1; exact absurd (hf _ _ h2) (by simp)
    · rintro (⟨_, h⟩ | ⟨h, _⟩)
      · exact h.elim
      · exact absurd rfl h
  · simp only [ha, hb, if_true, if_false]
    constructor
    · rintro ⟨i, h1, h2⟩; cases h2; exact absurd (hf _ _ h1) (by simp)
    · rintro (⟨h, _⟩ | ⟨_, h, _⟩)
      · exact h.elim
      · exact absurd rfl h
  · simp [ha, hb]

theorem create_fresh {U : SharedSpec.World} (hf : Fresh U) (k : Str) (x : SVal) : Fresh (U.create k x) := by
  intro k' i h
  show i < U.next + 1
  unfold SharedSpec.World.create at h
  dsimp only at h
  by_cases hk : k' = k
  · rw [if_pos hk] at h; cases h; omega
  · rw [if_neg hk] at h; have := hf _ _ h; omega

theorem SameSets.create {U U' : SharedSpec.World} (h : SameSets U U') (hf : Fresh U) (hf' : Fresh U') (k : Str) (x : SVal) :
    SameSets (U.create k x) (U'.create k x) := by
  refine ⟨fun k' => ?_, fun a b => ?_⟩
  · rw [create_view hf, create_view hf', h.view]
  · rw [create_same hf, create_same hf', h.same]

theorem SameSets.change {U U' : SharedSpec.World} (h : SameSets U U') (hf : Fresh U) (hf' : Fresh U') (k : Str) (v : SView) :
    SameSets (U.change k v) (U'.change k v) := by
  unfold SharedSpec.World.change
  cases v with
  | absent => exact h
  | other => exact h
  | here x =>
    rcases h.names k with ⟨h1, h2⟩ | ⟨h1, h2⟩ | ⟨i, j, h1, h2, _⟩ <;> rw [h1, h2] <;> dsimp only
    · exact h.create hf hf' k x
    · exact h
    · have key : ∀ (U : SharedSpec.World) (i : Nat), U.names k = .here i → ∀ k',
          SharedSpec.World.view { U with sets := fun j => if j = i then x else U.sets j } k' = (open Classical in if U.Same k k' then .here x else U.view k') := by
        intro U i hi k'
        unfold SharedSpec.World.view
        dsimp only
        cases hn : U.names k' with
        | absent => rw [if_neg]; rintro ⟨i', _, h⟩; rw [hn] at h; cases h
        | other => rw [if_neg]; rintro ⟨i', _, h⟩; rw [hn] at h; cases h
        | here n =>
          dsimp only
          by_cases hni : n = i
          · subst hni; rw [if_pos rfl, if_pos ⟨n, hi, hn⟩]
          · rw [if_neg hni, if_neg]; rintro ⟨i', h1, h2⟩; rw [hi] at h1; rw [hn] at h2; cases h1; cases h2; exact hni rfl
      refine ⟨fun k' => ?_, fun a b => h.same a b⟩
      rw [key U i h1, key U' j h2, h.view]
      by_cases hs : U.Same k k'
      · rw [if_pos hs, if_pos ((h.same _ _).mp hs)]
      · rw [if_neg hs, if_neg (fun h' => hs ((h.same _ _).mpr h'))]

theorem change_fresh {U : SharedSpec.World} (hf : Fresh U) (k : Str) (v : SView) : Fresh (U.change k v) := by
  unfold SharedSpec.World.change
  split
  · exact hf
  · exact create_fresh hf _ _
  · exact hf

theorem SameSets.name {U U' : SharedSpec.World} (h : SameSets U U') (dst src : Str) :
    SameSets (U.name dst (U.names src)) (U'.name dst (U'.names src)) := by
  have hv : ∀ (U : SharedSpec.World) k, (U.name dst (U.names src)).view k = U.view (if k = dst then src else k) := by
    intro U k
    unfold SharedSpec.World.view SharedSpec.World.name
    by_cases hk : k = dst <;> simp [hk]
  have hs : ∀ (U : SharedSpec.World) a b, (U.name dst (U.names src)).Same a b ↔ U.Same (if a = dst then src else a) (if b = dst then src else b) := by
    intro U a b
    unfold SharedSpec.World.Same SharedSpec.World.name
    by_cases ha : a = dst <;> by_cases hb : b = dst <;> simp [ha, hb]
  exact ⟨fun k => by rw [hv, hv, h.view], fun a b => by rw [hs, hs, h.same]⟩

theorem name_fresh {U : SharedSpec.World} (hf : Fresh U) (dst src : Str) : Fresh (U.name dst (U.names src)) := by
  intro k i h
  unfold SharedSpec.World.name at h
  dsimp only at h
  by_cases hk : k = dst
  · rw [if_pos hk] at h; exact hf _ _ h
  · rw [if_neg hk] at h; exact hf _ _ h

theorem foreign_set_read {α : Type} {n : Str} (hn : n ∈ SetSpec.commands) (h1 : n ≠ s!! "sadd") (h2 : n ≠ s!! "smove") (h3 : n ∉ setStores)
    (k : Str) (v : KView α) (args : List Str) (m : Reply) : foreign k v n args m = v := by
  have : n ≠ s!! "mset" ∧ n ∉ ListSpec.stringWriters ∧ n ≠ s!! "del" ∧ (n ∈ collCreators → n = s!! "sadd") := by
    revert hn n; decide
  obtain ⟨a, b, c, d⟩ := this
  unfold foreign
  rw [if_neg a, if_neg h2, if_neg b, if_neg c, if_neg (fun h => h1 (d h)), if_neg h3]
  simp

theorem SameSets.step {U U' : SharedSpec.World} (h : SameSets U U') (hf : Fresh U) (hf' : Fresh U') {n : Str} (hn : n ∈ SetSpec.commands)
    (args : List Str) {m m' : Reply} (hm : Alike m m') : SameSets (SharedSpec.step U n args m) (SharedSpec.step U' n args m') := by
  unfold SharedSpec.step
  rw [← hm.isError]
  by_cases h1 : n = s!! "sadd"
  · rw [if_pos h1, if_pos h1]
    match args with
    | [] => exact h
    | k :: xs =>
      dsimp only
      cases isError m
      · rw [if_neg (by simp), if_neg (by simp), h.view]; exact h.change hf hf' _ _
      · exact h
  rw [if_neg h1, if_neg h1]
  by_cases h2 : n = s!! "srem"
  · rw [if_pos h2, if_pos h2]
    match args with
    | [] => exact h
    | k :: xs =>
      dsimp only
      cases isError m
      · rw [if_neg (by simp), if_neg (by simp), h.view]; exact h.change hf hf' _ _
      · exact h
  rw [if_neg h2, if_neg h2]
  by_cases h3 : n = s!! "spop"
  · rw [if_pos h3, if_pos h3]
    match args with
    | [] => exact h
    | k :: _ =>
      dsimp only
      have hl : ∀ v, leave (items m) v = leave (items m') v := fun v => by
        cases v <;> simp [leave, List.toFinset_eq_of_perm _ _ hm.items]
      rw [h.view, hl]
      exact h.change hf hf' _ _
  rw [if_neg h3, if_neg h3]
  by_cases h4 : n = s!! "smove"
  · rw [if_pos h4, if_pos h4]
    match args with
    | [] | [_] | [_, _] => exact h
    | src :: dst :: x :: _ =>
      dsimp only
      rw [h.view src]
      split
      · have hc := h.change hf hf' src (leave [x] (U'.view src))
        rw [hc.view dst]
        exact hc.change (change_fresh hf _ _) (change_fresh hf' _ _) _ _
      · exact h
  rw [if_neg h4, if_neg h4]
  by_cases h5 : n ∈ setStores
  · rw [if_pos h5, if_pos h5]
    match args with
    | [] => exact h
    | [dst, src] =>
      dsimp only
      cases isError m
      · exact h.name dst src
      · exact h
    | [dst] =>
      dsimp only
      cases isError m
      · simp only [List.map_nil]; exact h.create hf hf' _ _
      · exact h
    | dst :: a :: b :: ks =>
      dsimp only
      cases isError m
      · simp only [h.view]; exact h.create hf hf' _ _
      · exact h
  rw [if_neg h5, if_neg h5]
  simp only [foreign_set_read hn h1 h4 h5]
  exact h

/-! ## the world -/

theorem content_string {W W' : World} {k : Str} (h : W.content k = W'.content k) : (W.holds k).string = (W'.holds k).string := by
  unfold World.content at h
  cases h1 : W.holds k <;> cases h2 : W'.holds k <;> simp_all [Holding.string]
theorem content_row {W W' : World} {k : Str} (h : W.content k = W'.content k) : (W.holds k).row = (W'.holds k).row := by
  unfold World.content at h
  cases h1 : W.holds k <;> cases h2 : W'.holds k <;> simp_all [Holding.row]
theorem content_zset {W W' : World} {k : Str} (h : W.content k = W'.content k) : (W.holds k).zset = (W'.holds k).zset := by
  unfold World.content at h
  cases h1 : W.holds k <;> cases h2 : W'.holds k <;> simp_all [Holding.zset]
theorem content_view {W W' : World} {k : Str} (h : W.content k = W'.content k) : W.shared.view k = W'.shared.view k := by
  unfold World.content at h
  unfold SharedSpec.World.view World.shared
  cases h1 : W.holds k <;> cases h2 : W'.holds k <;> simp_all [Holding.setName]
theorem content_text {W W' : World} {k : Str} (h : W.content k = W'.content k) : (W.holds k).asText = (W'.holds k).asText := by
  unfold World.content at h
  cases h1 : W.holds k <;> cases h2 : W'.holds k <;> simp_all [Holding.asText]
theorem content_type {W W' : World} {k : Str} (h : W.content k = W'.content k) : (W.holds k).typeName = (W'.holds k).typeName := by
  unfold World.content at h
  cases h1 : W.holds k <;> cases h2 : W'.holds k <;> simp_all [Holding.typeName]
theorem content_present {W W' : World} {k : Str} (h : W.content k = W'.content k) : W.present k = W'.present k := by
  unfold World.content at h
  unfold World.present
  cases h1 : W.holds k <;> cases h2 : W'.holds k <;> simp_all

theorem content_of_views {W W' : World} {k : Str} (h1 : (W.holds k).string = (W'.holds k).string) (h2 : (W.holds k).row = (W'.holds k).row)
    (h3 : (W.holds k).zset = (W'.holds k).zset) (h4 : W.shared.view k = W'.shared.view k) : W.content k = W'.content k := by
  unfold World.content
  unfold SharedSpec.World.view World.shared at h4
  cases h5 : W.holds k <;> cases h6 : W'.holds k <;>
    simp_all [Holding.string, Holding.row, Holding.zset, Holding.setName]

variable {L : Lib} {W W' : World}

theorem SameContents.sets (h : SameContents W W') : SameSets W.shared W'.shared := ⟨fun k => content_view (h.content k), h.shared⟩

theorem SameContents.refl (W : World) : SameContents W W := ⟨fun _ => rfl, fun _ _ => .rfl⟩
theorem SameContents.symm (h : SameContents W W') : SameContents W' W := ⟨fun k => (h.content k).symm, fun k j => (h.shared k j).symm⟩
theorem SameContents.trans {W'' : World} (h : SameContents W W') (h' : SameContents W' W'') : SameContents W W'' :=
  ⟨fun k => (h.content k).trans (h'.content k), fun k j => (h.shared k j).trans (h'.shared k j)⟩

/-- some keys get the same new holdings, which are no sets -/
theorem SameContents.override (h : SameContents W W') {V V' : World} (hs : V.sets = W.sets) (hs' : V'.sets = W'.sets)
    (hk : ∀ k, (V.holds k = W.holds k ∧ V'.holds k = W'.holds k) ∨ (V.holds k = V'.holds k ∧ ∀ i, V.holds k ≠ .set i)) :
    SameContents V V' := by
  have hV : ∀ k, V.content k = V'.content k := fun k => by
    rcases hk k with ⟨h1, h2⟩ | ⟨h1, h2⟩
    · have := h.content k
      unfold World.content at this ⊢
      rw [h1, h2, hs, hs']; exact this
    · unfold World.content
      rw [← h1]
      cases hh : V.holds k <;> first | rfl | exact absurd hh (h2 _)
  refine ⟨hV, fun k j => ?_⟩
  have key : ∀ {W W' V V' : World}, SameContents W W' →
      (∀ k, (V.holds k = W.holds k ∧ V'.holds k = W'.holds k) ∨ (V.holds k = V'.holds k ∧ ∀ i, V.holds k ≠ .set i)) →
      V.shared.Same k j → V'.shared.Same k j := by
    intro W W' V V' h hk ⟨i, h1, h2⟩
    have e : ∀ k i, (V.holds k).setName = .here i → V.holds k = W.holds k ∧ V'.holds k = W'.holds k := fun k i hi => by
      rcases hk k with e | ⟨_, e⟩
      · exact e
      · exfalso; cases hh : V.holds k with
        | set j => exact e j hh
        | _ => rw [hh] at hi; cases hi
    obtain ⟨a1, a2⟩ := e k i h1
    obtain ⟨b1, b2⟩ := e j i h2
    have : W.shared.Same k j := ⟨i, by show (W.holds k).setName = _; rw [← a1]; exact h1, by show (W.holds j).setName = _; rw [← b1]; exact h2⟩
    obtain ⟨n, c1, c2⟩ := (h.shared k j).mp this
    exact ⟨n, by show (V'.holds k).setName = _; rw [a2]; exact c1, by show (V'.holds j).setName = _; rw [b2]; exact c2⟩
  refine ⟨key h hk, key h.symm fun k => ?_⟩
  rcases hk k with ⟨a, b⟩ | ⟨a, b⟩
  · exact .inl ⟨b, a⟩
  · exact .inr ⟨a.symm, fun i => by rw [← a]; exact b i⟩

theorem row_step_alike (k : Str) (v : RowSpec.View) (n : Str) (args : List Str) {m m' : Reply} (hm : Alike m m') :
    RowSpec.step k v n args m = RowSpec.step k v n args m' := by
  unfold RowSpec.step; rw [hm.isError]
theorem foreign_alike {α : Type} (k : Str) (v : KView α) (n : Str) (args : List Str) {m m' : Reply} (hm : Alike m m') :
    foreign k v n args m = foreign k v n args m' := by
  unfold foreign; rw [hm.isError]
theorem z_step_alike (N : ZSpec.Num) (w : Str → ZSpec.ZView) (n : Str) (args : List Str) {m m' : Reply} (hm : Alike m m') :
    ZSpec.step N w n args m = ZSpec.step N w n args m' := by
  unfold ZSpec.step
  simp only [foreign_alike _ _ _ _ hm]

/-- a key gets a holding that is no set -/
theorem SameContents.put (h : SameContents W W') (k : Str) {v : Holding} (hv : ∀ i, v ≠ .set i) : SameContents (W.put k v) (W'.put k v) := by
  refine h.override rfl rfl fun k' => ?_
  unfold World.put
  dsimp only
  by_cases hk : k' = k
  · rw [if_pos hk, if_pos hk]; exact .inr ⟨rfl, hv⟩
  · rw [if_neg hk, if_neg hk]; exact .inl ⟨rfl, rfl⟩

theorem SameContents.putAll (args : List Str) (h : SameContents W W') : SameContents (W.putAll args) (W'.putAll args) := by
  induction args using List.twoStepInduction generalizing W W' with
  | nil => exact h
  | singleton a => exact h
  | cons_cons a b l ih => exact ih (h.put a nofun)

theorem SameContents.write (h : SameContents W W') (n k : Str) (rest : List Str) {m m' : Reply} (hm : Alike m m') :
    SameContents (W.write n k rest m) (W'.write n k rest m') := by
  unfold World.write
  rw [content_text (h.content k)]
  by_cases h1 : n = s!! "del"
  · rw [if_pos h1, if_pos h1]; exact h.put k nofun
  rw [if_neg h1, if_neg h1]
  by_cases h2 : n = s!! "set"
  · rw [if_pos h2, if_pos h2]; exact h.put k nofun
  rw [if_neg h2, if_neg h2]
  by_cases h3 : n = s!! "append"
  · rw [if_pos h3, if_pos h3]; exact h.put k nofun
  rw [if_neg h3, if_neg h3]
  by_cases h4 : n ∈ counters
  · rw [if_pos h4, if_pos h4]
    rcases hm with rfl | ⟨l, l', rfl, rfl, _⟩
    · cases m with
      | int i => exact h.put k nofun
      | _ => exact h
    · exact h
  · rw [if_neg h4, if_neg h4]; exact h

/-- Alike replies to the same request leave the same contents. -/
theorem SameContents.step (h : SameContents W W') (hf : Fresh W.shared) (hf' : Fresh W'.shared) {name : Str} {args : List Str} {m m' : Reply} {tall tall' : Prop}
    (hm : Alike m m') (ht : Fits L tall W (name :: args) (.reply m)) (ht' : Fits L tall' W' (name :: args) (.reply m')) :
    SameContents (RefSpec.step L W (lower name) args m) (RefSpec.step L W' (lower name) args m') := by
  have ha := agrees ht
  have ha' := agrees ht'
  have hhr : ∀ k, (W.holds k).row = (W'.holds k).row := fun k => content_row (h.content k)
  have hhz : (fun k => (W.holds k).zset) = fun k => (W'.holds k).zset := funext fun k => content_zset (h.content k)
  generalize hN : lower name = n at *
  by_cases c1 : n ∈ RowSpec.commands
  · unfold RefSpec.step
    rw [if_pos c1, if_pos c1]
    refine h.override rfl rfl fun k => ?_
    dsimp only
    rw [hhr, row_step_alike k _ n args hm]
    cases RowSpec.step k (W'.holds k).row n args m' with
    | absent => exact .inr ⟨rfl, nofun⟩
    | other => exact .inl ⟨rfl, rfl⟩
    | row c => exact .inr ⟨rfl, nofun⟩
  by_cases c2 : n ∈ SetSpec.commands
  · have hS : SameSets (RefSpec.step L W n args m).shared (RefSpec.step L W' n args m').shared := by
      rw [ha.shared, ha'.shared]
      exact h.sets.step hf hf' c2 args hm
    refine ⟨fun k => ?_, hS.same⟩
    have hz : ((RefSpec.step L W n args m).holds k).zset = ((RefSpec.step L W' n args m').holds k).zset := by
      rw [congrFun ha.zset k, congrFun ha'.zset k, hhz, z_step_alike _ _ _ _ hm]
    have hr : ((RefSpec.step L W n args m).holds k).row = ((RefSpec.step L W' n args m').holds k).row := by
      rw [ha.row, ha'.row, hhr, row_step_alike _ _ _ _ hm]
    refine content_of_views ?_ hr hz (hS.view k)
    -- strings: a set command leaves them alone, or makes a set of them
    have hst : ∀ (W : World) (m : Reply), (RefSpec.step L W n args m).holds k =
        match (SharedSpec.step W.shared n args m).names k with
        | .absent => .absent
        | .other => W.holds k
        | .here i => .set i := fun W m => by unfold RefSpec.step; rw [if_neg c1, if_pos c2]; rfl
    have hN := (h.sets.step hf hf' c2 args hm).names k
    rw [hst W m, hst W' m']
    rcases hN with ⟨e1, e2⟩ | ⟨e1, e2⟩ | ⟨i, j, e1, e2, _⟩ <;> rw [e1, e2]
    · exact content_string (h.content k)
    · rfl
  by_cases c3 : n ∈ ZSpec.commands
  · unfold RefSpec.step
    rw [if_neg c1, if_neg c2, if_pos c3, if_neg c1, if_neg c2, if_pos c3]
    refine h.override rfl rfl fun k => ?_
    dsimp only
    rw [hhz, z_step_alike L.num _ n args hm]
    cases ZSpec.step L.num (fun k => (W'.holds k).zset) n args m' k with
    | absent => exact .inr ⟨rfl, nofun⟩
    | other => exact .inl ⟨rfl, rfl⟩
    | here c => exact .inr ⟨rfl, nofun⟩
  unfold RefSpec.step
  rw [if_neg c1, if_neg c2, if_neg c3, if_neg c1, if_neg c2, if_neg c3, ← hm.isError]
  split
  · exact h
  split
  · exact h.putAll args
  cases args with
  | nil => exact h
  | cons k rest => exact h.write n k rest hm

/-! ## the same outcomes are possible -/

theorem SameSets.fits {U U' : SharedSpec.World} (h : SameSets U U') {n : Str} {args : List Str} {m : Reply} (hf : SharedSpec.Fits U n args m) :
    SharedSpec.Fits U' n args m := by
  have hv : U.view = U'.view := funext h.view
  unfold SharedSpec.Fits at hf ⊢
  simp only [hv, h.same] at hf
  exact hf

theorem SameContents.basic (h : SameContents W W') {n : Str} {args : List Str} {o : Outcome} (hf : Basic L W n args o) : Basic L W' n args o := by
  have h1 : ∀ k, (W.holds k).string = (W'.holds k).string := fun k => content_string (h.content k)
  have h2 : ∀ k, (W.holds k).asText = (W'.holds k).asText := fun k => content_text (h.content k)
  have h3 : ∀ k, (W.holds k).typeName = (W'.holds k).typeName := fun k => content_type (h.content k)
  have h4 : ∀ k, W.present k = W'.present k := fun k => content_present (h.content k)
  unfold Basic at hf ⊢
  simp only [h1, h2, h3, h4] at hf
  exact hf

theorem SameContents.fits {tall : Prop} (h : SameContents W W') {req : List Str} {o : Outcome} (hf : Fits L tall W req o) : Fits L tall W' req o := by
  cases req with
  | nil => exact hf
  | cons name args =>
    have hr : (fun k => (W.holds k).row) = fun k => (W'.holds k).row := funext fun k => content_row (h.content k)
    have hz : ∀ k, (W.holds k).zset = (W'.holds k).zset := fun k => content_zset (h.content k)
    have hp : W.present = W'.present := funext fun k => content_present (h.content k)
    unfold Fits at hf ⊢
    dsimp only at hf ⊢
    by_cases c1 : lower name ∈ RowSpec.commands
    · rw [if_pos c1] at hf ⊢; rw [← hr]; exact hf
    rw [if_neg c1] at hf ⊢
    by_cases c2 : lower name ∈ SetSpec.commands
    · rw [if_pos c2] at hf ⊢
      obtain ⟨m, e, hf⟩ := hf
      exact ⟨m, e, h.sets.fits hf⟩
    rw [if_neg c2] at hf ⊢
    by_cases c3 : lower name ∈ ZSpec.commands
    · rw [if_pos c3] at hf ⊢
      unfold Sorted at hf ⊢
      simp only [hz] at hf
      exact hf
    rw [if_neg c3] at hf ⊢
    by_cases c4 : lower name ∈ HashSpec.commands
    · rw [if_pos c4] at hf ⊢; rw [← hp]; exact hf
    rw [if_neg c4] at hf ⊢
    by_cases c5 : lower name ∈ basicCommands
    · rw [if_pos c5] at hf ⊢; exact h.basic hf
    rw [if_neg c5] at hf ⊢
    exact hf

theorem SameContents.decided (h : SameContents W W') {req : List Str} (hd : Decided L W req) : Decided L W' req := by
  cases req with
  | nil => exact hd
  | cons name args =>
    have hz : ∀ k, (W.holds k).zset = (W'.holds k).zset := fun k => content_zset (h.content k)
    have hv : ∀ k, W.shared.view k = W'.shared.view k := fun k => content_view (h.content k)
    unfold Decided AllOrNothing at hd ⊢
    simp only [hz, hv] at hd
    exact hd

/-! ## they are decided by the contents -/

theorem lists_alike {X : Finset Str} {m m' : Reply} (h : SetSpec.Lists X m) (h' : SetSpec.Lists X m') : Alike m m' := by
  obtain ⟨l, rfl, hn, rfl⟩ := h
  obtain ⟨l', rfl, hn', he⟩ := h'
  refine .inr ⟨l, l', rfl, rfl, ?_⟩
  exact (List.perm_ext_iff_of_nodup hn hn').mpr fun a => by rw [← List.mem_toFinset, ← he, List.mem_toFinset]

theorem eq_alike {m m' x : Reply} (h : m = x) (h' : m' = x) : Alike m m' := .inl (h.trans h'.symm)

theorem set_decided {U : SharedSpec.World} {n : Str} {args : List Str} {m m' : Reply}
    (hp : n = s!! "spop" → match args with
      | k :: c :: _ => ∀ i, int64 c = some i → i ≤ 0 ∨ ((mems (U.view k)).card : Int) ≤ i
      | _ => True)
    (h : SharedSpec.Fits U n args m) (h' : SharedSpec.Fits U n args m') : Alike m m' := by
  have plain : SetSpec.Fits U.view n args m → SetSpec.Fits U.view n args m' → Alike m m' := by
    intro h h'
    unfold SetSpec.Fits at h h'
    by_cases h1 : n = s!! "sadd"
    · rw [if_pos h1] at h h'; revert h h'; split <;> exact eq_alike
    rw [if_neg h1] at h h'
    by_cases h2 : n = s!! "srem"
    · rw [if_pos h2] at h h'; revert h h'; split <;> exact eq_alike
    rw [if_neg h2] at h h'
    by_cases h3 : n = s!! "scard"
    · rw [if_pos h3] at h h'; revert h h'; split <;> exact eq_alike
    rw [if_neg h3] at h h'
    by_cases h4 : n = s!! "sismember"
    · rw [if_pos h4] at h h'; revert h h'; split <;> exact eq_alike
    rw [if_neg h4] at h h'
    by_cases h5 : n = s!! "smembers"
    · rw [if_pos h5] at h h'
      revert h h'
      split
      · split
        · exact eq_alike
        · split
          · exact eq_alike
          · exact lists_alike
      · exact eq_alike
    rw [if_neg h5] at h h'
    by_cases h6 : n = s!! "spop"
    · rw [if_pos h6] at h h'
      have hp := hp h6
      have sub : ∀ (k : Str) (i : Int), (i ≤ 0 ∨ ((mems (U.view k)).card : Int) ≤ i) →
          (∃ X : Finset Str, X ⊆ mems (U.view k) ∧ X.card = min i.toNat (mems (U.view k)).card ∧ SetSpec.Lists X m) →
          (∃ X : Finset Str, X ⊆ mems (U.view k) ∧ X.card = min i.toNat (mems (U.view k)).card ∧ SetSpec.Lists X m') → Alike m m' := by
        rintro k i hi ⟨X, x1, x2, x3⟩ ⟨Y, y1, y2, y3⟩
        have : X = Y := by
          rcases hi with hi | hi
          · have : i.toNat = 0 := by omega
            rw [this] at x2 y2
            rw [Finset.card_eq_zero.mp (by omega : X.card = 0), Finset.card_eq_zero.mp (by omega : Y.card = 0)]
          · have : min i.toNat (mems (U.view k)).card = (mems (U.view k)).card := by omega
            rw [this] at x2 y2
            rw [Finset.eq_of_subset_of_card_le x1 (by omega), Finset.eq_of_subset_of_card_le y1 (by omega)]
        subst this
        exact lists_alike x3 y3
      match args, hp with
      | [], _ => exact eq_alike h h'
      | [k], _ =>
        dsimp only at h h'
        revert h h'
        split
        · exact eq_alike
        · exact sub k 0 (.inl (le_refl _))
      | k :: c :: rest, hp =>
        dsimp only at h h' hp
        cases hc : int64 c with
        | none => rw [hc] at h h'; exact eq_alike h h'
        | some i =>
          rw [hc] at h h'
          dsimp only at h h'
          revert h h'
          split
          · exact fun a b => eq_alike b a
          · exact fun a b => sub k i (hp i hc) b a
    rw [if_neg h6] at h h'
    by_cases h7 : n = s!! "smove"
    · rw [if_pos h7] at h h'; revert h h'; split <;> exact eq_alike
    rw [if_neg h7] at h h'
    by_cases h8 : n ∈ setStores
    · rw [if_pos h8] at h h'
      revert h h'
      split
      · split <;> exact eq_alike
      · exact eq_alike
    rw [if_neg h8] at h h'
    match args with
    | [] => exact eq_alike h h'
    | [_] => exact eq_alike h h'
    | a :: b :: ks =>
      dsimp only at h h'
      revert h h'
      split
      · exact eq_alike
      · exact eq_alike
      · exact lists_alike
  unfold SharedSpec.Fits at h h'
  by_cases h1 : n = s!! "smove"
  · rw [if_pos h1] at h h'
    match args with
    | [] => exact eq_alike h h'
    | [_] => exact eq_alike h h'
    | [_, _] => exact eq_alike h h'
    | src :: dst :: x :: _ =>
      dsimp only at h h'
      left
      have ho : U.view src = .other → x ∉ mems (U.view src) := fun e => by rw [e]; simp [mems]
      have ho' : U.view dst = .other → x ∉ mems (U.view dst) := fun e => by rw [e]; simp [mems]
      have hs : U.Same src dst → x ∈ mems (U.view src) → x ∈ mems (U.view dst) := by
        rintro ⟨i, e1, e2⟩ hx
        have : U.view dst = U.view src := by simp [SharedSpec.World.view, e1, e2]
        rwa [this]
      rcases h with ⟨a, rfl⟩ | ⟨a, b, rfl⟩ | ⟨a, b, rfl⟩ | ⟨a, b, c, rfl⟩ | ⟨a, b, c, rfl⟩ <;>
      rcases h' with ⟨a', rfl⟩ | ⟨a', b', rfl⟩ | ⟨a', b', rfl⟩ | ⟨a', b', c', rfl⟩ | ⟨a', b', c', rfl⟩ <;>
      first
        | rfl
        | (exfalso; tauto)
  rw [if_neg h1] at h h'
  by_cases h2 : n ∈ setStores
  · rw [if_pos h2] at h h'
    match args with
    | [] => exact plain h h'
    | [_] => exact plain h h'
    | [_, k] =>
      dsimp only at h h'
      revert h h'
      split <;> exact eq_alike
    | _ :: _ :: _ :: _ => exact plain h h'
  rw [if_neg h2] at h h'
  exact plain h h'

theorem cut_unique {d : Int} {l : List ZSpec.Entry} {b : Godis.F64 × Bool} {r r' : Int} (hb : b.2 = true → ZSpec.equal l b.1 ≤ 1)
    (h : ZSpec.Cut d l b r) (h' : ZSpec.Cut d l b r') : r = r' := by
  unfold ZSpec.Cut at h h'
  by_cases c1 : b.1.isInf
  · rw [if_pos c1] at h h'; rw [h, h']
  rw [if_neg c1] at h h'
  by_cases c2 : b.2 = true ∧ ZSpec.equal l b.1 ≠ 0
  · rw [if_pos c2] at h h'
    obtain ⟨j, a1, a2, rfl⟩ := h
    obtain ⟨j', b1, b2, rfl⟩ := h'
    have := hb c2.1
    omega
  rw [if_neg c2] at h h'
  rw [h, h']

/-- The contents decide the reply of a sorted-set command. -/
theorem z_decided {N : ZSpec.Num} {w : Str → ZSpec.ZView} {n : Str} {args : List Str} {m m' : Reply} (hn : n ∈ ZSpec.commands)
    (h1 : ∀ k ∈ args.head?, w k ≠ .here none)
    (h2 : ∀ k ∈ args.head?, ZSpec.step N w n args (.int 0) k ≠ .here none ∨ n = s!! "zpopmax" ∧ ZSpec.popCount args.tail = some 1)
    (h3 : ∀ k ∈ args.head?, n ∈ byScore → ∀ t ∈ args, ∀ b, ZSpec.bound N t = some (b, true) ∨ ZSpec.bound N (N.lower t) = some (b, true) →
      ZSpec.equal (ZSpec.seen (w k)).order b ≤ 1)
    (h : ZSpec.Fits N w n args m) (h' : ZSpec.Fits N w n args m') : m = m' := by
  have one : ∀ {x : Reply}, m = x → m' = x → m = m' := fun a b => a.trans b.symm
  cases args with
  | nil =>
    have : ∀ m, ZSpec.Fits N w n [] m → m = errArgs := by
      intro m hm
      unfold ZSpec.Fits at hm
      simpa using hm
    exact one (this m h) (this m' h')
  | cons k rest =>
  replace h1 := h1 k rfl
  replace h2 := h2 k rfl
  replace h3 := h3 k rfl
  -- a command on one key
  have on : ∀ {P Q : ZVal → Prop}, (∀ z, ZSpec.seen (w k) = z → w k ≠ .other → P z → Q z → m = m') →
      ZSpec.onKey (w k) m P → ZSpec.onKey (w k) m' Q → m = m' := by
    intro P Q hz a b
    unfold ZSpec.onKey at a b
    cases hk : w k with
    | absent => rw [hk] at a b; exact hz _ (by rw [hk]; rfl) (by rw [hk]; nofun) a b
    | other => rw [hk] at a b; exact one a b
    | here o =>
      cases o with
      | none => exact absurd hk h1
      | some z => rw [hk] at a b; exact hz _ (by rw [hk]; rfl) (by rw [hk]; nofun) a b
  have score : ∀ (l : List ZSpec.Entry) (a b : Str), (∀ t ∈ [a, b], ∀ c, ZSpec.bound N t = some (c, true) → ZSpec.equal l c ≤ 1) →
      ∀ s, ZSpec.RangeByScore N l a b s m → ZSpec.RangeByScore N l a b s m' → m = m' := by
    intro l a b hb s x y
    unfold ZSpec.RangeByScore at x y
    cases ha : ZSpec.bound N a with
    | none => rw [ha] at x y; exact one x y
    | some lo =>
      cases hc : ZSpec.bound N b with
      | none => rw [ha, hc] at x y; exact one x y
      | some hi =>
        rw [ha, hc] at x y
        dsimp only at x y
        split at x
        · next he => rw [if_pos he] at y; exact one x y
        · next he =>
          rw [if_neg he] at y
          obtain ⟨r1, r2, x1, x2, x3⟩ := x
          obtain ⟨q1, q2, y1, y2, y3⟩ := y
          rw [cut_unique (fun e => hb a (by simp) _ (by rw [ha, ← e])) x1 y1, cut_unique (fun e => hb b (by simp) _ (by rw [hc, ← e])) x2 y2] at x3
          exact one x3 y3
  have count : ∀ (l : List ZSpec.Entry) (a b : Str), (∀ t ∈ [a, b], ∀ c, ZSpec.bound N t = some (c, true) → ZSpec.equal l c ≤ 1) →
      ZSpec.CountByScore N l a b m → ZSpec.CountByScore N l a b m' → m = m' := by
    intro l a b hb x y
    unfold ZSpec.CountByScore at x y
    cases ha : ZSpec.bound N a with
    | none => rw [ha] at x y; exact one x y
    | some lo =>
      cases hc : ZSpec.bound N b with
      | none => rw [ha, hc] at x y; exact one x y
      | some hi =>
        rw [ha, hc] at x y
        dsimp only at x y
        split at x
        · next he => rw [if_pos he] at y; exact one x y
        · next he =>
          rw [if_neg he] at y
          obtain ⟨r1, r2, x1, x2, x3⟩ := x
          obtain ⟨q1, q2, y1, y2, y3⟩ := y
          rw [cut_unique (fun e => hb a (by simp) _ (by rw [ha, ← e])) x1 y1, cut_unique (fun e => hb b (by simp) _ (by rw [hc, ← e])) x2 y2] at x3
          exact one x3 y3
  have pos : ∀ (rev : Bool) (l : List ZSpec.Entry) (a b : Str) (s : Bool), ZSpec.RangeByPosition N rev l a b s m →
      ZSpec.RangeByPosition N rev l a b s m' → m = m' := by
    intro rev l a b s x y
    unfold ZSpec.RangeByPosition at x y
    revert x y
    split <;> exact one
  unfold ZSpec.Fits at h h'
  unfold ZSpec.step at h2
  by_cases c : n = s!! "zadd"
  · rw [if_pos c] at h h' h2
    match rest with
    | [] | [_] => exact one h h'
    | a :: b :: rest =>
      dsimp only at h h' h2
      cases hA : ZSpec.addArgs N (a :: b :: rest) {} with
      | none => rw [hA] at h h'; exact one h h'
      | some r =>
        obtain ⟨es, f⟩ := r
        rw [hA] at h h' h2
        dsimp only at h h' h2
        refine on (fun z hz ho x y => ?_) h h'
        cases hr : ZSpec.addAll N f es z with
        | some r => exact one (x.2 r.1 r.2 hr) (y.2 r.1 r.2 hr)
        | none =>
          exfalso
          rcases h2 with h2 | ⟨h2, _⟩
          · refine h2 ?_
            unfold ZSpec.put ZSpec.added
            rw [if_pos rfl]
            cases hk : w k with
            | absent => rw [hk] at hz; rw [show ZSpec.empty = z from hz, hr]; rfl
            | other => exact absurd hk ho
            | here o =>
              cases o with
              | none => exact absurd hk h1
              | some z' => rw [hk] at hz; cases (show z' = z from hz); dsimp only [Option.bind]; rw [hr]; rfl
          · rw [c] at h2; exact absurd h2 (by decide)
  rw [if_neg c] at h h' h2
  by_cases c : n = s!! "zincr"
  · rw [if_pos c] at h h' h2
    match rest with
    | [] | [_] => exact one h h'
    | d :: x :: rest =>
      dsimp only at h h' h2
      cases hA : N.parse d with
      | none => rw [hA] at h h'; exact one h h'
      | some sc =>
        rw [hA] at h h' h2
        dsimp only at h h' h2
        refine on (fun z hz ho x y => ?_) h h'
        cases hr : ZSpec.addOne N { incr := true } z sc _ with
        | some r => exact one (x.2 r.1 r.2 hr) (y.2 r.1 r.2 hr)
        | none =>
          exfalso
          rcases h2 with h2 | ⟨h2, _⟩
          · refine h2 ?_
            unfold ZSpec.put ZSpec.added
            rw [if_pos rfl]
            cases hk : w k with
            | absent => rw [hk] at hz; rw [show ZSpec.empty = z from hz]; simp [ZSpec.addAll, hr]
            | other => exact absurd hk ho
            | here o =>
              cases o with
              | none => exact absurd hk h1
              | some z' => rw [hk] at hz; cases (show z' = z from hz); simp [ZSpec.addAll, hr]
          · rw [c] at h2; exact absurd h2 (by decide)
  rw [if_neg c] at h h' h2
  by_cases c : n = s!! "zscore"
  · rw [if_pos c] at h h'
    match rest with
    | [] => exact one h h'
    | x :: rest => exact on (fun z _ _ x y => one x y) h h'
  rw [if_neg c] at h h'
  by_cases c : n = s!! "zrank"
  · rw [if_pos c] at h h'
    match rest with
    | [] => exact one h h'
    | x :: rest => exact on (fun z _ _ x y => one x y) h h'
  rw [if_neg c] at h h'
  by_cases c : n = s!! "zrem"
  · rw [if_pos c] at h h' h2
    match rest with
    | [] => exact one h h'
    | x :: xs =>
      refine on (fun z hz ho a b => ?_) h h'
      split at a
      · next he => rw [if_pos he] at b; exact one a b
      · next he =>
        rw [if_neg he] at b
        cases hr : ZSpec.removeAll (x :: xs) z with
        | some r => exact one (a.2 r.1 r.2 hr) (b.2 r.1 r.2 hr)
        | none =>
          exfalso
          rcases h2 with h2 | ⟨h2, _⟩
          · refine h2 ?_
            dsimp only
            unfold ZSpec.put
            rw [if_pos rfl]
            cases hk : w k with
            | absent => rw [hk] at hz; exact absurd (by rw [← hz]; rfl) he
            | other => exact absurd hk ho
            | here o =>
              cases o with
              | none => exact absurd hk h1
              | some z' => rw [hk] at hz; cases (show z' = z from hz); simp [ZSpec.change, he, hr]
          · rw [c] at h2; exact absurd h2 (by decide)
  rw [if_neg c] at h h' h2
  by_cases c : n = s!! "zcard"
  · rw [if_pos c] at h h'
    exact on (fun z _ _ x y => one x y) h h'
  rw [if_neg c] at h h'
  by_cases c : n = s!! "zcount"
  · rw [if_pos c] at h h'
    match rest with
    | [] | [_] => exact one h h'
    | a :: b :: rest =>
      refine on (fun z hz ho x y => ?_) h h'
      split at x
      · next he => rw [if_pos he] at y; exact one x y
      · next he =>
        rw [if_neg he] at y
        refine count _ _ _ (fun t ht e hb => ?_) x y
        rw [← hz]
        simp only [List.mem_cons, List.not_mem_nil, or_false] at ht
        rcases ht with rfl | rfl
        · exact h3 (by rw [c]; decide) a (by simp) e (.inr hb)
        · exact h3 (by rw [c]; decide) b (by simp) e (.inr hb)
  rw [if_neg c] at h h'
  by_cases c : n = s!! "zrange"
  · rw [if_pos c] at h h'
    match rest with
    | [] | [_] => exact one h h'
    | a :: b :: rest =>
      refine on (fun z hz ho x y => ?_) h h'
      unfold ZSpec.RangeFits at x y
      split at x
      · next he => rw [if_pos he] at y; exact one x y
      · next he =>
        rw [if_neg he] at y
        split at x
        · next hs =>
          rw [if_pos hs] at y
          refine score _ _ _ (fun t ht e hb => ?_) _ x y
          rw [← hz]
          simp only [List.mem_cons, List.not_mem_nil, or_false] at ht
          rcases ht with rfl | rfl
          · exact h3 (by rw [c]; decide) t (by simp) e (.inl hb)
          · exact h3 (by rw [c]; decide) t (by simp) e (.inl hb)
        · next hs =>
          rw [if_neg hs] at y
          exact pos _ _ _ _ _ x y
  rw [if_neg c] at h h'
  by_cases c : n = s!! "zrangebyscore"
  · rw [if_pos c] at h h'
    match rest with
    | [] | [_] => exact one h h'
    | a :: b :: rest =>
      refine on (fun z hz ho x y => ?_) h h'
      split at x
      · next he => rw [if_pos he] at y; exact one x y
      · next he =>
        rw [if_neg he] at y
        refine score _ _ _ (fun t ht e hb => ?_) _ x y
        rw [← hz]
        simp only [List.mem_cons, List.not_mem_nil, or_false] at ht
        rcases ht with rfl | rfl
        · exact h3 (by rw [c]; decide) t (by simp) e (.inl hb)
        · exact h3 (by rw [c]; decide) t (by simp) e (.inl hb)
  rw [if_neg c] at h h'
  by_cases c : n = s!! "zrevrange"
  · rw [if_pos c] at h h'
    match rest with
    | [] | [_] => exact one h h'
    | a :: b :: rest =>
      refine on (fun z hz ho x y => ?_) h h'
      split at x
      · next he => rw [if_pos he] at y; exact one x y
      · next he =>
        rw [if_neg he] at y
        exact pos _ _ _ _ _ x y
  rw [if_neg c] at h h'
  have pop : ∀ {P Q : List ZSpec.Entry → Prop}, (∀ z, w k = .here (some z) → P z.order → Q z.order → m = m') →
      ZSpec.onPop (w k) m P → ZSpec.onPop (w k) m' Q → m = m' := by
    intro P Q hz a b
    unfold ZSpec.onPop at a b
    cases hk : w k with
    | absent => rw [hk] at a b; exact one a b
    | other => rw [hk] at a b; exact one a b
    | here o =>
      cases o with
      | none => exact absurd hk h1
      | some z => rw [hk] at a b; exact hz _ hk a b
  by_cases c : n = s!! "zpopmin"
  · rw [if_pos c] at h h'
    dsimp only at h h'
    cases hc : ZSpec.popCount rest with
    | none => rw [hc] at h h'; exact one h h'
    | some i =>
      rw [hc] at h h'
      exact pop (fun z _ x y => one x y) h h'
  rw [if_neg c] at h h' h2
  dsimp only at h h'
  cases hc : ZSpec.popCount rest with
  | none => rw [hc] at h h'; exact one h h'
  | some i =>
    rw [hc] at h h'
    refine pop (fun z hz x y => ?_) h h'
    unfold ZSpec.PopMaxFits at x y
    split at x
    · next he => rw [if_pos he] at y; exact one x y
    · next he =>
      rw [if_neg he] at y
      split at x
      · next hl => rw [if_pos hl] at y; exact one x y
      · next hl =>
        rw [if_neg hl] at y
        have hi : i = 1 := by
          rcases h2 with h2 | ⟨_, h2⟩
          · exfalso
            rw [if_pos ?_] at h2
            · dsimp only at h2
              rw [hc] at h2
              dsimp only at h2
              refine h2 ?_
              unfold ZSpec.put
              rw [if_pos rfl, hz]
              simp only [ZSpec.change]
              rw [if_neg (fun e => he (.inl e)), if_neg (fun e => he (.inr e)), if_neg hl]
            · simp only [ZSpec.commands, List.mem_cons, List.not_mem_nil, or_false] at hn; tauto
          · rw [show (k :: rest).tail = rest from rfl, hc] at h2; cases h2; rfl
        obtain ⟨a, e1, e2⟩ := x
        obtain ⟨b, f1, f2⟩ := y
        rw [e2 hi] at e1
        rw [f2 hi] at f1
        exact one e1 f1

theorem counter_unique {v : StrSpec.View} {n : Str} {args : List Str} {m m' : Reply} (h : Counter v n args m) (h' : Counter v n args m') : m = m' := by
  unfold Counter at h h'
  cases hd : delta n args with
  | none => rw [hd] at h h'; exact h.trans h'.symm
  | some d =>
    rw [hd] at h h'
    dsimp only at h h'
    split at h
    · next hv => rw [if_pos hv] at h'; exact h.trans h'.symm
    · next hv =>
      rw [if_neg hv] at h'
      cases hc : StrCount v with
      | none => rw [hc] at h h'; exact h.trans h'.symm
      | some x =>
        rw [hc] at h h'
        obtain ⟨i, rfl, hi⟩ := h
        obtain ⟨j, rfl, hj⟩ := h'
        unfold Wraps at hi hj
        congr 1
        omega

theorem basic_decided {n : Str} {args : List Str} {o o' : Outcome} (h : Basic L W n args o) (h' : Basic L W n args o') : o.Alike o' := by
  have one : ∀ {x : Outcome}, o = x → o' = x → o.Alike o' := fun a b => by rw [a, b]; exact .refl _
  unfold Basic at h h'
  by_cases c : n = s!! "ping"
  · rw [if_pos c] at h h'; exact one h h'
  rw [if_neg c] at h h'
  by_cases c : n = s!! "command"
  · rw [if_pos c] at h h'; exact one h h'
  rw [if_neg c] at h h'
  by_cases c : n = s!! "mset"
  · rw [if_pos c] at h h'; exact one h h'
  rw [if_neg c] at h h'
  cases args with
  | nil => exact one h h'
  | cons k rest =>
    dsimp only at h h'
    by_cases c : n = s!! "set"
    · rw [if_pos c] at h h'; exact one h h'
    rw [if_neg c] at h h'
    by_cases c : n = s!! "get"
    · rw [if_pos c] at h h'; exact one h h'
    rw [if_neg c] at h h'
    by_cases c : n = s!! "mget"
    · rw [if_pos c] at h h'
      split at h
      · next hw => rw [if_pos hw] at h'; exact one h h'
      · next hw => rw [if_neg hw] at h'; exact one h h'
    rw [if_neg c] at h h'
    by_cases c : n = s!! "append"
    · rw [if_pos c] at h h'; exact one h h'
    rw [if_neg c] at h h'
    by_cases c : n = s!! "incr" ∨ n = s!! "decr"
    · rw [if_pos c] at h h'
      obtain ⟨m, e, h⟩ := h
      obtain ⟨m', e', h'⟩ := h'
      exact one e (by rw [e', counter_unique h h'])
    rw [if_neg c] at h h'
    by_cases c : n = s!! "incrby" ∨ n = s!! "decrby"
    · rw [if_pos c] at h h'
      split at h
      · next hr => rw [if_pos hr] at h'; exact one h h'
      · next hr =>
        rw [if_neg hr] at h'
        obtain ⟨m, e, h⟩ := h
        obtain ⟨m', e', h'⟩ := h'
        exact one e (by rw [e', counter_unique h h'])
    rw [if_neg c] at h h'
    by_cases c : n = s!! "exists" ∨ n = s!! "del"
    · rw [if_pos c] at h h'; exact one h h'
    rw [if_neg c] at h h'
    by_cases c : n = s!! "type"
    · rw [if_pos c] at h h'; exact one h h'
    rw [if_neg c] at h h'
    by_cases c : n = s!! "keys"
    · rw [if_pos c] at h h'
      cases hg : L.glob k with
      | none => rw [hg] at h h'; exact one h h'
      | some g =>
        rw [hg] at h h'
        obtain ⟨l, rfl, hl, he⟩ := h
        obtain ⟨l', rfl, hl', he'⟩ := h'
        exact .inr ⟨l, l', rfl, rfl, (List.perm_ext_iff_of_nodup hl hl').mpr fun a => by rw [he, he']⟩
    rw [if_neg c] at h
    exact h.elim

/-- The contents decide the outcome, but for the order of what a reply lists. -/
theorem fits_decided {req : List Str} {o o' : Outcome} (hd : Decided L W req) (h : Fits L False W req o) (h' : Fits L False W req o') : o.Alike o' := by
  have one : ∀ {x : Outcome}, o = x → o' = x → o.Alike o' := fun a b => by rw [a, b]; exact .refl _
  cases req with
  | nil => exact one h h'
  | cons name args =>
    unfold Fits at h h'
    unfold Decided at hd
    dsimp only at h h' hd
    generalize lower name = n at h h' hd
    by_cases c1 : n ∈ RowSpec.commands
    · rw [if_pos c1] at h h'; exact one h h'
    rw [if_neg c1] at h h'
    by_cases c2 : n ∈ SetSpec.commands
    · rw [if_pos c2] at h h'
      obtain ⟨m, rfl, h⟩ := h
      obtain ⟨m', rfl, h'⟩ := h'
      refine set_decided (fun e => ?_) h h'
      have := hd.1 e
      unfold AllOrNothing at this
      exact this
    rw [if_neg c2] at h h'
    by_cases c3 : n ∈ ZSpec.commands
    · rw [if_pos c3] at h h'
      have hz := hd.2 c3
      have ok : ∀ o, Sorted L False W n args o → ∃ m, o = .reply m ∧ ZSpec.Fits L.num (fun k => (W.holds k).zset) n args m := by
        intro o h
        unfold Sorted at h
        cases o with
        | reply m => exact ⟨m, rfl, h⟩
        | crash =>
          rcases h with h | ⟨_, k, hk, h⟩
          · exact h.elim
          · exact absurd h (hz k hk).1
        | nothing => exact h.elim
        | unwritable => exact h.elim
      obtain ⟨m, rfl, h⟩ := ok o h
      obtain ⟨m', rfl, h'⟩ := ok o' h'
      exact .inl (z_decided c3 (fun k hk => (hz k hk).1) (fun k hk => (hz k hk).2.1) (fun k hk => (hz k hk).2.2) h h')
    rw [if_neg c3] at h h'
    by_cases c4 : n ∈ HashSpec.commands
    · rw [if_pos c4] at h h'; exact one h h'
    rw [if_neg c4] at h h'
    by_cases c5 : n ∈ basicCommands
    · rw [if_pos c5] at h h'; exact basic_decided h h'
    rw [if_neg c5] at h h'
    exact one h h'

end RefSpec
