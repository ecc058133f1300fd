import Verif.Spec.Reference
/-!
# The reference server and its families of commands

`RefSpec.step` agrees with the steps of the families: each family sees of the new world what its own specification says.
-/
namespace RefSpec
open Resp
open KeySpec hiding Str
open StrSpec (int64 lower isError decimal counters delta Wraps setStores)
open ListSpec (errType errArgs)

/-- the kinds of collections -/
inductive Fam where
  | list | set | sorted

def Holding.isFam : Fam → Holding → Prop
  | .list, .list _ => True
  | .set, .set _ => True
  | .sorted, .sorted _ => True
  | _, _ => False

/-- the request creates a collection under `k` if there is nothing -/
def Cr (n : Str) (args : List Str) (m : Reply) (k : Str) : Prop :=
  isError m = false ∧ (n = s!! "smove" ∧ args[1]? = some k ∨ n ∈ collCreators ∧ args.head? = some k)
/-- the request replaces what is under `k` by a collection -/
def Ov (n : Str) (args : List Str) (m : Reply) (k : Str) : Prop := isError m = false ∧ n ∈ setStores ∧ args.head? = some k

instance (n args m k) : Decidable (Cr n args m k) := by unfold Cr; infer_instance
instance (n args m k) : Decidable (Ov n args m k) := by unfold Ov; infer_instance

/-- how a command of one family changes what a key holds -/
def Chg (F : Fam) (ov cr : Prop) (h h' : Holding) : Prop :=
  (ov ∧ h'.isFam F) ∨ (¬ ov ∧ cr ∧ h = .absent ∧ h'.isFam F) ∨ (¬ ov ∧ (cr → h ≠ .absent) ∧ (h' = h ∨ h.isFam F ∧ h'.isFam F))

section
variable {F : Fam} {ov cr : Prop} [Decidable ov] [Decidable cr] {h h' : Holding}

theorem Chg.string (c : Chg F ov cr h h') : h'.string = if ov then .coll else if cr then StrSpec.create h.string else h.string := by
  rcases c with ⟨h1, h2⟩ | ⟨h1, h2, rfl, h3⟩ | ⟨h1, h2, rfl | ⟨h3, h4⟩⟩
  · rw [if_pos h1]; cases F <;> cases h' <;> first | rfl | exact False.elim h2
  · rw [if_neg h1, if_pos h2]; cases F <;> cases h' <;> first | rfl | exact False.elim h3
  · rw [if_neg h1]
    split
    · next hc => have := h2 hc; cases h' <;> first | rfl | exact absurd rfl this
    · rfl
  · rw [if_neg h1]
    cases F <;> cases h <;> cases h' <;> first | exact False.elim h3 | exact False.elim h4 | (split <;> rfl)

theorem Chg.row (c : Chg F ov cr h h') (hF : F ≠ .list) :
    h'.row = if ov then .other else if cr then RowSpec.createOther h.row else h.row := by
  rcases c with ⟨h1, h2⟩ | ⟨h1, h2, rfl, h3⟩ | ⟨h1, h2, rfl | ⟨h3, h4⟩⟩
  · rw [if_pos h1]; cases F <;> cases h' <;> first | rfl | exact False.elim h2 | exact absurd rfl hF
  · rw [if_neg h1, if_pos h2]; cases F <;> cases h' <;> first | rfl | exact False.elim h3 | exact absurd rfl hF
  · rw [if_neg h1]
    split
    · next hc => have := h2 hc; cases h' <;> first | rfl | exact absurd rfl this
    · rfl
  · rw [if_neg h1]
    cases F <;> cases h <;> cases h' <;> first | exact False.elim h3 | exact False.elim h4 | exact absurd rfl hF | (split <;> rfl)

theorem Chg.setName (c : Chg F ov cr h h') (hF : F ≠ .set) :
    h'.setName = if ov then .other else if cr then h.setName.createOther else h.setName := by
  rcases c with ⟨h1, h2⟩ | ⟨h1, h2, rfl, h3⟩ | ⟨h1, h2, rfl | ⟨h3, h4⟩⟩
  · rw [if_pos h1]; cases F <;> cases h' <;> first | rfl | exact False.elim h2 | exact absurd rfl hF
  · rw [if_neg h1, if_pos h2]; cases F <;> cases h' <;> first | rfl | exact False.elim h3 | exact absurd rfl hF
  · rw [if_neg h1]
    split
    · next hc => have := h2 hc; cases h' <;> first | rfl | exact absurd rfl this
    · rfl
  · rw [if_neg h1]
    cases F <;> cases h <;> cases h' <;> first | exact False.elim h3 | exact False.elim h4 | exact absurd rfl hF | (split <;> rfl)

theorem Chg.zset (c : Chg F ov cr h h') (hF : F ≠ .sorted) :
    h'.zset = if ov then .other else if cr then h.zset.createOther else h.zset := by
  rcases c with ⟨h1, h2⟩ | ⟨h1, h2, rfl, h3⟩ | ⟨h1, h2, rfl | ⟨h3, h4⟩⟩
  · rw [if_pos h1]; cases F <;> cases h' <;> first | rfl | exact False.elim h2 | exact absurd rfl hF
  · rw [if_neg h1, if_pos h2]; cases F <;> cases h' <;> first | rfl | exact False.elim h3 | exact absurd rfl hF
  · rw [if_neg h1]
    split
    · next hc => have := h2 hc; cases h' <;> first | rfl | exact absurd rfl this
    · rfl
  · rw [if_neg h1]
    cases F <;> cases h <;> cases h' <;> first | exact False.elim h3 | exact False.elim h4 | exact absurd rfl hF | (split <;> rfl)
end

/-! ## the effect of collection commands on other families -/

def collCommands : List Str := RowSpec.commands ++ SetSpec.commands ++ ZSpec.commands

theorem coll_not {n : Str} (h : n ∈ collCommands) : n ≠ s!! "mset" ∧ n ≠ s!! "del" ∧ n ≠ s!! "set" ∧ n ≠ s!! "append" ∧ n ∉ counters ∧
    n ∉ ListSpec.stringWriters := by
  have : ∀ n ∈ collCommands, n ≠ s!! "mset" ∧ n ≠ s!! "del" ∧ n ≠ s!! "set" ∧ n ≠ s!! "append" ∧ n ∉ counters ∧
    n ∉ ListSpec.stringWriters := by decide
  exact this n h

theorem foreign_coll {α : Type} {n : Str} (h : n ∈ collCommands) (k : Str) (v : KView α) (args : List Str) (m : Reply) :
    foreign k v n args m = if Ov n args m k then .other else if Cr n args m k then v.createOther else v := by
  obtain ⟨h1, h2, h3, h4, h5, h6⟩ := coll_not h
  unfold foreign Ov Cr
  rcases Bool.eq_false_or_eq_true (isError m) with hm | hm
  · simp [hm]
  · simp only [hm, Bool.false_eq_true, if_false, h1, true_and]
    by_cases hs : n = s!! "smove"
    · subst hs
      have e1 : s!! "smove" ∉ setStores := by decide
      have e2 : s!! "smove" ∉ collCreators := by decide
      simp [e1, e2]
    · simp only [hs, if_false, h6, h2, false_and, false_or]
      by_cases hk : args.head? = some k
      · simp only [hk, ne_eq, not_true_eq_false, if_false, and_true]
        by_cases hc : n ∈ collCreators
        · have : n ∉ setStores := by
            have : ∀ n ∈ collCreators, n ∉ setStores := by decide
            exact this n hc
          simp [hc, this]
        · simp [hc]
      · simp [hk]

theorem row_coll {n : Str} (h : n ∈ SetSpec.commands ++ ZSpec.commands) (k : Str) (v : RowSpec.View) (args : List Str) (m : Reply) :
    RowSpec.step k v n args m = if Ov n args m k then .other else if Cr n args m k then RowSpec.createOther v else v := by
  obtain ⟨h1, h2, h3, h4, h5, h6⟩ := coll_not (n := n) (by unfold collCommands; rw [List.append_assoc]; exact List.mem_append_right _ h)
  have hlw : n ∉ ListSpec.listWriters := by
    have : ∀ n ∈ SetSpec.commands ++ ZSpec.commands, n ∉ ListSpec.listWriters := by decide
    exact this n h
  have hoc : n ∈ collCreators ↔ n ∈ ListSpec.otherCreators := by
    have : ∀ n ∈ SetSpec.commands ++ ZSpec.commands, (n ∈ collCreators ↔ n ∈ ListSpec.otherCreators) := by decide
    exact this n h
  unfold RowSpec.step Ov Cr
  rcases Bool.eq_false_or_eq_true (isError m) with hm | hm
  · simp [hm]
  · simp only [hm, Bool.false_eq_true, if_false, h1, true_and]
    by_cases hs : n = s!! "smove"
    · subst hs
      have e1 : s!! "smove" ∉ setStores := by decide
      have e2 : s!! "smove" ∉ collCreators := by decide
      simp [e1, e2]
    · simp only [hs, if_false, h6, h2, false_and, false_or]
      by_cases hk : args.head? = some k
      · simp only [hk, ne_eq, not_true_eq_false, if_false, and_true, hoc]
        by_cases hc : n ∈ ListSpec.otherCreators
        · have : n ∉ setStores := by
            have : ∀ n ∈ ListSpec.otherCreators, n ∉ setStores := by decide
            exact this n hc
          simp [hc, this]
        · simp [hc, hlw]
      · simp [hk]

theorem next_coll {n : Str} (h : n ∈ collCommands) {k : Str} {v v' : StrSpec.View} {args : List Str} {m : Reply}
    (hn : StrSpec.Next k v n args m v') : v' = if Ov n args m k then .coll else if Cr n args m k then StrSpec.create v else v := by
  obtain ⟨h1, h2, h3, h4, h5, h6⟩ := coll_not h
  have hcc : n ∈ collCreators ↔ n ∈ StrSpec.creators := by rfl
  have key : isError m = false → (if n = s!! "mset" then v' = StrSpec.msetView k args v
    else if n = s!! "smove" then v' = if args.drop 1 |>.head? |>.any (· = k) then StrSpec.create v else v
    else if args.head? ≠ some k then v' = v
    else if n = s!! "set" then ∃ a ∈ args[1]?, v' = .str a
    else if n = s!! "append" then ∃ a ∈ args[1]?, v' = StrSpec.appendView a v
    else if n ∈ counters then ∃ i, m = .int i ∧ v' = .str (decimal i)
    else if n = s!! "del" then v' = .absent
    else if n ∈ StrSpec.creators then v' = StrSpec.create v
    else if n ∈ setStores then v' = .coll
    else v' = v) := by
    intro hm; cases m <;> first | exact hn | cases hm
  unfold Ov Cr
  rcases Bool.eq_false_or_eq_true (isError m) with hm | hm
  · have : v' = v := by cases m <;> first | exact hn | cases hm
    simp [this, hm]
  · replace key := key hm
    simp only [h1, h2, h3, h4, h5, if_false] at key
    simp only [hm, true_and]
    by_cases hs : n = s!! "smove"
    · subst hs
      have e1 : s!! "smove" ∉ setStores := by decide
      have e2 : s!! "smove" ∉ collCreators := by decide
      simp only [if_true] at key
      rw [key]
      rcases args with _ | ⟨a, _ | ⟨b, args⟩⟩ <;> simp [e1, e2]
    · simp only [hs, if_false, false_and, false_or] at key ⊢
      by_cases hk : args.head? = some k
      · simp only [hk, ne_eq, not_true_eq_false, if_false, and_true, hcc] at key ⊢
        by_cases hc : n ∈ StrSpec.creators
        · have : n ∉ setStores := by
            have : ∀ n ∈ StrSpec.creators, n ∉ setStores := by decide
            exact this n hc
          simpa [hc, this] using key
        · simp only [hc, if_false] at key ⊢
          split at key <;> rename_i hh <;> simp [hh, key]
      · simp only [hk, ne_eq, not_false_eq_true, if_true, and_false, if_false] at key ⊢
        exact key

/-! ## the families' own keys -/

/-- the shape of a family's view of a key afterwards: `v` before, `v'` afterwards -/
structure Shape {α : Type} (ov cr : Prop) (v v' : KView α) : Prop where
  absent : v = .absent → ¬ ov → (¬ cr ∧ v' = .absent) ∨ (cr ∧ ∃ x, v' = .here x)
  other : v = .other → ¬ ov → v' = .other
  here : ∀ x, v = .here x → ∃ x', v' = .here x'
  ov : ov → ∃ x, v' = .here x

theorem Shape.not_other {α : Type} {ov cr : Prop} {v v' : KView α} (h : Shape ov cr v v') (hv : v' = .other) : v = .other := by
  subst hv
  by_cases ho : ov
  · obtain ⟨x, hx⟩ := h.ov ho; cases hx
  · cases v with
    | absent => rcases h.absent rfl ho with ⟨_, h⟩ | ⟨_, x, h⟩ <;> cases h
    | other => rfl
    | here x => obtain ⟨x', h⟩ := h.here x rfl; cases h

theorem Shape.same {α : Type} {cr : Prop} (v : KView α) (h : cr → v ≠ .absent) : Shape False cr v v :=
  ⟨fun hv _ => .inl ⟨fun hc => h hc hv, hv⟩, fun hv _ => hv, fun x hv => ⟨x, hv⟩, False.elim⟩

/-- lists: the view as a `KView` -/
def kv : RowSpec.View → KView RowSpec.Row
  | .absent => .absent
  | .other => .other
  | .row c => .here c

theorem kv_inj {a b : RowSpec.View} (h : kv a = kv b) : a = b := by
  cases a <;> cases b <;> first | rfl | (cases h; done) | (cases h; rfl)

theorem row_absent : kv (.absent) = .absent := rfl

theorem next_row {n : Str} {args : List Str} (h1 : n ≠ s!! "lpush") (h2 : n ≠ s!! "rpush") (v : RowSpec.View) {cr : Prop} (hc : ¬ cr) :
    Shape False cr (kv v) (kv (RowSpec.next v n args)) := by
  unfold RowSpec.next
  rw [if_neg h1, if_neg h2]
  cases v with
  | absent => exact .same _ (fun h => absurd h hc)
  | other => exact .same _ (fun h => absurd h hc)
  | row c =>
    refine ⟨nofun, nofun, fun x _ => ?_, False.elim⟩
    dsimp only
    repeat' split
    all_goals exact ⟨_, rfl⟩

theorem row_shape {look : Str → RowSpec.View} {n : Str} (hn : n ∈ RowSpec.commands) {args : List Str} {m : Reply}
    (ha : RowSpec.answer look n args = .reply m) (k : Str) :
    Shape (Ov n args m k) (Cr n args m k) (kv (look k)) (kv (RowSpec.step k (look k) n args m)) := by
  have hov : ¬ Ov n args m k := by
    rintro ⟨_, h, _⟩
    have : ∀ n ∈ RowSpec.commands, n ∉ setStores := by decide
    exact this n hn h
  have hov' : Ov n args m k = False := eq_false hov
  rw [hov']
  have hcr : Cr n args m k ↔ isError m = false ∧ (n = s!! "lpush" ∨ n = s!! "rpush") ∧ args.head? = some k := by
    have h1 : ∀ n ∈ RowSpec.commands, n ≠ s!! "smove" ∧ (n ∈ collCreators ↔ n = s!! "lpush" ∨ n = s!! "rpush") := by decide
    unfold Cr
    simp [h1 n hn]
  have hsame : (Cr n args m k → False) → Shape False (Cr n args m k) (kv (look k)) (kv (look k)) := fun h => .same _ (fun hc => (h hc).elim)
  have hnot : n ≠ s!! "mset" ∧ n ≠ s!! "smove" ∧ n ∉ ListSpec.stringWriters ∧ n ≠ s!! "del" ∧ n ∉ ListSpec.otherCreators ∧ n ∉ setStores := by
    have : ∀ n ∈ RowSpec.commands, n ≠ s!! "mset" ∧ n ≠ s!! "smove" ∧ n ∉ ListSpec.stringWriters ∧ n ≠ s!! "del" ∧ n ∉ ListSpec.otherCreators ∧ n ∉ setStores := by
      decide
    exact this n hn
  obtain ⟨n1, n2, n3, n4, n5, n6⟩ := hnot
  unfold RowSpec.step
  simp only [n1, n2, n3, n4, n5, n6, if_false]
  rcases Bool.eq_false_or_eq_true (isError m) with hm | hm
  · rw [if_pos hm]
    exact hsame (fun h => by have := (hcr.mp h).1; rw [hm] at this; cases this)
  rw [if_neg (by rw [hm]; decide)]
  by_cases hk : args.head? = some k
  · rw [if_neg (by simpa using hk)]
    obtain ⟨rest, rfl⟩ : ∃ rest, args = k :: rest := by
      cases args with
      | nil => cases hk
      | cons a rest => cases hk; exact ⟨rest, rfl⟩
    by_cases hp : n = s!! "lpush" ∨ n = s!! "rpush"
    · have hw : n ∈ ListSpec.listWriters := by rcases hp with rfl | rfl <;> decide
      rw [if_pos hw]
      have hc : Cr n (k :: rest) m k := hcr.mpr ⟨hm, hp, rfl⟩
      have hno : look k ≠ .other := by
        intro ho
        have : RowSpec.answer look n (k :: rest) = if rest = [] then .reply errArgs else
            RowSpec.typed (look k) (.reply (.int ((look k).list.count + rest.length))) := by
          unfold RowSpec.answer; dsimp only; rw [if_pos hp]
        rw [this, ho] at ha
        split at ha
        · cases ha; cases hm
        · unfold RowSpec.typed at ha; rw [if_pos rfl] at ha; cases ha; cases hm
      have hex : ∃ c, RowSpec.next (look k) n rest = .row c := by
        unfold RowSpec.next
        rcases hp with rfl | rfl
        · exact ⟨_, rfl⟩
        · exact ⟨_, rfl⟩
      obtain ⟨c, hx⟩ := hex
      show Shape False _ _ (kv (RowSpec.next (look k) n rest))
      rw [hx]
      refine ⟨fun _ _ => .inr ⟨hc, c, rfl⟩, fun h _ => absurd (kv_inj (b := .other) h) hno, fun _ _ => ⟨c, rfl⟩, False.elim⟩
    · have hc : ¬ Cr n (k :: rest) m k := fun h => hp (hcr.mp h).2.1
      split
      · exact next_row (fun h => hp (.inl h)) (fun h => hp (.inr h)) _ hc
      · exact hsame hc
  · rw [if_pos hk]
    exact hsame (fun h => hk (hcr.mp h).2.2)

/-! ### sets -/

section
open SharedSpec (World)
open SetSpec (add remove leave mems size)

open Classical in
theorem change_names (W : SharedSpec.World) (k : Str) (v : SetSpec.SView) (k' : Str) :
    (W.change k v).names k' = if k' = k ∧ (∃ x, v = .here x) ∧ W.names k = .absent then .here W.next else W.names k' := by
  unfold SharedSpec.World.change
  cases v with
  | absent => simp
  | other => simp
  | here x =>
    cases hn : W.names k with
    | absent =>
      simp only [SharedSpec.World.create]
      by_cases hk : k' = k <;> simp [hk]
    | other => simp
    | here i => simp

theorem view_of_absent {W : SharedSpec.World} {k : Str} (h : W.names k = .absent) : W.view k = .absent := by
  simp [SharedSpec.World.view, h]

theorem names_of_other {W : SharedSpec.World} {k : Str} (h : W.view k = .other) : W.names k = .other := by
  unfold SharedSpec.World.view at h; split at h <;> simp_all

theorem view_of_other {W : SharedSpec.World} {k : Str} (h : W.names k = .other) : W.view k = .other := by
  simp [SharedSpec.World.view, h]

theorem Shape.refl {α : Type} {ov cr : Prop} (v : KView α) (h1 : ¬ ov) (h2 : ¬ cr) : Shape ov cr v v :=
  ⟨fun hv _ => .inl ⟨h2, hv⟩, fun hv _ => hv, fun x hv => ⟨x, hv⟩, fun h => absurd h h1⟩

/-- a change that creates nothing -/
theorem change_same {W : SharedSpec.World} {k : Str} {v : SetSpec.SView} (h : W.names k = .absent → ∀ x, v ≠ .here x) (k' : Str) :
    (W.change k v).names k' = W.names k' := by
  rw [change_names, if_neg]
  rintro ⟨_, ⟨x, hx⟩, h'⟩
  exact h h' x hx

/-- members are added under `k` -/
theorem change_add {W : SharedSpec.World} {k : Str} {xs : List Str} {ov cr : Prop} (k' : Str) (ho : ¬ ov) (hk : W.view k ≠ .other) (hc : cr ↔ k' = k) :
    Shape ov cr (W.names k') ((W.change k (add xs (W.view k))).names k') := by
  rw [change_names]
  by_cases he : k' = k
  · subst he
    have hc := hc.mpr rfl
    cases hn : W.names k' with
    | absent =>
      have : ∃ x, add xs (W.view k') = .here x := by rw [view_of_absent hn]; exact ⟨_, rfl⟩
      rw [if_pos ⟨rfl, this, rfl⟩]
      exact ⟨fun _ _ => .inr ⟨hc, _, rfl⟩, nofun, fun _ _ => ⟨_, rfl⟩, fun h => absurd h ho⟩
    | other => exact absurd (view_of_other hn) hk
    | here i =>
      rw [if_neg (by simp)]
      exact ⟨nofun, nofun, fun _ _ => ⟨i, rfl⟩, fun h => absurd h ho⟩
  · rw [if_neg (fun h => he h.1)]
    exact .refl _ ho (fun h => he (hc.mp h))

theorem set_shape {W : SharedSpec.World} {n : Str} (hn : n ∈ SetSpec.commands) {args : List Str} {m : Reply}
    (hf : SharedSpec.Fits W n args m) (k : Str) :
    Shape (Ov n args m k) (Cr n args m k) (W.names k) ((SharedSpec.step W n args m).names k) := by
  by_cases h1 : n = s!! "sadd"
  · subst h1
    have hov : ¬ Ov (s!! "sadd") args m k := fun h => absurd h.2.1 (by decide)
    have hcr : Cr (s!! "sadd") args m k ↔ isError m = false ∧ args.head? = some k := by
      unfold Cr; simp only [show (s!! "sadd") ∈ collCreators from by decide]; simp
    show Shape _ _ _ (SharedSpec.World.names (match (generalizing := false) args with
      | k :: xs => if isError m then W else W.change k (add xs (W.view k))
      | _ => W) k)
    rcases args with _ | ⟨k0, xs⟩
    · exact .refl _ hov (fun h => by cases (hcr.mp h).2)
    · dsimp only
      rcases Bool.eq_false_or_eq_true (isError m) with hm | hm
      · rw [if_pos hm]; exact .refl _ hov (fun h => by have := (hcr.mp h).1; rw [hm] at this; cases this)
      · rw [if_neg (by rw [hm]; decide)]
        refine change_add k hov ?_ ?_
        · intro ho
          have hf : (match (generalizing := false) k0 :: xs with
            | k :: x :: xs => m = if W.view k = .other then errType else .int ((x :: xs).toFinset \ mems (W.view k)).card
            | _ => m = errArgs) := hf
          rcases xs with _ | ⟨x, xs⟩
          · rw [hf] at hm; cases hm
          · simp only [ho, if_true] at hf; rw [hf] at hm; cases hm
        · rw [hcr]; simp only [hm, true_and, List.head?_cons, Option.some.injEq]; exact eq_comm
  by_cases h2 : n = s!! "srem"
  · subst h2
    have hov : ¬ Ov (s!! "srem") args m k := fun h => absurd h.2.1 (by decide)
    have hcr : ¬ Cr (s!! "srem") args m k := by
      rintro ⟨_, ⟨h, _⟩ | ⟨h, _⟩⟩ <;> exact absurd h (by decide)
    show Shape _ _ _ (SharedSpec.World.names (match (generalizing := false) args with
      | k :: xs => if isError m then W else W.change k (remove xs (W.view k))
      | _ => W) k)
    rcases args with _ | ⟨k0, xs⟩
    · exact .refl _ hov hcr
    · dsimp only
      split
      · exact .refl _ hov hcr
      · rw [change_same (by intro h x; rw [view_of_absent h]; exact nofun)]; exact .refl _ hov hcr
  by_cases h3 : n = s!! "spop"
  · subst h3
    have hov : ¬ Ov (s!! "spop") args m k := fun h => absurd h.2.1 (by decide)
    have hcr : ¬ Cr (s!! "spop") args m k := by
      rintro ⟨_, ⟨h, _⟩ | ⟨h, _⟩⟩ <;> exact absurd h (by decide)
    show Shape _ _ _ (SharedSpec.World.names (match (generalizing := false) args with
      | k :: _ => W.change k (leave (ListSpec.items m) (W.view k))
      | _ => W) k)
    rcases args with _ | ⟨k0, xs⟩
    · exact .refl _ hov hcr
    · dsimp only
      rw [change_same (by intro h x; rw [view_of_absent h]; exact nofun)]; exact .refl _ hov hcr
  by_cases h4 : n = s!! "smove"
  · subst h4
    have hov : ¬ Ov (s!! "smove") args m k := fun h => absurd h.2.1 (by decide)
    have hcr : Cr (s!! "smove") args m k ↔ isError m = false ∧ args[1]? = some k := by
      unfold Cr; simp only [show (s!! "smove") ∉ collCreators from by decide]; simp
    have hf : (match (generalizing := false) args with
      | src :: dst :: x :: _ =>
        (W.view src = .other ∧ m = errType) ∨
        (W.view src ≠ .other ∧ x ∉ mems (W.view src) ∧ m = ListSpec.errNil) ∨
        (x ∈ mems (W.view src) ∧ W.view dst = .other ∧ m = errType) ∨
        (x ∈ mems (W.view src) ∧ W.view dst ≠ .other ∧ (W.Same src dst ∨ x ∉ mems (W.view dst)) ∧ m = .int 1) ∨
        (x ∈ mems (W.view src) ∧ x ∈ mems (W.view dst) ∧ ¬ W.Same src dst ∧ m = .int 0)
      | _ => m = errArgs) := hf
    show Shape _ _ _ (SharedSpec.World.names (match (generalizing := false) args with
      | src :: dst :: x :: _ =>
        if x ∈ mems (W.view src) then
          let W1 := W.change src (leave [x] (W.view src))
          W1.change dst (add [x] (W1.view dst))
        else W
      | _ => W) k)
    rcases args with _ | ⟨src, _ | ⟨dst, _ | ⟨x, rest⟩⟩⟩
    · exact .refl _ hov (fun h => by cases (hcr.mp h).2)
    · exact .refl _ hov (fun h => by cases (hcr.mp h).2)
    · dsimp only at hf ⊢
      exact .refl _ hov (fun h => by have := (hcr.mp h).1; rw [hf] at this; cases this)
    · dsimp only at hf ⊢
      have herr : ∀ {W'}, isError m = true → W' = W.names k → Shape (Ov (s!! "smove") (src :: dst :: x :: rest) m k) (Cr (s!! "smove") (src :: dst :: x :: rest) m k) (W.names k) W' := by
        rintro W' hm rfl
        exact .refl _ hov (fun h => by have := (hcr.mp h).1; rw [hm] at this; cases this)
      have hsame : ∀ k', (W.change src (leave [x] (W.view src))).names k' = W.names k' := fun k' =>
        change_same (by intro h x; rw [view_of_absent h]; exact nofun) k'
      generalize hW1 : W.change src (leave [x] (W.view src)) = W1 at hsame ⊢
      have hW1v : ∀ k', W1.view k' = .other ↔ W.view k' = .other := fun k' =>
        ⟨fun h => view_of_other (by rw [← hsame]; exact names_of_other h), fun h => view_of_other (by rw [hsame]; exact names_of_other h)⟩
      have hok : x ∈ mems (W.view src) → W.view dst ≠ .other → isError m = false →
          Shape (Ov (s!! "smove") (src :: dst :: x :: rest) m k) (Cr (s!! "smove") (src :: dst :: x :: rest) m k) (W.names k)
            ((if x ∈ mems (W.view src) then W1.change dst (add [x] (W1.view dst)) else W).names k) := by
        intro hx hd hm
        rw [if_pos hx, ← hsame k]
        refine change_add k hov (fun h => hd ((hW1v _).mp h)) ?_
        rw [hcr]; simp only [hm, true_and, List.getElem?_cons_succ, List.getElem?_cons_zero, Option.some.injEq]; exact eq_comm
      rcases hf with ⟨ha, rfl⟩ | ⟨_, ha, rfl⟩ | ⟨ha, hb, rfl⟩ | ⟨ha, hb, _, rfl⟩ | ⟨ha, hb, _, rfl⟩
      · exact herr rfl (by rw [if_neg]; rw [ha]; exact Finset.notMem_empty _)
      · exact herr rfl (by rw [if_neg ha])
      · refine herr rfl ?_
        rw [if_pos ha, change_same, hsame]
        intro h; rw [hsame, names_of_other hb] at h; cases h
      · exact hok ha hb rfl
      · refine hok ha ?_ rfl
        intro h; rw [h] at hb; exact absurd hb (Finset.notMem_empty _)
  by_cases h5 : n ∈ setStores
  · have hcr : ¬ Cr n args m k := by
      have : ∀ n ∈ setStores, n ∉ collCreators := by decide
      rintro ⟨_, ⟨h, _⟩ | ⟨h, _⟩⟩
      · exact h4 h
      · exact this n h5 h
    have hov : Ov n args m k ↔ isError m = false ∧ args.head? = some k := by unfold Ov; simp [h5]
    have hst : SharedSpec.step W n args m = match (generalizing := false) args with
      | [dst, src] => if isError m then W else W.name dst (W.names src)
      | dst :: ks => if isError m then W else W.create dst (SetSpec.combine (SetSpec.opOf n) (ks.map (fun k => mems (W.view k))), 0)
      | _ => W := by
      unfold SharedSpec.step
      rw [if_neg h1, if_neg h2, if_neg h3, if_neg h4, if_pos h5]
      rcases args with _ | ⟨a, _ | ⟨b, _ | ⟨c, args⟩⟩⟩ <;> rfl
    have hfit : SharedSpec.Fits W n args m = match (generalizing := false) args with
      | [_, k] => match SetSpec.trouble W.view [k] with
        | some .other => m = errType
        | some _ => m = ListSpec.errNil
        | none => m = .int (size (W.view k))
      | _ => SetSpec.Fits W.view n args m := by
      unfold SharedSpec.Fits
      rw [if_neg h4, if_pos h5]
      rcases args with _ | ⟨a, _ | ⟨b, _ | ⟨c, args⟩⟩⟩ <;> rfl
    rw [hst]
    rw [hfit] at hf
    rcases Bool.eq_false_or_eq_true (isError m) with hm | hm
    · have hno : ¬ Ov n args m k := fun h => by have := (hov.mp h).1; rw [hm] at this; cases this
      simp only [hm, if_true]
      rcases args with _ | ⟨a, _ | ⟨b, _ | ⟨c, args⟩⟩⟩ <;> exact .refl _ hno hcr
    · simp only [hm, Bool.false_eq_true, if_false]
      have hput : ∀ {dst : Str} {u : KView Nat}, args.head? = some dst → (∃ i, u = .here i) →
          Shape (Ov n args m k) (Cr n args m k) (W.names k) (if k = dst then u else W.names k) := by
        rintro dst u hd ⟨i, rfl⟩
        by_cases hk : k = dst
        · subst hk
          rw [if_pos rfl]
          have ho : Ov n args m k := hov.mpr ⟨hm, hd⟩
          exact ⟨fun _ h => absurd ho h, fun _ h => absurd ho h, fun _ _ => ⟨i, rfl⟩, fun _ => ⟨i, rfl⟩⟩
        · rw [if_neg hk]
          exact .refl _ (fun h => by have := (hov.mp h).2; rw [hd] at this; cases this; exact hk rfl) hcr
      rcases args with _ | ⟨dst, _ | ⟨src, _ | ⟨c, args⟩⟩⟩
      · exact .refl _ (fun h => by cases (hov.mp h).2) hcr
      · exact hput rfl ⟨_, rfl⟩
      · refine hput rfl ?_
        dsimp only at hf
        cases hn : W.names src with
        | absent =>
          have : SetSpec.trouble W.view [src] = some .absent := by simp [SetSpec.trouble, view_of_absent hn, size]
          rw [this] at hf; rw [hf] at hm; cases hm
        | other =>
          have : SetSpec.trouble W.view [src] = some .other := by simp [SetSpec.trouble, view_of_other hn]
          rw [this] at hf; rw [hf] at hm; cases hm
        | here i => exact ⟨i, rfl⟩
      · exact hput rfl ⟨_, rfl⟩
  · have hst : SharedSpec.step W n args m = { W with names := fun k => foreign k (W.names k) n args m } := by
      unfold SharedSpec.step
      rw [if_neg h1, if_neg h2, if_neg h3, if_neg h4, if_neg h5]
    have hcc : n ∉ collCreators := by
      have : ∀ n ∈ SetSpec.commands, n ≠ s!! "sadd" → n ∉ collCreators := by decide
      exact this n hn h1
    have hov : ¬ Ov n args m k := fun h => h5 h.2.1
    have hcr : ¬ Cr n args m k := by
      rintro ⟨_, ⟨h, _⟩ | ⟨h, _⟩⟩
      · exact h4 h
      · exact hcc h
    rw [hst]
    show Shape _ _ _ (foreign k (W.names k) n args m)
    rw [foreign_coll (by unfold collCommands; simp [hn]), if_neg hov, if_neg hcr]
    exact .refl _ hov hcr
end

/-! ### sorted sets -/

section
open ZSpec (Num ZView ZVal)

theorem change_zshape {ov cr : Prop} (g : ZVal → Option ZVal) (v : ZView) (h1 : ¬ ov) (h2 : ¬ cr) : Shape ov cr v (ZSpec.change g v) := by
  rcases v with _ | _ | (_ | z)
  · exact .refl _ h1 h2
  · exact .refl _ h1 h2
  · exact .refl _ h1 h2
  · exact ⟨nofun, nofun, fun _ _ => ⟨_, rfl⟩, fun h => absurd h h1⟩

theorem put_zshape {ov cr : Prop} {w : Str → ZView} {k0 : Str} {v : ZView} (k : Str) (h1 : ¬ ov) (h2 : cr → k = k0)
    (h : Shape ov cr (w k0) v) (e : k = k0 → True) : Shape ov cr (w k) (ZSpec.put w k0 v k) := by
  unfold ZSpec.put
  by_cases hk : k = k0
  · subst hk; rw [if_pos rfl]; exact h
  · rw [if_neg hk]; exact .refl _ h1 (fun h => hk (h2 h))

theorem added_zshape {N : Num} {f : ZSpec.Flags} {es : List ZSpec.Entry} {ov cr : Prop} {w : Str → ZView} {k0 k : Str} {m : Reply}
    {P : ZVal → Prop} (h1 : ¬ ov) (hc : cr ↔ isError m = false ∧ k = k0) (hf : ZSpec.onKey (w k0) m P)
    (hP : ∀ z, P z → isError m = false) :
    Shape ov cr (w k) (ZSpec.put w k0 (ZSpec.added N f es (w k0)) k) := by
  unfold ZSpec.put
  by_cases hk : k = k0
  · subst hk
    rw [if_pos rfl]
    generalize hv : w k = v at hf ⊢
    cases v with
    | absent => exact ⟨fun _ _ => .inr ⟨hc.mpr ⟨hP _ hf, rfl⟩, _, rfl⟩, nofun, nofun, fun h => absurd h h1⟩
    | other => exact ⟨nofun, fun _ _ => rfl, nofun, fun h => absurd h h1⟩
    | here z => exact ⟨nofun, nofun, fun _ _ => ⟨_, rfl⟩, fun h => absurd h h1⟩
  · rw [if_neg hk]; exact .refl _ h1 (fun h => hk (hc.mp h).2)

theorem z_shape {N : Num} {w : Str → ZView} {n : Str} (hn : n ∈ ZSpec.commands) {args : List Str} {m : Reply}
    (hf : ZSpec.Fits N w n args m) (k : Str) :
    Shape (Ov n args m k) (Cr n args m k) (w k) (ZSpec.step N w n args m k) := by
  have hov : ∀ {args}, ¬ Ov n args m k := by
    rintro args ⟨_, h, _⟩
    have : ∀ n ∈ ZSpec.commands, n ∉ setStores := by decide
    exact this n hn h
  have hcr : ∀ {args}, Cr n args m k ↔ isError m = false ∧ (n = s!! "zadd" ∨ n = s!! "zincr") ∧ args.head? = some k := by
    have h1 : ∀ n ∈ ZSpec.commands, n ≠ s!! "smove" ∧ (n ∈ collCreators ↔ n = s!! "zadd" ∨ n = s!! "zincr") := by decide
    intro args
    unfold Cr
    simp [h1 n hn]
  have herr : ∀ {args}, isError m = true → ¬ Cr n args m k := fun hm h => by
    have := (hcr.mp h).1; rw [hm] at this; cases this
  by_cases h1 : n = s!! "zadd"
  · subst h1
    rcases args with _ | ⟨k0, _ | ⟨a, _ | ⟨b, rest⟩⟩⟩
    · exact .refl _ hov (herr (by rw [show m = errArgs from hf]; rfl))
    · exact .refl _ hov (herr (by rw [show m = errArgs from hf]; rfl))
    · exact .refl _ hov (herr (by rw [show m = errArgs from hf]; rfl))
    · have hst : ZSpec.step N w (s!! "zadd") (k0 :: a :: b :: rest) m = match ZSpec.addArgs N (a :: b :: rest) {} with
        | none => w
        | some (es, f) => ZSpec.put w k0 (ZSpec.added N f es (w k0)) := rfl
      have hfit : ZSpec.Fits N w (s!! "zadd") (k0 :: a :: b :: rest) m = match ZSpec.addArgs N (a :: b :: rest) {} with
        | none => m = ListSpec.errRange
        | some (es, f) => ZSpec.onKey (w k0) m (fun z => ZSpec.Counted (ZSpec.addAll N f es z) m) := rfl
      rw [hst]
      rw [hfit] at hf
      cases hp : ZSpec.addArgs N (a :: b :: rest) {} with
      | none =>
        rw [hp] at hf
        exact .refl _ hov (herr (by rw [show m = ListSpec.errRange from hf]; rfl))
      | some r =>
        rw [hp] at hf
        refine added_zshape hov ?_ hf (fun z h => h.1)
        rw [hcr]
        exact ⟨fun ⟨a, _, c⟩ => ⟨a, (Option.some.inj c).symm⟩, fun ⟨a, c⟩ => ⟨a, by simp, by rw [c]; rfl⟩⟩
  by_cases h2 : n = s!! "zincr"
  · subst h2
    rcases args with _ | ⟨k0, _ | ⟨d, _ | ⟨x, rest⟩⟩⟩
    · exact .refl _ hov (herr (by rw [show m = errArgs from hf]; rfl))
    · exact .refl _ hov (herr (by rw [show m = errArgs from hf]; rfl))
    · exact .refl _ hov (herr (by rw [show m = errArgs from hf]; rfl))
    · have hst : ZSpec.step N w (s!! "zincr") (k0 :: d :: x :: rest) m = match N.parse d with
        | none => w
        | some sc => ZSpec.put w k0 (ZSpec.added N { incr := true } [(sc, x)] (w k0)) := rfl
      have hfit : ZSpec.Fits N w (s!! "zincr") (k0 :: d :: x :: rest) m = match N.parse d with
        | none => m = ListSpec.errRange
        | some sc => ZSpec.onKey (w k0) m (ZSpec.IncrFits N sc x m) := rfl
      rw [hst]
      rw [hfit] at hf
      cases hp : N.parse d with
      | none =>
        rw [hp] at hf
        exact .refl _ hov (herr (by rw [show m = ListSpec.errRange from hf]; rfl))
      | some r =>
        rw [hp] at hf
        refine added_zshape hov ?_ hf (fun z h => h.1)
        rw [hcr]
        exact ⟨fun ⟨a, _, c⟩ => ⟨a, (Option.some.inj c).symm⟩, fun ⟨a, c⟩ => ⟨a, by simp, by rw [c]; rfl⟩⟩
  have hno : ∀ {args}, ¬ Cr n args m k := fun h => (hcr.mp h).2.1.elim h1 h2
  have hput : ∀ (g : ZVal → Option ZVal) (k0 : Str), Shape (Ov n args m k) (Cr n args m k) (w k) (ZSpec.put w k0 (ZSpec.change g (w k0)) k) :=
    fun g k0 => put_zshape k hov (fun h => absurd h hno) (change_zshape g _ hov hno) (fun _ => trivial)
  have hrefl : Shape (Ov n args m k) (Cr n args m k) (w k) (w k) := .refl _ hov hno
  by_cases h3 : n ∈ [s!! "zrem", s!! "zpopmin", s!! "zpopmax"]
  · clear hf hov hcr herr hno
    unfold ZSpec.step
    rw [if_neg h1, if_neg h2]
    repeat' split
    all_goals first | exact hrefl | exact hput _ _ | (generalize ZSpec.popCount _ = o; cases o <;> first | exact hrefl | exact hput _ _) | simp_all
  · have hst : ZSpec.step N w n args m = fun k => foreign k (w k) n args m := by
      simp only [List.mem_cons, List.not_mem_nil, or_false, not_or] at h3
      unfold ZSpec.step
      rw [if_neg h1, if_neg h2, if_neg h3.1, if_neg h3.2.1, if_neg h3.2.2]
    rw [hst]
    show Shape _ _ _ (foreign k (w k) n args m)
    rw [foreign_coll (by unfold collCommands; simp [hn]), if_neg hov, if_neg hno]
    exact hrefl
end

/-! ## from the view of a family to what a key holds -/

/-- what a key holds, from the view of its own family; `h` was held before -/
def lift {α : Type} (mk : α → Holding) (h : Holding) : KView α → Holding
  | .absent => .absent
  | .other => h
  | .here x => mk x

/-- one of the three families of collections -/
structure Family (α : Type) where
  fam : Fam
  make : α → Holding
  proj : Holding → KView α
  mk_fam : ∀ x, (make x).isFam fam
  proj_mk : ∀ x, proj (make x) = .here x
  proj_absent : ∀ h, proj h = .absent ↔ h = .absent
  proj_here : ∀ h x, proj h = .here x → h.isFam fam

def rows : Family RowSpec.Row := {
  fam := .list
  make := .list
  proj := fun h => kv h.row
  mk_fam := fun _ => trivial
  proj_mk := fun _ => rfl
  proj_absent := fun h => by cases h <;> simp [Holding.row, kv]
  proj_here := fun h x hx => by cases h <;> simp [Holding.row, kv] at hx; trivial }

def setNames : Family Nat := {
  fam := .set
  make := .set
  proj := Holding.setName
  mk_fam := fun _ => trivial
  proj_mk := fun _ => rfl
  proj_absent := fun h => by cases h <;> simp [Holding.setName]
  proj_here := fun h x hx => by cases h <;> simp [Holding.setName] at hx; trivial }

def zsets : Family (Option ZSpec.ZVal) := {
  fam := .sorted
  make := .sorted
  proj := Holding.zset
  mk_fam := fun _ => trivial
  proj_mk := fun _ => rfl
  proj_absent := fun h => by cases h <;> simp [Holding.zset]
  proj_here := fun h x hx => by cases h <;> simp [Holding.zset] at hx; trivial }

theorem Family.chg {α : Type} (G : Family α) {ov cr : Prop} {h : Holding} {v' : KView α} (hs : Shape ov cr (G.proj h) v') :
    Chg G.fam ov cr h (lift G.make h v') := by
  by_cases ho : ov
  · obtain ⟨x, rfl⟩ := hs.ov ho
    exact .inl ⟨ho, G.mk_fam x⟩
  · cases hv : G.proj h with
    | absent =>
      have hh := (G.proj_absent h).mp hv
      rcases hs.absent hv ho with ⟨hc, rfl⟩ | ⟨hc, x, rfl⟩
      · exact .inr (.inr ⟨ho, fun h => absurd h hc, .inl hh.symm⟩)
      · exact .inr (.inl ⟨ho, hc, hh, G.mk_fam x⟩)
    | other =>
      rw [hs.other hv ho]
      refine .inr (.inr ⟨ho, fun _ hh => ?_, .inl rfl⟩)
      rw [(G.proj_absent h).mpr hh] at hv; cases hv
    | here x =>
      obtain ⟨x', rfl⟩ := hs.here x hv
      refine .inr (.inr ⟨ho, fun _ hh => ?_, .inr ⟨G.proj_here h x hv, G.mk_fam x'⟩⟩)
      rw [(G.proj_absent h).mpr hh] at hv; cases hv

theorem Family.own {α : Type} (G : Family α) {ov cr : Prop} {h : Holding} {v' : KView α} (hs : Shape ov cr (G.proj h) v') :
    G.proj (lift G.make h v') = v' := by
  cases v' with
  | absent => exact (G.proj_absent _).mpr rfl
  | other => exact hs.not_other rfl
  | here x => exact G.proj_mk x

/-- what the families see of the world after a request -/
structure Agrees (L : Lib) (W : World) (n : Str) (args : List Str) (m : Reply) : Prop where
  row : ∀ k, ((step L W n args m).holds k).row = RowSpec.step k (W.holds k).row n args m
  shared : (step L W n args m).shared = SharedSpec.step W.shared n args m
  zset : (fun k => ((step L W n args m).holds k).zset) = ZSpec.step L.num (fun k => (W.holds k).zset) n args m
  string : ∀ k v', StrSpec.Next k (W.holds k).string n args m v' → v' = ((step L W n args m).holds k).string

theorem shared_foreign {U : SharedSpec.World} {n : Str} (hn : n ∉ SetSpec.commands) (args : List Str) (m : Reply) :
    SharedSpec.step U n args m = { U with names := fun k => foreign k (U.names k) n args m } := by
  have h : ∀ n', n' ∈ SetSpec.commands → n ≠ n' := fun n' h e => hn (e ▸ h)
  have h5 : n ∉ setStores := fun h => by
    have : ∀ n ∈ setStores, n ∈ SetSpec.commands := by decide
    exact hn (this n h)
  unfold SharedSpec.step
  rw [if_neg (h _ (by decide)), if_neg (h _ (by decide)), if_neg (h _ (by decide)), if_neg (h _ (by decide)), if_neg h5]

theorem zset_foreign {N : ZSpec.Num} {w : Str → ZSpec.ZView} {n : Str} (hn : n ∉ ZSpec.commands) (args : List Str) (m : Reply) :
    ZSpec.step N w n args m = fun k => foreign k (w k) n args m := by
  have h : ∀ n', n' ∈ ZSpec.commands → n ≠ n' := fun n' h e => hn (e ▸ h)
  unfold ZSpec.step
  rw [if_neg (h _ (by decide)), if_neg (h _ (by decide)), if_neg (h _ (by decide)), if_neg (h _ (by decide)), if_neg (h _ (by decide))]

theorem agrees_list {L : Lib} {W : World} {n : Str} {args : List Str} {m : Reply} (hn : n ∈ RowSpec.commands)
    (hf : RowSpec.answer (fun k => (W.holds k).row) n args = .reply m) : Agrees L W n args m := by
  have h1 : n ∉ SetSpec.commands := by
    have : ∀ n ∈ RowSpec.commands, n ∉ SetSpec.commands := by decide
    exact this n hn
  have h2 : n ∉ ZSpec.commands := by
    have : ∀ n ∈ RowSpec.commands, n ∉ ZSpec.commands := by decide
    exact this n hn
  have hcl : n ∈ collCommands := by unfold collCommands; simp [hn]
  have hs := fun k => row_shape hn hf k
  have hst : ∀ k, (step L W n args m).holds k = lift .list (W.holds k) (kv (RowSpec.step k (W.holds k).row n args m)) := by
    intro k
    unfold step
    rw [if_pos hn]
    show (match RowSpec.step k (W.holds k).row n args m with
        | .absent => Holding.absent
        | .other => W.holds k
        | .row c => .list c) = _
    generalize RowSpec.step k (W.holds k).row n args m = v
    cases v <;> rfl
  have hsn : (step L W n args m).sets = W.sets ∧ (step L W n args m).next = W.next := by
    unfold step; rw [if_pos hn]; exact ⟨rfl, rfl⟩
  have hc : ∀ k, Chg .list (Ov n args m k) (Cr n args m k) (W.holds k) ((step L W n args m).holds k) := fun k => by
    rw [hst k]; exact rows.chg (hs k)
  refine ⟨fun k => ?_, ?_, ?_, fun k v' h => ?_⟩
  · rw [hst k]; exact kv_inj (rows.own (hs k))
  · rw [shared_foreign h1]
    show SharedSpec.World.mk _ _ _ = _
    rw [hsn.1, hsn.2]
    congr 1
    funext k
    rw [(hc k).setName nofun, foreign_coll hcl]
    rfl
  · rw [zset_foreign h2]
    funext k
    rw [(hc k).zset nofun, foreign_coll hcl]
  · rw [next_coll hcl h, (hc k).string]

theorem agrees_set {L : Lib} {W : World} {n : Str} {args : List Str} {m : Reply} (hn : n ∈ SetSpec.commands)
    (hf : SharedSpec.Fits W.shared n args m) : Agrees L W n args m := by
  have h1 : n ∉ RowSpec.commands := by
    have : ∀ n ∈ SetSpec.commands, n ∉ RowSpec.commands := by decide
    exact this n hn
  have h2 : n ∉ ZSpec.commands := by
    have : ∀ n ∈ SetSpec.commands, n ∉ ZSpec.commands := by decide
    exact this n hn
  have hcl : n ∈ collCommands := by unfold collCommands; simp [hn]
  have hs := fun k => set_shape hn hf k
  have hst : ∀ k, (step L W n args m).holds k = lift .set (W.holds k) ((SharedSpec.step W.shared n args m).names k) := by
    intro k
    unfold step
    rw [if_neg h1, if_pos hn]
    show (match (SharedSpec.step W.shared n args m).names k with
        | .absent => Holding.absent
        | .other => W.holds k
        | .here i => .set i) = _
    generalize (SharedSpec.step W.shared n args m).names k = v
    cases v <;> rfl
  have hsn : (step L W n args m).sets = (SharedSpec.step W.shared n args m).sets ∧ (step L W n args m).next = (SharedSpec.step W.shared n args m).next := by
    unfold step; rw [if_neg h1, if_pos hn]; exact ⟨rfl, rfl⟩
  have hc : ∀ k, Chg .set (Ov n args m k) (Cr n args m k) (W.holds k) ((step L W n args m).holds k) := fun k => by
    rw [hst k]; exact setNames.chg (hs k)
  refine ⟨fun k => ?_, ?_, ?_, fun k v' h => ?_⟩
  · rw [(hc k).row nofun, row_coll (by simp [hn])]
  · show SharedSpec.World.mk _ _ _ = _
    rw [hsn.1, hsn.2]
    congr 1
    funext k
    rw [hst k]; exact setNames.own (hs k)
  · rw [zset_foreign h2]
    funext k
    rw [(hc k).zset nofun, foreign_coll hcl]
  · rw [next_coll hcl h, (hc k).string]

theorem agrees_sorted {L : Lib} {W : World} {n : Str} {args : List Str} {m : Reply} (hn : n ∈ ZSpec.commands)
    (hf : ZSpec.Fits L.num (fun k => (W.holds k).zset) n args m) : Agrees L W n args m := by
  have h1 : n ∉ RowSpec.commands := by
    have : ∀ n ∈ ZSpec.commands, n ∉ RowSpec.commands := by decide
    exact this n hn
  have h2 : n ∉ SetSpec.commands := by
    have : ∀ n ∈ ZSpec.commands, n ∉ SetSpec.commands := by decide
    exact this n hn
  have hcl : n ∈ collCommands := by unfold collCommands; simp [hn]
  have hs := fun k => z_shape hn hf k
  have hst : ∀ k, (step L W n args m).holds k = lift .sorted (W.holds k) (ZSpec.step L.num (fun k => (W.holds k).zset) n args m k) := by
    intro k
    unfold step
    rw [if_neg h1, if_neg h2, if_pos hn]
    show (match ZSpec.step L.num (fun k => (W.holds k).zset) n args m k with
        | .absent => Holding.absent
        | .other => W.holds k
        | .here i => .sorted i) = _
    generalize ZSpec.step L.num (fun k => (W.holds k).zset) n args m k = v
    cases v <;> rfl
  have hsn : (step L W n args m).sets = W.sets ∧ (step L W n args m).next = W.next := by
    unfold step; rw [if_neg h1, if_neg h2, if_pos hn]; exact ⟨rfl, rfl⟩
  have hc : ∀ k, Chg .sorted (Ov n args m k) (Cr n args m k) (W.holds k) ((step L W n args m).holds k) := fun k => by
    rw [hst k]; exact zsets.chg (hs k)
  refine ⟨fun k => ?_, ?_, ?_, fun k v' h => ?_⟩
  · rw [(hc k).row nofun, row_coll (by simp [hn])]
  · rw [shared_foreign h2]
    show SharedSpec.World.mk _ _ _ = _
    rw [hsn.1, hsn.2]
    congr 1
    funext k
    rw [(hc k).setName nofun, foreign_coll hcl]
    rfl
  · funext k
    rw [hst k]; exact zsets.own (hs k)
  · rw [next_coll hcl h, (hc k).string]

/-! ## the other commands -/

theorem putAll_sets (W : World) (args : List Str) : (W.putAll args).sets = W.sets ∧ (W.putAll args).next = W.next := by
  induction args using List.twoStepInduction generalizing W with
  | nil => exact ⟨rfl, rfl⟩
  | singleton a => exact ⟨rfl, rfl⟩
  | cons_cons k v rest ih _ => exact ih _

theorem putAll_string (W : World) (args : List Str) (k : Str) :
    ((W.putAll args).holds k).string = StrSpec.msetView k args (W.holds k).string := by
  induction args using List.twoStepInduction generalizing W with
  | nil => rfl
  | singleton a => rfl
  | cons_cons k' v rest ih _ =>
    show (((W.put k' (.text v)).putAll rest).holds k).string = StrSpec.msetView k rest (if k' = k then .str v else (W.holds k).string)
    rw [ih]
    congr 1
    show (if k = k' then Holding.text v else W.holds k).string = _
    by_cases h : k = k'
    · rw [if_pos h, if_pos h.symm]; rfl
    · rw [if_neg h, if_neg (fun e => h e.symm)]

theorem putAll_holds (W : World) (args : List Str) (k : Str) :
    (k ∈ ListSpec.msetKeys args ∧ ∃ v, (W.putAll args).holds k = .text v) ∨
    (k ∉ ListSpec.msetKeys args ∧ (W.putAll args).holds k = W.holds k) := by
  induction args using List.twoStepInduction generalizing W with
  | nil => exact .inr ⟨by simp [ListSpec.msetKeys], rfl⟩
  | singleton a => exact .inr ⟨by simp [ListSpec.msetKeys], rfl⟩
  | cons_cons k' v rest ih _ =>
    show (k ∈ k' :: ListSpec.msetKeys rest ∧ _) ∨ (k ∉ k' :: ListSpec.msetKeys rest ∧ _)
    rcases ih (W.put k' (.text v)) with ⟨h1, h2⟩ | ⟨h1, h2⟩
    · exact .inl ⟨List.mem_cons_of_mem _ h1, h2⟩
    · have h2' : (W.putAll (k' :: v :: rest)).holds k = if k = k' then .text v else W.holds k := h2
      by_cases h : k = k'
      · rw [if_pos h] at h2'
        exact .inl ⟨by simp [h], v, h2'⟩
      · rw [if_neg h] at h2'
        exact .inr ⟨by simp [h, h1], h2'⟩

/-- what a string or key command may do to what `k` holds -/
inductive Edit (n : Str) (args : List Str) (m : Reply) (k : Str) (h h' : Holding) : Prop
  | same (e : h' = h) (hv : ∀ v', StrSpec.Next k h.string n args m v' → v' = h.string)
      (hr : ∀ {α : Type} (v : KView α), foreign k v n args m = v) (hl : ∀ v, RowSpec.step k v n args m = v)
  | text (t : Str) (e : h' = .text t) (hv : ∀ v', StrSpec.Next k h.string n args m v' → v' = .str t)
      (hr : ∀ {α : Type} (v : KView α), foreign k v n args m = .other) (hl : ∀ v, RowSpec.step k v n args m = .other)
  | gone (e : h' = .absent) (hv : ∀ v', StrSpec.Next k h.string n args m v' → v' = .absent)
      (hr : ∀ {α : Type} (v : KView α), foreign k v n args m = .absent) (hl : ∀ v, RowSpec.step k v n args m = .absent)

theorem Next_ok {k : Str} {v v' : StrSpec.View} {n : Str} {args : List Str} {m : Reply} (hm : isError m = false)
    (h : StrSpec.Next k v n args m v') :
    if n = s!! "mset" then v' = StrSpec.msetView k args v
    else if n = s!! "smove" then v' = if args.drop 1 |>.head? |>.any (· = k) then StrSpec.create v else v
    else if args.head? ≠ some k then v' = v
    else if n = s!! "set" then ∃ a ∈ args[1]?, v' = .str a
    else if n = s!! "append" then ∃ a ∈ args[1]?, v' = StrSpec.appendView a v
    else if n ∈ counters then ∃ i, m = .int i ∧ v' = .str (decimal i)
    else if n = s!! "del" then v' = .absent
    else if n ∈ StrSpec.creators then v' = StrSpec.create v
    else if n ∈ setStores then v' = .coll
    else v' = v := by
  cases m <;> first | exact h | cases hm

theorem not_coll {n : Str} (h : n ∉ collCommands) : n ≠ s!! "smove" ∧ n ∉ collCreators ∧ n ∉ StrSpec.creators ∧ n ∉ ListSpec.otherCreators ∧
    n ∉ setStores ∧ n ∉ ListSpec.listWriters := by
  have a1 : s!! "smove" ∈ collCommands := by decide
  have a2 : ∀ n ∈ collCreators, n ∈ collCommands := by decide
  have a3 : ∀ n ∈ StrSpec.creators, n ∈ collCommands := by decide
  have a4 : ∀ n ∈ ListSpec.otherCreators, n ∈ collCommands := by decide
  have a5 : ∀ n ∈ setStores, n ∈ collCommands := by decide
  have a6 : ∀ n ∈ ListSpec.listWriters, n ∈ collCommands := by decide
  exact ⟨fun e => h (e ▸ a1), fun e => h (a2 _ e), fun e => h (a3 _ e), fun e => h (a4 _ e), fun e => h (a5 _ e), fun e => h (a6 _ e)⟩

theorem edits {L : Lib} {W : World} {n : Str} {args : List Str} {m : Reply} (hn : n ∉ collCommands)
    (h1 : isError m = false → n = s!! "set" ∨ n = s!! "append" → 2 ≤ args.length)
    (h2 : isError m = false → n = s!! "append" → ∀ k ∈ args.head?, (W.holds k).string ≠ .coll)
    (h3 : isError m = false → n ∈ counters → ∃ i, m = .int i) (k : Str) :
    Edit n args m k (W.holds k) ((step L W n args m).holds k) := by
  obtain ⟨c1, c2, c3, c4, c5, c6⟩ := not_coll hn
  have hst : step L W n args m = if isError m then W else if n = s!! "mset" then W.putAll args else
    match (generalizing := false) args with
    | [] => W
    | k :: rest => W.write n k rest m := by
    have hnc : n ∉ RowSpec.commands ∧ n ∉ SetSpec.commands ∧ n ∉ ZSpec.commands := by
      unfold collCommands at hn
      simp only [List.mem_append, not_or] at hn
      exact ⟨hn.1.1, hn.1.2, hn.2⟩
    unfold step
    rw [if_neg hnc.1, if_neg hnc.2.1, if_neg hnc.2.2]
    rfl
  rw [hst]
  rcases Bool.eq_false_or_eq_true (isError m) with hm | hm
  · rw [if_pos hm]
    refine .same rfl (fun v' h => ?_) (fun v => ?_) (fun v => ?_)
    · cases m <;> first | exact h | cases hm
    · unfold foreign; rw [if_pos hm]
    · unfold RowSpec.step; rw [if_pos hm]
  rw [if_neg (by rw [hm]; decide)]
  have hnf : ¬ (isError m = true) := by rw [hm]; decide
  by_cases hms : n = s!! "mset"
  · rw [if_pos hms]
    have hv : ∀ v', StrSpec.Next k (W.holds k).string n args m v' → v' = ((W.putAll args).holds k).string := fun v' h => by
      have := Next_ok hm h
      rw [if_pos hms] at this
      rw [this, putAll_string]
    rcases putAll_holds W args k with ⟨ha, t, hb⟩ | ⟨ha, hb⟩
    · refine .text t hb (fun v' h => by rw [hv v' h, hb]; rfl) (fun v => ?_) (fun v => ?_)
      · unfold foreign; rw [if_neg hnf, if_pos hms, if_pos ha]
      · unfold RowSpec.step; rw [if_neg hnf, if_pos hms, if_pos ha]
    · refine .same hb (fun v' h => by rw [hv v' h, hb]) (fun v => ?_) (fun v => ?_)
      · unfold foreign; rw [if_neg hnf, if_pos hms, if_neg ha]
      · unfold RowSpec.step; rw [if_neg hnf, if_pos hms, if_neg ha]
  rw [if_neg hms]
  have elsewhere : ∀ h', args.head? ≠ some k → h' = W.holds k → Edit n args m k (W.holds k) h' := by
    rintro h' hk rfl
    refine .same rfl (fun v' h => ?_) (fun v => ?_) (fun v => ?_)
    · have := Next_ok hm h
      rw [if_neg hms, if_neg c1, if_pos hk] at this
      exact this
    · unfold foreign; rw [if_neg hnf, if_neg hms, if_neg c1, if_pos hk]
    · unfold RowSpec.step; rw [if_neg hnf, if_neg hms, if_neg c1, if_pos hk]
  rcases args with _ | ⟨k0, rest⟩
  · exact elsewhere _ (by simp) rfl
  have hput : ∀ v : Holding, k ≠ k0 → (W.put k0 v).holds k = W.holds k := fun v h => if_neg h
  have hwrite : k ≠ k0 → (W.write n k0 rest m).holds k = W.holds k := by
    intro h
    unfold World.write
    repeat' split
    all_goals first | rfl | exact hput _ h
  by_cases hk : k = k0
  swap
  · exact elsewhere _ (by simpa using fun e => hk e.symm) (hwrite hk)
  subst hk
  have hhd : ¬ ((k :: rest).head? ≠ some k) := by simp
  have fsw : n ∈ ListSpec.stringWriters → ∀ {α : Type} (v : KView α), foreign k v n (k :: rest) m = .other := fun h α v => by
    unfold foreign; rw [if_neg hnf, if_neg hms, if_neg c1, if_neg hhd, if_pos h]
  have rsw : n ∈ ListSpec.stringWriters → ∀ v, RowSpec.step k v n (k :: rest) m = .other := fun h v => by
    unfold RowSpec.step; rw [if_neg hnf, if_neg hms, if_neg c1, if_neg hhd, if_pos h]
  have hsame : ∀ v : Holding, (W.put k v).holds k = v := fun v => if_pos rfl
  show Edit _ _ _ _ _ ((W.write n k rest m).holds k)
  by_cases hd : n = s!! "del"
  · have hns : n ∉ ListSpec.stringWriters := by rw [hd]; decide
    have n1 : n ≠ s!! "set" := by rw [hd]; decide
    have n2 : n ≠ s!! "append" := by rw [hd]; decide
    have n3 : n ∉ counters := by rw [hd]; decide
    refine .gone (by unfold World.write; rw [if_pos hd]; exact hsame _) (fun v' h => ?_) (fun v => ?_) (fun v => ?_)
    · have := Next_ok hm h
      rw [if_neg hms, if_neg c1, if_neg hhd, if_neg n1, if_neg n2, if_neg n3, if_pos hd] at this
      exact this
    · unfold foreign; rw [if_neg hnf, if_neg hms, if_neg c1, if_neg hhd, if_neg hns, if_pos hd]
    · unfold RowSpec.step; rw [if_neg hnf, if_neg hms, if_neg c1, if_neg hhd, if_neg hns, if_pos hd]
  by_cases hs : n = s!! "set"
  · have hsw : n ∈ ListSpec.stringWriters := by rw [hs]; decide
    refine .text (rest.headD []) (by unfold World.write; rw [if_neg hd, if_pos hs]; exact hsame _) (fun v' h => ?_) (fsw hsw) (rsw hsw)
    have := Next_ok hm h
    rw [if_neg hms, if_neg c1, if_neg hhd, if_pos hs] at this
    obtain ⟨a, ha, rfl⟩ := this
    rcases rest with _ | ⟨b, rest⟩
    · cases ha
    · cases ha; rfl
  by_cases hap : n = s!! "append"
  · have hsw : n ∈ ListSpec.stringWriters := by rw [hap]; decide
    refine .text ((W.holds k).asText ++ rest.headD []) (by unfold World.write; rw [if_neg hd, if_neg hs, if_pos hap]; exact hsame _) (fun v' h => ?_) (fsw hsw) (rsw hsw)
    have := Next_ok hm h
    rw [if_neg hms, if_neg c1, if_neg hhd, if_neg hs, if_pos hap] at this
    obtain ⟨a, ha, rfl⟩ := this
    have hc := h2 hm hap k rfl
    rcases rest with _ | ⟨b, rest⟩
    · cases ha
    · cases ha
      cases hh : W.holds k with
      | absent => rfl
      | text t => rfl
      | list c => rw [hh] at hc; exact absurd rfl hc
      | set c => rw [hh] at hc; exact absurd rfl hc
      | sorted c => rw [hh] at hc; exact absurd rfl hc
  by_cases hct : n ∈ counters
  · have hsw : n ∈ ListSpec.stringWriters := by
      have : ∀ n ∈ counters, n ∈ ListSpec.stringWriters := by decide
      exact this n hct
    obtain ⟨i, hi⟩ := h3 hm hct
    refine .text (decimal i) ?_ (fun v' h => ?_) (fsw hsw) (rsw hsw)
    · unfold World.write; rw [if_neg hd, if_neg hs, if_neg hap, if_pos hct, hi]; exact hsame _
    · have := Next_ok hm h
      rw [if_neg hms, if_neg c1, if_neg hhd, if_neg hs, if_neg hap, if_pos hct] at this
      obtain ⟨j, hj, rfl⟩ := this
      rw [hi] at hj
      cases hj; rfl
  have hns : n ∉ ListSpec.stringWriters := by
    unfold ListSpec.stringWriters
    simp only [List.mem_cons, not_or]
    exact ⟨hs, hap, hct⟩
  refine .same (by unfold World.write; rw [if_neg hd, if_neg hs, if_neg hap, if_neg hct]) (fun v' h => ?_) (fun v => ?_) (fun v => ?_)
  · have := Next_ok hm h
    rw [if_neg hms, if_neg c1, if_neg hhd, if_neg hs, if_neg hap, if_neg hct, if_neg hd, if_neg c3, if_neg c5] at this
    exact this
  · unfold foreign; rw [if_neg hnf, if_neg hms, if_neg c1, if_neg hhd, if_neg hns, if_neg hd, if_neg c2, if_neg c5]
  · unfold RowSpec.step; rw [if_neg hnf, if_neg hms, if_neg c1, if_neg hhd, if_neg hns, if_neg hd, if_neg c4, if_neg c5, if_neg c6]

theorem agrees_basic {L : Lib} {W : World} {n : Str} {args : List Str} {m : Reply} (hn : n ∉ collCommands)
    (h1 : isError m = false → n = s!! "set" ∨ n = s!! "append" → 2 ≤ args.length)
    (h2 : isError m = false → n = s!! "append" → ∀ k ∈ args.head?, (W.holds k).string ≠ .coll)
    (h3 : isError m = false → n ∈ counters → ∃ i, m = .int i) : Agrees L W n args m := by
  have he := edits (L := L) hn h1 h2 h3
  have hnc : n ∉ RowSpec.commands ∧ n ∉ SetSpec.commands ∧ n ∉ ZSpec.commands := by
    unfold collCommands at hn
    simp only [List.mem_append, not_or] at hn
    exact ⟨hn.1.1, hn.1.2, hn.2⟩
  have hsn : (step L W n args m).sets = W.sets ∧ (step L W n args m).next = W.next := by
    unfold step
    rw [if_neg hnc.1, if_neg hnc.2.1, if_neg hnc.2.2]
    split
    · exact ⟨rfl, rfl⟩
    · split
      · exact putAll_sets W args
      · split
        · exact ⟨rfl, rfl⟩
        · unfold World.write
          repeat' split
          all_goals exact ⟨rfl, rfl⟩
  refine ⟨fun k => ?_, ?_, ?_, fun k v' h => ?_⟩
  · rcases he k with ⟨e, _, _, hl⟩ | ⟨t, e, _, _, hl⟩ | ⟨e, _, _, hl⟩ <;> rw [e, hl] <;> rfl
  · rw [shared_foreign hnc.2.1]
    show SharedSpec.World.mk _ _ _ = _
    rw [hsn.1, hsn.2]
    congr 1
    funext k
    rcases he k with ⟨e, _, hr, _⟩ | ⟨t, e, _, hr, _⟩ | ⟨e, _, hr, _⟩ <;> rw [e, hr] <;> rfl
  · rw [zset_foreign hnc.2.2]
    funext k
    rcases he k with ⟨e, _, hr, _⟩ | ⟨t, e, _, hr, _⟩ | ⟨e, _, hr, _⟩ <;> rw [e, hr] <;> rfl
  · rcases he k with ⟨e, hv, _, _⟩ | ⟨t, e, hv, _, _⟩ | ⟨e, hv, _, _⟩ <;> rw [e, hv v' h] <;> rfl

theorem Outcome.reply_inj {m m' : Reply} (h : Outcome.reply m = .reply m') : m = m' := by cases h; rfl

/-- every family sees of the world after a request what its own specification says -/
theorem agrees {L : Lib} {tall : Prop} {W : World} {name : Str} {args : List Str} {m : Reply} (hf : Fits L tall W (name :: args) (.reply m)) :
    Agrees L W (lower name) args m := by
  unfold Fits at hf
  dsimp only at hf
  generalize lower name = n at hf ⊢
  by_cases c1 : n ∈ RowSpec.commands
  · rw [if_pos c1] at hf
    refine agrees_list c1 ?_
    generalize RowSpec.answer (fun k => (W.holds k).row) n args = o at hf ⊢
    cases o with
    | reply m' => rw [Outcome.reply_inj hf]
    | crash => cases hf
  rw [if_neg c1] at hf
  by_cases c2 : n ∈ SetSpec.commands
  · rw [if_pos c2] at hf
    obtain ⟨m', e, hf⟩ := hf
    cases e
    exact agrees_set c2 hf
  rw [if_neg c2] at hf
  by_cases c3 : n ∈ ZSpec.commands
  · rw [if_pos c3] at hf
    exact agrees_sorted c3 hf
  rw [if_neg c3] at hf
  have hn : n ∉ collCommands := by
    unfold collCommands
    simp only [List.mem_append, not_or]
    exact ⟨⟨c1, c2⟩, c3⟩
  by_cases c4 : n ∈ HashSpec.commands
  · have : ∀ n ∈ HashSpec.commands, ¬ (n = s!! "set" ∨ n = s!! "append") ∧ n ≠ s!! "append" ∧ n ∉ counters := by decide
    obtain ⟨h1, h2, h3⟩ := this n c4
    exact agrees_basic hn (fun _ h => absurd h h1) (fun _ h => absurd h h2) (fun _ h => absurd h h3)
  rw [if_neg c4] at hf
  by_cases c5 : n ∈ basicCommands
  · rw [if_pos c5] at hf
    refine agrees_basic hn ?_ ?_ ?_
    · rintro hm (rfl | rfl)
      · rcases args with _ | ⟨k, _ | ⟨v, rest⟩⟩
        · have : Outcome.reply m = .reply errArgs := hf
          cases this; cases hm
        · have : Outcome.reply m = .reply errArgs := hf
          cases this; cases hm
        · simp
      · rcases args with _ | ⟨k, _ | ⟨v, rest⟩⟩
        · have : Outcome.reply m = .reply errArgs := hf
          cases this; cases hm
        · have : Outcome.reply m = .reply errArgs := hf
          cases this; cases hm
        · simp
    · rintro hm rfl k hk hc
      rcases args with _ | ⟨k, rest⟩
      · cases hk
      · cases hk
        have : Outcome.reply m = .reply (if rest = [] then errArgs else if (W.holds k).string = .coll then errType
          else .int ((W.holds k).asText ++ rest.headD []).length) := hf
        rw [if_pos hc] at this
        rw [Outcome.reply_inj this] at hm
        split at hm <;> cases hm
    · intro hm hct
      have key : ∀ {v args}, Counter v n args m → ∃ i, m = .int i := by
        intro v args h
        unfold Counter at h
        split at h
        · rw [h] at hm; cases hm
        · split at h
          · rw [h] at hm; cases hm
          · split at h
            · rw [h] at hm; cases hm
            · obtain ⟨i, h, _⟩ := h; exact ⟨i, h⟩
      unfold counters at hct
      simp only [List.mem_cons, List.not_mem_nil, or_false] at hct
      rcases args with _ | ⟨k, rest⟩
      · have : Outcome.reply m = .reply errArgs := by rcases hct with rfl | rfl | rfl | rfl <;> exact hf
        cases this; cases hm
      · rcases hct with rfl | rfl | rfl | rfl
        · have : ∃ m', Outcome.reply m = .reply m' ∧ Counter (W.holds k).string (s!! "incr") (k :: rest) m' := hf
          obtain ⟨m', e, h⟩ := this
          cases e; exact key h
        · have : if rest = [] then Outcome.reply m = .reply errArgs else
            ∃ m', Outcome.reply m = .reply m' ∧ Counter (W.holds k).string (s!! "incrby") (k :: rest) m' := hf
          split at this
          · cases this; cases hm
          · obtain ⟨m', e, h⟩ := this
            cases e; exact key h
        · have : ∃ m', Outcome.reply m = .reply m' ∧ Counter (W.holds k).string (s!! "decr") (k :: rest) m' := hf
          obtain ⟨m', e, h⟩ := this
          cases e; exact key h
        · have : if rest = [] then Outcome.reply m = .reply errArgs else
            ∃ m', Outcome.reply m = .reply m' ∧ Counter (W.holds k).string (s!! "decrby") (k :: rest) m' := hf
          split at this
          · cases this; cases hm
          · obtain ⟨m', e, h⟩ := this
            cases e; exact key h
  · rw [if_neg c5] at hf
    cases hf
    exact agrees_basic hn (fun h => by cases h) (fun h => by cases h) (fun h => by cases h)

end RefSpec
