import Verif.Proofs.Sets
import Verif.Props.SetDefs
/-! Sets along histories. -/
namespace Godis
open Resp (Reply bulks)
open SetSpec
open ListSpec (items errType errArgs errNil)
open StrSpec (int64 lower isError Ascii setStores)
open KeySpec (KView foreign keyArgs)

variable {s s' : Store} {k : Bytes} {ext : Ext} {it : Iter} {c : Cmd} {args N : List Bytes} {m : Reply} {w : Bytes → SView}

/-- a store with its views -/
structure SOk (s : Store) (w : Bytes → SView) : Prop where
  typed : Typed s
  all : SAll s w

/-- a store that only saw regular requests, with its views -/
structure SGood (s : Store) (w : Bytes → SView) : Prop extends SOk s w where
  ns : NoShare s

theorem SRel.unique {a : KView Obj} {v v' : SView} (h : SRel a v) (h' : SRel a v') : v = v' := by
  rcases a with _ | _ | (_ | o | _ | _) <;> rcases v with _ | _ | ⟨X, g⟩ <;> rcases v' with _ | _ | ⟨X', g'⟩ <;>
    first | rfl | exact False.elim h | exact False.elim h' | skip
  obtain ⟨rfl, rfl⟩ := SObj.Is.unique h h'
  rfl

/-! ## every reachable store has views -/

/-- all set objects have members -/
def SetsOk (s : Store) : Prop := ∀ (r : Nat) (o : SObj), s.heap[r]? = some (Obj.set o) → ∃ X g, o.Is X g

theorem apply_ok (op : Store.SetOp) (a b : SObj) : ∃ X, (op.apply it a b).Is X 0 := by
  cases op
  · exact ⟨_, SObj.Is.empty.fold (fun k => !b.m.has k) (a.m.entries it)⟩
  · exact ⟨_, SObj.Is.empty.fold (fun k => b.m.has k) (a.m.entries it)⟩
  · have h1 := SObj.Is.empty.fold (fun _ => true) (a.m.entries it)
    simp only [if_true] at h1
    have h2 := h1.fold (fun _ => true) (b.m.entries it)
    simp only [if_true] at h2
    exact ⟨_, h2⟩

theorem OStep.set_ok {rng} {o : Obj} {b : SObj} (h : OStep ext c args rng o (.set b)) (ha : ∀ a, o = .set a → ∃ X g, a.Is X g) :
    ∃ X g, b.Is X g := by
  cases h with
  | sadd => obtain ⟨X, g, h⟩ := ha _ rfl; exact ⟨_, _, (h.sAddAll _).1⟩
  | srem => obtain ⟨X, g, h⟩ := ha _ rfl; exact ⟨_, _, (h.sRemAll _).1⟩
  | smove => obtain ⟨X, g, h⟩ := ha _ rfl; exact ⟨_, _, h.smove _⟩
  | @spop o it n =>
    obtain ⟨X, g, h⟩ := ha _ rfl
    obtain ⟨o', l, h1, _, _, _, h2⟩ := h.sPop (it := it) n
    rw [h1]; exact ⟨_, _, h2⟩

theorem Change.setsOk (h : Change ext c args N s s') (hs : SetsOk s) : SetsOk s' := by
  cases h with
  | str => exact hs
  | del => exact hs
  | @new k o rng _ _ hn _ =>
    intro r b hb
    simp only at hb
    by_cases hr : r < s.heap.length
    · rw [List.getElem?_append_left hr] at hb; exact hs r b hb
    · rw [List.getElem?_append_right (by omega)] at hb
      obtain ⟨rfl⟩ : o = .set b := by
        cases hq : r - s.heap.length with
        | zero => rw [hq] at hb; simpa using hb
        | succ n => rw [hq] at hb; simp at hb
      cases hn with
      | set h => exact h.set_ok (fun a ha => by cases ha; exact ⟨_, _, SObj.Is.empty⟩)
      | op => exact ⟨_, _, (apply_ok _ _ _).choose_spec⟩
  | @write k r' o1 o2 rng _ _ ho1 hst _ =>
    intro r b hb
    simp only at hb
    by_cases e : r' = r
    · subst e
      have hr : r' < s.heap.length := (List.getElem?_eq_some_iff.mp ho1).1
      rw [List.getElem?_set_self hr] at hb
      cases hb
      exact hst.set_ok (fun a ha => by subst ha; exact hs _ _ ho1)
    · rw [List.getElem?_set_ne e] at hb
      exact hs r b hb
  | «alias» => exact hs

theorem Eff.setsOk (h : Eff ext c args N s s') (hs : SetsOk s) : SetsOk s' := by
  induction h with
  | refl => exact hs
  | step h _ ih => exact ih (h.setsOk hs)

theorem Reachable.setsOk (h : Reachable ext s) : SetsOk s := by
  obtain ⟨rng, tr, h⟩ := h
  induction h with
  | nil => intro r o h; simp [Store.init] at h
  | @snoc tr s it req m s' h0 ha ih =>
    have ht := h0.typed (typed_init rng)
    obtain ⟨name, args, rfl, ⟨_, rfl, _⟩ | ⟨c, o, _, hf, _⟩⟩ := ha.cases
    · exact ih
    · exact (fn_eff c ht hf).setsOk ih

theorem SetsOk.views (ht : Typed s) (hs : SetsOk s) : ∃ w, SAll s w := by
  have : ∀ k, ∃ v : SView, SRel (kview .set s k) v := by
    intro k
    cases hg : s.keys.get k with
    | none => rw [kview_absent hg]; exact ⟨.absent, trivial⟩
    | some info =>
      rcases ht.kind _ _ hg with ⟨v, rfl⟩ | ⟨r, o, rfl, ho, _⟩
      · rw [kview_str hg]; exact ⟨.other, trivial⟩
      · rw [kview_ref hg ho]
        split
        · next hk =>
          obtain ⟨b, rfl⟩ := Obj.kind_set hk
          obtain ⟨X, g, hi⟩ := hs r b ho
          exact ⟨.here (X, g), hi⟩
        · exact ⟨.other, trivial⟩
  exact ⟨fun k => (this k).choose, fun k => (this k).choose_spec⟩

theorem Reachable.sok (h : Reachable ext s) : ∃ w, SOk s w := by
  obtain ⟨w, hw⟩ := h.setsOk.views h.typed
  exact ⟨w, h.typed, hw⟩

theorem Reachable.snoc (h : Reachable ext s) {req} (ha : Answers ext it s req m s') : Reachable ext s' := by
  obtain ⟨rng, tr, h⟩ := h
  exact ⟨rng, _, .snoc h ha⟩

theorem commands_writes {name : Bytes} (hl : lookupCmd name = some c) (hn : name ∉ commands) : ¬ c.Writes .set := by
  have := lookup_name hl
  subst this
  intro h
  apply hn
  simp only [Cmd.Writes, Cmd.isStoreOp] at h
  rcases h with rfl | rfl | rfl | rfl | rfl | rfl | rfl <;> decide

/-- the views after one more request; set requests are answered as specified -/
theorem SGood.step {req : List Bytes} (hg : SGood s w) (hr : Regular req) (ha : Answers ext it s req m s') :
    SGood s' (step w (lower (req.headD [])) req.tail m) := by
  refine ⟨⟨ha.typed hg.typed, ?_⟩, noShare_step hg.typed hg.ns ha hr.1 hr.2⟩
  obtain ⟨name, args, rfl, ⟨hl, rfl, rfl⟩ | ⟨c, o, hl, hf, hm⟩⟩ := ha.cases
  · intro k
    rw [lower_eq (hr.1 name rfl)] at hl
    show SRel _ (SetSpec.step w (lower name) args _ k)
    have : lower name ∉ commands := by
      intro h
      have hall : ∀ n ∈ commands, (lookupCmd n).isSome := by decide
      have := hall _ h
      rw [hl] at this
      cases this
    rw [step_foreign this]
    exact hg.all k
  · rw [lower_eq (hr.1 name rfl)] at hl
    show SAll s' (SetSpec.step w (lower name) args m)
    by_cases hc : lower name ∈ commands
    · obtain ⟨c', hl', hcn, s1, o1, m1, h1, h2, _, h4⟩ := set_runs (ext := ext) (it := it) (args := args) hc hg.typed (fun _ => hg.ns) hg.all
        (fun h => hr.2 h)
      rw [hl] at hl'; cases hl'
      rw [hf] at h1; cases h1
      rw [hm] at h2; cases h2
      rw [← hcn]; exact h4.1 hg.ns
    · rw [step_foreign hc]
      intro k
      show SRel _ (foreign k (w k) (lower name) args m)
      rw [foreign_step hg.typed (commands_writes hl hc) hf hm k, ← lookup_name hl]
      exact (hg.all k).foreign _ _ _ _

/-- a set request is answered, and every answer fits -/
theorem SOk.fits {name : Bytes} (hg : SOk s w) (hr : Regular (name :: args)) (hc : lower name ∈ commands)
    (hns : lower name = b! "smove" → NoShare s) :
    (∀ it, ∃ m s', Answers ext it s (name :: args) m s') ∧
    ∀ it m s', Answers ext it s (name :: args) m s' → Fits w (lower name) args m ∧
      ∀ k ∈ args.head?, SRel (kview .set s' k) (SetSpec.step w (lower name) args m k) := by
  have key : ∀ it, ∃ m s', Answers ext it s (name :: args) m s' ∧ Fits w (lower name) args m ∧
      ∀ k ∈ args.head?, SRel (kview .set s' k) (SetSpec.step w (lower name) args m k) := by
    intro it
    obtain ⟨c, hl, hcn, s1, o1, m1, h1, h2, h3, h4⟩ := set_runs (ext := ext) (it := it) (args := args) hc hg.typed hns hg.all
      (fun h => hr.2 h)
    refine ⟨m1, s1, (answers_iff ?_).mpr ⟨o1, h1, h2⟩, by rw [hcn] at h3; exact h3, by rw [hcn] at h4; exact h4.2⟩
    rw [lower_eq (hr.1 name rfl)]
    exact hl
  refine ⟨fun it => ?_, fun it m s' ha => ?_⟩
  · obtain ⟨m, s', h, _⟩ := key it
    exact ⟨m, s', h⟩
  · obtain ⟨m', s'', h, hf⟩ := key it
    obtain ⟨rfl, rfl⟩ := h.unique ha
    exact hf

theorem SGood.fits {name : Bytes} (hg : SGood s w) (hr : Regular (name :: args)) (hc : lower name ∈ commands) :
    (∀ it, ∃ m s', Answers ext it s (name :: args) m s') ∧
    ∀ it m s', Answers ext it s (name :: args) m s' → Fits w (lower name) args m := by
  obtain ⟨h1, h2⟩ := hg.toSOk.fits (ext := ext) hr hc (fun _ => hg.ns)
  exact ⟨h1, fun it m s' ha => (h2 it m s' ha).1⟩

/-- a set request on a reachable store: the reply, and the view of its first key afterwards -/
theorem SOk.next {name : Bytes} (hs : Reachable ext s) (hg : SOk s w) (hr : Regular (name :: k :: args)) (hc : lower name ∈ commands)
    (hns : lower name ≠ b! "smove") (ha : Answers ext it s (name :: k :: args) m s') :
    Fits w (lower name) (k :: args) m ∧ ∃ w', SOk s' w' ∧ w' k = SetSpec.step w (lower name) (k :: args) m k := by
  obtain ⟨h1, h2⟩ := (hg.fits (ext := ext) hr hc (fun h => absurd h hns)).2 it m s' ha
  obtain ⟨w', hw'⟩ := (hs.snoc ha).sok
  exact ⟨h1, w', hw', (hw'.all k).unique (h2 k rfl)⟩

theorem sgood_init (rng : Rng) : SGood (Store.init rng) (fun _ => .absent) :=
  ⟨⟨typed_init rng, fun _ => trivial⟩, noShare_init rng⟩

theorem sets_snoc (tr : List (List Bytes × Reply)) (p : List Bytes × Reply) :
    after (tr ++ [p]) = SetSpec.step (after tr) (lower (p.1.headD [])) p.1.tail p.2 := by
  simp [after, List.foldl_append]

theorem Trace.sgood {rng tr} (h : Trace ext (Store.init rng) tr s) (hp : ∀ p ∈ tr, Regular p.1) : SGood s (after tr) := by
  induction h with
  | nil => exact sgood_init rng
  | @snoc tr s it req m s' h0 ha ih =>
    rw [sets_snoc]
    exact (ih (fun p hp' => hp p (by simp [hp']))).step (hp (req, m) (by simp)) ha

theorem ReachableBy.sgood (h : ReachableBy ext Regular s) : ∃ w, SGood s w := by
  obtain ⟨rng, tr, h, hp⟩ := h
  exact ⟨_, h.sgood hp⟩

/-- set requests with an ASCII name that only read -/
theorem SOk.reads {name : Bytes} (hg : SOk s w) (hr : Regular (name :: args)) (hc : lower name ∈ [b! "sismember", b! "scard"])
    (hm : ∀ m', Fits w (lower name) args m' → m' = m) : Reads ext s (name :: args) m := by
  intro it
  have hc' : lower name ∈ commands := by
    have : ∀ n ∈ [b! "sismember", b! "scard"], n ∈ commands := by decide
    exact this _ hc
  have hns : lower name = b! "smove" → NoShare s := by
    intro h; rw [h] at hc; exact absurd hc (by decide)
  obtain ⟨h1, h2⟩ := hg.fits (ext := ext) hr hc' hns
  obtain ⟨m', s', ha⟩ := h1 it
  obtain rfl := hm _ (h2 it m' s' ha).1
  have : s' = s := by
    obtain ⟨name', args', he, ⟨_, rfl, _⟩ | ⟨c, o, hl, hf, _⟩⟩ := ha.cases
    · rfl
    · cases he
      rw [lower_eq (hr.1 name rfl)] at hl
      simp only [List.mem_cons, List.not_mem_nil, or_false] at hc
      rcases hc with hc | hc
      · rw [hc] at hl
        obtain rfl : c = .sIsMember := by
          have : lookupCmd (b! "sismember") = some .sIsMember := rfl
          rw [this] at hl; exact (Option.some.inj hl).symm
        exact read_same _ (by decide) hf
      · rw [hc] at hl
        obtain rfl : c = .sCard := by
          have : lookupCmd (b! "scard") = some .sCard := rfl
          rw [this] at hl; exact (Option.some.inj hl).symm
        exact read_same _ (by decide) hf
  exact this ▸ ha

theorem regular_name {name : Bytes} (ha : Ascii name) (h : lower name ∉ setStores) (args : List Bytes) : Regular (name :: args) := by
  refine ⟨?_, fun h' => h h'.1⟩
  intro n hn
  simp only [List.head?_cons, Option.mem_def, Option.some.injEq] at hn
  subst hn; exact ha

theorem SOk.members (hg : SOk s w) {X : Finset Bytes} : Members ext s k X ↔ w k ≠ .other ∧ mems (w k) = X := by
  have hreg : ∀ x, Regular [b! "sismember", k, x] := fun x => regular_name (by unfold Ascii; decide) (by decide) _
  have hfit : ∀ x m, Fits w (lower (b! "sismember")) [k, x] m ↔
      m = if w k = .other then errType else .int (if x ∈ mems (w k) then 1 else 0) := fun x m => Iff.rfl
  constructor
  · intro h
    have hf : ∀ x, Fits w (lower (b! "sismember")) [k, x] (.int (if x ∈ X then 1 else 0)) := fun x =>
      ((hg.fits (ext := ext) (hreg x) (by decide) (fun h => absurd (show lower (b! "sismember") = b! "smove" from h) (by decide))).2 it0 _ _ (h x it0)).1
    simp only [hfit] at hf
    have hne : w k ≠ .other := by
      intro he
      have := hf []
      rw [he] at this
      cases this
    refine ⟨hne, ?_⟩
    ext x
    have := hf x
    rw [if_neg hne] at this
    by_cases h1 : x ∈ X <;> by_cases h2 : x ∈ mems (w k) <;> simp_all
  · rintro ⟨hne, rfl⟩ x
    refine hg.reads (hreg x) (by decide) (fun m' hm' => ?_)
    rw [hfit, if_neg hne] at hm'
    exact hm'

/-- requests that do not name the key leave its view -/
theorem sets_unnamed {name : Bytes} (h : k ∉ keyArgs name args) : SetSpec.step w name args m k = w k := by
  by_cases hc : name ∈ commands
  · have hput : ∀ (w : Bytes → SView) k' v, k' ≠ k → put w k' v k = w k := fun w k' v h => if_neg (Ne.symm h)
    simp only [commands, List.mem_cons, List.not_mem_nil, or_false] at hc
    have hread : ∀ n ∈ [b! "scard", b! "sismember", b! "smembers", b! "sdiff", b! "sinter", b! "sunion"],
        n ∉ [b! "mset", b! "smove", b! "del"] ++ ListSpec.stringWriters ++ KeySpec.collCreators ++ setStores := by decide
    have h0 : ∀ {k' : Bytes} {rest : List Bytes}, args = k' :: rest → name ∉ KeySpec.noKeys → name ≠ b! "mset" → k' ≠ k := by
      rintro k' rest rfl h1 h2 rfl
      apply h
      unfold keyArgs
      rw [if_neg h1, if_neg (show ¬ name = s!! "mset" from h2)]
      split
      · simp
      · split <;> simp
    rcases hc with rfl | rfl | rfl | rfl | rfl | rfl | rfl | rfl | rfl | rfl | rfl | rfl | rfl
    · rcases args with _ | ⟨k', rest⟩
      · rfl
      · have := h0 rfl (by decide) (by decide)
        show (if isError m then w else put w k' _) k = w k
        split
        · rfl
        · exact hput _ _ _ this
    · rcases args with _ | ⟨k', rest⟩
      · rfl
      · have := h0 rfl (by decide) (by decide)
        show (if isError m then w else put w k' _) k = w k
        split
        · rfl
        · exact hput _ _ _ this
    · exact foreign_same (hread _ (by decide))
    · exact foreign_same (hread _ (by decide))
    · exact foreign_same (hread _ (by decide))
    · rcases args with _ | ⟨k', rest⟩
      · rfl
      · exact hput _ _ _ (h0 rfl (by decide) (by decide))
    · rcases args with _ | ⟨src, _ | ⟨dst, _ | ⟨x, rest⟩⟩⟩
      · rfl
      · rfl
      · rfl
      · have hk : k ∉ [src, dst] := h
        simp only [List.mem_cons, List.not_mem_nil, or_false, not_or] at hk
        show (if x ∈ mems (w src) then _ else w) k = w k
        split
        · rw [hput _ _ _ (Ne.symm hk.2), hput _ _ _ (Ne.symm hk.1)]
        · rfl
    · exact foreign_same (hread _ (by decide))
    · exact foreign_same (hread _ (by decide))
    · exact foreign_same (hread _ (by decide))
    · rcases args with _ | ⟨k', rest⟩
      · rfl
      · have := h0 rfl (by decide) (by decide)
        show (if isError m then w else put w k' _) k = w k
        split
        · rfl
        · exact hput _ _ _ this
    · rcases args with _ | ⟨k', rest⟩
      · rfl
      · have := h0 rfl (by decide) (by decide)
        show (if isError m then w else put w k' _) k = w k
        split
        · rfl
        · exact hput _ _ _ this
    · rcases args with _ | ⟨k', rest⟩
      · rfl
      · have := h0 rfl (by decide) (by decide)
        show (if isError m then w else put w k' _) k = w k
        split
        · rfl
        · exact hput _ _ _ this
  · rw [step_foreign hc]
    show foreign k (w k) name args m = w k
    unfold KeySpec.foreign
    split
    · rfl
    · split
      · next hn => subst hn; rw [if_neg (fun h' => h (msetKeys_evens _ h'))]
      · split
        · next hn => subst hn; exact absurd (by decide) hc
        · next h1 h2 =>
          split
          · rfl
          · next hh =>
            simp only [ne_eq, not_not] at hh
            have hk : name ∈ KeySpec.noKeys := by
              by_contra hno
              apply h
              unfold keyArgs
              rw [if_neg hno]
              have h1' : ¬ name = s!! "mset" := h1
              have h2' : ¬ name = s!! "smove" := h2
              rw [if_neg h1', if_neg h2']
              cases args with
              | nil => simp at hh
              | cons a r => simp at hh; subst hh; split <;> simp
            simp only [KeySpec.noKeys, List.mem_cons, List.not_mem_nil, or_false] at hk
            rcases hk with rfl | rfl | rfl <;> rfl

theorem SGood.trace {tr} (hg : SGood s w) (h : Trace ext s tr s') (hp : ∀ p ∈ tr, Regular p.1) :
    SGood s' (tr.foldl (fun w p => SetSpec.step w (lower (p.1.headD [])) p.1.tail p.2) w) := by
  induction h with
  | nil => exact hg
  | @snoc tr s1 it req m s2 h0 ha ih =>
    rw [List.foldl_append]
    exact (ih (fun p hp' => hp p (by simp [hp']))).step (hp (req, m) (by simp)) ha

theorem sets_unnamed_fold {tr : List (List Bytes × Reply)} (hk : ∀ p ∈ tr, k ∉ keyArgs (lower (p.1.headD [])) p.1.tail) :
    (tr.foldl (fun w p => SetSpec.step w (lower (p.1.headD [])) p.1.tail p.2) w) k = w k := by
  induction tr using List.reverseRecOn with
  | nil => rfl
  | append_singleton tr p ih =>
    rw [List.foldl_append]
    show SetSpec.step _ _ _ _ k = _
    rw [sets_unnamed (hk p (by simp)), ih (fun q hq => hk q (by simp [hq]))]

/-- ghosts only come from SPOP and SMOVE -/
def ghosts : SView → Nat
  | .here (_, g) => g
  | _ => 0

theorem size_eq (v : SView) : size v = (mems v).card + ghosts v := by
  rcases v with _ | _ | ⟨X, g⟩ <;> rfl

theorem ghosts_step {name : Bytes} (hn : name = b! "spop" ∨ name = b! "smove" → args.head? ≠ some k) (h0 : ghosts (w k) = 0) :
    ghosts (SetSpec.step w name args m k) = 0 := by
  have hadd : ∀ xs v, ghosts (add xs v) = ghosts v := by
    intro xs v; rcases v with _ | _ | ⟨X, g⟩ <;> rfl
  have hput : ∀ {w : Bytes → SView} {k' v}, ghosts (w k) = 0 → ghosts v = 0 → ghosts (put w k' v k) = 0 := by
    intro w k' v h1 h2; unfold put; split
    · exact h2
    · exact h1
  have hput2 : ∀ {w : Bytes → SView} {k' v}, ghosts (w k) = 0 → (k' = k → ghosts v = 0) → ghosts (put w k' v k) = 0 := by
    intro w k' v h1 h2; unfold put; split
    · next e => exact h2 e.symm
    · exact h1
  unfold SetSpec.step
  split
  · split
    · split
      · exact h0
      · refine hput2 h0 (fun e => ?_)
        rw [hadd, e]; exact h0
    · exact h0
  · split
    · split
      · split
        · exact h0
        · refine hput2 h0 (fun e => ?_)
          subst e
          revert h0
          generalize w _ = v
          intro h0
          rcases v with _ | _ | ⟨X, g⟩ <;> exact h0
      · exact h0
    · split
      · next hs =>
        have hne := hn (.inl hs)
        split
        · refine hput2 h0 (fun e => ?_)
          exact absurd (by rw [← e]; rfl) hne
        · exact h0
      · split
        · next hs =>
          have hne := hn (.inr hs)
          split
          · next src dst x rest =>
            have hsk : src ≠ k := by rintro rfl; exact hne rfl
            have h1 : put w src (leave [x] (w src)) k = w k := if_neg (Ne.symm hsk)
            split
            · refine hput2 (by rw [h1]; exact h0) (fun e => ?_)
              rw [hadd, e, h1]; exact h0
            · exact h0
          · exact h0
        · split
          · split
            · split
              · exact h0
              · exact hput h0 rfl
            · exact h0
          · show ghosts (foreign k (w k) name args m) = 0
            unfold KeySpec.foreign
            repeat' split
            all_goals first | exact h0 | rfl | skip
            all_goals (revert h0; generalize w k = v; intro h0; rcases v with _ | _ | ⟨X, g⟩ <;> first | exact h0 | rfl)

theorem ghosts_after {tr : List (List Bytes × Reply)}
    (hno : ∀ p ∈ tr, lower (p.1.headD []) ∈ [b! "spop", b! "smove"] → p.1[1]? ≠ some k) : ghosts (after tr k) = 0 := by
  induction tr using List.reverseRecOn with
  | nil => rfl
  | append_singleton tr p ih =>
    rw [sets_snoc]
    refine ghosts_step (fun h => ?_) (ih (fun q hq => hno q (by simp [hq])))
    have := hno p (by simp) (by simpa using h)
    rcases p with ⟨_ | ⟨n, _ | ⟨a, r⟩⟩, m⟩ <;> simpa using this

end Godis
