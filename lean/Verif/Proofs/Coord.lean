import Mathlib.Data.List.Flatten
import Verif.Props.Strings
import Verif.Props.Sets
import Verif.Props.Lists2
import Verif.Proofs.Shared2
import Verif.Proofs.Iso5
import Verif.Spec.Coord
/-! # What a history says about a counter, a set or a queue that clients share (proofs) -/
namespace Godis
open Resp (Reply)
open StrSpec (lower Ascii isError counters delta contrib CountsAs)
open KeySpec (keyArgs readOnly)
open ListSpec (Plain OnlyUses items)
open CoordSpec (On)

theorem Trace.split {ext s0 A B s'} (h : Trace ext s0 (A ++ B) s') : ∃ s, Trace ext s0 A s ∧ Trace ext s B s' := by
  generalize hx : A ++ B = x at h
  induction h generalizing B with
  | nil =>
    obtain ⟨rfl, rfl⟩ := List.append_eq_nil_iff.mp hx
    exact ⟨_, .nil, .nil⟩
  | @snoc tr s it req m s' h1 ha ih =>
    rcases List.eq_nil_or_concat B with rfl | ⟨B', p, rfl⟩
    · rw [List.append_nil] at hx; subst hx
      exact ⟨_, .snoc h1 ha, .nil⟩
    · rw [List.concat_eq_append, ← List.append_assoc] at hx
      obtain ⟨e1, e2⟩ := List.append_inj' hx rfl
      cases e2
      obtain ⟨s2, k1, k2⟩ := ih e1
      exact ⟨s2, k1, by rw [List.concat_eq_append]; exact .snoc k2 ha⟩

theorem Trace.mid {ext s0 A req m B s'} (h : Trace ext s0 (A ++ (req, m) :: B) s') :
    ∃ s it s2, Trace ext s0 A s ∧ Answers ext it s req m s2 ∧ Trace ext s0 (A ++ [(req, m)]) s2 := by
  rw [show A ++ (req, m) :: B = (A ++ [(req, m)]) ++ B by simp] at h
  obtain ⟨s2, h1, _⟩ := h.split
  obtain ⟨s, it, h2, h3⟩ := h1.last
  exact ⟨s, it, s2, h2, h3, h1⟩

instance (cmd k : Bytes) (req : List Bytes) : Decidable (On cmd k req) :=
  match req with
  | [] => .isFalse (by rintro ⟨_, _, h, _⟩; cases h)
  | [_] => .isFalse (by rintro ⟨_, _, h, _⟩; cases h)
  | name :: k' :: args =>
    if h : k' = k ∧ lower name = cmd then .isTrue ⟨name, args, by rw [h.1], h.2⟩
    else .isFalse (by rintro ⟨n, a, h1, h2⟩; cases h1; exact h ⟨rfl, h2⟩)

/-! ## INCR -/

/-- how many requests of the history are INCR of `k` -/
def incrs (k : Bytes) (tr : List (List Bytes × Reply)) : Nat := tr.countP (fun p => decide (On (b! "incr") k p.1))

theorem incrs_snoc (k : Bytes) (tr) (p : List Bytes × Reply) :
    incrs k (tr ++ [p]) = incrs k tr + if On (b! "incr") k p.1 then 1 else 0 := by
  simp [incrs, List.countP_append, List.countP_cons]

theorem contrib_other {k : Bytes} {req : List Bytes} {m} (hu : OnlyUses k [b! "incr"] [(req, m)]) (hi : ¬ On (b! "incr") k req) :
    contrib k (req, m) = 0 := by
  match req, hu, hi with
  | [], _, _ => rfl
  | [_], _, _ => rfl
  | name :: key :: rest, hu, hi =>
    show (if key = k ∧ ¬ isError m then (delta (lower name) (key :: rest)).getD 0 else 0) = 0
    split
    · next hk =>
      obtain ⟨rfl, _⟩ := hk
      cases hd : delta (lower name) (key :: rest) with
      | none => rfl
      | some d =>
        exfalso
        have hc : lower name ∈ counters := by
          unfold delta at hd
          split at hd
          · next h => rw [h]; decide
          split at hd
          · next h => rw [h]; decide
          split at hd
          · next h => rw [h]; decide
          split at hd
          · next h => rw [h]; decide
          · cases hd
        have hkey : key ∈ keyArgs (lower name) (key :: rest) := by
          simp only [counters, List.mem_cons, List.not_mem_nil, or_false] at hc
          rcases hc with h | h | h | h <;> (rw [h]; exact List.mem_cons_self)
        have := hu (name :: key :: rest, m) (by simp) hkey
        have hne : lower name ≠ b! "incr" := fun h => hi ⟨name, rest, rfl, h⟩
        simp only [List.headD_cons, List.mem_singleton] at this
        rcases this with h | h
        · exact hne h
        · have hd : ∀ n ∈ counters, n ∉ readOnly := by decide
          exact hd _ hc h
    · rfl

/-- a history in which `k` is used only with INCR and reads: what `k` counts as is the number of the INCRs -/
theorem incr_count {ext rng tr s k} (h : Trace ext (Store.init rng) tr s) (hp : ∀ p ∈ tr, Plain p.1)
    (hu : OnlyUses k [b! "incr"] tr) (hl : tr.length < 2 ^ 63) :
    CountsAs (StrSpec.getReply (viewOf s k)) (incrs k tr) ∧
    ∀ A req m B, tr = A ++ (req, m) :: B → On (b! "incr") k req → m = .int (incrs k A + 1) := by
  have aux : ∀ {s0 : Store} {tr : List (List Bytes × Reply)} {s : Store}, Trace ext s0 tr s → s0 = Store.init rng →
      (∀ p ∈ tr, Plain p.1) → OnlyUses k [b! "incr"] tr → tr.length < 2 ^ 63 →
      CountsAs (StrSpec.getReply (viewOf s k)) (incrs k tr) ∧
      ∀ A req m B, tr = A ++ (req, m) :: B → On (b! "incr") k req → m = .int (incrs k A + 1) := by
    intro s0 tr s h
    induction h with
    | nil => intro e _ _ _; subst e; exact ⟨.inl ⟨rfl, rfl⟩, fun A req m B e => by simp at e⟩
    | @snoc tr s1 it req m s2 h1 ha ih =>
      intro e hp hu hl
      subst e
      obtain ⟨i1, i2⟩ := ih rfl (fun p hq => hp p (by simp [hq])) (fun p hq => hu p (by simp [hq])) (by simp at hl; omega)
      have ht := h1.typed (typed_init rng)
      have hu1 : OnlyUses k [b! "incr"] [(req, m)] := fun p hq => hu p (by simp at hq; simp [hq])
      have hstep := counter_step ht ha (hp (req, m) (by simp)).1 (fun name args e hk => by
        have := hu (req, m) (by simp)
        simp only [e, List.headD_cons, List.tail_cons] at this
        rcases this hk with h | h
        · left; simp only [List.mem_singleton] at h; rw [h]; decide
        · exact .inr h) i1
      have hcnt : incrs k tr ≤ tr.length := List.countP_le_length
      have hlen : tr.length + 1 < 2 ^ 63 := by simpa using hl
      have hw : ∀ n : Nat, n ≤ tr.length + 1 → wrap64 (n : Int) = n := fun n hn =>
        wrap64_of_range _ (by omega) (by omega)
      rw [incrs_snoc]
      by_cases hi : On (b! "incr") k req
      · have hi' := hi
        obtain ⟨name, rest, rfl, hn⟩ := hi
        have hd : delta (lower name) (k :: rest) = some 1 := by rw [hn]; rfl
        have hr : ∀ m0, StrSpec.getReply (viewOf s1 k) = m0 → Reads ext s1 [b! "get", k] m0 := fun m0 e it => by
          rw [get_answers ht]; exact ⟨e.symm, rfl⟩
        obtain ⟨i, s', a1, a2, _⟩ := C09_counter_partial (n := (incrs k tr : Int)) ⟨rng, tr, h1⟩ hd (by
          rcases i1 with ⟨a, b⟩ | ⟨t, a, b⟩
          · exact .inl ⟨hr _ a, b⟩
          · exact .inr ⟨t, hr _ a, b⟩) it
        obtain ⟨hm, _⟩ := a2.unique ha
        rw [wraps_iff] at a1
        have hv : i = incrs k tr + 1 := by
          rw [a1]; exact_mod_cast hw (incrs k tr + 1) (by omega)
        subst hv
        rw [if_pos hi']
        have hc : contrib k (name :: k :: rest, m) = 1 := by
          rw [hm]
          show (if k = k ∧ ¬ isError (.int _) then (delta (lower name) (k :: rest)).getD 0 else 0) = 1
          rw [if_pos ⟨rfl, by simp [isError]⟩, hd]; rfl
        rw [hc] at hstep
        refine ⟨?_, ?_⟩
        · have := hw (incrs k tr + 1) (by omega)
          push_cast at this ⊢
          rw [this] at hstep; exact hstep
        · intro A req' m' B e hreq'
          rcases List.eq_nil_or_concat B with rfl | ⟨B', p, rfl⟩
          · obtain ⟨e1, e2⟩ := List.append_inj' e rfl
            cases e2; subst e1
            exact hm
          · rw [List.concat_eq_append, ← List.cons_append, ← List.append_assoc] at e
            obtain ⟨e1, e2⟩ := List.append_inj' e rfl
            exact i2 A req' m' B' e1 hreq'
      · rw [if_neg hi]
        rw [contrib_other hu1 hi, Int.add_zero, hw _ (by omega)] at hstep
        refine ⟨by simpa using hstep, ?_⟩
        intro A req' m' B e hreq'
        rcases List.eq_nil_or_concat B with rfl | ⟨B', p, rfl⟩
        · obtain ⟨e1, e2⟩ := List.append_inj' e rfl
          cases e2; subst e1
          exact absurd hreq' hi
        · rw [List.concat_eq_append, ← List.cons_append, ← List.append_assoc] at e
          obtain ⟨e1, e2⟩ := List.append_inj' e rfl
          exact i2 A req' m' B' e1 hreq'
  exact aux h rfl hp hu hl

/-! ## SADD -/

theorem Change.sole_any (h : Change ext c args N s s') (ht : Typed s) (hc : ¬ c.isStoreOp) (ha : Sole s j) : Sole s' j := by
  intro k' r t t' hk h1 h2
  cases h with
  | str =>
    simp only [SMap.get_set] at h1 h2
    split at h1
    · cases h1
    split at h2
    · cases h2
    · exact ha _ _ _ _ hk h1 h2
  | del =>
    simp only [SMap.get_del _ _ _ ht.wf] at h1 h2
    split at h1
    · cases h1
    split at h2
    · cases h2
    · exact ha _ _ _ _ hk h1 h2
  | new =>
    simp only [SMap.get_set] at h1 h2
    split at h1
    · cases h1
      split at h2
      · next e1 e2 => exact hk (e1.trans e2.symm)
      · exact absurd (ht.ref_lt h2) (by simp)
    · split at h2
      · cases h2
        exact absurd (ht.ref_lt h1) (by simp)
      · exact ha _ _ _ _ hk h1 h2
  | write => exact ha _ _ _ _ hk h1 h2
  | «alias» h => exact hc h

theorem Eff.sole_any (h : Eff ext c args N s s') (ht : Typed s) (hc : ¬ c.isStoreOp) (ha : Sole s j) : Sole s' j := by
  induction h with
  | refl => exact ha
  | step h _ ih => exact ih (h.typed ht) (h.sole_any ht hc ha)

/-- the members that the SADDs of the history name for `k` -/
def offered (k : Bytes) (tr : List (List Bytes × Reply)) : Finset Bytes :=
  (tr.flatMap fun p => if On (b! "sadd") k p.1 then p.1.drop 2 else []).toFinset

theorem offered_snoc (k : Bytes) (tr) (p : List Bytes × Reply) :
    offered k (tr ++ [p]) = offered k tr ∪ (if On (b! "sadd") k p.1 then p.1.drop 2 else []).toFinset := by
  simp [offered]

/-- a history in which `k` is used only with SADD and reads: its members are those that were offered -/
theorem sadd_members {ext rng tr s k} (h : Trace ext (Store.init rng) tr s) (hp : ∀ p ∈ tr, Plain p.1)
    (hu : OnlyUses k [b! "sadd"] tr) :
    Sole s k ∧ Members ext s k (offered k tr) := by
  have aux : ∀ {s0 : Store} {tr : List (List Bytes × Reply)} {s : Store}, Trace ext s0 tr s → s0 = Store.init rng →
      (∀ p ∈ tr, Plain p.1) → OnlyUses k [b! "sadd"] tr → Sole s k ∧ Members ext s k (offered k tr) := by
    intro s0 tr s h
    induction h with
    | nil =>
      intro e _ _; subst e
      refine ⟨fun k' r t t' _ h1 _ => ?_, ?_⟩
      · cases h1
      · exact (sgood_init rng).members.mpr ⟨nofun, rfl⟩
    | @snoc tr s1 it req m s2 h1 ha ih =>
      intro e hp hu
      subst e
      obtain ⟨i1, i2⟩ := ih rfl (fun p hq => hp p (by simp [hq])) (fun p hq => hu p (by simp [hq]))
      have ht := h1.typed (typed_init rng)
      have hr : Reachable ext s1 := ⟨rng, tr, h1⟩
      have hpl : Plain req := hp (req, m) (by simp)
      have hur := hu (req, m) (by simp)
      rw [offered_snoc]
      obtain ⟨name, args, rfl, hc⟩ := ha.cases
      have hasc : Ascii name := hpl.1 name rfl
      simp only [List.headD_cons, List.tail_cons, List.mem_singleton] at hur
      by_cases hi : On (b! "sadd") k (name :: args)
      · rw [if_pos hi]
        obtain ⟨name', xs, he, hn⟩ := hi
        cases he
        have hlk : lookupCmd (toLower ext.lowerUni name) = some .sAdd := by rw [lower_eq hasc, hn]; rfl
        refine ⟨?_, ?_⟩
        · obtain ⟨o, hf, _⟩ := (answers_iff hlk).mp ha
          exact (fn_eff _ ht hf).sole_any ht (by unfold Cmd.isStoreOp; simp) i1
        · cases xs with
          | nil =>
            obtain ⟨o, hf, _⟩ := (answers_iff hlk).mp ha
            have : s2 = s1 := by
              simp only [Cmd.fn, cmdSAdd] at hf
              cases hf; rfl
            subst this
            simpa using i2
          | cons x xs =>
            have ha' : Answers ext it s1 (b! "sadd" :: k :: x :: xs) m s2 := by
              rw [answers_iff (c := .sAdd) rfl]; exact (answers_iff hlk).mp ha
            exact (C25_sadd hr i2 (by simp) ha').2
      · rw [if_neg hi]
        simp only [List.toFinset_nil, Finset.union_empty]
        by_cases hk : k ∈ keyArgs (lower name) args
        · rcases hur hk with h | h
          · exfalso
            rw [h] at hk
            cases args with
            | nil => cases hk
            | cons a rest =>
              have : k ∈ [a] := hk
              simp only [List.mem_singleton] at this
              subst this
              exact hi ⟨name, rest, rfl, h⟩
          · obtain rfl := C17_reads_change_nothing h ha
            exact ⟨i1, i2⟩
        · have h2 : Trace ext s1 ([] ++ [(name :: args, m)]) s2 := .snoc .nil ha
          obtain ⟨j1, j2⟩ := h2.sole ht i1 (fun p hq n a e => by
            simp only [List.nil_append, List.mem_singleton] at hq
            subst hq; cases e; exact ⟨hasc, hk⟩)
          refine ⟨j1, ?_⟩
          obtain ⟨w, hw⟩ := hr.sok
          obtain ⟨w', hw'⟩ := (hr.snoc ha).sok
          have : w' k = w k := by
            have e := kview_congr (K := .set) j2
            have a1 := hw'.all k
            rw [e] at a1
            exact a1.unique (hw.all k)
          rw [hw.members] at i2
          rw [hw'.members, this]
          exact i2
  exact aux h rfl hp hu

/-- the reply to SADD in such a history -/
theorem sadd_reply {ext rng A req m B s k} (h : Trace ext (Store.init rng) (A ++ (req, m) :: B) s)
    (hp : ∀ p ∈ A ++ (req, m) :: B, Plain p.1) (hu : OnlyUses k [b! "sadd"] (A ++ (req, m) :: B))
    {name x : Bytes} {xs : List Bytes} (hreq : req = name :: k :: x :: xs) (hn : lower name = b! "sadd") :
    m = .int ((x :: xs).toFinset \ offered k A).card := by
  obtain ⟨s1, it, s2, h1, ha, _⟩ := h.mid
  have hm := (sadd_members h1 (fun p hq => hp p (by simp [hq])) (fun p hq => hu p (by simp [hq]))).2
  subst hreq
  have hasc : Ascii name := (hp (name :: k :: x :: xs, m) (by simp)).1 name rfl
  have hlk : lookupCmd (toLower ext.lowerUni name) = some .sAdd := by rw [lower_eq hasc, hn]; rfl
  have ha' : Answers ext it s1 (b! "sadd" :: k :: x :: xs) m s2 := by
    rw [answers_iff (c := .sAdd) rfl]; exact (answers_iff hlk).mp ha
  exact (C25_sadd ⟨rng, A, h1⟩ hm (by simp) ha').1

/-! ## lists of executed requests -/

theorem Subperm.flatMap {α β : Type} {l l' : List α} (f : α → List β) (h : List.Subperm l l') : List.Subperm (l.flatMap f) (l'.flatMap f) := by
  obtain ⟨l1, h1, h2⟩ := h
  exact (h1.flatMap_right f).symm.subperm.trans (h2.flatMap f).subperm

theorem before_flatMap {α β : Type} {l : List α} {f : α → List β} {a b : α} {x y : β} (h : Linear.Before l a b) (hx : x ∈ f a) (hy : y ∈ f b) :
    Linear.Before (l.flatMap f) x y := by
  obtain ⟨l1, l2, l3, rfl⟩ := h
  obtain ⟨a1, a2, ha⟩ := List.mem_iff_append.mp hx
  obtain ⟨b1, b2, hb⟩ := List.mem_iff_append.mp hy
  refine ⟨l1.flatMap f ++ a1, a2 ++ (l2.flatMap f ++ b1), b2 ++ l3.flatMap f, ?_⟩
  simp [ha, hb]

theorem before_within {α β : Type} {l : List α} {f : α → List β} {a : α} {x y : β} (h : a ∈ l) (hb : Linear.Before (f a) x y) :
    Linear.Before (l.flatMap f) x y := by
  obtain ⟨l1, l2, rfl⟩ := List.mem_iff_append.mp h
  obtain ⟨b1, b2, b3, hb⟩ := hb
  exact ⟨l1.flatMap f ++ b1, b2, b3 ++ l2.flatMap f, by simp [hb]⟩

theorem before_append {α : Type} {l l' : List α} {x y : α} (h : Linear.Before l x y) : Linear.Before (l ++ l') x y := by
  obtain ⟨l1, l2, l3, rfl⟩ := h
  exact ⟨l1, l2, l3 ++ l', by simp⟩

theorem before_asymm {α : Type} {l : List α} {x y : α} (hn : l.Nodup) (h : Linear.Before l x y) (h' : Linear.Before l y x) : False := by
  obtain ⟨l1, l2, l3, rfl⟩ := h
  obtain ⟨r1, r2, r3, e⟩ := h'
  rw [List.nodup_append] at hn
  obtain ⟨_, hn, hd⟩ := hn
  rw [List.nodup_cons, List.nodup_append] at hn
  obtain ⟨hx, _, hn, hd'⟩ := hn
  rw [List.nodup_cons] at hn
  -- the first occurrence of `y` lies after `x`, the occurrence of `x` after `y`
  have key : ∀ (l1 r1 : List α), x ∉ l2 ++ y :: l3 → (∀ z ∈ l1, z ≠ x ∧ z ≠ y) →
      l1 ++ x :: (l2 ++ y :: l3) = r1 ++ y :: (r2 ++ x :: r3) → False := by
    intro l1
    induction l1 with
    | nil =>
      intro r1 hx _ e
      cases r1 with
      | nil =>
        simp only [List.nil_append, List.cons.injEq] at e
        obtain ⟨rfl, _⟩ := e
        exact hx (by simp)
      | cons z r1 =>
        simp only [List.nil_append, List.cons_append, List.cons.injEq] at e
        exact hx (by rw [e.2]; simp)
    | cons z l1 ih =>
      intro r1 hx hz e
      cases r1 with
      | nil =>
        simp only [List.cons_append, List.nil_append, List.cons.injEq] at e
        exact (hz z (by simp)).2 e.1
      | cons z' r1 =>
        simp only [List.cons_append, List.cons.injEq] at e
        exact ih r1 hx (fun w hw => hz w (by simp [hw])) e.2
  exact key l1 r1 hx (fun z hz => ⟨fun h => hd z hz x (by simp) h, fun h => hd z hz y (by simp) h⟩) e

end Godis
