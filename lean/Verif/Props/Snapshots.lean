import Verif.Props.Register
import Verif.Spec.Snapshots
import Mathlib.Data.List.TakeWhile
/-!
# A set and a log that many clients share: C81

For every schedule and any number of clients, about what they see at their sockets (Spec/Coord.lean, Spec/Snapshots.lean).
-/
namespace Godis
open Resp (Reply bulks)
open StrSpec (lower Ascii isError int64)
open KeySpec (keyArgs readOnly KView)
open ListSpec (Plain OnlyUses errNil errType)
open CoordSpec (On Flips HearsSet HearsList)
open SetSpec (SView mems size Fits commands Lists)

/-! ## a key used with SADD, SREM and DEL -/

/-- the members of `k` after the request, if they were `X` -/
def heldStep (k : Bytes) (X : Finset Bytes) : List Bytes → Finset Bytes
  | name :: key :: rest =>
    if key = k then
      if lower name = b! "sadd" then X ∪ rest.toFinset
      else if lower name = b! "srem" then X \ rest.toFinset
      else if lower name = b! "del" then ∅ else X
    else X
  | _ => X

/-- the members of `k` after the history -/
def held (k : Bytes) (tr : List (List Bytes × Reply)) : Finset Bytes := tr.foldl (fun X p => heldStep k X p.1) ∅

theorem held_snoc (k : Bytes) (tr) (p : List Bytes × Reply) : held k (tr ++ [p]) = heldStep k (held k tr) p.1 := by
  simp [held, List.foldl_append]

/-- the key holds a set `X` that never lost members to SPOP or SMOVE, or nothing -/
def Clean (v : SView) (X : Finset Bytes) : Prop := (v = .absent ∧ X = ∅) ∨ v = .here (X, 0)

theorem Clean.ne_other {v : SView} {X} (h : Clean v X) : v ≠ .other := by rcases h with ⟨rfl, _⟩ | rfl <;> simp
theorem Clean.mems {v : SView} {X} (h : Clean v X) : mems v = X := by rcases h with ⟨rfl, rfl⟩ | rfl <;> rfl
theorem Clean.size {v : SView} {X} (h : Clean v X) : size v = X.card := by rcases h with ⟨rfl, rfl⟩ | rfl <;> rfl
theorem Clean.add {v : SView} {X} (h : Clean v X) (xs : List Bytes) : Clean (SetSpec.add xs v) (X ∪ xs.toFinset) := by
  rcases h with ⟨rfl, rfl⟩ | rfl
  · exact .inr (by simp [SetSpec.add])
  · exact .inr rfl
theorem Clean.remove {v : SView} {X} (h : Clean v X) (xs : List Bytes) : Clean (SetSpec.remove xs v) (X \ xs.toFinset) := by
  rcases h with ⟨rfl, rfl⟩ | rfl
  · exact .inl ⟨rfl, by simp⟩
  · exact .inr rfl

def setCmds : List Bytes := [b! "sadd", b! "srem", b! "del"]

/-- a history in which `k` is used only with SADD, SREM, DEL and reads -/
theorem held_trace {ext rng tr s k} (h : Trace ext (Store.init rng) tr s) (hp : ∀ p ∈ tr, Plain p.1)
    (hu : OnlyUses k setCmds tr) : Sole s k ∧ ∀ w, SOk s w → Clean (w k) (held k tr) := by
  have aux : ∀ {s0 : Store} {tr : List (List Bytes × Reply)} {s : Store}, Trace ext s0 tr s → s0 = Store.init rng →
      (∀ p ∈ tr, Plain p.1) → OnlyUses k setCmds tr → Sole s k ∧ ∀ w, SOk s w → Clean (w k) (held k tr) := by
    intro s0 tr s h
    induction h with
    | nil =>
      intro e _ _; subst e
      refine ⟨fun k' r t t' _ h1 _ => (by cases h1), fun w hw => .inl ⟨?_, rfl⟩⟩
      exact (hw.all k).unique ((sgood_init rng).all k)
    | @snoc tr s1 it req m s2 h1 ha ih =>
      intro e hp hu
      subst e
      obtain ⟨i1, i2⟩ := ih rfl (fun p hq => hp p (by simp [hq])) (fun p hq => hu p (by simp [hq]))
      have ht := h1.typed (typed_init rng)
      have hr : Reachable ext s1 := ⟨rng, tr, h1⟩
      have hpl : Plain req := hp (req, m) (by simp)
      have hur := hu (req, m) (by simp)
      obtain ⟨w, hw⟩ := hr.sok
      have i3 := i2 w hw
      obtain ⟨w2, hw2⟩ := (hr.snoc ha).sok
      have uniq : ∀ {X}, Clean (w2 k) X → ∀ w', SOk s2 w' → Clean (w' k) X := by
        intro X hc w' hw'
        rw [(hw'.all k).unique (hw2.all k)]; exact hc
      rw [held_snoc]
      obtain ⟨name, args, rfl, hc⟩ := ha.cases
      have hasc : Ascii name := hpl.1 name rfl
      simp only [List.headD_cons, List.tail_cons] at hur
      by_cases hk : k ∈ keyArgs (lower name) args
      · rcases hur hk with hset | h
        · -- one of the three
          have same : ∀ {c}, lookupCmd (toLower ext.lowerUni name) = some c → ¬ c.isStoreOp → Sole s2 k := by
            intro c hlk hns
            obtain ⟨o, hf, _⟩ := (answers_iff hlk).mp ha
            exact (fn_eff _ ht hf).sole_any ht hns i1
          have first : ∃ rest, args = k :: rest := by
            have he : ∀ n ∈ setCmds, keyArgs n args = args.take 1 := by
              intro n hn
              simp only [setCmds, List.mem_cons, List.not_mem_nil, or_false] at hn
              rcases hn with rfl | rfl | rfl <;> cases args <;> rfl
            rw [he _ hset] at hk
            cases args with
            | nil => cases hk
            | cons a rest => simp only [List.take_succ_cons, List.take_zero, List.mem_singleton] at hk; exact ⟨rest, by rw [hk]⟩
          obtain ⟨rest, rfl⟩ := first
          simp only [setCmds, List.mem_cons, List.not_mem_nil, or_false] at hset
          rcases hset with hn | hn | hn
          · have hlk : lookupCmd (toLower ext.lowerUni name) = some .sAdd := by rw [lower_eq hasc, hn]; rfl
            refine ⟨same hlk (by unfold Cmd.isStoreOp; simp), uniq ?_⟩
            have hst : heldStep k (held k tr) (name :: k :: rest) = held k tr ∪ rest.toFinset := by
              show (if k = k then _ else _) = _
              rw [if_pos rfl, if_pos hn]
            rw [show heldStep k (held k tr) (name :: k :: rest, m).1 = _ from hst]
            have hreg : Regular (name :: k :: rest) := regular_name (hpl.1 name rfl) (by rw [hn]; decide) _
            obtain ⟨hf, w', hg', hw'⟩ := hw.next hr hreg (by rw [hn]; decide) (by rw [hn]; decide) ha
            rw [(hw2.all k).unique (hg'.all k), hw', hn]
            rw [hn] at hf
            cases rest with
            | nil =>
              have hm : m = ListSpec.errArgs := hf
              subst hm
              have : SetSpec.step w (b! "sadd") [k] ListSpec.errArgs k = w k := rfl
              rw [this]; simpa using i3
            | cons x xs =>
              have hm : m = if w k = .other then errType else .int ((x :: xs).toFinset \ mems (w k)).card := hf
              rw [if_neg i3.ne_other] at hm
              subst hm
              have : SetSpec.step w (b! "sadd") (k :: x :: xs) (.int ((x :: xs).toFinset \ mems (w k)).card) k = SetSpec.add (x :: xs) (w k) := if_pos rfl
              rw [this]; exact i3.add _
          · have hlk : lookupCmd (toLower ext.lowerUni name) = some .sRem := by rw [lower_eq hasc, hn]; rfl
            refine ⟨same hlk (by unfold Cmd.isStoreOp; simp), uniq ?_⟩
            have hst : heldStep k (held k tr) (name :: k :: rest) = held k tr \ rest.toFinset := by
              show (if k = k then _ else _) = _
              rw [if_pos rfl, if_neg (by rw [hn]; decide), if_pos hn]
            rw [show heldStep k (held k tr) (name :: k :: rest, m).1 = _ from hst]
            have hreg : Regular (name :: k :: rest) := regular_name (hpl.1 name rfl) (by rw [hn]; decide) _
            obtain ⟨hf, w', hg', hw'⟩ := hw.next hr hreg (by rw [hn]; decide) (by rw [hn]; decide) ha
            rw [(hw2.all k).unique (hg'.all k), hw', hn]
            rw [hn] at hf
            cases rest with
            | nil =>
              have hm : m = ListSpec.errArgs := hf
              subst hm
              have : SetSpec.step w (b! "srem") [k] ListSpec.errArgs k = w k := rfl
              rw [this]; simpa using i3
            | cons x xs =>
              have hm : m = if w k = .other then errType else .int (mems (w k) ∩ (x :: xs).toFinset).card := hf
              rw [if_neg i3.ne_other] at hm
              subst hm
              have : SetSpec.step w (b! "srem") (k :: x :: xs) (.int (mems (w k) ∩ (x :: xs).toFinset).card) k = SetSpec.remove (x :: xs) (w k) := if_pos rfl
              rw [this]; exact i3.remove _
          · have hlk : lookupCmd (toLower ext.lowerUni name) = some .del := by rw [lower_eq hasc, hn]; rfl
            refine ⟨same hlk (by unfold Cmd.isStoreOp; simp), uniq ?_⟩
            have hst : heldStep k (held k tr) (name :: k :: rest) = ∅ := by
              show (if k = k then _ else _) = _
              rw [if_pos rfl, if_neg (by rw [hn]; decide), if_neg (by rw [hn]; decide), if_pos hn]
            rw [show heldStep k (held k tr) (name :: k :: rest, m).1 = _ from hst]
            have ha' : Answers ext it s1 (b! "del" :: k :: rest) m s2 := by
              rw [answers_iff (c := .del) rfl]; exact (answers_iff hlk).mp ha
            obtain ⟨_, rfl⟩ := del_answers.mp ha'
            refine .inl ⟨?_, rfl⟩
            have hv := hw2.all k
            rw [kview_absent (by simp only; rw [SMap.get_deleteIfExists _ ht.wf]; simp)] at hv
            exact hv.unique (by trivial)
        · obtain rfl := C17_reads_change_nothing h ha
          refine ⟨i1, uniq ?_⟩
          have hst : heldStep k (held k tr) (name :: args) = held k tr := by
            cases args with
            | nil => rfl
            | cons a rest =>
              show (if a = k then _ else _) = _
              have : ∀ n ∈ setCmds, n ∉ readOnly := by decide
              have hn : lower name ∉ setCmds := fun hc => this _ hc h
              simp only [setCmds, List.mem_cons, List.not_mem_nil, or_false, not_or] at hn
              rw [if_neg hn.1, if_neg hn.2.1, if_neg hn.2.2]; exact ite_self _
          rw [show heldStep k (held k tr) (name :: args, m).1 = _ from hst, (hw2.all k).unique (hw.all k)]
          exact i3
      · have h2 : Trace ext s1 ([] ++ [(name :: args, m)]) s2 := .snoc .nil ha
        obtain ⟨j1, j2⟩ := h2.sole ht i1 (fun p hq n a e => by
          simp only [List.nil_append, List.mem_singleton] at hq
          subst hq; cases e; exact ⟨hasc, hk⟩)
        refine ⟨j1, uniq ?_⟩
        have hst : heldStep k (held k tr) (name :: args) = held k tr := by
          cases args with
          | nil => rfl
          | cons a rest =>
            show (if a = k then _ else _) = _
            split
            · next e =>
              subst e
              have he : ∀ n ∈ setCmds, a ∈ keyArgs n (a :: rest) := by
                intro n hn
                simp only [setCmds, List.mem_cons, List.not_mem_nil, or_false] at hn
                rcases hn with rfl | rfl | rfl <;> exact List.mem_singleton.mpr rfl
              have hn : lower name ∉ setCmds := fun hc => hk (he _ hc)
              simp only [setCmds, List.mem_cons, List.not_mem_nil, or_false, not_or] at hn
              rw [if_neg hn.1, if_neg hn.2.1, if_neg hn.2.2]
            · rfl
        rw [show heldStep k (held k tr) (name :: args, m).1 = _ from hst]
        have : w2 k = w k := by
          have e := kview_congr (K := .set) j2
          have a1 := hw2.all k
          rw [e] at a1
          exact a1.unique (hw.all k)
        rw [this]; exact i3
  exact aux h rfl hp hu

/-- what a question about the set is answered in such a history -/
theorem held_hears {ext rng A req m B s k} (h : Trace ext (Store.init rng) (A ++ (req, m) :: B) s)
    (hp : ∀ p ∈ A ++ (req, m) :: B, Plain p.1) (hu : OnlyUses k setCmds (A ++ (req, m) :: B)) : HearsSet k (held k A) req m := by
  obtain ⟨s1, it, s2, h1, ha, _⟩ := h.mid
  have hc := (held_trace h1 (fun p hq => hp p (by simp [hq])) (fun p hq => hu p (by simp [hq]))).2
  have hr : Reachable ext s1 := ⟨rng, A, h1⟩
  obtain ⟨w, hw⟩ := hr.sok
  have hc := hc w hw
  have hpl : Plain req := hp (req, m) (by simp)
  constructor
  · rintro ⟨name, args, rfl, hn⟩
    have hreg : Regular (name :: k :: args) := regular_name (hpl.1 name rfl) (by rw [hn]; decide) _
    have hf := (hw.next hr hreg (by rw [hn]; decide) (by rw [hn]; decide) ha).1
    rw [hn] at hf
    have hf : if w k = .other then m = errType else if size (w k) = 0 then m = errNil else Lists (mems (w k)) m := hf
    rw [if_neg hc.ne_other, hc.size, hc.mems] at hf
    by_cases h0 : held k A = ∅
    · rw [if_pos (by rw [h0]; rfl)] at hf
      exact .inl ⟨h0, hf⟩
    · rw [if_neg (by rwa [Finset.card_eq_zero])] at hf
      obtain ⟨l, e1, e2, e3⟩ := hf
      exact .inr ⟨h0, l, e1, e2, fun x => by rw [← e3, List.mem_toFinset]⟩
  · rintro name x rest rfl hn
    have hreg : Regular (name :: k :: x :: rest) := regular_name (hpl.1 name rfl) (by rw [hn]; decide) _
    have hf := (hw.next hr hreg (by rw [hn]; decide) (by rw [hn]; decide) ha).1
    rw [hn] at hf
    have hf : m = if w k = .other then errType else .int (if x ∈ mems (w k) then 1 else 0) := hf
    rw [if_neg hc.ne_other, hc.mems] at hf
    exact hf

/-- what the request does to the membership of `x` in `k` -/
def flipOf (k x : Bytes) : List Bytes → Option Bool
  | name :: key :: rest =>
    if key = k then
      if lower name = b! "sadd" then if x ∈ rest then some true else none
      else if lower name = b! "srem" then if x ∈ rest then some false else none
      else if lower name = b! "del" then some false else none
    else none
  | _ => none

theorem flipOf_iff {k x : Bytes} {req : List Bytes} {b : Bool} : flipOf k x req = some b ↔ Flips k x req b := by
  match req with
  | [] => exact ⟨nofun, by rintro (⟨_, _, h, _⟩ | ⟨_, _, h, _⟩ | ⟨_, _, h, _⟩) <;> cases h⟩
  | [_] => exact ⟨nofun, by rintro (⟨_, _, h, _⟩ | ⟨_, _, h, _⟩ | ⟨_, _, h, _⟩) <;> cases h⟩
  | name :: key :: rest =>
    show (if key = k then if lower name = b! "sadd" then if x ∈ rest then some true else none
      else if lower name = b! "srem" then if x ∈ rest then some false else none
      else if lower name = b! "del" then some false else none else none) = some b ↔ _
    constructor
    · intro h
      split at h
      · next hk =>
        subst hk
        split at h
        · next hn =>
          split at h
          · next hx => cases h; exact .inl ⟨name, rest, rfl, hn, hx, rfl⟩
          · cases h
        · split at h
          · next hn =>
            split at h
            · next hx => cases h; exact .inr (.inl ⟨name, rest, rfl, hn, hx, rfl⟩)
            · cases h
          · split at h
            · next hn => cases h; exact .inr (.inr ⟨name, rest, rfl, hn, rfl⟩)
            · cases h
      · cases h
    · rintro (⟨n, r, h, hn, hx, rfl⟩ | ⟨n, r, h, hn, hx, rfl⟩ | ⟨n, r, h, hn, rfl⟩)
      · cases h; rw [if_pos rfl, if_pos hn, if_pos hx]
      · cases h; rw [if_pos rfl, if_neg (by rw [hn]; decide), if_pos hn, if_pos hx]
      · cases h; rw [if_pos rfl, if_neg (by rw [hn]; decide), if_neg (by rw [hn]; decide), if_pos hn]

theorem mem_heldStep {k x : Bytes} {X : Finset Bytes} {req : List Bytes} :
    x ∈ heldStep k X req ↔ (flipOf k x req).getD (decide (x ∈ X)) = true := by
  match req with
  | [] => simp [heldStep, flipOf]
  | [_] => simp [heldStep, flipOf]
  | name :: key :: rest =>
    simp only [heldStep, flipOf]
    by_cases hk : key = k
    · simp only [if_pos hk]
      by_cases h1 : lower name = b! "sadd"
      · simp only [if_pos h1]; by_cases hx : x ∈ rest <;> simp [hx]
      · simp only [if_neg h1]
        by_cases h2 : lower name = b! "srem"
        · simp only [if_pos h2]; by_cases hx : x ∈ rest <;> simp [hx]
        · simp only [if_neg h2]
          by_cases h3 : lower name = b! "del"
          · simp [if_pos h3]
          · simp [if_neg h3]
    · simp [if_neg hk]

/-! ## a key used with RPUSH only -/

theorem popped_none {k : Bytes} {tr : List (List Bytes × Reply)} (hu : OnlyUses k [b! "rpush"] tr) :
    ListSpec.popped [b! "lpop"] k tr = [] := by
  unfold ListSpec.popped
  rw [List.flatMap_eq_nil_iff]
  rintro ⟨req, m⟩ hp
  match req, hp with
  | [], _ => rfl
  | [_], _ => rfl
  | name :: key :: vs, hp =>
    show (if lower name ∈ [b! "lpop"] ∧ key = k then _ else []) = []
    rw [if_neg]
    rintro ⟨hn, rfl⟩
    rw [List.mem_singleton] at hn
    have := hu _ hp
    simp only [List.headD_cons, List.tail_cons, hn] at this
    rcases this (List.mem_singleton.mpr rfl) with h | h <;> exact absurd h (by decide)

theorem log_trace {ext rng tr s k} (h : Trace ext (Store.init rng) tr s) (hp : ∀ p ∈ tr, Plain p.1) (hu : OnlyUses k [b! "rpush"] tr) :
    SeqView (ListSpec.after k tr) ∧ ListSpec.elems (ListSpec.after k tr) = ListSpec.pushed [b! "rpush"] k tr := by
  have hu' : OnlyUses k [b! "rpush", b! "lpop"] tr := fun p hq hk => by
    rcases hu p hq hk with h | h
    · exact .inl (by rw [List.mem_singleton.mp h]; decide)
    · exact .inr h
  obtain ⟨h1, h2⟩ := fifo_trace h hp hu'
  rw [popped_none hu, List.nil_append] at h2
  exact ⟨h1, h2.symm⟩

theorem log_hears {ext rng A req m B s k} (h : Trace ext (Store.init rng) (A ++ (req, m) :: B) s)
    (hp : ∀ p ∈ A ++ (req, m) :: B, Plain p.1) (hu : OnlyUses k [b! "rpush"] (A ++ (req, m) :: B)) :
    HearsList k (ListSpec.pushed [b! "rpush"] k A) req m ∧
    ∀ name vs, req = name :: k :: vs → lower name = b! "rpush" → vs ≠ [] →
      m = .int ((ListSpec.pushed [b! "rpush"] k A).length + vs.length) := by
  obtain ⟨s1, it, s2, h1, ha, _⟩ := h.mid
  obtain ⟨hv, he⟩ := log_trace h1 (fun p hq => hp p (by simp [hq])) (fun p hq => hu p (by simp [hq]))
  have hm := h1.lmatch (fun p hq => hp p (by simp [hq])) k
  have hpl : Plain req := hp (req, m) (by simp)
  refine ⟨⟨?_, ?_⟩, ?_⟩
  · rintro name a b rest i j rfl hn hi hj
    refine list_reply hm hpl ?_ ha
    rw [hn, reply_lrange, if_neg hv.ne_lost]
    simp only [hi, hj, if_neg hv.ne_other, he]
  · rintro ⟨name, args, rfl, hn⟩
    refine list_reply hm hpl ?_ ha
    rw [hn, reply_llen, if_neg hv.ne_lost, if_neg hv.ne_other, he]
  · rintro name vs rfl hn hvs
    refine list_reply hm hpl ?_ ha
    rw [hn, reply_rpush, if_neg hv.ne_lost, if_neg hvs, if_neg hv.ne_other, he]

theorem window_middle (a v c : List Bytes) (hv : v ≠ []) : ListSpec.window (a ++ v ++ c) a.length (a.length + v.length - 1) = v := by
  have hl : 0 < v.length := List.length_pos_iff.mpr hv
  have p1 : ∀ n : Nat, ListSpec.position (a ++ v ++ c) n = n := fun n => by
    unfold ListSpec.position; rw [if_neg (by omega)]
  have p2 : ListSpec.position (a ++ v ++ c) ((a.length : Int) + v.length - 1) = (a.length : Int) + v.length - 1 := by
    unfold ListSpec.position; rw [if_neg (by omega)]
  unfold ListSpec.window
  rw [p1, p2, List.zipIdx_append, List.zipIdx_append, List.filter_append, List.filter_append]
  have f1 : a.zipIdx.filter (fun p => decide ((a.length : Int) ≤ p.2 ∧ (p.2 : Int) ≤ (a.length : Int) + v.length - 1)) = [] := by
    rw [List.filter_eq_nil_iff]
    rintro ⟨x, n⟩ hx
    have h2 := List.snd_lt_add_of_mem_zipIdx hx
    simp only [decide_eq_true_eq, not_and, not_le]
    simp only at h2
    omega
  have f2 : (v.zipIdx (0 + a.length)).filter (fun p => decide ((a.length : Int) ≤ p.2 ∧ (p.2 : Int) ≤ (a.length : Int) + v.length - 1)) =
      v.zipIdx (0 + a.length) := by
    rw [List.filter_eq_self]
    rintro ⟨x, n⟩ hx
    have h1 := List.le_snd_of_mem_zipIdx hx
    have h2 := List.snd_lt_add_of_mem_zipIdx hx
    simp only [decide_eq_true_eq]
    simp only at h1 h2
    omega
  have f3 : (c.zipIdx (0 + (a ++ v).length)).filter (fun p => decide ((a.length : Int) ≤ p.2 ∧ (p.2 : Int) ≤ (a.length : Int) + v.length - 1)) = [] := by
    rw [List.filter_eq_nil_iff]
    rintro ⟨x, n⟩ hx
    have := List.le_snd_of_mem_zipIdx hx
    simp only [List.length_append] at this
    simp only [decide_eq_true_eq, not_and, not_le]
    omega
  rw [f1, f2, f3]
  simp

end Godis

namespace Godis.Event
open Resp (Reply Denotes bulks)
open Linear (Before Op)
open StrSpec (lower isError int64)
open ListSpec (Plain OnlyUses)
open CoordSpec

/-- the executed requests before request `i` -/
def upto (ops : List Op) (i : Nat) : List Op := ops.takeWhile fun o => o.id ≠ i

theorem upto_prefix (ops : List Op) (i : Nat) : upto ops i <+: ops := List.takeWhile_prefix _

theorem upto_eq {ops A B : List Op} {p : Op} (hnd : (ops.map (·.id)).Nodup) (e : ops = A ++ p :: B) : upto ops p.id = A := by
  unfold upto
  rw [e, List.takeWhile_append_of_pos, List.takeWhile_cons_of_neg (by simp), List.append_nil]
  intro o ho
  rw [e, List.map_append, List.map_cons, List.nodup_append] at hnd
  have := hnd.2.2 o.id (List.mem_map_of_mem ho) p.id (by simp)
  simpa using this

theorem mem_upto_ne {ops : List Op} {i : Nat} {o : Op} (h : o ∈ upto ops i) : o.id ≠ i := by
  have := List.mem_takeWhile_imp h
  simpa using this

section
variable {ext : Ext} {rng : Rng} {L : List Label} {s : Store} {ops : List Op} {k : Bytes} {i j : Nat} {o : Op}

theorem mem_upto (he : Explains ext rng L s ops) (ho : o ∈ ops) (h : Answered (visible L) o.id i) : o ∈ upto ops i := by
  by_cases hi : ∃ p ∈ ops, p.id = i
  · obtain ⟨p, hp, rfl⟩ := hi
    obtain ⟨A, B, e⟩ := List.mem_iff_append.mp hp
    rw [upto_eq he.nodup e]
    exact mem_of_before (List.Nodup.of_map _ he.nodup) e (he.order o ho p hp h)
  · unfold upto
    rw [List.takeWhile_eq_self_iff.mpr]
    · exact ho
    · intro q hq
      simpa using fun hh => hi ⟨q, hq, hh⟩

theorem not_answered_of_upto (he : Explains ext rng L s ops) (ho : o ∈ upto ops i) : ¬ Answered (visible L) i o.id := by
  intro h
  obtain ⟨p, hp, rfl⟩ := he.done _ _ h
  obtain ⟨A, B, e⟩ := List.mem_iff_append.mp hp
  rw [upto_eq he.nodup e] at ho
  have hnd : ops.Nodup := List.Nodup.of_map _ he.nodup
  exact before_asymm hnd (before_of_mem e ho) (he.order p hp o (by rw [e]; simp [ho]) h)

theorem upto_mono (he : Explains ext rng L s ops) (h : Answered (visible L) i j) : ∃ p, p.id = i ∧ upto ops i ++ [p] <+: upto ops j := by
  obtain ⟨p, hp, rfl⟩ := he.done _ _ h
  obtain ⟨A, B, e⟩ := List.mem_iff_append.mp hp
  have h1 := mem_upto he hp h
  refine ⟨p, rfl, ?_⟩
  have e1 := upto_eq he.nodup e
  have h2 : A ++ [p] <+: ops := ⟨B, by rw [e]; simp⟩
  rw [e1]
  rcases List.prefix_or_prefix_of_prefix h2 (upto_prefix ops j) with h3 | h3
  · exact h3
  · rcases List.prefix_concat_iff.mp h3 with h4 | h4
    · rw [h4]
    · exfalso
      rw [← e1] at h4
      exact mem_upto_ne (h4.subset h1) rfl

end

/-! ## membership -/

theorem lastFlip_cases (k x : Bytes) (A : List Op) :
    (∃ A1 o A2, A = A1 ++ o :: A2 ∧ (∃ b, flipOf k x o.req = some b ∧ (x ∈ held k (A.map pair) ↔ b = true)) ∧ ∀ o' ∈ A2, flipOf k x o'.req = none) ∨
    (x ∉ held k (A.map pair) ∧ ∀ o' ∈ A, flipOf k x o'.req = none) := by
  induction A using List.reverseRecOn with
  | nil => exact .inr ⟨by simp [held], by simp⟩
  | append_singleton A o ih =>
    have e : x ∈ held k ((A ++ [o]).map pair) ↔ (flipOf k x o.req).getD (decide (x ∈ held k (A.map pair))) = true := by
      rw [List.map_append, List.map_singleton, held_snoc, mem_heldStep]; rfl
    cases hq : flipOf k x o.req with
    | some b => exact .inl ⟨A, o, [], rfl, ⟨b, hq, by rw [e, hq]; rfl⟩, by simp⟩
    | none =>
      rw [hq] at e
      simp only [Option.getD_none, decide_eq_true_eq] at e
      rcases ih with ⟨A1, o1, A2, rfl, ⟨b, h1, h1'⟩, h2⟩ | ⟨h1, h2⟩
      · refine .inl ⟨A1, o1, A2 ++ [o], by simp, ⟨b, h1, e.trans h1'⟩, fun o' ho' => ?_⟩
        rcases List.mem_append.mp ho' with h | h
        · exact h2 o' h
        · rw [List.mem_singleton.mp h]; exact hq
      · refine .inr ⟨fun hx => h1 (e.mp hx), fun o' ho' => ?_⟩
        rcases List.mem_append.mp ho' with h | h
        · exact h2 o' h
        · rw [List.mem_singleton.mp h]; exact hq

theorem set_hears {ext rng L s ops k} (he : Explains ext rng L s ops) (hr : Reserved Decodes (visible L) k [b! "sadd", b! "srem", b! "del"])
    {A B : List Op} {p : Op} (e : ops = A ++ p :: B) : HearsSet k (held k (A.map pair)) p.req p.reply := by
  have e' : ops.map pair = A.map pair ++ (p.req, p.reply) :: B.map pair := by rw [e]; simp [pair]
  exact held_hears (e' ▸ he.trace) (e' ▸ he.plain hr) (e' ▸ he.uses hr)

/-- **C81 (membership).**  If all clients use `k` only with SADD, SREM, DEL and reads, then SMEMBERS and SISMEMBER of `k` tell of a
set `X` of which this is true for every `x`: whether `x` is in `X` was decided by a SADD or SREM naming `x`, or a DEL, that was not
sent only after the reply, and that was not followed by another one which was answered before the question was sent and sent after
the first was answered; or `x` is not in `X`, and no SADD or SREM naming it and no DEL was answered before the question was sent. -/
theorem C81_member {ext rng L σ k} (h : Run ext 1 rng L σ) (hr : Reserved Decodes (visible L) k [b! "sadd", b! "srem", b! "del"])
    {i req m} (si : Sent Decodes (visible L) i req) (gi : Got (visible L) i m) :
    ∃ X, HearsSet k X req m ∧ ∀ x,
      (∃ j r b, Sent Decodes (visible L) j r ∧ Flips k x r b ∧ (x ∈ X ↔ b = true) ∧ ¬ Answered (visible L) i j ∧
          ∀ j' r' b', Sent Decodes (visible L) j' r' → Flips k x r' b' → ¬ (Answered (visible L) j j' ∧ Answered (visible L) j' i)) ∨
      (x ∉ X ∧ ∀ j r b, Sent Decodes (visible L) j r → Flips k x r b → ¬ Answered (visible L) j i) := by
  obtain ⟨ops, he⟩ := explained h
  have hnd : ops.Nodup := List.Nodup.of_map _ he.nodup
  obtain ⟨p, hp, rfl, rfl⟩ := he.got _ _ gi
  obtain rfl := sent_unique h si (he.sent p hp)
  obtain ⟨A, B, e⟩ := List.mem_iff_append.mp hp
  refine ⟨_, set_hears he hr e, fun x => ?_⟩
  rcases lastFlip_cases k x A with ⟨A1, o, A2, rfl, ⟨b, h1, h1'⟩, h2⟩ | ⟨h1, h2⟩
  · have ho : o ∈ ops := by rw [e]; simp
    refine .inl ⟨o.id, o.req, b, he.sent o ho, flipOf_iff.mp h1, h1', fun ha => ?_, ?_⟩
    · exact before_asymm hnd (before_of_mem e (by simp)) (he.order p hp o ho ha)
    · rintro j' r' w' sj' hw' ⟨ha1, ha2⟩
      obtain ⟨o', ho', rfl⟩ := he.done _ _ ha2
      rw [sent_unique h sj' (he.sent o' ho')] at hw'
      have b1 := he.order o ho o' ho' ha1
      have b2 := mem_of_before hnd e (he.order o' ho' p hp ha2)
      simp only [List.mem_append, List.mem_cons] at b2
      have e2 : ops = A1 ++ o :: (A2 ++ p :: B) := by rw [e]; simp
      rcases b2 with b2 | rfl | b2
      · exact before_asymm hnd b1 (before_of_mem e2 b2)
      · exact before_asymm hnd b1 b1
      · have := h2 o' b2
        rw [flipOf_iff.mpr hw'] at this
        cases this
  · refine .inr ⟨h1, fun j r w' sj hw' ha => ?_⟩
    obtain ⟨o', ho', rfl⟩ := he.done _ _ ha
    rw [sent_unique h sj (he.sent o' ho')] at hw'
    have := h2 o' (mem_of_before hnd e (he.order o' ho' p hp ha))
    rw [flipOf_iff.mpr hw'] at this
    cases this

/-! ## a growing set -/

theorem flip_true {k x : Bytes} {o : Op} (hu : k ∈ KeySpec.keyArgs (lower (o.req.headD [])) o.req.tail →
    lower (o.req.headD []) ∈ [b! "sadd"] ∨ lower (o.req.headD []) ∈ KeySpec.readOnly) {b} (hf : flipOf k x o.req = some b) : b = true := by
  rcases flipOf_iff.mp hf with ⟨_, _, _, _, _, hb⟩ | ⟨n, r, h, hn, _, _⟩ | ⟨n, r, h, hn, _⟩
  · exact hb
  · exfalso
    rw [h] at hu
    simp only [List.headD_cons, List.tail_cons] at hu
    rw [hn] at hu
    rcases hu (List.mem_singleton.mpr rfl) with h | h <;> exact absurd h (by decide)
  · exfalso
    rw [h] at hu
    simp only [List.headD_cons, List.tail_cons] at hu
    rw [hn] at hu
    rcases hu (List.mem_singleton.mpr rfl) with h | h <;> exact absurd h (by decide)

theorem mem_held_grow {k x : Bytes} : ∀ {A : List Op}, (∀ o ∈ A, ∀ b, flipOf k x o.req = some b → b = true) →
    (x ∈ held k (A.map pair) ↔ ∃ o ∈ A, flipOf k x o.req = some true) := by
  intro A hA
  rcases lastFlip_cases k x A with ⟨A1, o, A2, rfl, ⟨b, h1, h1'⟩, h2⟩ | ⟨h1, h2⟩
  · have hb := hA o (by simp) b h1
    subst hb
    exact ⟨fun _ => ⟨o, by simp, h1⟩, fun _ => h1'.mpr rfl⟩
  · refine ⟨fun h => absurd h h1, ?_⟩
    rintro ⟨o, ho, h⟩
    rw [h2 o ho] at h; cases h

/-- **C81 (snapshots).**  If all clients use `k` only with SADD and reads, then there is a set `S i` for each request `i`, such that
SMEMBERS and SISMEMBER of `k` tell of that set, which consists of members named by SADDs that were not sent after the reply, and has
all those named by SADDs answered before the request was sent; of any two of these sets one contains the other, and what was sent
after a reply has at least its set. -/
theorem C81_snapshots {ext rng L σ k} (h : Run ext 1 rng L σ) (hr : Reserved Decodes (visible L) k [b! "sadd"]) :
    ∃ S : Nat → Finset Bytes,
      (∀ i req m, Sent Decodes (visible L) i req → Got (visible L) i m → HearsSet k (S i) req m) ∧
      (∀ i x, x ∈ S i → ∃ j r, Sent Decodes (visible L) j r ∧ Flips k x r true ∧ ¬ Answered (visible L) i j) ∧
      (∀ i j r x, Sent Decodes (visible L) j r → Flips k x r true → Answered (visible L) j i → x ∈ S i) ∧
      (∀ i j, S i ⊆ S j ∨ S j ⊆ S i) ∧
      ∀ i j, Answered (visible L) i j → S i ⊆ S j := by
  obtain ⟨ops, he⟩ := explained h
  have hr' : Reserved Decodes (visible L) k [b! "sadd", b! "srem", b! "del"] := fun i req hs => by
    obtain ⟨h1, h2⟩ := hr i req hs
    refine ⟨h1, fun hk => (h2 hk).imp_left fun h => ?_⟩
    rw [List.mem_singleton.mp h]; decide
  have up : ∀ o ∈ ops, ∀ x b, flipOf k x o.req = some b → b = true := fun o ho x b hf => flip_true (hr _ _ (he.sent o ho)).2 hf
  have hm : ∀ i x, x ∈ held k ((upto ops i).map pair) ↔ ∃ o ∈ upto ops i, flipOf k x o.req = some true := fun i x =>
    mem_held_grow fun o ho b hf => up o ((upto_prefix ops i).subset ho) x b hf
  have mono : ∀ {i j}, upto ops i <+: upto ops j → held k ((upto ops i).map pair) ⊆ held k ((upto ops j).map pair) := by
    intro i j hp x hx
    obtain ⟨o, ho, hf⟩ := (hm i x).mp hx
    exact (hm j x).mpr ⟨o, hp.subset ho, hf⟩
  refine ⟨fun i => held k ((upto ops i).map pair), ?_, ?_, ?_, ?_, ?_⟩
  · intro i req m si gi
    obtain ⟨p, hp, rfl, rfl⟩ := he.got _ _ gi
    obtain rfl := sent_unique h si (he.sent p hp)
    obtain ⟨A, B, e⟩ := List.mem_iff_append.mp hp
    simp only
    rw [upto_eq he.nodup e]
    exact set_hears he hr' e
  · intro i x hx
    obtain ⟨o, ho, hf⟩ := (hm i x).mp hx
    exact ⟨o.id, o.req, he.sent o ((upto_prefix ops i).subset ho), flipOf_iff.mp hf, not_answered_of_upto he ho⟩
  · intro i j r x sj hf ha
    obtain ⟨o, ho, rfl⟩ := he.done _ _ ha
    rw [sent_unique h sj (he.sent o ho)] at hf
    exact (hm i x).mpr ⟨o, mem_upto he ho ha, flipOf_iff.mpr hf⟩
  · intro i j
    rcases List.prefix_or_prefix_of_prefix (upto_prefix ops i) (upto_prefix ops j) with h | h
    · exact .inl (mono h)
    · exact .inr (mono h)
  · intro i j ha
    obtain ⟨p, _, hp⟩ := upto_mono he ha
    exact mono ((List.prefix_append _ _).trans hp)

/-! ## a growing log -/

/-- the entry that the executed request makes -/
def entry (k : Bytes) (o : Op) : Option (Nat × List Bytes) := if pushes k o = [] then none else some (o.id, pushes k o)

theorem entries_flat (k : Bytes) (A : List Op) : (A.filterMap (entry k)).flatMap (·.2) = A.flatMap (pushes k) := by
  induction A with
  | nil => rfl
  | cons o A ih =>
    rw [List.filterMap_cons]
    by_cases hq : pushes k o = []
    · rw [entry, if_pos hq]; simp [ih, hq]
    · rw [entry, if_neg hq]; simp [ih]

theorem entry_iff {k : Bytes} {o : Op} {e} : entry k o = some e ↔ pushes k o ≠ [] ∧ e = (o.id, pushes k o) := by
  unfold entry
  split
  · next h => simp [h]
  · next h => simp [h, eq_comm]

theorem pushes_rpush {k name : Bytes} {vs : List Bytes} {o : Op} (h : o.req = name :: k :: vs) (hn : lower name = b! "rpush")
    (he : isError o.reply = false) : pushes k o = vs := by
  unfold pushes pair
  rw [h]
  show (if lower name ∈ [b! "rpush"] ∧ k = k ∧ isError o.reply = false then vs else []) = vs
  rw [if_pos ⟨by rw [hn]; simp, rfl, he⟩]

/-- **C81 (log).**  If all clients use `k` only with RPUSH and reads, then there are a list `ps` of requests with what they appended,
and for each request `i` a number `seen i`, such that
`ps` has every RPUSH that was answered, each once, and only RPUSHes that were sent;
request `j` of `ps` stands at place `seen j`, and its reply counts the items up to and including its own;
a part of the list, or its length, that a request `i` asked for, is that of the items of the first `seen i` of `ps`;
what is sent after a reply sees at least as much, and also the items of that request;
and nobody sees the items of requests sent after the reply. -/
theorem C81_log {ext rng L σ k} (h : Run ext 1 rng L σ) (hr : Reserved Decodes (visible L) k [b! "rpush"]) :
    ∃ (ps : List (Nat × List Bytes)) (seen : Nat → Nat),
      (ps.map (·.1)).Nodup ∧
      (∀ j vs, (j, vs) ∈ ps → vs ≠ [] ∧ (∃ name, Sent Decodes (visible L) j (name :: k :: vs) ∧ lower name = b! "rpush") ∧
        ps[seen j]? = some (j, vs)) ∧
      (∀ j name vs m, Sent Decodes (visible L) j (name :: k :: vs) → lower name = b! "rpush" → vs ≠ [] → Got (visible L) j m →
        (j, vs) ∈ ps ∧ m = .int (((ps.take (seen j)).flatMap (·.2)).length + vs.length)) ∧
      (∀ i req m, Sent Decodes (visible L) i req → Got (visible L) i m → HearsList k ((ps.take (seen i)).flatMap (·.2)) req m) ∧
      (∀ i j, Answered (visible L) i j → seen i ≤ seen j ∧ ∀ vs, (i, vs) ∈ ps → seen i < seen j) ∧
      ∀ i j vs, (j, vs) ∈ ps.take (seen i) → ¬ Answered (visible L) i j := by
  obtain ⟨ops, he⟩ := explained h
  have split : ∀ {A B : List Op}, ops = A ++ B → (ops.filterMap (entry k)).take (A.filterMap (entry k)).length = A.filterMap (entry k) := by
    intro A B e
    rw [e, List.filterMap_append, List.take_left']
    rfl
  have tk : ∀ i, (ops.filterMap (entry k)).take ((upto ops i).filterMap (entry k)).length = (upto ops i).filterMap (entry k) := by
    intro i
    obtain ⟨B, e⟩ := upto_prefix ops i
    exact split e.symm
  have hears : ∀ {A B : List Op} {p : Op}, ops = A ++ p :: B → HearsList k ((A.filterMap (entry k)).flatMap (·.2)) p.req p.reply ∧
      ∀ name vs, p.req = name :: k :: vs → lower name = b! "rpush" → vs ≠ [] →
        p.reply = .int (((A.filterMap (entry k)).flatMap (·.2)).length + vs.length) := by
    intro A B p e
    have e' : ops.map pair = A.map pair ++ (p.req, p.reply) :: B.map pair := by rw [e]; simp [pair]
    have := log_hears (e' ▸ he.trace) (e' ▸ he.plain hr) (e' ▸ he.uses hr)
    rw [pushed_eq, ← entries_flat] at this
    exact this
  have mem : ∀ {j vs}, (j, vs) ∈ ops.filterMap (entry k) → ∃ o ∈ ops, o.id = j ∧ pushes k o = vs ∧ vs ≠ [] := by
    intro j vs hj
    obtain ⟨o, ho, hoe⟩ := List.mem_filterMap.mp hj
    obtain ⟨h1, h2⟩ := entry_iff.mp hoe
    cases h2
    exact ⟨o, ho, rfl, rfl, h1⟩
  refine ⟨ops.filterMap (entry k), fun i => ((upto ops i).filterMap (entry k)).length, ?_, ?_, ?_, ?_, ?_, ?_⟩
  · have hs : ∀ l : List Op, ((l.filterMap (entry k)).map (·.1)).Sublist (l.map (·.id)) := by
      intro l
      induction l with
      | nil => exact .slnil
      | cons o l ih =>
        rw [List.filterMap_cons]
        cases ho : entry k o with
        | none => exact ih.cons _
        | some d => obtain ⟨_, rfl⟩ := entry_iff.mp ho; exact ih.cons_cons _
    exact (hs ops).nodup he.nodup
  · intro j vs hj
    obtain ⟨o, ho, rfl, rfl, hne⟩ := mem hj
    obtain ⟨x, hx⟩ := List.exists_mem_of_ne_nil _ hne
    obtain ⟨name, e1, e2⟩ := mem_pushes hx
    refine ⟨hne, ⟨name, e1 ▸ he.sent o ho, e2⟩, ?_⟩
    obtain ⟨A, B, e⟩ := List.mem_iff_append.mp ho
    simp only
    rw [upto_eq he.nodup e]
    conv_lhs => rw [e, List.filterMap_append, List.filterMap_cons, entry_iff.mpr ⟨hne, rfl⟩]
    simp
  · intro j name vs m sj hn hvs gj
    obtain ⟨o, ho, rfl, rfl⟩ := he.got _ _ gj
    obtain ⟨A, B, e⟩ := List.mem_iff_append.mp ho
    have hreq := sent_unique h (he.sent o ho) sj
    have hm := (hears e).2 name vs hreq hn hvs
    have hp : pushes k o = vs := pushes_rpush hreq hn (by rw [hm]; rfl)
    refine ⟨List.mem_filterMap.mpr ⟨o, ho, entry_iff.mpr ⟨by rw [hp]; exact hvs, by rw [hp]⟩⟩, ?_⟩
    simp only
    rw [tk, upto_eq he.nodup e]
    exact hm
  · intro i req m si gi
    obtain ⟨p, hp, rfl, rfl⟩ := he.got _ _ gi
    obtain rfl := sent_unique h si (he.sent p hp)
    obtain ⟨A, B, e⟩ := List.mem_iff_append.mp hp
    simp only
    rw [tk, upto_eq he.nodup e]
    exact (hears e).1
  · intro i j ha
    obtain ⟨p, rfl, hp⟩ := upto_mono he ha
    have hf := hp.filterMap (entry k)
    rw [List.filterMap_append] at hf
    have hl := hf.length_le
    rw [List.length_append] at hl
    simp only
    refine ⟨by omega, fun vs hvs => ?_⟩
    obtain ⟨o, ho, hid, hpu, hne⟩ := mem hvs
    have hpo : p ∈ ops := (upto_prefix ops j).subset (hp.subset (by simp))
    have : o = p := List.inj_on_of_nodup_map he.nodup ho hpo hid
    subst this
    have : [o].filterMap (entry k) = [(o.id, pushes k o)] := by
      rw [List.filterMap_cons, entry_iff.mpr ⟨by rw [hpu]; exact hne, rfl⟩]; rfl
    rw [this] at hl
    simp only [List.length_cons, List.length_nil] at hl
    omega
  · intro i j vs hj
    simp only at hj
    rw [tk] at hj
    obtain ⟨o, ho, hoe⟩ := List.mem_filterMap.mp hj
    obtain ⟨h1, h2⟩ := entry_iff.mp hoe
    cases h2
    exact not_answered_of_upto he ho

/-- **C81 (an item's place).**  The number that RPUSH replies tells where its items are: an LRANGE over these places that is sent after
the reply lists exactly these items, whatever the other clients append. -/
theorem C81_place {ext rng L σ k} (h : Run ext 1 rng L σ) (hr : Reserved Decodes (visible L) k [b! "rpush"])
    {j name vs n} (sj : Sent Decodes (visible L) j (name :: k :: vs)) (hn : lower name = b! "rpush") (hvs : vs ≠ [])
    (gj : Got (visible L) j (.int n))
    {i name' a b rest m} (si : Sent Decodes (visible L) i (name' :: k :: a :: b :: rest)) (hn' : lower name' = b! "lrange")
    (ha : int64 a = some (n - vs.length)) (hb : int64 b = some (n - 1)) (gi : Got (visible L) i m) (hji : Answered (visible L) j i) :
    m = bulks vs := by
  obtain ⟨ps, seen, _, h2, h3, h4, h5, _⟩ := C81_log h hr
  obtain ⟨hp, hm⟩ := h3 j name vs _ sj hn hvs gj
  obtain ⟨_, hlt⟩ := h5 j i hji
  have hlt := hlt vs hp
  have hget := (h2 j vs hp).2.2
  injection hm with hm
  have e : ps.take (seen i) = ps.take (seen j) ++ (j, vs) :: (ps.take (seen i)).drop (seen j + 1) := by
    have h1 : (ps.take (seen i))[seen j]? = some (j, vs) := by rw [List.getElem?_take_of_lt hlt, hget]
    obtain ⟨hl, h2⟩ := List.getElem?_eq_some_iff.mp h1
    conv_lhs => rw [← List.take_append_drop (seen j) (ps.take (seen i)), List.drop_eq_getElem_cons hl, h2]
    rw [List.take_take, Nat.min_eq_left (Nat.le_of_lt hlt)]
  have hl := (h4 i _ m si gi).1 name' a b rest _ _ rfl hn' ha hb
  rw [hl, e, List.flatMap_append, List.flatMap_cons, hm, ← List.append_assoc]
  have e1 : ((((ps.take (seen j)).flatMap (·.2)).length : Int) + vs.length) - vs.length = ((ps.take (seen j)).flatMap (·.2)).length := by omega
  rw [e1, window_middle _ _ _ hvs]

/-- **C81 (readers agree).**  Of what two LRANGE `k` 0 -1 list, one is the beginning of the other; the one sent after the other's reply
lists at least as much. -/
theorem C81_agree {ext rng L σ k} (h : Run ext 1 rng L σ) (hr : Reserved Decodes (visible L) k [b! "rpush"])
    {i j name name' m m'} (si : Sent Decodes (visible L) i [name, k, b! "0", b! "-1"]) (hn : lower name = b! "lrange") (gi : Got (visible L) i m)
    (sj : Sent Decodes (visible L) j [name', k, b! "0", b! "-1"]) (hn' : lower name' = b! "lrange") (gj : Got (visible L) j m') :
    ∃ l l', m = bulks l ∧ m' = bulks l' ∧ (l <+: l' ∨ l' <+: l) ∧ (Answered (visible L) i j → l <+: l') := by
  obtain ⟨ps, seen, _, _, _, h4, h5, _⟩ := C81_log h hr
  have a1 := (h4 i _ m si gi).1 name _ _ [] 0 (-1) rfl hn (by decide) (by decide)
  have a2 := (h4 j _ m' sj gj).1 name' _ _ [] 0 (-1) rfl hn' (by decide) (by decide)
  rw [window_all] at a1 a2
  have mono : ∀ {a b : Nat}, a ≤ b → (ps.take a).flatMap (·.2) <+: (ps.take b).flatMap (·.2) := by
    intro a b hab
    obtain ⟨t, ht⟩ := List.take_prefix_take_left (l := ps) hab
    rw [← ht, List.flatMap_append]
    exact List.prefix_append _ _
  refine ⟨_, _, a1, a2, ?_, fun ha => mono (h5 i j ha).1⟩
  rcases Nat.le_total (seen i) (seen j) with h | h
  · exact .inl (mono h)
  · exact .inr (mono h)

/-! ## the hypotheses are met -/

def lrangeQ : Bytes := b! "*4\r\n$6\r\nLRANGE\r\n$1\r\nq\r\n$1\r\n1\r\n$1\r\n1\r\n"
def lrangeAll : Bytes := b! "*4\r\n$6\r\nlrange\r\n$1\r\nq\r\n$1\r\n0\r\n$2\r\n-1\r\n"
theorem lrangeQ_request : Decodes lrangeQ [b! "LRANGE", b! "q", b! "1", b! "1"] :=
  decodes_of ⟨b! "4", _, by decide, (.cons (d := b! "6") (by decide) (.cons (d := b! "1") (by decide) (.cons (d := b! "1") (by decide) (.cons (d := b! "1") (by decide) .nil)))), by decide⟩ (by decide) (by decide)
theorem lrangeAll_request : Decodes lrangeAll [b! "lrange", b! "q", b! "0", b! "-1"] :=
  decodes_of ⟨b! "4", _, by decide, (.cons (d := b! "6") (by decide) (.cons (d := b! "1") (by decide) (.cons (d := b! "1") (by decide) (.cons (d := b! "2") (by decide) .nil)))), by decide⟩ (by decide) (by decide)

theorem not_gaveUp_int {b : Bytes} {n : Int} (h : ∀ f rest, Resp.parse (f + 1) (b ++ rest) = some (.int n, rest)) : ¬ Denotes b Linear.gaveUp := by
  intro h'
  have : Denotes b (.int n) := ⟨1, fun f hf rest => by obtain ⟨f, rfl⟩ : ∃ g, f = g + 1 := ⟨f - 1, by omega⟩; exact h f rest⟩
  have := denotes_unique h' this
  cases this

/-- Case of the log theorems: client 0 appends `a`, client 1 appends `b` and is told 2, client 0 reads the whole list, client 1 reads
place 1 and finds `b`. -/
example : ∃ L σ, Run ext0 1 rng0 L σ ∧ Reserved Decodes (visible L) (b! "q") [b! "rpush"] ∧
    Sent Decodes (visible L) 1 [b! "RPUSH", b! "q", b! "b"] ∧ Got (visible L) 1 (.int 2) ∧
    Sent Decodes (visible L) 2 [b! "lrange", b! "q", b! "0", b! "-1"] ∧ Got (visible L) 2 (bulks [b! "a", b! "b"]) ∧
    Sent Decodes (visible L) 3 [b! "LRANGE", b! "q", b! "1", b! "1"] ∧ Got (visible L) 3 (bulks [b! "b"]) ∧
    int64 (b! "1") = some (2 - ([b! "b"] : List Bytes).length) ∧ int64 (b! "1") = some (2 - 1) ∧ Answered (visible L) 1 3 := by
  have hd : (trySchedule ext0 it0 1 rng0 (whole 0 0 rpushQ ++ whole 1 1 rpushQb ++ whole 2 0 lrangeAll ++ whole 3 1 lrangeQ)).map (fun p => visible p.1) =
      some [.call 0 0 rpushQ, .ret 0 0 (b! ":1\r\n"), .call 1 1 rpushQb, .ret 1 1 (b! ":2\r\n"),
        .call 2 0 lrangeAll, .ret 2 0 (b! "*2\r\n$1\r\na\r\n$1\r\nb\r\n"), .call 3 1 lrangeQ, .ret 3 1 (b! "*1\r\n$1\r\nb\r\n")] := by decide +kernel
  obtain ⟨r, hr, hv⟩ := Option.map_eq_some_iff.mp hd
  refine ⟨r.1, r.2, try_run hr, ?_, ⟨1, rpushQb, by rw [hv]; simp, decodes_rpushQb⟩, ⟨1, b! ":2\r\n", by rw [hv]; simp, ?_, nofun⟩,
    ⟨0, lrangeAll, by rw [hv]; simp, lrangeAll_request⟩, ⟨0, b! "*2\r\n$1\r\na\r\n$1\r\nb\r\n", by rw [hv]; simp, ?_, nofun⟩,
    ⟨1, lrangeQ, by rw [hv]; simp, lrangeQ_request⟩, ⟨1, b! "*1\r\n$1\r\nb\r\n", by rw [hv]; simp, ?_, nofun⟩, by decide, by decide,
    ⟨1, b! ":2\r\n", 1, lrangeQ, by rw [hv]; exact ⟨[_, _, _], [_, _], _, rfl⟩, not_gaveUp_int (n := 2) fun f rest => rfl⟩⟩
  · rintro i req ⟨c, b, h1, h2⟩
    rw [hv] at h1
    simp only [List.mem_cons, Linear.Ev.call.injEq, reduceCtorEq, List.not_mem_nil, or_false, false_or] at h1
    rcases h1 with ⟨_, _, rfl⟩ | ⟨_, _, rfl⟩ | ⟨_, _, rfl⟩ | ⟨_, _, rfl⟩
    · obtain rfl := decodes_det h2 decodes_rpushQ; exact ⟨by unfold Plain StrSpec.Ascii; decide, fun _ => by decide⟩
    · obtain rfl := decodes_det h2 decodes_rpushQb; exact ⟨by unfold Plain StrSpec.Ascii; decide, fun _ => by decide⟩
    · obtain rfl := decodes_det h2 lrangeAll_request; exact ⟨by unfold Plain StrSpec.Ascii; decide, fun _ => by decide⟩
    · obtain rfl := decodes_det h2 lrangeQ_request; exact ⟨by unfold Plain StrSpec.Ascii; decide, fun _ => by decide⟩
  · exact ⟨1, fun f hf rest => by obtain ⟨f, rfl⟩ : ∃ g, f = g + 1 := ⟨f - 1, by omega⟩; rfl⟩
  · exact isRequest_denotes ⟨b! "2", _, by decide, (.cons (d := b! "1") (by decide) (.cons (d := b! "1") (by decide) .nil)), rfl⟩
  · exact isRequest_denotes ⟨b! "1", _, by decide, (.cons (d := b! "1") (by decide) .nil), rfl⟩

def smembersS : Bytes := b! "*2\r\n$8\r\nSMEMBERS\r\n$1\r\ns\r\n"
def sismemberS : Bytes := b! "*3\r\n$9\r\nSISMEMBER\r\n$1\r\ns\r\n$1\r\nm\r\n"
theorem smembersS_request : Decodes smembersS [b! "SMEMBERS", b! "s"] :=
  decodes_of ⟨b! "2", _, by decide, (.cons (d := b! "8") (by decide) (.cons (d := b! "1") (by decide) .nil)), by decide⟩ (by decide) (by decide)
theorem sismemberS_request : Decodes sismemberS [b! "SISMEMBER", b! "s", b! "m"] :=
  decodes_of ⟨b! "3", _, by decide, (.cons (d := b! "9") (by decide) (.cons (d := b! "1") (by decide) (.cons (d := b! "1") (by decide) .nil))), by decide⟩ (by decide) (by decide)

/-- Case of the set theorems: client 1 asks for the members (none), client 0 adds `m`, client 1 asks whether `m` is in, client 0 asks
for the members. -/
example : ∃ L σ, Run ext0 1 rng0 L σ ∧ Reserved Decodes (visible L) (b! "s") [b! "sadd"] ∧
    Reserved Decodes (visible L) (b! "s") [b! "sadd", b! "srem", b! "del"] ∧
    Sent Decodes (visible L) 0 [b! "SMEMBERS", b! "s"] ∧ Got (visible L) 0 ListSpec.errNil ∧
    Sent Decodes (visible L) 1 [b! "SADD", b! "s", b! "m"] ∧ Flips (b! "s") (b! "m") [b! "SADD", b! "s", b! "m"] true ∧
    Sent Decodes (visible L) 2 [b! "SISMEMBER", b! "s", b! "m"] ∧ Got (visible L) 2 (.int 1) ∧
    Sent Decodes (visible L) 3 [b! "SMEMBERS", b! "s"] ∧ Got (visible L) 3 (bulks [b! "m"]) ∧
    Answered (visible L) 1 3 := by
  have hd : (trySchedule ext0 it0 1 rng0 (whole 0 1 smembersS ++ whole 1 0 saddS ++ whole 2 1 sismemberS ++ whole 3 0 smembersS)).map (fun p => visible p.1) =
      some [.call 0 1 smembersS, .ret 0 1 (b! "-redis: not found\r\n"), .call 1 0 saddS, .ret 1 0 (b! ":1\r\n"), .call 2 1 sismemberS, .ret 2 1 (b! ":1\r\n"),
        .call 3 0 smembersS, .ret 3 0 (b! "*1\r\n$1\r\nm\r\n")] := by decide +kernel
  obtain ⟨r, hr, hv⟩ := Option.map_eq_some_iff.mp hd
  have res : ∀ cmds : List Bytes, b! "sadd" ∈ cmds → Reserved Decodes (visible r.1) (b! "s") cmds := by
    rintro cmds hc i req ⟨c, b, h1, h2⟩
    rw [hv] at h1
    simp only [List.mem_cons, Linear.Ev.call.injEq, reduceCtorEq, List.not_mem_nil, or_false, false_or] at h1
    rcases h1 with ⟨_, _, rfl⟩ | ⟨_, _, rfl⟩ | ⟨_, _, rfl⟩ | ⟨_, _, rfl⟩
    · obtain rfl := decodes_det h2 smembersS_request; exact ⟨by unfold Plain StrSpec.Ascii; decide, fun _ => .inr (by decide)⟩
    · obtain rfl := decodes_det h2 decodes_saddS; exact ⟨by unfold Plain StrSpec.Ascii; decide, fun _ => .inl hc⟩
    · obtain rfl := decodes_det h2 sismemberS_request; exact ⟨by unfold Plain StrSpec.Ascii; decide, fun _ => .inr (by decide)⟩
    · obtain rfl := decodes_det h2 smembersS_request; exact ⟨by unfold Plain StrSpec.Ascii; decide, fun _ => .inr (by decide)⟩
  refine ⟨r.1, r.2, try_run hr, res _ (by decide), res _ (by decide), ⟨1, smembersS, by rw [hv]; simp, smembersS_request⟩,
    ⟨1, b! "-redis: not found\r\n", by rw [hv]; simp, ?_, nofun⟩, ⟨0, saddS, by rw [hv]; simp, decodes_saddS⟩, flipOf_iff.mp (by decide),
    ⟨1, sismemberS, by rw [hv]; simp, sismemberS_request⟩, ⟨1, b! ":1\r\n", by rw [hv]; simp, ?_, nofun⟩,
    ⟨0, smembersS, by rw [hv]; simp, smembersS_request⟩, ⟨0, b! "*1\r\n$1\r\nm\r\n", by rw [hv]; simp, ?_, nofun⟩,
    ⟨0, b! ":1\r\n", 0, smembersS, by rw [hv]; exact ⟨[_, _, _], [_, _], _, rfl⟩, not_gaveUp_int (n := 1) fun f rest => rfl⟩⟩
  · exact ⟨1, fun f hf rest => by obtain ⟨f, rfl⟩ : ∃ g, f = g + 1 := ⟨f - 1, by omega⟩; rfl⟩
  · exact ⟨1, fun f hf rest => by obtain ⟨f, rfl⟩ : ∃ g, f = g + 1 := ⟨f - 1, by omega⟩; rfl⟩
  · exact isRequest_denotes ⟨b! "1", _, by decide, (.cons (d := b! "1") (by decide) .nil), rfl⟩

end Godis.Event

namespace Godis.V1
open Resp (bulks)
open Event (Decodes visible)
open CoordSpec
open StrSpec (lower int64)

/-- C81, v1 server. -/
theorem C81_v1_member {ext rng L v k} (h : VRun ext rng L v) (hr : Reserved Decodes (visible (sysLabels L)) k [b! "sadd", b! "srem", b! "del"])
    {i req m} (si : Sent Decodes (visible (sysLabels L)) i req) (gi : Got (visible (sysLabels L)) i m) :
    ∃ X, HearsSet k X req m ∧ ∀ x,
      (∃ j r b, Sent Decodes (visible (sysLabels L)) j r ∧ Flips k x r b ∧ (x ∈ X ↔ b = true) ∧ ¬ Answered (visible (sysLabels L)) i j ∧
          ∀ j' r' b', Sent Decodes (visible (sysLabels L)) j' r' → Flips k x r' b' →
            ¬ (Answered (visible (sysLabels L)) j j' ∧ Answered (visible (sysLabels L)) j' i)) ∨
      (x ∉ X ∧ ∀ j r b, Sent Decodes (visible (sysLabels L)) j r → Flips k x r b → ¬ Answered (visible (sysLabels L)) j i) :=
  Event.C81_member h.run hr si gi

/-- C81, v1 server. -/
theorem C81_v1_snapshots {ext rng L v k} (h : VRun ext rng L v) (hr : Reserved Decodes (visible (sysLabels L)) k [b! "sadd"]) :
    ∃ S : Nat → Finset Bytes,
      (∀ i req m, Sent Decodes (visible (sysLabels L)) i req → Got (visible (sysLabels L)) i m → HearsSet k (S i) req m) ∧
      (∀ i x, x ∈ S i → ∃ j r, Sent Decodes (visible (sysLabels L)) j r ∧ Flips k x r true ∧ ¬ Answered (visible (sysLabels L)) i j) ∧
      (∀ i j r x, Sent Decodes (visible (sysLabels L)) j r → Flips k x r true → Answered (visible (sysLabels L)) j i → x ∈ S i) ∧
      (∀ i j, S i ⊆ S j ∨ S j ⊆ S i) ∧
      ∀ i j, Answered (visible (sysLabels L)) i j → S i ⊆ S j :=
  Event.C81_snapshots h.run hr

/-- C81, v1 server. -/
theorem C81_v1_log {ext rng L v k} (h : VRun ext rng L v) (hr : Reserved Decodes (visible (sysLabels L)) k [b! "rpush"]) :
    ∃ (ps : List (Nat × List Bytes)) (seen : Nat → Nat),
      (ps.map (·.1)).Nodup ∧
      (∀ j vs, (j, vs) ∈ ps → vs ≠ [] ∧ (∃ name, Sent Decodes (visible (sysLabels L)) j (name :: k :: vs) ∧ lower name = b! "rpush") ∧
        ps[seen j]? = some (j, vs)) ∧
      (∀ j name vs m, Sent Decodes (visible (sysLabels L)) j (name :: k :: vs) → lower name = b! "rpush" → vs ≠ [] →
        Got (visible (sysLabels L)) j m → (j, vs) ∈ ps ∧ m = .int (((ps.take (seen j)).flatMap (·.2)).length + vs.length)) ∧
      (∀ i req m, Sent Decodes (visible (sysLabels L)) i req → Got (visible (sysLabels L)) i m →
        HearsList k ((ps.take (seen i)).flatMap (·.2)) req m) ∧
      (∀ i j, Answered (visible (sysLabels L)) i j → seen i ≤ seen j ∧ ∀ vs, (i, vs) ∈ ps → seen i < seen j) ∧
      ∀ i j vs, (j, vs) ∈ ps.take (seen i) → ¬ Answered (visible (sysLabels L)) i j :=
  Event.C81_log h.run hr

end Godis.V1
