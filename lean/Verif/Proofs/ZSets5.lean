import Verif.Proofs.ZInterval
/-! Sorted sets: what the views show along histories. -/
namespace Godis
open Resp (Reply bulks)
open ZSpec
open ZSL (Elem)
open ListSpec (errType errArgs errNil errRange window)
open StrSpec (int64 lower isError Ascii setStores)
open KeySpec (KView foreign)

variable {s s' : Store} {k : Bytes} {ext : Ext} {it : Iter} {args : List Bytes} {m : Reply} {w : Bytes → ZView} {N : Num}
  {tr : List (List Bytes × Reply)} {z : ZVal}

theorem ZGood.rep (hg : ZGood s w) (hv : w k = .here (some z)) : ∃ zs q, ZRep zs z q := by
  have := hg.all k
  rw [hv] at this
  generalize kview .sortedSet s k = a at this
  rcases a with _ | _ | (_ | _ | _ | zs)
  all_goals first | exact this.elim | skip
  obtain ⟨q, h⟩ := this
  exact ⟨zs, q, h⟩

theorem ZGood.entries (hg : ZGood s w) (hv : w k = .here (some z)) : Entries z.order ∧ ∀ e ∈ z.order, z.dict e.2 = some e.1 := by
  obtain ⟨zs, q, h⟩ := hg.rep hv
  refine ⟨⟨?_, ?_, ?_⟩, ?_⟩
  · rw [h.order]; intro e he
    obtain ⟨f, hf, rfl⟩ := List.mem_map.mp he
    exact h.ord.num f hf
  · rw [h.order, List.pairwise_map]
    refine h.ord.sorted.imp (fun {a b} hab => ?_)
    rw [show entry b = (b.sc, b.v) from rfl, before_entry]; exact hab
  · rw [h.order, members_eq]; exact h.ord.once
  · rw [h.order]; intro e he
    obtain ⟨f, hf, rfl⟩ := List.mem_map.mp he
    exact h.dict_live hf

theorem History.zgood (h : History ext tr s) : ZGood s (after (numOf ext) tr) := by
  obtain ⟨⟨rng, h1⟩, h2, h3⟩ := h
  exact h1.zgood h2 (by omega)

theorem History.reads {name : Bytes} (h : History ext tr s) (hn : Ascii name) (hc : lower name ∈ zreaders)
    (hd : ∀ k ∈ args.head?, after (numOf ext) tr k ≠ .here none) (hl : args.length ≤ 2 ^ 60 := by simp)
    (hm : ∀ m', Fits (numOf ext) (after (numOf ext) tr) (lower name) args m' → m' = m) : Reads ext s (name :: args) m := by
  obtain ⟨⟨rng, h1⟩, h2, h3⟩ := h
  exact h1.zreads h2 (by omega) hn hc hd hm

theorem rank_pos {l : List Entry} (hl : Entries l) {i : Nat} {e : Entry} (hi : l[i]? = some e) :
    (l.filter (fun f => f.1.lt e.1 || (f.1.eq e.1 && !decide (e.2 < f.2)))).length = i + 1 := by
  obtain ⟨hlt, he⟩ := List.getElem?_eq_some_iff.mp hi
  have hsplit : l = l.take i ++ e :: l.drop (i + 1) := by
    rw [← he, List.getElem_cons_drop, List.take_append_drop]
  have hp := hl.ascending
  rw [hsplit] at hp
  obtain ⟨_, p2, p3⟩ := List.pairwise_append.mp hp
  obtain ⟨p4, _⟩ := List.pairwise_cons.mp p2
  conv_lhs => rw [hsplit]
  rw [List.filter_append, List.filter_cons]
  have hne : e.1.isNaN = false := hl.num e (by rw [hsplit]; simp)
  have h0 : (e.1.lt e.1 || (e.1.eq e.1 && !decide (e.2 < e.2))) = true := by
    have h1 : e.1.eq e.1 = true := F64.eq_iff.mpr ⟨hne, hne, rfl⟩
    have h2 : ¬ e.2 < e.2 := by rw [← bytesLt_iff]; simp [bytesLt_irrefl]
    simp [h1, h2]
  rw [if_pos h0, List.filter_eq_self.mpr, List.filter_eq_nil_iff.mpr]
  · simp; omega
  · intro f hf
    have hb := before_iff.mp (p4 f hf)
    obtain ⟨b1, b2, b3⟩ := hb
    intro hc
    simp only [Bool.or_eq_true, Bool.and_eq_true, F64.lt_iff, F64.eq_iff, Bool.not_eq_true', decide_eq_false_iff_not] at hc
    rcases b3 with b3 | ⟨b3, b4⟩
    · rcases hc with ⟨_, _, c⟩ | ⟨⟨_, _, c⟩, _⟩ <;> omega
    · rcases hc with ⟨_, _, c⟩ | ⟨_, c⟩
      · omega
      · exact c b4
  · intro f hf
    have hb := p3 f hf e (by simp)
    rw [before_iff] at hb
    obtain ⟨b1, b2, b3⟩ := hb
    simp only [Bool.or_eq_true, Bool.and_eq_true, F64.lt_iff, F64.eq_iff, Bool.not_eq_true', decide_eq_false_iff_not]
    rcases b3 with b3 | ⟨b3, b4⟩
    · exact .inl ⟨b1, b2, b3⟩
    · refine .inr ⟨⟨b1, b2, b3⟩, fun hc => ?_⟩
      rw [← bytesLt_iff] at hc b4
      rw [bytesLt_asymm b4] at hc; cases hc

theorem window_full (l : List Entry) : window l 0 (-1) = l := by
  cases l with
  | nil => rfl
  | cons a l =>
    rw [slice_window]
    unfold ZSL.normRange
    simp only
    rw [if_neg (show ¬ (0 : Int) < 0 by omega), if_pos (show (-1 : Int) < 0 by omega)]
    rw [if_neg (by simp only [List.length_cons]; omega)]
    simp only [List.length_cons]
    rw [if_neg (by omega)]
    simp only [Int.toNat_zero, List.drop_zero]
    rw [List.take_of_length_le]
    simp only [List.length_cons]; omega

theorem listing_plain (l : List Entry) : listing N false l = bulks (members l) := by
  unfold listing members
  congr 1
  induction l with
  | nil => rfl
  | cons a l ih => simp only [List.flatMap_cons, List.map_cons, ← ih]; rfl

theorem view_cases {P : ZVal → Prop} {v : ZView} (hv : v ≠ .other) (hd : v ≠ .here none) : onKey v m P ↔ P ((match v with | .here (some z) => z | _ => empty)) := by
  rcases v with _ | _ | _ | z
  · exact Iff.rfl
  · exact absurd rfl hv
  · exact absurd rfl hd
  · exact Iff.rfl

theorem onKey_seen {P : ZVal → Prop} {v : ZView} (hv : v ≠ .other) (hd : v ≠ .here none) : onKey v m P ↔ P (seen v) := by
  rcases v with _ | _ | _ | z
  · exact Iff.rfl
  · exact absurd rfl hv
  · exact absurd rfl hd
  · exact Iff.rfl

theorem ZGood.seen_entries (hg : ZGood s w) (k : Bytes) : Entries (seen (w k)).order ∧ ∀ e ∈ (seen (w k)).order, (seen (w k)).dict e.2 = some e.1 := by
  have h0 : Entries empty.order ∧ ∀ e ∈ empty.order, empty.dict e.2 = some e.1 := by
    refine ⟨⟨?_, List.Pairwise.nil, List.nodup_nil⟩, ?_⟩ <;> (intro e he; cases he)
  rcases hv : w k with _ | _ | _ | z
  · exact h0
  · exact h0
  · exact h0
  · exact hg.entries hv

theorem hasWord_ws : ZSpec.hasWord (numOf ext) (s!! "withscores") [b! "-1", b! "WITHSCORES"] = true ∧
    ZSpec.hasWord (numOf ext) (s!! "byscore") [b! "-1", b! "WITHSCORES"] = false ∧
    ZSpec.hasWord (numOf ext) (s!! "withscores") [b! "-1"] = false ∧
    ZSpec.hasWord (numOf ext) (s!! "byscore") [b! "-1"] = false := by
  have h1 : (numOf ext).lower (b! "-1") = lower (b! "-1") := lower_eq (uni := ext.lowerUni) (s := b! "-1") (by unfold Ascii; decide)
  have h2 : (numOf ext).lower (b! "WITHSCORES") = lower (b! "WITHSCORES") := lower_eq (uni := ext.lowerUni) (s := b! "WITHSCORES") (by unfold Ascii; decide)
  unfold ZSpec.hasWord
  simp only [List.any_cons, List.any_nil, h1, h2]
  decide

/-- the views of an undamaged sorted set -/
theorem History.shown (h : History ext tr s) (hv : after (numOf ext) tr k ≠ .other) (hd : after (numOf ext) tr k ≠ .here none) :
    Shown ext s k (seen (after (numOf ext) tr k)).order := by
  obtain ⟨he, hdict⟩ := h.zgood.seen_entries k
  have hd' : ∀ rest : List Bytes, ∀ k' ∈ (k :: rest).head?, after (numOf ext) tr k' ≠ .here none := by
    intro rest k' hk; cases hk; exact hd
  obtain ⟨w1, w2, w3, w4⟩ := hasWord_ws (ext := ext)
  refine ⟨he, ?_, ?_, ?_, ?_, ?_⟩
  · refine h.reads (by unfold Ascii; decide) (by decide) (hd' _) (hm := fun m' hf => ?_)
    have hf : onKey (after (numOf ext) tr k) m' (RangeFits (numOf ext) (b! "0") (b! "-1") [b! "-1", b! "WITHSCORES"] m') := hf
    rw [onKey_seen hv hd] at hf
    unfold RangeFits at hf
    by_cases h0 : (seen (after (numOf ext) tr k)).order = []
    · rw [if_pos h0] at hf ⊢; exact hf
    · rw [if_neg h0] at hf ⊢
      rw [if_neg (by rw [w2]; decide), w1] at hf
      have : m' = listing (numOf ext) true (window (seen (after (numOf ext) tr k)).order 0 (-1)) := hf
      rw [window_full] at this
      exact this
  · refine h.reads (by unfold Ascii; decide) (by decide) (hd' _) (hm := fun m' hf => ?_)
    have hf : onKey (after (numOf ext) tr k) m' (RangeFits (numOf ext) (b! "0") (b! "-1") [b! "-1"] m') := hf
    rw [onKey_seen hv hd] at hf
    unfold RangeFits at hf
    by_cases h0 : (seen (after (numOf ext) tr k)).order = []
    · rw [if_pos h0] at hf ⊢; exact hf
    · rw [if_neg h0] at hf ⊢
      rw [if_neg (by rw [w4]; decide), w3] at hf
      have : m' = listing (numOf ext) false (window (seen (after (numOf ext) tr k)).order 0 (-1)) := hf
      rw [window_full, listing_plain] at this
      exact this
  · refine h.reads (by unfold Ascii; decide) (by decide) (hd' _) (hm := fun m' hf => ?_)
    have hf : onKey (after (numOf ext) tr k) m' (fun z => m' = .int z.order.length) := hf
    rw [onKey_seen hv hd] at hf
    exact hf
  · intro e hel
    refine h.reads (by unfold Ascii; decide) (by decide) (hd' _) (hm := fun m' hf => ?_)
    have hf : onKey (after (numOf ext) tr k) m' (fun z => m' = scoreOf (numOf ext) e.2 z) := hf
    rw [onKey_seen hv hd] at hf
    rw [hf]
    unfold scoreOf
    rw [if_neg (List.ne_nil_of_mem hel), hdict e hel]
    rfl
  · intro i e hi
    have hel := List.mem_of_getElem? hi
    refine h.reads (by unfold Ascii; decide) (by decide) (hd' _) (hm := fun m' hf => ?_)
    have hf : onKey (after (numOf ext) tr k) m' (fun z => m' = rankOf e.2 z) := hf
    rw [onKey_seen hv hd] at hf
    rw [hf]
    unfold rankOf
    rw [hdict e hel]
    simp only
    rw [if_neg (List.ne_nil_of_mem hel), rank_pos he hi]
    rfl

/-- unknown members -/
theorem History.gone {x : Bytes} (h : History ext tr s) (hv : after (numOf ext) tr k ≠ .other) (hd : after (numOf ext) tr k ≠ .here none)
    (hx : (seen (after (numOf ext) tr k)).dict x = none) : Gone ext s k x := by
  have hd' : ∀ rest : List Bytes, ∀ k' ∈ (k :: rest).head?, after (numOf ext) tr k' ≠ .here none := by
    intro rest k' hk; cases hk; exact hd
  constructor
  · refine h.reads (by unfold Ascii; decide) (by decide) (hd' _) (hm := fun m' hf => ?_)
    have hf : onKey (after (numOf ext) tr k) m' (fun z => m' = scoreOf (numOf ext) x z) := hf
    rw [onKey_seen hv hd] at hf
    rw [hf]
    unfold scoreOf
    rw [hx]
    simp
  · refine h.reads (by unfold Ascii; decide) (by decide) (hd' _) (hm := fun m' hf => ?_)
    have hf : onKey (after (numOf ext) tr k) m' (fun z => m' = rankOf x z) := hf
    rw [onKey_seen hv hd] at hf
    rw [hf]
    unfold rankOf
    rw [hx]

/-! ## without pops the dictionary knows only members -/

/-- every known member has an entry -/
def Closed (z : ZVal) : Prop := ∀ x sc, z.dict x = some sc → x ∈ members z.order

theorem mem_place {x : Bytes} {e : Entry} {l : List Entry} : x ∈ members (place e l) ↔ x = e.2 ∨ x ∈ members l := by
  have : members l = members (l.takeWhile (before · e)) ++ members (l.dropWhile (before · e)) := by
    unfold members; rw [← List.map_append, List.takeWhile_append_dropWhile]
  rw [this]
  unfold place members
  simp only [List.map_append, List.map_cons, List.mem_append, List.mem_cons]
  tauto

theorem mem_without {x y : Bytes} {l : List Entry} : x ∈ members (without y l) ↔ x ≠ y ∧ x ∈ members l := by
  unfold members without
  simp only [List.mem_map, List.mem_filter, decide_eq_true_eq]
  constructor
  · rintro ⟨a, ⟨h1, h2⟩, rfl⟩; exact ⟨h2, a, h1, rfl⟩
  · rintro ⟨h1, a, h2, rfl⟩; exact ⟨a, ⟨h2, h1⟩, rfl⟩

theorem Closed.assign (h : Closed z) (sc : F64) (x : Bytes) : Closed (assign z sc x) := by
  intro y sc' hy
  unfold ZSpec.assign at hy ⊢
  simp only at hy ⊢
  rw [mem_place, mem_without]
  by_cases hx : y = x
  · exact .inl hx
  · rw [if_neg hx] at hy; exact .inr ⟨hx, h y sc' hy⟩

theorem addOne_cases {f : Flags} {sc : F64} {x : Bytes} {z' : ZVal} {n : Nat} (h : addOne N f z sc x = some (z', n)) :
    (z' = z ∧ n = 0) ∨ (∃ sc', z' = assign z sc' x ∧ n = 1) := by
  unfold addOne at h
  split at h
  · split at h
    · cases h; exact .inl ⟨rfl, rfl⟩
    · split at h
      · cases h
      · cases h; exact .inr ⟨_, rfl, rfl⟩
  · next old _ =>
    generalize (if f.incr then N.add sc old else sc) = sc' at h
    split at h
    · cases h; exact .inl ⟨rfl, rfl⟩
    · split at h
      · cases h; exact .inl ⟨rfl, rfl⟩
      · split at h
        · cases h; exact .inl ⟨rfl, rfl⟩
        · split at h
          · cases h
          · cases h; exact .inr ⟨_, rfl, rfl⟩

theorem addAll_induct {P : ZVal → Prop} {f : Flags} (hP : ∀ z sc x z' n, addOne N f z sc x = some (z', n) → P z → P z') :
    ∀ (es : List Entry) {z z' : ZVal} {n : Nat}, addAll N f es z = some (z', n) → P z → P z'
  | [], _, _, _, h, hz => by cases h; exact hz
  | (sc, x) :: es, z, z', n, h, hz => by
    unfold addAll at h
    cases h1 : addOne N f z sc x with
    | none => rw [h1] at h; cases h
    | some r =>
      rw [h1, Option.bind_some] at h
      cases h2 : addAll N f es r.1 with
      | none => rw [h2] at h; cases h
      | some r' =>
        rw [h2] at h; cases h
        exact addAll_induct hP es h2 (hP _ _ _ _ _ h1 hz)

theorem removeAll_induct {P : ZVal → Prop} (hP : ∀ z x z' n, removeOne z x = some (z', n) → P z → P z') :
    ∀ (xs : List Bytes) {z z' : ZVal} {n : Nat}, removeAll xs z = some (z', n) → P z → P z'
  | [], _, _, _, h, hz => by cases h; exact hz
  | x :: xs, z, z', n, h, hz => by
    unfold removeAll at h
    cases h1 : removeOne z x with
    | none => rw [h1] at h; cases h
    | some r =>
      rw [h1, Option.bind_some] at h
      cases h2 : removeAll xs r.1 with
      | none => rw [h2] at h; cases h
      | some r' =>
        rw [h2] at h; cases h
        exact removeAll_induct hP xs h2 (hP _ _ _ _ h1 hz)

theorem Closed.addAll {f : Flags} {es : List Entry} {z' : ZVal} {n : Nat} (h : Closed z) (ha : addAll N f es z = some (z', n)) : Closed z' := by
  refine addAll_induct (P := Closed) (fun z sc x z' n h1 hz => ?_) es ha h
  rcases addOne_cases h1 with ⟨rfl, _⟩ | ⟨sc', rfl, _⟩
  · exact hz
  · exact hz.assign _ _

theorem removeOne_cases {x : Bytes} {z' : ZVal} {n : Nat} (h : removeOne z x = some (z', n)) :
    (z.dict x = none ∧ z' = z ∧ n = 0) ∨ (z.dict x ≠ none ∧ x ∉ members (z.order.drop 2) ∧
      z' = ⟨without x z.order, fun y => if y = x then none else z.dict y⟩ ∧ n = 1) := by
  unfold removeOne at h
  split at h
  · next h0 => cases h; exact .inl ⟨by simpa using h0, rfl, rfl⟩
  · next h0 =>
    split at h
    · cases h
    · next h1 => cases h; exact .inr ⟨by simpa using h0, h1, rfl, rfl⟩

theorem Closed.removeAll {xs : List Bytes} {z' : ZVal} {n : Nat} (h : Closed z) (ha : removeAll xs z = some (z', n)) : Closed z' := by
  refine removeAll_induct (P := Closed) (fun z x z' n h1 hz => ?_) xs ha h
  rcases removeOne_cases h1 with ⟨_, rfl, _⟩ | ⟨_, _, rfl, _⟩
  · exact hz
  · intro y sc hy
    simp only at hy ⊢
    rw [mem_without]
    by_cases hyx : y = x
    · rw [if_pos hyx] at hy; cases hy
    · rw [if_neg hyx] at hy; exact ⟨hyx, hz y sc hy⟩

def VClosed : ZView → Prop
  | .here (some z) => Closed z
  | _ => True

theorem closed_empty : Closed empty := by rintro x sc ⟨⟩

theorem VClosed.added {v : ZView} {f : Flags} {es : List Entry} (h : VClosed v) : VClosed (added N f es v) := by
  rcases v with _ | _ | _ | z
  · show VClosed (.here ((ZSpec.addAll N f es empty).map (·.1)))
    cases ha : ZSpec.addAll N f es empty with
    | none => trivial
    | some r => exact closed_empty.addAll ha
  · trivial
  · trivial
  · show VClosed (.here ((ZSpec.addAll N f es z).map (·.1)))
    cases ha : ZSpec.addAll N f es z with
    | none => trivial
    | some r => exact Closed.addAll h ha

theorem VClosed.removed {v : ZView} {xs : List Bytes} (h : VClosed v) : VClosed (change (fun z => (ZSpec.removeAll xs z).map (·.1)) v) := by
  rcases v with _ | _ | _ | z
  · trivial
  · trivial
  · trivial
  · show VClosed (.here (if z.order = [] then some z else (ZSpec.removeAll xs z).map (·.1)))
    split
    · exact h
    · cases ha : ZSpec.removeAll xs z with
      | none => trivial
      | some r => exact Closed.removeAll h ha

theorem VClosed.foreign {v : ZView} {name : Bytes} (h : VClosed v) : VClosed (foreign k v name args m) := by
  have h' : VClosed v.createOther := by rcases v with _ | _ | _ | z <;> exact h
  unfold KeySpec.foreign
  repeat' split
  all_goals first | exact h | exact h' | trivial

/-- what may happen to one key -/
theorem zstep_cases {name : Bytes} {P : ZView → Prop} (hsame : P (w k))
    (hadd : name = b! "zadd" → ∀ a b rest es f, args = k :: a :: b :: rest → addArgs N (a :: b :: rest) {} = some (es, f) → P (added N f es (w k)))
    (hincr : name = b! "zincr" → ∀ d x rest sc, args = k :: d :: x :: rest → N.parse d = some sc → P (added N { incr := true } [(sc, x)] (w k)))
    (hrem : name = b! "zrem" → ∀ x xs, args = k :: x :: xs → P (change (fun z => (removeAll (x :: xs) z).map (·.1)) (w k)))
    (hmin : name = b! "zpopmin" → ∀ rest n, args = k :: rest → ZSpec.popCount rest = some n →
      P (change (fun z => some ⟨z.order.drop n.toNat, z.dict⟩) (w k)))
    (hmax : name = b! "zpopmax" → ∀ rest n, args = k :: rest → ZSpec.popCount rest = some n →
      P (change (fun z =>
          if n ≤ 0 then some z
          else if z.order.length ≤ 2 then some ⟨(z.order.reverse.drop n.toNat).reverse, z.dict⟩
          else none) (w k)))
    (hfor : name ∉ zwriters → P (foreign k (w k) name args m)) : P (step N w name args m k) := by
  have hput : ∀ {k' v}, (k = k' → P v) → P (put w k' v k) := by
    intro k' v h2; unfold put; split
    · next e => exact h2 e
    · exact hsame
  by_cases hz : name ∈ zwriters
  · simp only [zwriters, List.mem_cons, List.not_mem_nil, or_false] at hz
    rcases hz with hz | hz | hz | hz | hz
    · have he : step N w name args m = match (generalizing := false) args with
        | k :: a :: b :: rest =>
          match addArgs N (a :: b :: rest) {} with
          | none => w
          | some (es, f) => put w k (added N f es (w k))
        | _ => w := by subst hz; rfl
      rw [he]
      split
      · next k' a b rest =>
        cases ha : addArgs N (a :: b :: rest) {} with
        | none => exact hsame
        | some r => exact hput (fun e => by subst e; exact hadd hz a b rest r.1 r.2 rfl ha)
      · exact hsame
    · have he : step N w name args m = match (generalizing := false) args with
        | k :: d :: x :: _ =>
          match N.parse d with
          | none => w
          | some sc => put w k (added N { incr := true } [(sc, x)] (w k))
        | _ => w := by subst hz; rfl
      rw [he]
      split
      · next k' d x rest =>
        cases ha : N.parse d with
        | none => exact hsame
        | some r => exact hput (fun e => by subst e; exact hincr hz d x rest r rfl ha)
      · exact hsame
    · have he : step N w name args m = match (generalizing := false) args with
        | k :: x :: xs => put w k (change (fun z => (removeAll (x :: xs) z).map (·.1)) (w k))
        | _ => w := by subst hz; rfl
      rw [he]
      split
      · next k' x xs => exact hput (fun e => by subst e; exact hrem hz x xs rfl)
      · exact hsame
    · have he : step N w name args m = match (generalizing := false) args with
        | k :: rest =>
          match ZSpec.popCount rest with
          | none => w
          | some n => put w k (change (fun z => some ⟨z.order.drop n.toNat, z.dict⟩) (w k))
        | _ => w := by subst hz; rfl
      rw [he]
      split
      · next k' rest =>
        cases ha : ZSpec.popCount rest with
        | none => exact hsame
        | some n => exact hput (fun e => by subst e; exact hmin hz rest n rfl ha)
      · exact hsame
    · have he : step N w name args m = match (generalizing := false) args with
        | k :: rest =>
          match ZSpec.popCount rest with
          | none => w
          | some n => put w k (change (fun z =>
              if n ≤ 0 then some z
              else if z.order.length ≤ 2 then some ⟨(z.order.reverse.drop n.toNat).reverse, z.dict⟩
              else none) (w k))
        | _ => w := by subst hz; rfl
      rw [he]
      split
      · next k' rest =>
        cases ha : ZSpec.popCount rest with
        | none => exact hsame
        | some n => exact hput (fun e => by subst e; exact hmax hz rest n rfl ha)
      · exact hsame
  · rw [zstep_foreign hz]; exact hfor hz

theorem VClosed.step {name : Bytes} (h : VClosed (w k)) (hn : name ∈ [b! "zpopmin", b! "zpopmax"] → args.head? ≠ some k) :
    VClosed (step N w name args m k) := by
  refine zstep_cases h (fun _ a b rest es f _ _ => h.added) (fun _ d x rest sc _ _ => h.added) (fun _ x xs _ => h.removed)
    (fun hz rest n ha _ => ?_) (fun hz rest n ha _ => ?_) (fun _ => h.foreign)
  · exact absurd (by rw [ha]; rfl) (hn (by rw [hz]; decide))
  · exact absurd (by rw [ha]; rfl) (hn (by rw [hz]; decide))

theorem closed_after (hno : NeverPops k tr) : VClosed (after N tr k) := by
  induction tr using List.reverseRecOn with
  | nil => trivial
  | append_singleton tr p ih =>
    rw [zsets_snoc]
    refine (ih (fun q hq => hno q (by simp [hq]))).step (fun h => ?_)
    have := hno p (by simp) h
    rcases p with ⟨_ | ⟨n, _ | ⟨a, r⟩⟩, m⟩ <;> simpa using this

theorem closed_seen (hno : NeverPops k tr) : Closed (seen (after N tr k)) := by
  have := closed_after (N := N) hno
  generalize after N tr k = v at this
  rcases v with _ | _ | _ | z
  · exact closed_empty
  · exact closed_empty
  · exact closed_empty
  · exact this

end Godis
