import Verif.Props.ZSets
/-! # C33–C42: flags of ZADD, random heights, violated parts, cases -/
namespace Godis
open Resp (Reply bulks)
open ZSpec
open ListSpec (OnlyUses errType errArgs errRange window)
open StrSpec (int64 lower Ascii)
open KeySpec (KView keyArgs)

variable {ext : Ext} {tr tr' : List (List Bytes × Reply)} {s s' : Store} {k : Bytes} {m : Reply} {N : Num} {w : Bytes → ZView}

/-! ## C41, the flags one by one -/

theorem place_mem {e f : Entry} {l : List Entry} : f ∈ place e l ↔ f = e ∨ f ∈ l := by
  unfold place
  rw [List.mem_append, List.mem_cons]
  have := congrArg (fun l' => f ∈ l') (List.takeWhile_append_dropWhile (p := (before · e)) (l := l))
  simp only [List.mem_append, eq_iff_iff] at this
  rw [← this]; tauto

theorem addEntry_nx {f : Flags} (hf : f.nx = true) (es : List Entry) : ∀ st : List Entry × Nat, ∀ e ∈ st.1, e ∈ (es.foldl (addEntry N f) st).1 := by
  induction es with
  | nil => exact fun _ _ h => h
  | cons a es ih =>
    intro st e he
    refine ih _ e ?_
    unfold addEntry
    cases scoreIn st.1 a.2 with
    | none =>
      simp only
      split
      · exact he
      · exact place_mem.mpr (.inr he)
    | some old => simp only [hf, if_true]; exact he

theorem scoreIn_some {l : List Entry} {x : Bytes} {sc : F64} (h : scoreIn l x = some sc) : (sc, x) ∈ l := by
  unfold scoreIn at h
  cases hf : l.find? (fun e => decide (e.2 = x)) with
  | none => rw [hf] at h; cases h
  | some e =>
    rw [hf] at h
    have h1 := List.mem_of_find?_eq_some hf
    have h2 := List.find?_some hf
    simp only [decide_eq_true_eq] at h2
    cases h
    rw [← h2]; exact h1

theorem addEntry_xx {f : Flags} (hf : f.xx = true) (es : List Entry) : ∀ st : List Entry × Nat, ∀ e ∈ (es.foldl (addEntry N f) st).1, e.2 ∈ members st.1 := by
  induction es with
  | nil => exact fun _ e h => List.mem_map.mpr ⟨e, h, rfl⟩
  | cons a es ih =>
    intro st e he
    have h1 := ih _ e he
    unfold addEntry at h1
    cases hs : scoreIn st.1 a.2 with
    | none => simp only [hs, hf, if_true] at h1; exact h1
    | some old =>
      simp only [hs] at h1
      generalize (if f.incr then N.add a.1 old else a.1) = sc' at h1
      split at h1
      · exact h1
      · split at h1
        · exact h1
        · rw [mem_place] at h1
          rcases h1 with h1 | h1
          · rw [h1]; exact List.mem_map.mpr ⟨_, scoreIn_some hs, rfl⟩
          · exact (mem_without.mp h1).2

/-- C41, NX: no existing entry is changed or lost. -/
theorem C41_nx_partial {a b : Bytes} {rest : List Bytes} {es : List Entry} {f : Flags}
    (h : History ext (tr ++ [(b! "zadd" :: k :: a :: b :: rest, m)]) s') (hk : Sane (numOf ext) tr k) (hno : NeverPops k tr)
    (hes : addArgs (numOf ext) (a :: b :: rest) {} = some (es, f))
    (hk' : after (numOf ext) (tr ++ [(b! "zadd" :: k :: a :: b :: rest, m)]) k ≠ .here none) (hf : f.nx = true) :
    ∃ l', Shown ext s' k l' ∧ ∀ e ∈ contents (numOf ext) tr k, e ∈ l' :=
  ⟨_, (C41_zadd_partial h hk hno hes hk').2, addEntry_nx hf es (contents (numOf ext) tr k, 0)⟩

/-- C41, XX: no member is added. -/
theorem C41_xx_partial {a b : Bytes} {rest : List Bytes} {es : List Entry} {f : Flags}
    (h : History ext (tr ++ [(b! "zadd" :: k :: a :: b :: rest, m)]) s') (hk : Sane (numOf ext) tr k) (hno : NeverPops k tr)
    (hes : addArgs (numOf ext) (a :: b :: rest) {} = some (es, f))
    (hk' : after (numOf ext) (tr ++ [(b! "zadd" :: k :: a :: b :: rest, m)]) k ≠ .here none) (hf : f.xx = true) :
    ∃ l', Shown ext s' k l' ∧ ∀ e ∈ l', e.2 ∈ members (contents (numOf ext) tr k) :=
  ⟨_, (C41_zadd_partial h hk hno hes hk').2, addEntry_xx hf es (contents (numOf ext) tr k, 0)⟩

/-- C41, ZINCR adds to the score of an existing member and replies the new score. -/
theorem C41_zincr_partial {d x : Bytes} {sc old : F64} (h : History ext (tr ++ [([b! "zincr", k, d, x], m)]) s') (hk : Sane (numOf ext) tr k)
    (hno : NeverPops k tr) (hd : ext.parseFloat d = some sc) (hold : (old, x) ∈ contents (numOf ext) tr k)
    (hch : (ext.fadd sc old).eq old = false) (hnum : (ext.fadd sc old).isNaN = false) :
    m = .bulk (some (ext.formatFloat (ext.fadd sc old))) ∧
    Shown ext s' k (place (ext.fadd sc old, x) (without x (contents (numOf ext) tr k))) := by
  obtain ⟨s, it, h0, ha⟩ := h.last
  have hag := h0.agree (k := k) hno
  have hdict : (seen (after (numOf ext) tr k)).dict x = some old := hag.dict _ hold
  have hin : x ∈ members (seen (after (numOf ext) tr k)).order := List.mem_map.mpr ⟨_, hold, rfl⟩
  have hone : addOne (numOf ext) { incr := true } (seen (after (numOf ext) tr k)) sc x =
      some (assign (seen (after (numOf ext) tr k)) (ext.fadd sc old) x, 1) := by
    unfold addOne
    rw [hdict]
    simp only [if_true, Bool.false_eq_true, if_false]
    rw [if_neg (show ¬ ((numOf ext).add sc old).eq old = true by show ¬ (ext.fadd sc old).eq old = true; rw [hch]; simp)]
    rw [if_neg (not_not.mpr hin), if_neg (show ¬ ((numOf ext).add sc old).isNaN = true by show ¬ (ext.fadd sc old).isNaN = true; rw [hnum]; simp)]
    rfl
  have hf : match ext.parseFloat d with
      | none => m = errRange
      | some sc => onKey (after (numOf ext) tr k) m (IncrFits (numOf ext) sc x m) := h.fits (by decide)
  rw [hd] at hf
  simp only at hf
  rw [onKey_seen hk.1 hk.2] at hf
  have hm := hf.2 _ _ hone
  have hstep : after (numOf ext) (tr ++ [([b! "zincr", k, d, x], m)]) = match ext.parseFloat d with
      | none => after (numOf ext) tr
      | some sc => put (after (numOf ext) tr) k (added (numOf ext) { incr := true } [(sc, x)] (after (numOf ext) tr k)) := by
    rw [zsets_snoc]; rfl
  have hadd : added (numOf ext) { incr := true } [(sc, x)] (after (numOf ext) tr k) =
      .here ((addAll (numOf ext) { incr := true } [(sc, x)] (seen (after (numOf ext) tr k))).map (·.1)) := by
    rcases hw : after (numOf ext) tr k with _ | _ | _ | z
    · rfl
    · exact absurd hw hk.1
    · exact absurd hw hk.2
    · rfl
  have hall : addAll (numOf ext) { incr := true } [(sc, x)] (seen (after (numOf ext) tr k)) =
      some (assign (seen (after (numOf ext) tr k)) (ext.fadd sc old) x, 1) := by
    unfold addAll addAll; rw [hone]; rfl
  have hv : after (numOf ext) (tr ++ [([b! "zincr", k, d, x], m)]) k = .here (some (assign (seen (after (numOf ext) tr k)) (ext.fadd sc old) x)) := by
    rw [hstep, hd]; simp only [put, if_true]; rw [hadd, hall]; rfl
  have hsh := h.shown' (k := k) (by unfold Sane; rw [hv]; exact ⟨nofun, nofun⟩)
  have hcc : contents (numOf ext) (tr ++ [([b! "zincr", k, d, x], m)]) k = place (ext.fadd sc old, x) (without x (contents (numOf ext) tr k)) := by
    unfold contents; rw [hv]; rfl
  rw [hcc] at hsh
  refine ⟨?_, hsh⟩
  rw [hm, if_neg (by simp)]
  simp [assign, numOf]

/-! ## C42 -/

/-- no text among `args` is an excluded bound at a score that several entries have -/
def Clear (N : Num) (l : List Entry) (args : List Bytes) : Prop :=
  ∀ t ∈ args, ∀ b, bound N t = some b ∨ bound N (N.lower t) = some b → b.2 = true → equal l b.1 ≤ 1

/-- The request keeps away from what the random heights decide: the key is not damaged before or after, except that
ZPOPMAX of one entry is allowed as the last use of a key; interval bounds are `Clear`; ZPOPMAX of several entries only if
there are at most two. -/
structure Settled (N : Num) (w : Bytes → ZView) (req : List Bytes) (m : Reply) : Prop where
  command : lower (req.headD []) ∈ commands
  before : ∀ k ∈ req[1]?, w k ≠ .here none
  after : ∀ k ∈ req[1]?, lower (req.headD []) ≠ b! "zpopmax" → step N w (lower (req.headD [])) req.tail m k ≠ .here none
  clear : ∀ k ∈ req[1]?, lower (req.headD []) ∈ [b! "zcount", b! "zrange", b! "zrangebyscore"] → Clear N (seen (w k)).order (req.drop 2)
  pop : ∀ k ∈ req[1]?, lower (req.headD []) = b! "zpopmax" → ∀ n, ZSpec.popCount (req.drop 2) = some n → n ≤ 1 ∨ (seen (w k)).order.length ≤ 2

theorem cut_unique {d : Int} {l : List Entry} {b : F64 × Bool} {r r' : Int} (hc : b.2 = true → equal l b.1 ≤ 1) (h : Cut d l b r) (h' : Cut d l b r') : r = r' := by
  unfold Cut at h h'
  split at h
  · rw [if_pos (by assumption)] at h'; rw [h, h']
  · next h1 =>
    rw [if_neg h1] at h'
    split at h
    · next h2 =>
      rw [if_pos h2] at h'
      obtain ⟨j, j1, j2, j3⟩ := h
      obtain ⟨i, i1, i2, i3⟩ := h'
      have := hc h2.1
      rw [j3, i3]; omega
    · next h2 => rw [if_neg h2] at h'; rw [h, h']

theorem byScore_unique {l : List Entry} {a b : Bytes} {sc : Bool} {m m' : Reply} {args : List Bytes} (hc : Clear N l args) (ha : a ∈ args) (hb : b ∈ args)
    (h : RangeByScore N l a b sc m) (h' : RangeByScore N l a b sc m') : m = m' := by
  unfold RangeByScore at h h'
  cases h1 : bound N a with
  | none => rw [h1] at h h'; simp only at h h'; rw [h, h']
  | some lo =>
    cases h2 : bound N b with
    | none => rw [h1, h2] at h h'; simp only at h h'; rw [h, h']
    | some hi =>
      rw [h1, h2] at h h'
      simp only at h h'
      split at h
      · rw [if_pos (by assumption)] at h'; rw [h, h']
      · rw [if_neg (by assumption)] at h'
        obtain ⟨r1, r2, c1, c2, hm⟩ := h
        obtain ⟨r1', r2', c1', c2', hm'⟩ := h'
        rw [hm, hm', cut_unique (hc a ha lo (.inl h1)) c1 c1', cut_unique (hc b hb hi (.inl h2)) c2 c2']

theorem count_unique {l : List Entry} {a b : Bytes} {m m' : Reply} {args : List Bytes} (hc : Clear N l args) (ha : a ∈ args) (hb : b ∈ args)
    (h : CountByScore N l (N.lower a) (N.lower b) m) (h' : CountByScore N l (N.lower a) (N.lower b) m') : m = m' := by
  unfold CountByScore at h h'
  cases h1 : bound N (N.lower a) with
  | none => rw [h1] at h h'; simp only at h h'; rw [h, h']
  | some lo =>
    cases h2 : bound N (N.lower b) with
    | none => rw [h1, h2] at h h'; simp only at h h'; rw [h, h']
    | some hi =>
      rw [h1, h2] at h h'
      simp only at h h'
      split at h
      · rw [if_pos (by assumption)] at h'; rw [h, h']
      · rw [if_neg (by assumption)] at h'
        obtain ⟨r1, r2, c1, c2, hm⟩ := h
        obtain ⟨r1', r2', c1', c2', hm'⟩ := h'
        rw [hm, hm', cut_unique (hc a ha lo (.inr h1)) c1 c1', cut_unique (hc b hb hi (.inr h2)) c2 c2']

theorem onKey_unique {v : ZView} {m m' : Reply} {P P' : ZVal → Prop} (hv : v ≠ .here none) (h : onKey v m P) (h' : onKey v m' P')
    (hP : P (seen v) → P' (seen v) → m = m') : m = m' := by
  rcases v with _ | _ | _ | z
  · exact hP h h'
  · exact h.trans h'.symm
  · exact absurd rfl hv
  · exact hP h h'

theorem onPop_unique {v : ZView} {m m' : Reply} {P P' : List Entry → Prop} (hv : v ≠ .here none) (h : onPop v m P) (h' : onPop v m' P')
    (hP : P (seen v).order → P' (seen v).order → m = m') : m = m' := by
  rcases v with _ | _ | _ | z
  · exact h.trans h'.symm
  · exact h.trans h'.symm
  · exact absurd rfl hv
  · exact hP h h'

theorem popmax_unique {n : Int} {l : List Entry} {m m' : Reply} (hn : n ≤ 1 ∨ l.length ≤ 2) (h : PopMaxFits N n l m) (h' : PopMaxFits N n l m') : m = m' := by
  unfold PopMaxFits at h h'
  split at h
  · rw [if_pos (by assumption)] at h'; rw [h, h']
  · next h0 =>
    rw [if_neg h0] at h'
    split at h
    · rw [if_pos (by assumption)] at h'; rw [h, h']
    · next h2 =>
      rw [if_neg h2] at h'
      obtain ⟨x, x1, x2⟩ := h
      obtain ⟨y, y1, y2⟩ := h'
      have : n = 1 := by
        rcases hn with hn | hn
        · have : ¬ n ≤ 0 := fun hh => h0 (.inr hh)
          omega
        · exact absurd hn h2
      rw [x1, y1, x2 this, y2 this]

theorem added_total {v : ZView} {f : Flags} {es : List Entry} (h : added N f es v ≠ .here none) (hv : v ≠ .other) (hd : v ≠ .here none) :
    ∃ r, addAll N f es (seen v) = some r := by
  rcases v with _ | _ | _ | z
  · cases ha : addAll N f es empty with
    | none => simp only [added, ha] at h; exact absurd rfl h
    | some r => exact ⟨r, ha⟩
  · exact absurd rfl hv
  · exact absurd rfl hd
  · cases ha : addAll N f es z with
    | none => simp only [added, Option.bind_some, ha] at h; exact absurd rfl h
    | some r => exact ⟨r, ha⟩

/-- a settled request has only one correct reply -/
theorem settled_unique {req : List Bytes} {m m' : Reply} (hs : Settled N w req m) (h : Fits N w (lower (req.headD [])) req.tail m)
    (h' : Fits N w (lower (req.headD [])) req.tail m') : m = m' := by
  rcases req with _ | ⟨name, args⟩
  · exact absurd hs.command (by decide)
  obtain ⟨h1, h2, h3, h4, h5⟩ := hs
  simp only [List.headD_cons, List.tail_cons] at *
  generalize lower name = nm at *
  have h2 : ∀ k rest, args = k :: rest → w k ≠ .here none := fun k rest he => h2 k (by rw [he]; rfl)
  simp only [commands, List.mem_cons, List.not_mem_nil, or_false] at h1
  rcases h1 with rfl | rfl | rfl | rfl | rfl | rfl | rfl | rfl | rfl | rfl | rfl | rfl
  · -- zadd
    rcases args with _ | ⟨k, _ | ⟨a, _ | ⟨b, rest⟩⟩⟩
    · exact h.trans h'.symm
    · exact h.trans h'.symm
    · exact h.trans h'.symm
    have h : match addArgs N (a :: b :: rest) {} with
      | none => m = errRange
      | some (es, f) => onKey (w k) m (fun z => Counted (addAll N f es z) m) := h
    have h' : match addArgs N (a :: b :: rest) {} with
      | none => m' = errRange
      | some (es, f) => onKey (w k) m' (fun z => Counted (addAll N f es z) m') := h'
    have h3 := h3 k rfl (by decide)
    have he : step N w (s!! "zadd") (k :: a :: b :: rest) m = match addArgs N (a :: b :: rest) {} with
      | none => w
      | some (es, f) => put w k (added N f es (w k)) := rfl
    rw [he] at h3
    cases hr : addArgs N (a :: b :: rest) {} with
    | none => rw [hr] at h h'; exact h.trans h'.symm
    | some r =>
      obtain ⟨es, f⟩ := r
      rw [hr] at h h' h3
      simp only [put, if_true] at h h' h3
      refine onKey_unique (h2 k _ rfl) h h' (fun p p' => ?_)
      by_cases hv : w k = .other
      · rw [hv] at h h'; exact h.trans h'.symm
      · obtain ⟨r, hr⟩ := added_total h3 hv (h2 k _ rfl)
        rw [p.2 _ _ hr, p'.2 _ _ hr]
  · -- zincr
    rcases args with _ | ⟨k, _ | ⟨d, _ | ⟨x, rest⟩⟩⟩
    · exact h.trans h'.symm
    · exact h.trans h'.symm
    · exact h.trans h'.symm
    have h : match N.parse d with
      | none => m = errRange
      | some sc => onKey (w k) m (IncrFits N sc x m) := h
    have h' : match N.parse d with
      | none => m' = errRange
      | some sc => onKey (w k) m' (IncrFits N sc x m') := h'
    have h3 := h3 k rfl (by decide)
    have he : step N w (s!! "zincr") (k :: d :: x :: rest) m = match N.parse d with
      | none => w
      | some sc => put w k (added N { incr := true } [(sc, x)] (w k)) := rfl
    rw [he] at h3
    cases hr : N.parse d with
    | none => rw [hr] at h h'; exact h.trans h'.symm
    | some sc =>
      rw [hr] at h h' h3
      simp only [put, if_true] at h h' h3
      refine onKey_unique (h2 k _ rfl) h h' (fun p p' => ?_)
      by_cases hv : w k = .other
      · rw [hv] at h h'; exact h.trans h'.symm
      · obtain ⟨r, hr⟩ := added_total h3 hv (h2 k _ rfl)
        unfold addAll at hr
        cases h6 : addOne N { incr := true } (seen (w k)) sc x with
        | none => rw [h6] at hr; cases hr
        | some r' => rw [p.2 _ _ h6, p'.2 _ _ h6]
  · rcases args with _ | ⟨k, _ | ⟨x, rest⟩⟩
    · exact h.trans h'.symm
    · exact h.trans h'.symm
    exact onKey_unique (P := fun z => m = scoreOf N x z) (P' := fun z => m' = scoreOf N x z) (h2 k _ rfl) h h' (fun p p' => p.trans p'.symm)
  · rcases args with _ | ⟨k, _ | ⟨x, rest⟩⟩
    · exact h.trans h'.symm
    · exact h.trans h'.symm
    exact onKey_unique (P := fun z => m = rankOf x z) (P' := fun z => m' = rankOf x z) (h2 k _ rfl) h h' (fun p p' => p.trans p'.symm)
  · -- zrem
    rcases args with _ | ⟨k, _ | ⟨x, xs⟩⟩
    · exact h.trans h'.symm
    · exact h.trans h'.symm
    have h3 := h3 k rfl (by decide)
    have he : step N w (s!! "zrem") (k :: x :: xs) m k = change (fun z => (removeAll (x :: xs) z).map (·.1)) (w k) := by
      show put w k _ k = _; simp [put]
    rw [he] at h3
    refine onKey_unique (P := fun z => if z.order = [] then m = .int 0 else Counted (removeAll (x :: xs) z) m)
      (P' := fun z => if z.order = [] then m' = .int 0 else Counted (removeAll (x :: xs) z) m') (h2 k _ rfl) h h' (fun p p' => ?_)
    by_cases h0 : (seen (w k)).order = []
    · rw [if_pos h0] at p p'; exact p.trans p'.symm
    · rw [if_neg h0] at p p'
      rcases hw : w k with _ | _ | _ | z
      · rw [hw] at h0; exact absurd rfl h0
      · rw [hw] at h0; exact absurd rfl h0
      · exact absurd hw (h2 k _ rfl)
      · rw [hw] at h0 p p' h3
        simp only [change] at h3
        rw [if_neg (show ¬ z.order = [] from h0)] at h3
        cases hr : removeAll (x :: xs) z with
        | none => rw [hr] at h3; exact absurd rfl h3
        | some r => rw [p.2 _ _ hr, p'.2 _ _ hr]
  · rcases args with _ | ⟨k, rest⟩
    · exact h.trans h'.symm
    exact onKey_unique (P := fun z => m = .int z.order.length) (P' := fun z => m' = .int z.order.length) (h2 k _ rfl) h h' (fun p p' => p.trans p'.symm)
  · -- zcount
    rcases args with _ | ⟨k, _ | ⟨a, _ | ⟨b, rest⟩⟩⟩
    · exact h.trans h'.symm
    · exact h.trans h'.symm
    · exact h.trans h'.symm
    have hc : Clear N (seen (w k)).order (a :: b :: rest) := h4 k rfl (by decide)
    refine onKey_unique (P := fun z => if z.order = [] then m = .int 0 else CountByScore N z.order (N.lower a) (N.lower b) m)
      (P' := fun z => if z.order = [] then m' = .int 0 else CountByScore N z.order (N.lower a) (N.lower b) m') (h2 k _ rfl) h h' (fun p p' => ?_)
    by_cases h0 : (seen (w k)).order = []
    · rw [if_pos h0] at p p'; exact p.trans p'.symm
    · rw [if_neg h0] at p p'
      exact count_unique hc (by simp) (by simp) p p'
  · -- zrange
    rcases args with _ | ⟨k, _ | ⟨a, _ | ⟨b, rest⟩⟩⟩
    · exact h.trans h'.symm
    · exact h.trans h'.symm
    · exact h.trans h'.symm
    have hc : Clear N (seen (w k)).order (a :: b :: rest) := h4 k rfl (by decide)
    refine onKey_unique (P := RangeFits N a b (b :: rest) m) (P' := RangeFits N a b (b :: rest) m') (h2 k _ rfl) h h' (fun p p' => ?_)
    unfold RangeFits at p p'
    by_cases h0 : (seen (w k)).order = []
    · rw [if_pos h0] at p p'; exact p.trans p'.symm
    · rw [if_neg h0] at p p'
      split at p
      · rw [if_pos (by assumption)] at p'; exact byScore_unique hc (by simp) (by simp) p p'
      · rw [if_neg (by assumption)] at p'
        unfold RangeByPosition at p p'
        cases h6 : int64 a with
        | none => rw [h6] at p p'; exact p.trans p'.symm
        | some i =>
          cases h7 : int64 b with
          | none => rw [h6, h7] at p p'; exact p.trans p'.symm
          | some j => rw [h6, h7] at p p'; exact p.trans p'.symm
  · -- zrangebyscore
    rcases args with _ | ⟨k, _ | ⟨a, _ | ⟨b, rest⟩⟩⟩
    · exact h.trans h'.symm
    · exact h.trans h'.symm
    · exact h.trans h'.symm
    have hc : Clear N (seen (w k)).order (a :: b :: rest) := h4 k rfl (by decide)
    refine onKey_unique (P := fun z => if z.order = [] then m = .bulk none else RangeByScore N z.order a b false m)
      (P' := fun z => if z.order = [] then m' = .bulk none else RangeByScore N z.order a b false m') (h2 k _ rfl) h h' (fun p p' => ?_)
    by_cases h0 : (seen (w k)).order = []
    · rw [if_pos h0] at p p'; exact p.trans p'.symm
    · rw [if_neg h0] at p p'
      exact byScore_unique hc (by simp) (by simp) p p'
  · -- zrevrange
    rcases args with _ | ⟨k, _ | ⟨a, _ | ⟨b, rest⟩⟩⟩
    · exact h.trans h'.symm
    · exact h.trans h'.symm
    · exact h.trans h'.symm
    refine onKey_unique (P := fun z => if z.order = [] then m = .bulk none else
        RangeByPosition N true z.order a b (ZSpec.hasWord N (s!! "withscores") (b :: rest)) m)
      (P' := fun z => if z.order = [] then m' = .bulk none else
        RangeByPosition N true z.order a b (ZSpec.hasWord N (s!! "withscores") (b :: rest)) m') (h2 k _ rfl) h h' (fun p p' => ?_)
    by_cases h0 : (seen (w k)).order = []
    · rw [if_pos h0] at p p'; exact p.trans p'.symm
    · rw [if_neg h0] at p p'
      unfold RangeByPosition at p p'
      cases h6 : int64 a with
      | none => rw [h6] at p p'; exact p.trans p'.symm
      | some i =>
        cases h7 : int64 b with
        | none => rw [h6, h7] at p p'; exact p.trans p'.symm
        | some j => rw [h6, h7] at p p'; exact p.trans p'.symm
  · -- zpopmin
    rcases args with _ | ⟨k, rest⟩
    · exact h.trans h'.symm
    have h : match ZSpec.popCount rest with
      | none => m = errInt
      | some n => onPop (w k) m (fun l => m = listing N true (l.take n.toNat)) := h
    have h' : match ZSpec.popCount rest with
      | none => m' = errInt
      | some n => onPop (w k) m' (fun l => m' = listing N true (l.take n.toNat)) := h'
    cases hr : ZSpec.popCount rest with
    | none => rw [hr] at h h'; exact h.trans h'.symm
    | some n => rw [hr] at h h'; exact onPop_unique (h2 k _ rfl) h h' (fun p p' => p.trans p'.symm)
  · -- zpopmax
    rcases args with _ | ⟨k, rest⟩
    · exact h.trans h'.symm
    have h : match ZSpec.popCount rest with
      | none => m = errInt
      | some n => onPop (w k) m (fun l => PopMaxFits N n l m) := h
    have h' : match ZSpec.popCount rest with
      | none => m' = errInt
      | some n => onPop (w k) m' (fun l => PopMaxFits N n l m') := h'
    have h5 := h5 k rfl rfl
    cases hr : ZSpec.popCount rest with
    | none => rw [hr] at h h'; exact h.trans h'.symm
    | some n => rw [hr] at h h'; exact onPop_unique (h2 k _ rfl) h h' (fun p p' => popmax_unique (h5 n hr) p p')

/-- C42: two servers, with any two sequences of random heights, that serve the same sorted-set requests give the same
replies, if the requests keep away from what the defects expose (`Settled`). -/
theorem C42_heights_unobservable_partial (h : History ext tr s) (h' : History ext tr' s') (hreq : tr.map (·.1) = tr'.map (·.1))
    (hs : ∀ tr1 p tr2, tr = tr1 ++ p :: tr2 → Settled (numOf ext) (after (numOf ext) tr1) p.1 p.2) : tr = tr' := by
  induction tr using List.reverseRecOn generalizing tr' s s' with
  | nil => cases tr' with
    | nil => rfl
    | cons => cases hreq
  | append_singleton tr p ih =>
    induction tr' using List.reverseRecOn with
    | nil => simp at hreq
    | append_singleton tr' p' _ =>
      simp only [List.map_append, List.map_cons, List.map_nil] at hreq
      obtain ⟨e1, e2⟩ := List.append_inj' hreq rfl
      obtain ⟨req, m⟩ := p
      obtain ⟨req', m'⟩ := p'
      cases e2
      obtain ⟨s1, it1, g1, a1⟩ := h.last
      obtain ⟨s2, it2, g2, a2⟩ := h'.last
      have := ih g1 g2 e1 (fun tr1 p tr2 he => hs tr1 p (tr2 ++ [(req, m)]) (by rw [he]; simp))
      subst this
      have hset : Settled (numOf ext) (after (numOf ext) tr) req m := hs tr (req, m) [] (by simp)
      rcases req with _ | ⟨name, args⟩
      · have hc : lower (([] : List Bytes).headD []) ∈ commands := hset.command
        exact absurd hc (by decide)
      rw [settled_unique hset (h.fits hset.command) (h'.fits hset.command)]

/-! ## what is violated -/

/-- C36 fails for ZREVRANGE 0 0: the lowest member instead of the highest. -/
theorem C36_zrevrange_violated :
    replies [[b! "zadd", b! "z", b! "1", b! "a", b! "2", b! "b"], [b! "zrevrange", b! "z", b! "0", b! "0"]] =
      some [.int 2, bulks [b! "a"]] := by decide +kernel

/-- C37 fails: with scores 1 and 3, ZCOUNT 2 3 replies 2, ZCOUNT 5 +inf replies 1, and ZCOUNT 0 +inf replies -1. -/
theorem C37_zcount_violated :
    replies [[b! "zadd", b! "z", b! "1", b! "a", b! "3", b! "b"], [b! "zcount", b! "z", b! "2", b! "3"],
      [b! "zcount", b! "z", b! "5", b! "+inf"], [b! "zcount", b! "z", b! "0", b! "+inf"]] =
      some [.int 2, .int 2, .int 1, .int (-1)] := by decide +kernel

/-- C38 fails: with scores 1 and 3, ZRANGEBYSCORE 0 0 lists everything, and 2 3 both members. -/
theorem C38_zrangebyscore_violated :
    replies [[b! "zadd", b! "z", b! "1", b! "a", b! "3", b! "b"], [b! "zrangebyscore", b! "z", b! "0", b! "0"],
      [b! "zrangebyscore", b! "z", b! "2", b! "3"]] =
      some [.int 2, bulks [b! "a", b! "b"], bulks [b! "a", b! "b"]] := by decide +kernel

/-- C39 fails at the third position: ZREM replies 1, but the member is still listed and counted, and has no score. -/
theorem C39_zrem_violated :
    replies [[b! "zadd", b! "z", b! "1", b! "a", b! "2", b! "b", b! "3", b! "c", b! "4", b! "d"], [b! "zrem", b! "z", b! "c"],
      [b! "zrange", b! "z", b! "0", b! "-1"], [b! "zcard", b! "z"], [b! "zscore", b! "z", b! "c"]] =
      some [.int 4, .int 1, bulks [b! "a", b! "b", b! "c", b! "d"], .int 4, .bulk none] := by decide +kernel

/-- C40 (and C34) fail for ZPOPMIN: the popped member keeps its score and cannot be added again. -/
theorem C40_zpopmin_violated :
    replies [[b! "zadd", b! "z", b! "1", b! "a", b! "3", b! "b"], [b! "zpopmin", b! "z"], [b! "zscore", b! "z", b! "a"],
      [b! "zadd", b! "z", b! "7", b! "a"], [b! "zrange", b! "z", b! "0", b! "-1"]] =
      some [.int 2, bulks [b! "a", b! "1"], .bulk (some (b! "1")), .int 0, bulks [b! "b"]] := by decide +kernel

/-- C40 fails for ZPOPMAX of three members: nothing is removed, and the second pop is the same member again; of one
member with count 2 the reply has an entry that never existed. -/
theorem C40_zpopmax_violated :
    replies [[b! "zadd", b! "z", b! "1", b! "a", b! "3", b! "b", b! "4", b! "c"], [b! "zpopmax", b! "z", b! "2"],
      [b! "zrange", b! "z", b! "0", b! "-1"], [b! "zadd", b! "y", b! "1", b! "a"], [b! "zpopmax", b! "y", b! "2"]] =
      some [.int 3, bulks [b! "c", b! "4", b! "c", b! "4"], bulks [b! "a", b! "b", b! "c"], .int 1,
        bulks [b! "a", b! "1", [], b! "0"]] := by decide +kernel

/-- C33 fails after ZREM at the third position: a member added again is listed twice (with two different scores). -/
theorem C33_twice_violated :
    replies [[b! "zadd", b! "z", b! "1", b! "a", b! "2", b! "b", b! "3", b! "c", b! "4", b! "d"], [b! "zrem", b! "z", b! "c"],
      [b! "zadd", b! "z", b! "1", b! "c"], [b! "zrange", b! "z", b! "0", b! "-1", b! "withscores"]] =
      some [.int 4, .int 1, .int 1, bulks [b! "a", b! "1", b! "c", b! "1", b! "b", b! "2", b! "c", b! "3", b! "d", b! "4"]] := by
  decide +kernel

/-- C34 and C35 fail for a popped member: ZSCORE still replies its score, ZRANK replies 0 (not nil); and for a member at
the third position that ZREM failed to remove: it is listed, but has no score and no rank. -/
theorem C34_popped_violated :
    replies [[b! "zadd", b! "z", b! "1", b! "a", b! "3", b! "b"], [b! "zpopmin", b! "z"], [b! "zrange", b! "z", b! "0", b! "-1"],
      [b! "zscore", b! "z", b! "a"]] =
      some [.int 2, bulks [b! "a", b! "1"], bulks [b! "b"], .bulk (some (b! "1"))] := by decide +kernel

@[inherit_doc C34_popped_violated]
theorem C35_violated :
    replies [[b! "zadd", b! "z", b! "1", b! "a", b! "3", b! "b"], [b! "zpopmin", b! "z"], [b! "zrange", b! "z", b! "0", b! "-1"],
      [b! "zrank", b! "z", b! "a"]] =
      some [.int 2, bulks [b! "a", b! "1"], bulks [b! "b"], .int 0] ∧
    replies [[b! "zadd", b! "z", b! "1", b! "a", b! "2", b! "b", b! "3", b! "c"], [b! "zrem", b! "z", b! "c"],
      [b! "zrange", b! "z", b! "0", b! "-1"], [b! "zrank", b! "z", b! "c"]] =
      some [.int 3, .int 1, bulks [b! "a", b! "b", b! "c"], .bulk none] := by
  constructor <;> decide +kernel

/-- C41 fails for a popped member: it is not a member, but ZADD (without flags) does not add it and replies 0. -/
theorem C41_popped_violated :
    replies [[b! "zadd", b! "z", b! "1", b! "a", b! "3", b! "b"], [b! "zpopmin", b! "z"], [b! "zrange", b! "z", b! "0", b! "-1"],
      [b! "zadd", b! "z", b! "7", b! "a"], [b! "zadd", b! "z", b! "nx", b! "7", b! "a"], [b! "zrange", b! "z", b! "0", b! "-1"]] =
      some [.int 2, bulks [b! "a", b! "1"], bulks [b! "b"], .int 0, .int 0, bulks [b! "b"]] := by decide +kernel

/-- the replies of a run with given random heights -/
def repliesWith (rng : Rng) (reqs : List (List Bytes)) : Option (List Reply) :=
  (play ext0 it0 (Store.init rng) reqs).map (fun p => p.1.map (·.2))

/-- C42 fails: after the same requests, ZRANGE lists a removed member or not, and ZCOUNT replies 3, 2 or 1, depending on
the random heights. -/
theorem C42_heights_violated :
    (∃ rng rng', repliesWith rng [[b! "zadd", b! "z", b! "1", b! "a", b! "2", b! "b", b! "3", b! "c", b! "4", b! "d"],
        [b! "zrem", b! "z", b! "c"], [b! "zrange", b! "z", b! "0", b! "-1"]] =
          some [.int 4, .int 1, bulks [b! "a", b! "b", b! "c", b! "d"]] ∧
      repliesWith rng' [[b! "zadd", b! "z", b! "1", b! "a", b! "2", b! "b", b! "3", b! "c", b! "4", b! "d"],
        [b! "zrem", b! "z", b! "c"], [b! "zrange", b! "z", b! "0", b! "-1"]] =
          some [.int 4, .int 1, bulks [b! "a", b! "b", b! "d"]]) ∧
    ∃ rng rng', repliesWith rng [[b! "zadd", b! "z", b! "1", b! "a", b! "2", b! "b", b! "2", b! "c", b! "2", b! "d", b! "5", b! "e"],
        [b! "zcount", b! "z", b! "(2", b! "5"]] = some [.int 5, .int 3] ∧
      repliesWith rng' [[b! "zadd", b! "z", b! "1", b! "a", b! "2", b! "b", b! "2", b! "c", b! "2", b! "d", b! "5", b! "e"],
        [b! "zcount", b! "z", b! "(2", b! "5"]] = some [.int 5, .int 1] :=
  ⟨⟨rng0, fun i => [0, 1, 1].getD i 0, by decide +kernel, by decide +kernel⟩,
   rng0, fun i => [0, 0, 0, 1].getD i 0, by decide +kernel, by decide +kernel⟩

/-! ## cases -/

/-- a history for the cases below -/
def zDemo : List (List Bytes) :=
  [[b! "ZADD", b! "z", b! "3", b! "c", b! "1", b! "a", b! "2", b! "b"], [b! "zadd", b! "z", b! "XX", b! "9", b! "x"],
   [b! "zadd", b! "z", b! "nx", b! "9", b! "a", b! "2", b! "e"], [b! "set", b! "k", b! "v"], [b! "zincr", b! "z", b! "4", b! "a"],
   [b! "zrem", b! "z", b! "b", b! "nope"], [b! "zrange", b! "z", b! "0", b! "-1"]]

/-- its replies -/
def zDemoTrace : List (List Bytes × Reply) := zDemo.zip ((replies zDemo).getD [])

theorem zDemo_history : ∃ s, History ext0 zDemoTrace s := by
  obtain ⟨s, h⟩ := demo (reqs := zDemo) (by decide +kernel)
  exact ⟨s, ⟨⟨_, h⟩, by decide +kernel, by decide +kernel⟩⟩

/-- Case: the history leaves z = e 2, c 3, a 5 (the XX and NX requests and the second ZREM word change nothing more). -/
example : replies zDemo = some [.int 3, .int 0, .int 1, .simple (b! "OK"), .bulk (some (b! "5")), .int 1,
      bulks [b! "e", b! "c", b! "a"]] ∧
    contents (numOf ext0) zDemoTrace (b! "z") = [(smallF64 2, b! "e"), (smallF64 3, b! "c"), (smallF64 5, b! "a")] := by
  constructor <;> decide +kernel

theorem sane_here {z : ZVal} (h : after N tr k = .here (some z)) : Sane N tr k := by
  unfold Sane; rw [h]; exact ⟨nofun, nofun⟩

/-- a view that is a sorted set without damage -/
def isFine : ZView → Bool
  | .here (some _) => true
  | _ => false

theorem sane_fine (h : isFine (after N tr k) = true) : Sane N tr k := by
  unfold Sane
  rcases hv : after N tr k with _ | _ | _ | z
  · rw [hv] at h; cases h
  · rw [hv] at h; cases h
  · rw [hv] at h; cases h
  · exact ⟨nofun, nofun⟩

theorem zDemo_sane : Sane (numOf ext0) zDemoTrace (b! "z") := sane_fine (by decide +kernel)

/-- Case for C33, C35, C36: all views show the three entries. -/
example : ∃ s, History ext0 zDemoTrace s ∧ Shown ext0 s (b! "z") [(smallF64 2, b! "e"), (smallF64 3, b! "c"), (smallF64 5, b! "a")] ∧
    Reads ext0 s [b! "zrank", b! "z", b! "c"] (.int 2) ∧
    Reads ext0 s [b! "zrange", b! "z", b! "-2", b! "7"] (bulks [b! "c", b! "a"]) ∧ Gone ext0 s (b! "z") (b! "b") := by
  obtain ⟨s, h⟩ := zDemo_history
  have hc : contents (numOf ext0) zDemoTrace (b! "z") = [(smallF64 2, b! "e"), (smallF64 3, b! "c"), (smallF64 5, b! "a")] := by decide +kernel
  have h1 := C33_sorted_partial h zDemo_sane
  have h2 := C35_zrank_partial h zDemo_sane (i := 1) (e := (smallF64 3, b! "c")) (by rw [hc]; rfl)
  have h3 := (C36_zrange_partial h zDemo_sane (by rw [hc]; simp) (a := b! "-2") (b := b! "7") (start := -2) (stop := 7) (by decide) (by decide)).1
  rw [hc] at h1 h3
  rw [show members (window [(smallF64 2, b! "e"), (smallF64 3, b! "c"), (smallF64 5, b! "a")] (-2) 7) = [b! "c", b! "a"] by decide +kernel] at h3
  exact ⟨s, h, h1, h2, h3, C35_absent_partial h zDemo_sane (by unfold NeverPops; decide +kernel) (by rw [hc]; decide +kernel)⟩

/-- Case for C34: the history uses z only with ZADD, ZINCR and ZREM; ZSCORE replies the last score of a and nil for b. -/
example : ∃ s, History ext0 zDemoTrace s ∧ Reads ext0 s [b! "zscore", b! "z", b! "a"] (.bulk (some (b! "5"))) ∧
    Reads ext0 s [b! "zscore", b! "z", b! "b"] (.bulk none) := by
  obtain ⟨s, h⟩ := zDemo_history
  have hu : OnlyUses (b! "z") [b! "zadd", b! "zincr", b! "zrem"] zDemoTrace := by unfold OnlyUses; decide +kernel
  have ha := C34_zscore_partial h hu zDemo_sane.2 (b! "a")
  have hb := C34_zscore_partial h hu zDemo_sane.2 (b! "b")
  rw [show (lastScore (numOf ext0) (b! "z") (b! "a") zDemoTrace).map ext0.formatFloat = some (b! "5") by decide +kernel] at ha
  rw [show (lastScore (numOf ext0) (b! "z") (b! "b") zDemoTrace).map ext0.formatFloat = none by decide +kernel] at hb
  exact ⟨s, h, ha, hb⟩

/-- Case for C37 and C38: the interval [3, 5) is easy and contains one member. -/
example : ∃ s, History ext0 zDemoTrace s ∧ Reads ext0 s [b! "zcount", b! "z", b! "3", b! "(5"] (.int 1) ∧
    Reads ext0 s [b! "zrangebyscore", b! "z", b! "3", b! "(5"] (bulks [b! "c"]) := by
  obtain ⟨s, h⟩ := zDemo_history
  have hc : contents (numOf ext0) zDemoTrace (b! "z") = [(smallF64 2, b! "e"), (smallF64 3, b! "c"), (smallF64 5, b! "a")] := by decide +kernel
  have ha : bound (numOf ext0) (b! "3") = some (smallF64 3, false) := by decide +kernel
  have hb : bound (numOf ext0) (b! "(5") = some (smallF64 5, true) := by decide +kernel
  have hu : Upright (smallF64 3, false) (smallF64 5, true) := .inl (by decide +kernel)
  have he : Easy (contents (numOf ext0) zDemoTrace (b! "z")) (smallF64 3, false) (smallF64 5, true) := by
    rw [hc]; exact .inr (.inl ⟨.inr ⟨by decide +kernel, .inl (by decide +kernel)⟩, by decide +kernel, .inr (by decide +kernel)⟩)
  have h1 := C37_zcount_partial h zDemo_sane (by unfold Ascii; decide) (by unfold Ascii; decide) ha hb hu he
  have h2 := C38_zrangebyscore_partial h zDemo_sane ha hb hu he (by rw [hc]; exact ⟨(smallF64 3, b! "c"), by simp, by decide +kernel⟩)
  rw [hc] at h1 h2
  rw [show ([(smallF64 2, b! "e"), (smallF64 3, b! "c"), (smallF64 5, b! "a")].filter
    (fun e => within (smallF64 3, false) (smallF64 5, true) e.1)) = [(smallF64 3, b! "c")] by decide +kernel] at h1 h2
  exact ⟨s, h, h1, h2⟩

/-- a history with one more request -/
theorem more {reqs : List (List Bytes)} {req : List Bytes} (hp : (play ext0 it0 (Store.init rng0) (reqs ++ [req])).isSome)
    (hn : ∀ p ∈ (reqs ++ [req]).zip ((replies (reqs ++ [req])).getD []), Named p.1) (hw : words ((reqs ++ [req]).zip ((replies (reqs ++ [req])).getD [])) < 2 ^ 61) :
    ∃ s, History ext0 ((reqs ++ [req]).zip ((replies (reqs ++ [req])).getD [])) s := by
  obtain ⟨s, h⟩ := demo hp
  exact ⟨s, ⟨⟨_, h⟩, hn, hw⟩⟩

/-- Case for C39: removing e and c, which are at the first two positions. -/
example : ∃ s, History ext0 (zDemoTrace ++ [([b! "zrem", b! "z", b! "c", b! "e", b! "nope"], .int 2)]) s ∧
    Shown ext0 s (b! "z") [(smallF64 5, b! "a")] := by
  obtain ⟨s, h⟩ := more (reqs := zDemo) (req := [b! "zrem", b! "z", b! "c", b! "e", b! "nope"]) (by decide +kernel) (by decide +kernel) (by decide +kernel)
  rw [show (zDemo ++ [[b! "zrem", b! "z", b! "c", b! "e", b! "nope"]]).zip ((replies (zDemo ++ [[b! "zrem", b! "z", b! "c", b! "e", b! "nope"]])).getD []) =
    zDemoTrace ++ [([b! "zrem", b! "z", b! "c", b! "e", b! "nope"], .int 2)] by decide +kernel] at h
  have hc : contents (numOf ext0) zDemoTrace (b! "z") = [(smallF64 2, b! "e"), (smallF64 3, b! "c"), (smallF64 5, b! "a")] := by decide +kernel
  have := (C39_zrem_partial h zDemo_sane (by unfold NeverPops; decide +kernel) (by rw [hc]; decide +kernel)).2.1
  rw [hc] at this
  exact ⟨s, h, this⟩

/-- Case for C40: ZPOPMIN 2 replies e 2 c 3 and leaves a. -/
example : ∃ s, History ext0 (zDemoTrace ++ [([b! "zpopmin", b! "z", b! "2"], bulks [b! "e", b! "2", b! "c", b! "3"])]) s ∧
    Shown ext0 s (b! "z") [(smallF64 5, b! "a")] := by
  obtain ⟨s, h⟩ := more (reqs := zDemo) (req := [b! "zpopmin", b! "z", b! "2"]) (by decide +kernel) (by decide +kernel) (by decide +kernel)
  rw [show (zDemo ++ [[b! "zpopmin", b! "z", b! "2"]]).zip ((replies (zDemo ++ [[b! "zpopmin", b! "z", b! "2"]])).getD []) =
    zDemoTrace ++ [([b! "zpopmin", b! "z", b! "2"], bulks [b! "e", b! "2", b! "c", b! "3"])] by decide +kernel] at h
  have hc : contents (numOf ext0) zDemoTrace (b! "z") = [(smallF64 2, b! "e"), (smallF64 3, b! "c"), (smallF64 5, b! "a")] := by decide +kernel
  have := (C40_zpopmin_partial h zDemo_sane (n := 2) (by decide)).2
  rw [hc] at this
  exact ⟨s, h, this⟩

/-- Case for C40: a set of two members, ZPOPMAX of one. -/
example : ∃ s, History ext0 ([([b! "zadd", b! "y", b! "1", b! "a", b! "2", b! "b"], .int 2)] ++ [([b! "zpopmax", b! "y"], bulks [b! "b", b! "2"])]) s ∧
    Shown ext0 s (b! "y") [(smallF64 1, b! "a")] := by
  obtain ⟨s, h⟩ := more (reqs := [[b! "zadd", b! "y", b! "1", b! "a", b! "2", b! "b"]]) (req := [b! "zpopmax", b! "y"]) (by decide +kernel) (by decide +kernel) (by decide +kernel)
  rw [show ([[b! "zadd", b! "y", b! "1", b! "a", b! "2", b! "b"]] ++ [[b! "zpopmax", b! "y"]]).zip
    ((replies ([[b! "zadd", b! "y", b! "1", b! "a", b! "2", b! "b"]] ++ [[b! "zpopmax", b! "y"]])).getD []) =
    [([b! "zadd", b! "y", b! "1", b! "a", b! "2", b! "b"], .int 2)] ++ [([b! "zpopmax", b! "y"], bulks [b! "b", b! "2"])] by decide +kernel] at h
  have hc : contents (numOf ext0) [([b! "zadd", b! "y", b! "1", b! "a", b! "2", b! "b"], .int 2)] (b! "y") = [(smallF64 1, b! "a"), (smallF64 2, b! "b")] := by decide +kernel
  have := (C40_zpopmax_partial h (sane_fine (by decide +kernel)) (n := 1) (by decide) (by decide) (by rw [hc]; decide) (by rw [hc]; decide)).2
  rw [hc] at this
  exact ⟨s, h, this⟩

/-- Case for C41: with NX, a keeps its score and f is added. -/
example : ∃ s, History ext0 (zDemoTrace ++ [([b! "zadd", b! "z", b! "NX", b! "1", b! "a", b! "4", b! "f"], .int 1)]) s ∧
    Shown ext0 s (b! "z") [(smallF64 2, b! "e"), (smallF64 3, b! "c"), (smallF64 4, b! "f"), (smallF64 5, b! "a")] := by
  obtain ⟨s, h⟩ := more (reqs := zDemo) (req := [b! "zadd", b! "z", b! "NX", b! "1", b! "a", b! "4", b! "f"]) (by decide +kernel) (by decide +kernel) (by decide +kernel)
  rw [show (zDemo ++ [[b! "zadd", b! "z", b! "NX", b! "1", b! "a", b! "4", b! "f"]]).zip
    ((replies (zDemo ++ [[b! "zadd", b! "z", b! "NX", b! "1", b! "a", b! "4", b! "f"]])).getD []) =
    zDemoTrace ++ [([b! "zadd", b! "z", b! "NX", b! "1", b! "a", b! "4", b! "f"], .int 1)] by decide +kernel] at h
  have hc : contents (numOf ext0) zDemoTrace (b! "z") = [(smallF64 2, b! "e"), (smallF64 3, b! "c"), (smallF64 5, b! "a")] := by decide +kernel
  have hes : addArgs (numOf ext0) [b! "NX", b! "1", b! "a", b! "4", b! "f"] {} = some ([(smallF64 1, b! "a"), (smallF64 4, b! "f")], { nx := true }) := by
    simp only [addArgs]
    rfl
  have := (C41_zadd_partial h zDemo_sane (by unfold NeverPops; decide +kernel) hes (sane_fine (by decide +kernel)).2).2
  rw [hc] at this
  rw [show ([(smallF64 1, b! "a"), (smallF64 4, b! "f")].foldl (addEntry (numOf ext0) { nx := true }) ([(smallF64 2, b! "e"), (smallF64 3, b! "c"), (smallF64 5, b! "a")], 0)).1
    = [(smallF64 2, b! "e"), (smallF64 3, b! "c"), (smallF64 4, b! "f"), (smallF64 5, b! "a")] by decide +kernel] at this
  exact ⟨s, h, this⟩

/-- Case for C41: ZINCR of c by 4 moves it behind a. -/
example : ∃ s, History ext0 (zDemoTrace ++ [([b! "zincr", b! "z", b! "4", b! "c"], .bulk (some (b! "7")))]) s ∧
    Shown ext0 s (b! "z") [(smallF64 2, b! "e"), (smallF64 5, b! "a"), (smallF64 7, b! "c")] := by
  obtain ⟨s, h⟩ := more (reqs := zDemo) (req := [b! "zincr", b! "z", b! "4", b! "c"]) (by decide +kernel) (by decide +kernel) (by decide +kernel)
  rw [show (zDemo ++ [[b! "zincr", b! "z", b! "4", b! "c"]]).zip ((replies (zDemo ++ [[b! "zincr", b! "z", b! "4", b! "c"]])).getD []) =
    zDemoTrace ++ [([b! "zincr", b! "z", b! "4", b! "c"], .bulk (some (b! "7")))] by decide +kernel] at h
  have hc : contents (numOf ext0) zDemoTrace (b! "z") = [(smallF64 2, b! "e"), (smallF64 3, b! "c"), (smallF64 5, b! "a")] := by decide +kernel
  have := (C41_zincr_partial h zDemo_sane (by unfold NeverPops; decide +kernel) (sc := smallF64 4) (old := smallF64 3) (by decide +kernel)
    (by rw [hc]; simp) (by decide +kernel) (by decide +kernel)).2
  rw [hc] at this
  rw [show place (ext0.fadd (smallF64 4) (smallF64 3), b! "c") (without (b! "c") [(smallF64 2, b! "e"), (smallF64 3, b! "c"), (smallF64 5, b! "a")])
    = [(smallF64 2, b! "e"), (smallF64 5, b! "a"), (smallF64 7, b! "c")] by decide +kernel] at this
  exact ⟨s, h, this⟩

/-- two histories that give the same scores in another order, one of them through corrections -/
def zOrder1 : List (List Bytes) := [[b! "zadd", b! "z", b! "1", b! "a", b! "2", b! "b", b! "2", b! "c"]]
def zOrder2 : List (List Bytes) :=
  [[b! "zadd", b! "z", b! "2", b! "c", b! "4", b! "d"], [b! "zadd", b! "z", b! "7", b! "a"], [b! "zcard", b! "z"],
   [b! "zadd", b! "z", b! "2", b! "b", b! "1", b! "a"], [b! "zincr", b! "z", b! "3", b! "d"], [b! "zrem", b! "z", b! "a"],
   [b! "zadd", b! "z", b! "1", b! "a"], [b! "zadd", b! "z", b! "0", b! "d"], [b! "zrem", b! "z", b! "d"]]

/-- Case for C33: both leave a, b, c in this order. -/
example : ∃ s s', History ext0 (zOrder1.zip ((replies zOrder1).getD [])) s ∧ History ext0 (zOrder2.zip ((replies zOrder2).getD [])) s' ∧
    ∃ l, members l = [b! "a", b! "b", b! "c"] ∧ Shown ext0 s (b! "z") l ∧ Shown ext0 s' (b! "z") l := by
  obtain ⟨s, h⟩ := demo (reqs := zOrder1) (by decide +kernel)
  obtain ⟨s', h'⟩ := demo (reqs := zOrder2) (by decide +kernel)
  have H : History ext0 (zOrder1.zip ((replies zOrder1).getD [])) s := ⟨⟨_, h⟩, by decide +kernel, by decide +kernel⟩
  have H' : History ext0 (zOrder2.zip ((replies zOrder2).getD [])) s' := ⟨⟨_, h'⟩, by decide +kernel, by decide +kernel⟩
  have h1 := C33_sorted_partial H (k := b! "z") (sane_fine (by decide +kernel))
  have h2 := C33_sorted_partial H' (k := b! "z") (sane_fine (by decide +kernel))
  rw [show contents (numOf ext0) (zOrder2.zip ((replies zOrder2).getD [])) (b! "z") = contents (numOf ext0) (zOrder1.zip ((replies zOrder1).getD [])) (b! "z")
    by decide +kernel] at h2
  exact ⟨s, s', H, H', _, by decide +kernel, h1, h2⟩

/-- Case for C42: the requests ZADD, ZADD, ZCOUNT with an excluded bound are settled, and the two runs differ in the
random heights. -/
example : ∃ tr s s', History ext0 tr s ∧ History ext0 tr s' ∧
    (∃ rng rng', Trace ext0 (Store.init rng) tr s ∧ Trace ext0 (Store.init rng') tr s' ∧ rng 0 ≠ rng' 0) ∧
    (∀ tr1 p tr2, tr = tr1 ++ p :: tr2 → Settled (numOf ext0) (after (numOf ext0) tr1) p.1 p.2) ∧ tr.length = 2 := by
  have hp : play ext0 it0 (Store.init rng0) [[b! "zadd", b! "z", b! "1", b! "a", b! "2", b! "b"], [b! "zcount", b! "z", b! "1", b! "(2"]] |>.isSome := by decide +kernel
  have hp' : play ext0 it0 (Store.init (fun _ => 3)) [[b! "zadd", b! "z", b! "1", b! "a", b! "2", b! "b"], [b! "zcount", b! "z", b! "1", b! "(2"]] |>.isSome := by decide +kernel
  obtain ⟨⟨tr, s⟩, h⟩ := Option.isSome_iff_exists.mp hp
  obtain ⟨⟨tr', s'⟩, h'⟩ := Option.isSome_iff_exists.mp hp'
  have e : ∀ rng, (play ext0 it0 (Store.init rng) [[b! "zadd", b! "z", b! "1", b! "a", b! "2", b! "b"], [b! "zcount", b! "z", b! "1", b! "(2"]]).map (·.1) =
      some [([b! "zadd", b! "z", b! "1", b! "a", b! "2", b! "b"], .int 2), ([b! "zcount", b! "z", b! "1", b! "(2"], .int 1)] →
      ∀ tr s, play ext0 it0 (Store.init rng) [[b! "zadd", b! "z", b! "1", b! "a", b! "2", b! "b"], [b! "zcount", b! "z", b! "1", b! "(2"]] = some (tr, s) →
      tr = [([b! "zadd", b! "z", b! "1", b! "a", b! "2", b! "b"], .int 2), ([b! "zcount", b! "z", b! "1", b! "(2"], .int 1)] := by
    intro rng he tr s h
    rw [h] at he
    exact Option.some.inj he
  have e1 := e rng0 (by decide +kernel) tr s h
  have e2 := e (fun _ => 3) (by decide +kernel) tr' s' h'
  subst e1 e2
  have t1 := play_trace h
  have t2 := play_trace h'
  refine ⟨_, s, s', ⟨⟨_, t1⟩, by decide +kernel, by decide +kernel⟩, ⟨⟨_, t2⟩, by decide +kernel, by decide +kernel⟩,
    ⟨_, _, t1, t2, by decide⟩, ?_, rfl⟩
  intro tr1 p tr2 he
  rcases tr1 with _ | ⟨q, _ | ⟨q', tr1⟩⟩
  · cases he
    refine ⟨by decide, ?_, ?_, ?_, ?_⟩
    · intro k hk; cases hk; nofun
    · intro k hk _; cases hk
      exact (sane_fine (N := numOf ext0) (tr := [([b! "zadd", b! "z", b! "1", b! "a", b! "2", b! "b"], .int 2)]) (by decide +kernel)).2
    · intro k hk hh; exact absurd hh (by decide)
    · intro k hk hh; exact absurd hh (by decide)
  · cases he
    have hs := (sane_fine (N := numOf ext0) (tr := [([b! "zadd", b! "z", b! "1", b! "a", b! "2", b! "b"], .int 2)]) (k := b! "z") (by decide +kernel)).2
    refine ⟨by decide, ?_, ?_, ?_, ?_⟩
    · intro k hk; cases hk; exact hs
    · intro k hk _; cases hk
      exact (sane_fine (N := numOf ext0) (tr := [([b! "zadd", b! "z", b! "1", b! "a", b! "2", b! "b"], .int 2),
        ([b! "zcount", b! "z", b! "1", b! "(2"], .int 1)]) (k := b! "z") (by decide +kernel)).2
    · intro k hk _; cases hk
      intro t ht b hb h2
      have ht : t = b! "1" ∨ t = b! "(2" := by simpa using ht
      rcases ht with rfl | rfl
      · rw [show bound (numOf ext0) (b! "1") = some (smallF64 1, false) by decide +kernel,
          show bound (numOf ext0) ((numOf ext0).lower (b! "1")) = some (smallF64 1, false) by decide +kernel] at hb
        rcases hb with hb | hb <;> (cases hb; cases h2)
      · rw [show bound (numOf ext0) (b! "(2") = some (smallF64 2, true) by decide +kernel,
          show bound (numOf ext0) ((numOf ext0).lower (b! "(2")) = some (smallF64 2, true) by decide +kernel] at hb
        rcases hb with hb | hb <;> (cases hb; decide +kernel)
    · intro k hk hh; exact absurd hh (by decide)
  · simp at he

end Godis
