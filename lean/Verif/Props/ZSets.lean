import Verif.Proofs.ZSets7
import Verif.Props.Lists2
/-!
# C33–C42: sorted sets

`ZSpec.after N tr` (Spec/ZSets.lean) is what the keys hold after the history `tr`, computed from requests and replies
alone; `contents N tr k` are the entries of `k` in ascending order, and `Sane N tr k` says that `k` holds a sorted set or
nothing, and that the server has not damaged the sorted set.  What damages one: a score that is not a number, ZREM of a
member beyond the second position, and ZPOPMAX of a set with more than two members (see the `_violated` theorems).
`Shown ext s k l` (Props/ZDefs.lean) says through the API that the entries at `k` are `l`: ZRANGE, ZCARD, ZSCORE and ZRANK
all agree on it.  All theorems hold for every sequence of random skip-list heights (`History` leaves it open).
-/
namespace Godis
open Resp (Reply bulks)
open ZSpec
open ListSpec (OnlyUses errType errArgs errRange window)
open StrSpec (int64 lower Ascii)
open KeySpec (KView keyArgs)

variable {ext : Ext} {tr tr' : List (List Bytes × Reply)} {s s' : Store} {k : Bytes} {m : Reply}

/-! ## C33 -/

/-- C33, what the code does, for every sorted-set command: after any history, the reply is correct for the sorted sets
that the history left. -/
theorem C33_replies_partial {name : Bytes} {args : List Bytes} (h : History ext (tr ++ [(name :: args, m)]) s)
    (hc : lower name ∈ commands) : Fits (numOf ext) (after (numOf ext) tr) (lower name) args m :=
  h.fits hc

/-- C33: the entries at `k` are ascending by (score, member), every member occurs once, and ZRANGE 0 -1, ZCARD, ZSCORE
and ZRANK all show exactly these entries.  Missing: damaged sorted sets. -/
theorem C33_sorted_partial (h : History ext tr s) (hk : Sane (numOf ext) tr k) : Shown ext s k (contents (numOf ext) tr k) :=
  h.shown' hk

/-- C33 for histories that use `k` only with ZADD (scores that are numbers, no INCR), ZPOPMIN and reading commands: no
further condition. -/
theorem C33_sorted_calm (h : History ext tr s) (hk : Calm (numOf ext) k tr) : Shown ext s k (contents (numOf ext) tr k) :=
  h.shown' (calm_sane hk)

/-- the entries are those with a last score, if the key is used with ZADD, ZINCR and ZREM only -/
theorem contents_iff (h : History ext tr s) (hu : OnlyUses k [b! "zadd", b! "zincr", b! "zrem"] tr) (hk : after (numOf ext) tr k ≠ .here none)
    (e : Entry) : e ∈ contents (numOf ext) tr k ↔ lastScore (numOf ext) k e.2 tr = some e.1 := by
  obtain ⟨h1, h2⟩ := after_knows (N := numOf ext) hu
  obtain ⟨h3, h4⟩ := h2 hk
  have := (h.zgood.seen_entries k).2
  have h4' : lastScore (numOf ext) k e.2 tr = (seen (after (numOf ext) tr k)).dict e.2 := (h4 e.2).symm
  rw [h4']
  refine ⟨this e, fun hd => ?_⟩
  have hm := h3 _ _ hd
  unfold members at hm
  obtain ⟨f, hf, he⟩ := List.mem_map.mp hm
  have h5 := this f hf
  rw [he, hd] at h5
  have : e = f := Prod.ext (Option.some.inj h5) he.symm
  rw [this]; exact hf

/-- C33, ZRANGE does not depend on the order of insertion: if two histories gave the same last scores to the members of
`k`, the entries are the same in the same order. -/
theorem C33_order_free_partial (h : History ext tr s) (h' : History ext tr' s')
    (hu : OnlyUses k [b! "zadd", b! "zincr", b! "zrem"] tr) (hu' : OnlyUses k [b! "zadd", b! "zincr", b! "zrem"] tr')
    (hk : after (numOf ext) tr k ≠ .here none) (hk' : after (numOf ext) tr' k ≠ .here none)
    (hs : ∀ x, lastScore (numOf ext) k x tr = lastScore (numOf ext) k x tr') :
    ∃ l, Shown ext s k l ∧ Shown ext s' k l ∧ ∀ e, e ∈ l ↔ lastScore (numOf ext) k e.2 tr = some e.1 := by
  have e : contents (numOf ext) tr k = contents (numOf ext) tr' k :=
    entries_unique (h.entries k) (h'.entries k) (fun e => by rw [contents_iff h hu hk, contents_iff h' hu' hk', hs])
  refine ⟨_, h.shown' ⟨(after_knows hu).1, hk⟩, ?_, contents_iff h hu hk⟩
  rw [e]
  exact h'.shown' ⟨(after_knows hu').1, hk'⟩

/-! ## C34 -/

/-- C34: in a history that uses `k` only with ZADD, ZINCR, ZREM and reading commands, ZSCORE replies the last score given
to the member, and nil if there is none. -/
theorem C34_zscore_partial (h : History ext tr s) (hu : OnlyUses k [b! "zadd", b! "zincr", b! "zrem"] tr)
    (hk : after (numOf ext) tr k ≠ .here none) (x : Bytes) :
    Reads ext s [b! "zscore", k, x] (.bulk ((lastScore (numOf ext) k x tr).map ext.formatFloat)) := by
  have hs := (after_knows (N := numOf ext) hu).1
  cases hx : lastScore (numOf ext) k x tr with
  | none =>
    have : (seen (after (numOf ext) tr k)).dict x = none := by rw [((after_knows (N := numOf ext) hu).2 hk).2 x]; exact hx
    exact (h.gone hs hk this).1
  | some sc => exact (h.shown' ⟨hs, hk⟩).score (sc, x) ((contents_iff h hu hk (sc, x)).mpr hx)

/-! ## C35 -/

/-- C35: ZRANK replies the position of a member in the ZRANGE order, counted from 1. -/
theorem C35_zrank_partial (h : History ext tr s) (hk : Sane (numOf ext) tr k) {i : Nat} {e : Entry}
    (hi : (contents (numOf ext) tr k)[i]? = some e) : Reads ext s [b! "zrank", k, e.2] (.int (i + 1)) :=
  (h.shown' hk).rank i e hi

/-- C35: ZRANK (and ZSCORE) of a text that is not a member is nil, if nothing was ever popped from `k`. -/
theorem C35_absent_partial (h : History ext tr s) (hk : Sane (numOf ext) tr k) (hno : NeverPops k tr) {x : Bytes}
    (hx : x ∉ members (contents (numOf ext) tr k)) : Gone ext s k x := by
  refine h.gone hk.1 hk.2 ?_
  cases hd : (seen (after (numOf ext) tr k)).dict x with
  | none => rfl
  | some sc => exact absurd (closed_seen hno x sc hd) hx

/-! ## C36 -/

theorem no_flags {b : Bytes} {i : Int} (h : int64 b = some i) : ZSpec.hasWord (numOf ext) (s!! "withscores") [b] = false ∧
    ZSpec.hasWord (numOf ext) (s!! "byscore") [b] = false ∧ ZSpec.hasWord (numOf ext) (s!! "withscores") [b, b! "WITHSCORES"] = true ∧
    ZSpec.hasWord (numOf ext) (s!! "byscore") [b, b! "WITHSCORES"] = false := by
  obtain ⟨h1, h2⟩ := int64_no_flag (ext := ext) h
  have h3 : (numOf ext).lower (b! "WITHSCORES") = lower (b! "WITHSCORES") := lower_eq (uni := ext.lowerUni) (s := b! "WITHSCORES") (by unfold Ascii; decide)
  have h4 : lower (b! "WITHSCORES") = s!! "withscores" := by decide
  unfold ZSpec.hasWord
  refine ⟨by simpa using h2, by simpa using h1, by simp [h3, h4], by simp [h3, h4, h1]⟩

/-- C36: ZRANGE start stop, with and without scores, lists the members at the positions from `start` to `stop` in
ascending order; negative positions count from the end, positions outside do not exist.  Missing: damaged sorted sets;
and an empty sorted set is answered with nil instead of the empty array. -/
theorem C36_zrange_partial (h : History ext tr s) (hk : Sane (numOf ext) tr k) (hne : contents (numOf ext) tr k ≠ []) {a b : Bytes}
    {start stop : Int} (ha : int64 a = some start) (hb : int64 b = some stop) :
    Reads ext s [b! "zrange", k, a, b] (bulks (members (window (contents (numOf ext) tr k) start stop))) ∧
    Reads ext s [b! "zrange", k, a, b, b! "WITHSCORES"] (listing (numOf ext) true (window (contents (numOf ext) tr k) start stop)) := by
  have hne' : ¬ (seen (after (numOf ext) tr k)).order = [] := hne
  obtain ⟨f1, f2, f3, f4⟩ := no_flags (ext := ext) hb
  have hd' : ∀ rest : List Bytes, ∀ k' ∈ (k :: rest).head?, after (numOf ext) tr k' ≠ .here none := by
    intro rest k' hk'; cases hk'; exact hk.2
  constructor
  · refine h.reads (by unfold Ascii; decide) (by decide) (hd' _) (hm := fun m' hf => ?_)
    have hf : onKey (after (numOf ext) tr k) m' (RangeFits (numOf ext) a b [b] m') := hf
    rw [onKey_seen hk.1 hk.2] at hf
    unfold RangeFits RangeByPosition at hf
    rw [if_neg hne', if_neg (by rw [f2]; simp), ha, hb, f1] at hf
    rw [← listing_plain (N := numOf ext)]
    exact hf
  · refine h.reads (by unfold Ascii; decide) (by decide) (hd' _) (hm := fun m' hf => ?_)
    have hf : onKey (after (numOf ext) tr k) m' (RangeFits (numOf ext) a b [b, b! "WITHSCORES"] m') := hf
    rw [onKey_seen hk.1 hk.2] at hf
    unfold RangeFits RangeByPosition at hf
    rw [if_neg hne', if_neg (by rw [f4]; simp), ha, hb, f3] at hf
    exact hf

/-- C36, what ZREVRANGE does: it lists the window of the ascending order, reversed. -/
theorem C36_zrevrange_partial (h : History ext tr s) (hk : Sane (numOf ext) tr k) (hne : contents (numOf ext) tr k ≠ []) {a b : Bytes}
    {start stop : Int} (ha : int64 a = some start) (hb : int64 b = some stop) :
    Reads ext s [b! "zrevrange", k, a, b] (bulks (members (window (contents (numOf ext) tr k) start stop).reverse)) := by
  have hne' : ¬ (seen (after (numOf ext) tr k)).order = [] := hne
  obtain ⟨f1, -, -, -⟩ := no_flags (ext := ext) hb
  refine h.reads (by unfold Ascii; decide) (by decide) (by intro k' hk'; cases hk'; exact hk.2) (hm := fun m' hf => ?_)
  have hf : onKey (after (numOf ext) tr k) m' (fun z => if z.order = [] then m' = .bulk none else
    RangeByPosition (numOf ext) true z.order a b (ZSpec.hasWord (numOf ext) (s!! "withscores") [b]) m') := hf
  rw [onKey_seen hk.1 hk.2] at hf
  unfold RangeByPosition at hf
  rw [if_neg hne', ha, hb, f1] at hf
  rw [← listing_plain (N := numOf ext)]
  exact hf

/-- C36: ZREVRANGE 0 -1 is the descending order. -/
theorem C36_zrevrange_all (h : History ext tr s) (hk : Sane (numOf ext) tr k) (hne : contents (numOf ext) tr k ≠ []) :
    Reads ext s [b! "zrevrange", k, b! "0", b! "-1"] (bulks (members (contents (numOf ext) tr k).reverse)) := by
  have := C36_zrevrange_partial h hk hne (a := b! "0") (b := b! "-1") (start := 0) (stop := -1) (by decide) (by decide)
  rwa [window_full] at this

/-! ## C37, C38 -/

theorem bound_lower {a : Bytes} (h : Ascii a) : bound (numOf ext) ((numOf ext).lower a) = bound (numOf ext) a := by
  have h1 : (numOf ext).lower a = lower a := lower_eq (uni := ext.lowerUni) h
  have h2 : Ascii (lower a) := by
    intro c hc
    unfold lower at hc
    obtain ⟨d, hd, rfl⟩ := List.mem_map.mp hc
    have := h d hd
    split
    · next hh => rw [UInt8.toNat_add]; show (d.toNat + 32) % 256 < 128; omega
    · exact this
  have h3 : (numOf ext).lower (lower a) = lower (lower a) := lower_eq (uni := ext.lowerUni) h2
  have h4 : lower (lower a) = lower a := by
    unfold lower
    rw [List.map_map]
    apply List.map_congr_left
    intro c hc
    show (if 65 ≤ (if 65 ≤ c.toNat ∧ c.toNat ≤ 90 then c + 32 else c).toNat ∧ (if 65 ≤ c.toNat ∧ c.toNat ≤ 90 then c + 32 else c).toNat ≤ 90
      then (if 65 ≤ c.toNat ∧ c.toNat ≤ 90 then c + 32 else c) + 32 else (if 65 ≤ c.toNat ∧ c.toNat ≤ 90 then c + 32 else c)) = _
    by_cases hh : 65 ≤ c.toNat ∧ c.toNat ≤ 90
    · simp only [if_pos hh]
      rw [if_neg]
      rw [UInt8.toNat_add]
      show ¬ (65 ≤ (c.toNat + 32) % 256 ∧ (c.toNat + 32) % 256 ≤ 90)
      omega
    · simp only [if_neg hh]
  unfold bound
  rw [h1, h3, h4]

/-- C37, for the intervals on which the server is right (`Easy`, Spec/ZSets.lean): ZCOUNT replies the number of members
whose score is in the interval. -/
theorem C37_zcount_partial (h : History ext tr s) (hk : Sane (numOf ext) tr k) {a b : Bytes} (haa : Ascii a) (hba : Ascii b)
    {lo hi : F64 × Bool} (ha : bound (numOf ext) a = some lo) (hb : bound (numOf ext) b = some hi) (hu : Upright lo hi)
    (he : Easy (contents (numOf ext) tr k) lo hi) :
    Reads ext s [b! "zcount", k, a, b] (.int ((contents (numOf ext) tr k).filter (fun e => within lo hi e.1)).length) := by
  refine h.reads (by unfold Ascii; decide) (by decide) (by intro k' hk'; cases hk'; exact hk.2) (hm := fun m' hf => ?_)
  have hf : onKey (after (numOf ext) tr k) m' (fun z => if z.order = [] then m' = .int 0 else
    CountByScore (numOf ext) z.order ((numOf ext).lower a) ((numOf ext).lower b) m') := hf
  rw [onKey_seen hk.1 hk.2] at hf
  by_cases h0 : (seen (after (numOf ext) tr k)).order = []
  · rw [if_pos h0] at hf
    unfold contents
    rw [hf, h0]; rfl
  · rw [if_neg h0] at hf
    unfold CountByScore at hf
    rw [bound_lower haa, bound_lower hba, ha, hb] at hf
    simp only at hf
    by_cases hev : everything lo hi
    · rw [if_pos hev] at hf
      have hin : (contents (numOf ext) tr k).filter (fun e => within lo hi e.1) = contents (numOf ext) tr k := by
        rcases he with ⟨rfl, rfl⟩ | ⟨_, h2, _⟩ | ⟨h1, _, _⟩
        · exact within_all (h.entries k)
        · rw [hev.2] at h2; exact absurd h2 (by decide)
        · rw [hev.1] at h1; exact absurd h1 (by decide)
      rw [hin]; exact hf
    · rw [if_neg hev] at hf
      obtain ⟨r1, r2, c1, c2, hm⟩ := hf
      rw [hm, ← easy_count (h.entries k) hu he hev c1 c2]
      rfl

/-- C38, for the same intervals, and if some member is not above the interval: ZRANGEBYSCORE lists exactly the members
whose score is in the interval, ascending. -/
theorem C38_zrangebyscore_partial (h : History ext tr s) (hk : Sane (numOf ext) tr k) {a b : Bytes}
    {lo hi : F64 × Bool} (ha : bound (numOf ext) a = some lo) (hb : bound (numOf ext) b = some hi) (hu : Upright lo hi)
    (he : Easy (contents (numOf ext) tr k) lo hi) (hsome : ∃ e ∈ contents (numOf ext) tr k, within (F64.negInf, false) hi e.1 = true) :
    Reads ext s [b! "zrangebyscore", k, a, b] (bulks (members ((contents (numOf ext) tr k).filter (fun e => within lo hi e.1)))) := by
  refine h.reads (by unfold Ascii; decide) (by decide) (by intro k' hk'; cases hk'; exact hk.2) (hm := fun m' hf => ?_)
  have hf : onKey (after (numOf ext) tr k) m' (fun z => if z.order = [] then m' = .bulk none else
    RangeByScore (numOf ext) z.order a b false m') := hf
  rw [onKey_seen hk.1 hk.2] at hf
  have h0 : contents (numOf ext) tr k ≠ [] := by
    obtain ⟨e, e1, _⟩ := hsome
    intro hh; rw [hh] at e1; cases e1
  have h0' : ¬ (seen (after (numOf ext) tr k)).order = [] := h0
  rw [if_neg h0'] at hf
  unfold RangeByScore at hf
  rw [ha, hb] at hf
  simp only at hf
  by_cases hev : everything lo hi
  · rw [if_pos hev, listing_plain] at hf
    have hin : (contents (numOf ext) tr k).filter (fun e => within lo hi e.1) = contents (numOf ext) tr k := by
      rcases he with ⟨rfl, rfl⟩ | ⟨_, h2, _⟩ | ⟨h1, _, _⟩
      · exact within_all (h.entries k)
      · rw [hev.2] at h2; exact absurd h2 (by decide)
      · rw [hev.1] at h1; exact absurd h1 (by decide)
    rw [hin]; exact hf
  · rw [if_neg hev] at hf
    obtain ⟨r1, r2, c1, c2, hm⟩ := hf
    rw [hm, listing_plain, ← easy_window (h.entries k) hu he hev c1 c2 ?_]
    · rfl
    · obtain ⟨e, e1, e2⟩ := hsome
      refine ⟨e, e1, ?_⟩
      unfold within at e2
      simp only [Bool.and_eq_true] at e2
      exact e2.2

/-! ## C39 -/

/-- C39, for members at the first two positions (and texts that are not members), if nothing was ever popped from `k`:
ZREM removes exactly the named members from every view and replies how many there were. -/
theorem C39_zrem_partial {x : Bytes} {xs : List Bytes} (h : History ext (tr ++ [(b! "zrem" :: k :: x :: xs, m)]) s')
    (hk : Sane (numOf ext) tr k) (hno : NeverPops k tr)
    (hx : ∀ y ∈ x :: xs, y ∉ members ((contents (numOf ext) tr k).drop 2)) :
    m = .int ((members (contents (numOf ext) tr k)).filter (fun y => decide (y ∈ x :: xs))).length ∧
    Shown ext s' k ((contents (numOf ext) tr k).filter (fun e => decide (e.2 ∉ x :: xs))) ∧
    ∀ y ∈ x :: xs, Gone ext s' k y := by
  obtain ⟨s, it, h0, ha⟩ := h.last
  obtain ⟨z', h1, h2, h3, h4⟩ := removeAll_front (x :: xs) (h0.agree hno) (h0.entries k).once hx
  have hf : onKey (after (numOf ext) tr k) m (fun z => if z.order = [] then m = .int 0 else Counted (removeAll (x :: xs) z) m) := h.fits (by decide)
  rw [onKey_seen hk.1 hk.2] at hf
  have hstep : after (numOf ext) (tr ++ [(b! "zrem" :: k :: x :: xs, m)]) k = change (fun z => (removeAll (x :: xs) z).map (·.1)) (after (numOf ext) tr k) := by
    rw [zsets_snoc]
    show put _ k _ k = _
    simp [put]
  have hcont : ∀ z, after (numOf ext) tr k = .here (some z) → contents (numOf ext) tr k = z.order := by
    intro z hz; unfold contents; rw [hz]; rfl
  by_cases hc : contents (numOf ext) tr k = []
  · have hc' : (seen (after (numOf ext) tr k)).order = [] := hc
    rw [if_pos hc'] at hf
    have hv : after (numOf ext) (tr ++ [(b! "zrem" :: k :: x :: xs, m)]) k = after (numOf ext) tr k := by
      rw [hstep]
      rcases hw : after (numOf ext) tr k with _ | _ | _ | z
      · rfl
      · rfl
      · rfl
      · rw [hw] at hc'
        simp only [change]
        rw [if_pos (show z.order = [] from hc')]
    have hs : Sane (numOf ext) (tr ++ [(b! "zrem" :: k :: x :: xs, m)]) k := by unfold Sane; rw [hv]; exact hk
    have hsh := h.shown' hs
    have hcc : contents (numOf ext) (tr ++ [(b! "zrem" :: k :: x :: xs, m)]) k = [] := by unfold contents; rw [hv]; exact hc
    refine ⟨by rw [hf, hc]; rfl, by rw [hc]; rw [hcc] at hsh; exact hsh, fun y hy => h.gone hs.1 hs.2 ?_⟩
    rw [hv]
    cases hd : (seen (after (numOf ext) tr k)).dict y with
    | none => rfl
    | some sc => have := closed_seen hno y sc hd; rw [hc'] at this; cases this
  · have hc' : ¬ (seen (after (numOf ext) tr k)).order = [] := hc
    rw [if_neg hc'] at hf
    have hv : after (numOf ext) (tr ++ [(b! "zrem" :: k :: x :: xs, m)]) k = .here (some z') := by
      rw [hstep]
      rcases hw : after (numOf ext) tr k with _ | _ | _ | z
      · rw [hw] at hc'; exact absurd rfl hc'
      · exact absurd hw hk.1
      · exact absurd hw hk.2
      · rw [hw] at hc' h1
        simp only [change]
        rw [if_neg (show ¬ z.order = [] from hc'), show removeAll (x :: xs) z = _ from h1]
        rfl
    have hs : Sane (numOf ext) (tr ++ [(b! "zrem" :: k :: x :: xs, m)]) k := by unfold Sane; rw [hv]; exact ⟨nofun, nofun⟩
    have hsh := h.shown' hs
    have hcc : contents (numOf ext) (tr ++ [(b! "zrem" :: k :: x :: xs, m)]) k = (contents (numOf ext) tr k).filter (fun e => decide (e.2 ∉ x :: xs)) := by
      unfold contents; rw [hv]; exact h2
    rw [hcc] at hsh
    exact ⟨hf.2 _ _ h1, hsh, fun y hy => h.gone hs.1 hs.2 (by rw [hv]; exact h4 y hy)⟩

/-! ## C40 -/

/-- C40, ZPOPMIN key n replies the n lowest entries with their scores (all, if there are fewer), in order, and they are
gone from the entries; ZRANGE, ZCARD, and ZSCORE and ZRANK of the remaining members show the rest.  Missing: ZSCORE and
ZRANK of the popped members (`C40_zpopmin_violated`). -/
theorem C40_zpopmin_partial {rest : List Bytes} {n : Int} (h : History ext (tr ++ [(b! "zpopmin" :: k :: rest, m)]) s')
    (hk : Sane (numOf ext) tr k) (hn : ZSpec.popCount rest = some n) :
    m = listing (numOf ext) true ((contents (numOf ext) tr k).take n.toNat) ∧ Shown ext s' k ((contents (numOf ext) tr k).drop n.toNat) := by
  have hf : match ZSpec.popCount rest with
    | none => m = errInt
    | some n => onPop (after (numOf ext) tr k) m (fun l => m = listing (numOf ext) true (l.take n.toNat)) := h.fits (by decide)
  rw [hn] at hf
  simp only at hf
  have hstep : after (numOf ext) (tr ++ [(b! "zpopmin" :: k :: rest, m)]) = match ZSpec.popCount rest with
      | none => after (numOf ext) tr
      | some n => put (after (numOf ext) tr) k (change (fun z => some ⟨z.order.drop n.toNat, z.dict⟩) (after (numOf ext) tr k)) := by
    rw [zsets_snoc]; rfl
  have hstep : after (numOf ext) (tr ++ [(b! "zpopmin" :: k :: rest, m)]) k = change (fun z => some ⟨z.order.drop n.toNat, z.dict⟩) (after (numOf ext) tr k) := by
    rw [hstep, hn]; simp [put]
  have key : Sane (numOf ext) (tr ++ [(b! "zpopmin" :: k :: rest, m)]) k ∧
      contents (numOf ext) (tr ++ [(b! "zpopmin" :: k :: rest, m)]) k = (contents (numOf ext) tr k).drop n.toNat ∧
      m = listing (numOf ext) true ((contents (numOf ext) tr k).take n.toNat) := by
    unfold Sane contents
    rw [hstep]
    rcases hw : after (numOf ext) tr k with _ | _ | _ | z
    · rw [hw] at hf
      exact ⟨⟨nofun, nofun⟩, by simp [change, seen, empty], by simpa [onPop, seen, empty, listing] using hf⟩
    · exact absurd hw hk.1
    · exact absurd hw hk.2
    · rw [hw] at hf
      refine ⟨⟨nofun, ?_⟩, ?_, hf⟩
      · simp only [change]; split <;> nofun
      · simp only [change]
        by_cases h0 : z.order = []
        · rw [if_pos h0]; simp [seen, h0]
        · rw [if_neg h0]; rfl
  have hsh := h.shown' key.1
  rw [key.2.1] at hsh
  exact ⟨key.2.2, hsh⟩

/-- C40, ZPOPMAX key n for sorted sets of one or two members and 0 < n ≤ size: it replies the n highest entries with their
scores, in descending order, and they are gone from the entries. -/
theorem C40_zpopmax_partial {rest : List Bytes} {n : Int} (h : History ext (tr ++ [(b! "zpopmax" :: k :: rest, m)]) s')
    (hk : Sane (numOf ext) tr k) (hn : ZSpec.popCount rest = some n) (h0 : 0 < n) (hle : n ≤ (contents (numOf ext) tr k).length)
    (h2 : (contents (numOf ext) tr k).length ≤ 2) :
    m = listing (numOf ext) true ((contents (numOf ext) tr k).reverse.take n.toNat) ∧
    Shown ext s' k ((contents (numOf ext) tr k).take ((contents (numOf ext) tr k).length - n.toNat)) := by
  have hf : match ZSpec.popCount rest with
    | none => m = errInt
    | some n => onPop (after (numOf ext) tr k) m (fun l => PopMaxFits (numOf ext) n l m) := h.fits (by decide)
  rw [hn] at hf
  simp only at hf
  have hstep : after (numOf ext) (tr ++ [(b! "zpopmax" :: k :: rest, m)]) = match ZSpec.popCount rest with
      | none => after (numOf ext) tr
      | some n => put (after (numOf ext) tr) k (change (fun z =>
          if n ≤ 0 then some z
          else if z.order.length ≤ 2 then some ⟨(z.order.reverse.drop n.toNat).reverse, z.dict⟩
          else none) (after (numOf ext) tr k)) := by
    rw [zsets_snoc]; rfl
  have hstep : after (numOf ext) (tr ++ [(b! "zpopmax" :: k :: rest, m)]) k = change (fun z =>
          if n ≤ 0 then some z
          else if z.order.length ≤ 2 then some ⟨(z.order.reverse.drop n.toNat).reverse, z.dict⟩
          else none) (after (numOf ext) tr k) := by
    rw [hstep, hn]; simp [put]
  rcases hw : after (numOf ext) tr k with _ | _ | _ | z
  · unfold contents at hle; rw [hw] at hle; have : n ≤ 0 := hle; omega
  · exact absurd hw hk.1
  · exact absurd hw hk.2
  · have hc : contents (numOf ext) tr k = z.order := by unfold contents; rw [hw]; rfl
    rw [hc] at hle h2 ⊢
    rw [hw] at hf hstep
    have hne : z.order ≠ [] := by intro hh; rw [hh] at hle; have : n ≤ 0 := hle; omega
    have hf : PopMaxFits (numOf ext) n z.order m := hf
    unfold PopMaxFits at hf
    rw [if_neg (by rintro (hh | hh); exact hne hh; omega), if_pos h2, show n.toNat - z.order.length = 0 by omega] at hf
    simp only [change] at hstep
    rw [if_neg hne, if_neg (by omega), if_pos h2] at hstep
    have hsh := h.shown' (k := k) (by unfold Sane; rw [hstep]; exact ⟨nofun, nofun⟩)
    have hcc : contents (numOf ext) (tr ++ [(b! "zpopmax" :: k :: rest, m)]) k = z.order.take (z.order.length - n.toNat) := by
      unfold contents; rw [hstep]
      show (z.order.reverse.drop n.toNat).reverse = _
      rw [List.drop_reverse, List.reverse_reverse]
    rw [hcc] at hsh
    exact ⟨by simpa using hf, hsh⟩

/-- C40, ZPOPMAX of one entry replies the highest one, whatever the size. -/
theorem C40_zpopmax_reply_partial (h : History ext (tr ++ [([b! "zpopmax", k], m)]) s') (hk : Sane (numOf ext) tr k) :
    m = listing (numOf ext) true ((contents (numOf ext) tr k).reverse.take 1) := by
  have hf : onPop (after (numOf ext) tr k) m (fun l => PopMaxFits (numOf ext) 1 l m) := h.fits (by decide)
  unfold contents
  rcases hw : after (numOf ext) tr k with _ | _ | _ | z
  · rw [hw] at hf; simpa [onPop, seen, empty, listing] using hf
  · exact absurd hw hk.1
  · exact absurd hw hk.2
  · rw [hw] at hf
    have hf : PopMaxFits (numOf ext) 1 z.order m := hf
    unfold PopMaxFits at hf
    show m = listing (numOf ext) true (z.order.reverse.take 1)
    split at hf
    · next h0 =>
      rcases h0 with h0 | h0
      · rw [h0]; simpa [listing] using hf
      · omega
    · next h0 =>
      split at hf
      · rw [hf]
        have : z.order.length ≠ 0 := fun hh => h0 (.inl (List.length_eq_zero_iff.mp hh))
        rw [show (1 : Int).toNat - z.order.length = 0 by omega]
        simp
      · obtain ⟨more, h1, h2⟩ := hf
        rw [h1, h2 rfl]
        simp [listing]

/-! ## C41 -/

/-- C41, if nothing was ever popped from `k`: ZADD with any flags and any number of scores and members does, from left to
right, what `addEntry` says (NX leaves existing members alone, XX adds none, INCR adds to the score), and replies the
number of members added or changed. -/
theorem C41_zadd_partial {a b : Bytes} {rest : List Bytes} {es : List Entry} {f : Flags}
    (h : History ext (tr ++ [(b! "zadd" :: k :: a :: b :: rest, m)]) s') (hk : Sane (numOf ext) tr k) (hno : NeverPops k tr)
    (hes : addArgs (numOf ext) (a :: b :: rest) {} = some (es, f))
    (hk' : after (numOf ext) (tr ++ [(b! "zadd" :: k :: a :: b :: rest, m)]) k ≠ .here none) :
    m = .int (es.foldl (addEntry (numOf ext) f) (contents (numOf ext) tr k, 0)).2 ∧
    Shown ext s' k (es.foldl (addEntry (numOf ext) f) (contents (numOf ext) tr k, 0)).1 := by
  obtain ⟨s, it, h0, ha⟩ := h.last
  have hf : match addArgs (numOf ext) (a :: b :: rest) {} with
      | none => m = errRange
      | some (es, f) => onKey (after (numOf ext) tr k) m (fun z => Counted (addAll (numOf ext) f es z) m) := h.fits (by decide)
  rw [hes] at hf
  simp only at hf
  rw [onKey_seen hk.1 hk.2] at hf
  have hstep : after (numOf ext) (tr ++ [(b! "zadd" :: k :: a :: b :: rest, m)]) = match addArgs (numOf ext) (a :: b :: rest) {} with
      | none => after (numOf ext) tr
      | some (es, f) => put (after (numOf ext) tr) k (added (numOf ext) f es (after (numOf ext) tr k)) := by
    rw [zsets_snoc]; rfl
  have hstep : after (numOf ext) (tr ++ [(b! "zadd" :: k :: a :: b :: rest, m)]) k = added (numOf ext) f es (after (numOf ext) tr k) := by
    rw [hstep, hes]; simp [put]
  have hadd : added (numOf ext) f es (after (numOf ext) tr k) = .here ((addAll (numOf ext) f es (seen (after (numOf ext) tr k))).map (·.1)) := by
    rcases hw : after (numOf ext) tr k with _ | _ | _ | z
    · rfl
    · exact absurd hw hk.1
    · exact absurd hw hk.2
    · rfl
  rw [hadd] at hstep
  cases hr : addAll (numOf ext) f es (seen (after (numOf ext) tr k)) with
  | none => rw [hr] at hstep; exact absurd hstep hk'
  | some r =>
    rw [hr] at hstep
    obtain ⟨h1, h2⟩ := (h0.agree hno).addAll es (n0 := 0) hr
    have hsh := h.shown' (k := k) (by unfold Sane; rw [hstep]; exact ⟨nofun, nofun⟩)
    have hcc : contents (numOf ext) (tr ++ [(b! "zadd" :: k :: a :: b :: rest, m)]) k = r.1.order := by unfold contents; rw [hstep]; rfl
    have h2 : (r.1.order, 0 + r.2) = es.foldl (addEntry (numOf ext) f) (contents (numOf ext) tr k, 0) := h2
    rw [← h2]
    rw [hcc] at hsh
    exact ⟨by rw [hf.2 _ _ hr, Nat.zero_add], hsh⟩

end Godis
