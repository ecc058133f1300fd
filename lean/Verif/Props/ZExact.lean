import Verif.Proofs.ZInterval2
import Verif.Props.ZSets2
/-!
# C37, C38: exactly which score intervals are answered rightly

`C37_zcount_partial` and `C38_zrangebyscore_partial` say that the server is right on the intervals described by `Easy`.  Here:
on all other ordinary intervals it is wrong, whatever the sorted set contains.
-/
namespace Godis
open Resp ZSpec
open StrSpec (Ascii lower)
open ListSpec (window)

variable {ext : Ext} {tr : List (List Bytes × Reply)} {s : Store} {k : Bytes}

theorem reads_unique {req : List Bytes} {m m' : Reply} (h : Reads ext s req m) (h' : Reads ext s req m') : m = m' :=
  ((h it0).unique (h' it0)).1.symm

theorem cut_exists (d : Int) (l : List Entry) (b : F64 × Bool) : ∃ r, Cut d l b r := by
  unfold Cut
  by_cases h1 : b.1.isInf = true
  · simp only [if_pos h1]; exact ⟨_, rfl⟩
  · simp only [if_neg h1]
    by_cases h2 : b.2 = true ∧ equal l b.1 ≠ 0
    · simp only [if_pos h2]; exact ⟨_, 1, by omega, by omega, rfl⟩
    · simp only [if_neg h2]; exact ⟨_, rfl⟩

/-- the positions of an ordinary, determined interval are determined -/
theorem cuts_unique {l : List Entry} (hl : Entries l) {lo hi : F64 × Bool} (ho : Ordinary lo hi) (hd : Determined l lo hi) (hn : ¬ everything lo hi)
    {r1 r2 q1 q2 : Int} (h1 : Cut 1 l lo r1) (h2 : Cut (-1) l hi r2) (g1 : Cut 1 l lo q1) (g2 : Cut (-1) l hi q2) : r1 = q1 ∧ r2 = q2 := by
  have key : ∀ x : F64 × Bool, x.1.isInf = false → ∀ v, x = (v, false) → v.isInf = true → False := by
    rintro x h v rfl hv; rw [show (v, false).1 = v from rfl, hv] at h; cases h
  have n1 : F64.negInf.isInf = true := by decide
  have n2 : F64.posInf.isInf = true := by decide
  rcases cuts_cases hl ho hd hn h1 h2 with ⟨a1, a2, a3, a4⟩ | ⟨a1, a2, a3, a4⟩ | ⟨a1, a2, a3, a4⟩ <;>
  rcases cuts_cases hl ho hd hn g1 g2 with ⟨b1, b2, b3, b4⟩ | ⟨b1, b2, b3, b4⟩ | ⟨b1, b2, b3, b4⟩
  all_goals first
    | exact (key _ a1 _ b1 n1).elim
    | exact (key _ b1 _ a1 n1).elim
    | exact (key _ a2 _ b2 n2).elim
    | exact (key _ b2 _ a2 n2).elim
    | exact ⟨a3.trans b3.symm, a4.trans b4.symm⟩
    | exact ⟨a4.trans b4.symm, a3.trans b3.symm⟩

theorem ordinary_everything {lo hi : F64 × Bool} (ho : Ordinary lo hi) (hev : everything lo hi) :
    lo = (F64.negInf, false) ∧ hi = (F64.posInf, false) := by
  refine ⟨?_, ?_⟩
  · rcases ho.1 with h1 | h1
    · rw [hev.1] at h1; exact absurd h1 (by decide)
    · exact h1
  · rcases ho.2 with h1 | h1
    · rw [hev.2] at h1; exact absurd h1 (by decide)
    · exact h1

/-- C37, exactly: on an ordinary interval that is not upside down, of a sorted set with at least one member (and unless an excluded
bound is met by several members), ZCOUNT replies the number of members in the interval if and only if the interval is `Easy`. -/
theorem C37_zcount_exactly (h : History ext tr s) (hk : Sane (numOf ext) tr k) (hne : contents (numOf ext) tr k ≠ []) {a b : Bytes}
    (haa : Ascii a) (hba : Ascii b) {lo hi : F64 × Bool} (ha : bound (numOf ext) a = some lo) (hb : bound (numOf ext) b = some hi)
    (hu : Upright lo hi) (ho : Ordinary lo hi) (hd : Determined (contents (numOf ext) tr k) lo hi) :
    Reads ext s [b! "zcount", k, a, b] (.int ((contents (numOf ext) tr k).filter (fun e => within lo hi e.1)).length) ↔
      Easy (contents (numOf ext) tr k) lo hi := by
  refine ⟨fun hr => ?_, fun he => C37_zcount_partial h hk haa hba ha hb hu he⟩
  by_cases hev : everything lo hi
  · exact .inl (ordinary_everything ho hev)
  · obtain ⟨r1, c1⟩ := cut_exists 1 (contents (numOf ext) tr k) lo
    obtain ⟨r2, c2⟩ := cut_exists (-1) (contents (numOf ext) tr k) hi
    have hr' : Reads ext s [b! "zcount", k, a, b] (.int (countOf (contents (numOf ext) tr k).length r1 r2)) := by
      refine h.reads (by unfold Ascii; decide) (by decide) (by intro k' hk'; cases hk'; exact hk.2) (hm := fun m' hf => ?_)
      have hf : onKey (after (numOf ext) tr k) m' (fun z => if z.order = [] then m' = .int 0 else
        CountByScore (numOf ext) z.order ((numOf ext).lower a) ((numOf ext).lower b) m') := hf
      rw [onKey_seen hk.1 hk.2, if_neg (show ¬ (seen (after (numOf ext) tr k)).order = [] from hne)] at hf
      unfold CountByScore at hf
      rw [bound_lower haa, bound_lower hba, ha, hb] at hf
      simp only at hf
      rw [if_neg hev] at hf
      obtain ⟨q1, q2, d1, d2, hm⟩ := hf
      obtain ⟨rfl, rfl⟩ := cuts_unique (h.entries k) ho hd hev c1 c2 d1 d2
      exact hm
    have he := reads_unique hr' hr
    injection he with he
    exact (count_iff (h.entries k) hu ho hd hne hev c1 c2).mp he

/-- C38, exactly: under the same conditions ZRANGEBYSCORE lists the members in the interval if and only if the interval is `Easy` and
some member is not above it. -/
theorem C38_zrangebyscore_exactly (h : History ext tr s) (hk : Sane (numOf ext) tr k) (hne : contents (numOf ext) tr k ≠ []) {a b : Bytes}
    {lo hi : F64 × Bool} (ha : bound (numOf ext) a = some lo) (hb : bound (numOf ext) b = some hi)
    (hu : Upright lo hi) (ho : Ordinary lo hi) (hd : Determined (contents (numOf ext) tr k) lo hi) :
    Reads ext s [b! "zrangebyscore", k, a, b] (bulks (members ((contents (numOf ext) tr k).filter (fun e => within lo hi e.1)))) ↔
      Easy (contents (numOf ext) tr k) lo hi ∧ ∃ e ∈ contents (numOf ext) tr k, within (F64.negInf, false) hi e.1 = true := by
  refine ⟨fun hr => ?_, fun he => C38_zrangebyscore_partial h hk ha hb hu he.1 he.2⟩
  have hin : ∀ e ∈ contents (numOf ext) tr k, upto hi e = true → within (F64.negInf, false) hi e.1 = true := by
    intro e he hup
    unfold within
    simp only [Bool.false_eq_true, if_false, Bool.and_eq_true]
    exact ⟨F64.le_iff.mpr ⟨by decide, (h.entries k).num e he, (key_bounds ((h.entries k).num e he)).1⟩, hup⟩
  by_cases hev : everything lo hi
  · obtain ⟨e1, e2⟩ := ordinary_everything ho hev
    refine ⟨.inl ⟨e1, e2⟩, ?_⟩
    obtain ⟨e, he⟩ := List.exists_mem_of_ne_nil _ hne
    refine ⟨e, he, hin e he ?_⟩
    have := upto_inf (h.entries k)
    rw [← e2] at this
    rw [← this] at he
    exact (List.mem_filter.mp he).2
  · obtain ⟨r1, c1⟩ := cut_exists 1 (contents (numOf ext) tr k) lo
    obtain ⟨r2, c2⟩ := cut_exists (-1) (contents (numOf ext) tr k) hi
    have hr' : Reads ext s [b! "zrangebyscore", k, a, b] (bulks (members (window (contents (numOf ext) tr k)
        (windowOf (contents (numOf ext) tr k).length r1 r2).1 (windowOf (contents (numOf ext) tr k).length r1 r2).2))) := by
      refine h.reads (by unfold Ascii; decide) (by decide) (by intro k' hk'; cases hk'; exact hk.2) (hm := fun m' hf => ?_)
      have hf : onKey (after (numOf ext) tr k) m' (fun z => if z.order = [] then m' = .bulk none else
        RangeByScore (numOf ext) z.order a b false m') := hf
      rw [onKey_seen hk.1 hk.2, if_neg (show ¬ (seen (after (numOf ext) tr k)).order = [] from hne)] at hf
      unfold RangeByScore at hf
      rw [ha, hb] at hf
      simp only at hf
      rw [if_neg hev] at hf
      obtain ⟨q1, q2, d1, d2, hm⟩ := hf
      obtain ⟨rfl, rfl⟩ := cuts_unique (h.entries k) ho hd hev c1 c2 d1 d2
      rw [hm, listing_plain]; rfl
    have he := reads_unique hr' hr
    have hlen := congrArg List.length (bulks_inj he)
    unfold members at hlen
    rw [List.length_map, List.length_map] at hlen
    obtain ⟨g1, e, g2, g3⟩ := (window_iff (h.entries k) hu ho hd hne hev c1 c2).mp hlen
    exact ⟨g1, e, g2, hin e g2 g3⟩

/-- Case: the scores are 2, 3 and 5; the interval [4, 5] is not easy, so ZCOUNT does not reply 1, nor does ZRANGEBYSCORE list `a`. -/
example : ∃ s, History ext0 zDemoTrace s ∧ ¬ Reads ext0 s [b! "zcount", b! "z", b! "4", b! "5"] (.int 1) ∧
    ¬ Reads ext0 s [b! "zrangebyscore", b! "z", b! "4", b! "5"] (bulks [b! "a"]) := by
  obtain ⟨s, h⟩ := zDemo_history
  have hc : contents (numOf ext0) zDemoTrace (b! "z") = [(smallF64 2, b! "e"), (smallF64 3, b! "c"), (smallF64 5, b! "a")] := by decide +kernel
  have ha : bound (numOf ext0) (b! "4") = some (smallF64 4, false) := by decide +kernel
  have hb : bound (numOf ext0) (b! "5") = some (smallF64 5, false) := by decide +kernel
  have hu : Upright (smallF64 4, false) (smallF64 5, false) := .inl (by decide +kernel)
  have ho : Ordinary (smallF64 4, false) (smallF64 5, false) := ⟨.inl (by decide +kernel), .inl (by decide +kernel)⟩
  have hd : ∀ l, Determined l (smallF64 4, false) (smallF64 5, false) := fun l => ⟨fun h => (by cases h), fun h => (by cases h)⟩
  have hne : contents (numOf ext0) zDemoTrace (b! "z") ≠ [] := by rw [hc]; simp
  have he : ¬ Easy (contents (numOf ext0) zDemoTrace (b! "z")) (smallF64 4, false) (smallF64 5, false) := by
    rw [hc]; unfold Easy; decide +kernel
  have h1 := C37_zcount_exactly h zDemo_sane hne (by unfold Ascii; decide) (by unfold Ascii; decide) ha hb hu ho (hd _)
  have h2 := C38_zrangebyscore_exactly h zDemo_sane hne ha hb hu ho (hd _)
  have hw : (contents (numOf ext0) zDemoTrace (b! "z")).filter (fun e => within (smallF64 4, false) (smallF64 5, false) e.1) = [(smallF64 5, b! "a")] := by
    rw [hc]; decide +kernel
  rw [hw] at h1 h2
  exact ⟨s, h, fun hr => he (h1.mp hr), fun hr => he (h2.mp hr).1⟩

end Godis
