import Verif.Proofs.ZSets2
/-! Sorted sets along histories. -/
namespace Godis
open Resp (Reply bulks)
open ZSpec
open ZSL (Elem)
open ListSpec (errType errArgs errNil errRange window)
open StrSpec (int64 lower isError Ascii setStores)
open KeySpec (KView foreign)

variable {s s' : Store} {k : Bytes} {ext : Ext} {it : Iter} {c : Cmd} {args : List Bytes} {m : Reply} {w : Bytes → ZView} {N : Num}

/-- the commands that change sorted sets -/
def zwriters : List Bytes := [b! "zadd", b! "zincr", b! "zrem", b! "zpopmin", b! "zpopmax"]

theorem zstep_foreign {name : Bytes} (hc : name ∉ zwriters) :
    step N w name args m = fun k => foreign k (w k) name args m := by
  simp only [zwriters, List.mem_cons, List.not_mem_nil, or_false, not_or] at hc
  obtain ⟨h1, h2, h3, h4, h5⟩ := hc
  unfold step
  rw [if_neg h1, if_neg h2, if_neg h3, if_neg h4, if_neg h5]

theorem zwriters_writes (hn : c.name ∉ zwriters) : ¬ c.Writes .sortedSet := by
  intro h
  apply hn
  simp only [Cmd.Writes] at h
  rcases h with rfl | rfl | rfl | rfl | rfl <;> decide

/-- a command that does not change sorted sets -/
theorem ZAll.other (ht : Typed s) (hw : ZAll s w) {o} (hn : c.name ∉ zwriters) (h : c.fn ext it s args = .ok (s', o))
    (hm : (setRsp o).reply = some m) : ZAll s' (step N w c.name args m) := by
  intro k
  rw [zstep_foreign hn, foreign_step ht (zwriters_writes hn) h hm k]
  exact (hw k).foreign _ _ _ _

theorem zset_runs (hc : c.name ∈ commands) (ht : Typed s) (hn : ShareSets s) (hw : ZAll s w)
    (hsm : ∀ k, zlen (w k) + args.length + 1 < 2 ^ 63) : ZRuns c ext it s args w := by
  have key : ZFits c ext it s args w → c.name ∉ zwriters → ZRuns c ext it s args w :=
    fun hf hc s' o m h hm => ⟨hf s' o m h hm, hw.other ht hc h hm⟩
  cases c <;> first
    | exact absurd hc (by decide)
    | exact runs_zadd ht hn hw hsm
    | exact runs_zincr ht hn hw hsm
    | exact runs_zrem ht hn hw
    | exact runs_zpopmin ht hn hw
    | exact runs_zpopmax ht hn hw
    | exact key (fits_zscore ht hw) (by decide)
    | exact key (fits_zrank ht hw) (by decide)
    | exact key (fits_zcard ht hw) (by decide)
    | exact key (fits_zcount ht hw hsm) (by decide)
    | exact key (fits_zrange ht hw hsm) (by decide)
    | exact key (fits_zrangebyscore ht hw hsm) (by decide)
    | exact key (fits_zrevrange ht hw) (by decide)

/-! ## sizes -/

theorem place_length (e : Entry) (l : List Entry) : (place e l).length = l.length + 1 := by
  unfold place
  have : (l.takeWhile (before · e)).length + (l.dropWhile (before · e)).length = l.length := by
    rw [← List.length_append, List.takeWhile_append_dropWhile]
  simp; omega

theorem assign_length (z : ZVal) (sc : F64) (x : Bytes) : (assign z sc x).order.length ≤ z.order.length + 1 := by
  unfold assign without
  simp only [place_length]
  have := List.length_filter_le (fun e => decide (e.2 ≠ x)) z.order
  omega

theorem addOne_length {f : Flags} {z z' : ZVal} {sc x n} (h : addOne N f z sc x = some (z', n)) : z'.order.length ≤ z.order.length + 1 := by
  unfold addOne at h
  have ha := fun sc => assign_length z sc x
  split at h
  · split at h
    · cases h; omega
    · split at h
      · cases h
      · cases h; exact ha _
  · next old _ =>
    generalize (if f.incr then N.add sc old else sc) = sc' at h
    split at h
    · cases h; omega
    · split at h
      · cases h; omega
      · split at h
        · cases h; omega
        · split at h
          · cases h
          · cases h; exact ha _

theorem addAll_length {f : Flags} : ∀ (es : List Entry) {z z' : ZVal} {n}, addAll N f es z = some (z', n) → z'.order.length ≤ z.order.length + es.length
  | [], _, _, _, h => by cases h; simp
  | (sc, x) :: es, z, z', n, h => by
    unfold addAll at h
    cases h1 : addOne N f z sc x with
    | none => rw [h1] at h; cases h
    | some r =>
      rw [h1] at h
      simp only [Option.bind_some] at h
      cases h2 : addAll N f es r.1 with
      | none => rw [h2] at h; cases h
      | some r' =>
        rw [h2] at h
        cases h
        have := addOne_length h1
        have := addAll_length es h2
        simp; omega

theorem added_length {f : Flags} {es : List Entry} {v : ZView} : zlen (added N f es v) ≤ zlen v + es.length := by
  rcases v with _ | _ | _ | z
  · simp only [added]
    cases h : addAll N f es empty with
    | none => simp [zlen]
    | some r => have := addAll_length es h; simpa [zlen, ZSpec.empty] using this
  · simp [added, zlen]
  · simp [added, zlen]
  · simp only [added, Option.bind_some]
    cases h : addAll N f es z with
    | none => simp [zlen]
    | some r => have := addAll_length es h; simpa [zlen] using this

theorem removeAll_length : ∀ (xs : List Bytes) {z z' : ZVal} {n}, removeAll xs z = some (z', n) → z'.order.length ≤ z.order.length
  | [], _, _, _, h => by cases h; simp
  | x :: es, z, z', n, h => by
    unfold removeAll at h
    cases h1 : removeOne z x with
    | none => rw [h1] at h; cases h
    | some r =>
      rw [h1] at h
      simp only [Option.bind_some] at h
      cases h2 : removeAll es r.1 with
      | none => rw [h2] at h; cases h
      | some r' =>
        rw [h2] at h
        cases h
        have h3 : r.1.order.length ≤ z.order.length := by
          unfold removeOne at h1
          split at h1
          · cases h1; simp
          · split at h1
            · cases h1
            · cases h1; exact List.length_filter_le _ _
        have := removeAll_length es h2
        simp; omega

theorem change_length {g : ZVal → Option ZVal} {v : ZView} (hg : ∀ z z', g z = some z' → z'.order.length ≤ z.order.length) :
    zlen (change g v) ≤ zlen v := by
  rcases v with _ | _ | _ | z
  · simp [change]
  · simp [change]
  · simp [change]
  · simp only [change]
    split
    · exact Nat.le_refl _
    · cases h : g z with
      | none => simp [zlen]
      | some z' => exact hg z z' h

theorem zput_length {v : ZView} {k' : Bytes} {n : Nat} (h : zlen v ≤ zlen (w k') + n) : zlen (put w k' v k) ≤ zlen (w k) + n := by
  unfold put
  split
  · next h' => subst h'; exact h
  · omega

theorem foreign_length {v : ZView} {name : Bytes} : zlen (foreign k v name args m) ≤ zlen v := by
  have h : zlen v.createOther ≤ zlen v := by rcases v with _ | _ | _ | z <;> simp [KView.createOther, zlen]
  unfold KeySpec.foreign
  repeat' split
  all_goals first | exact Nat.le_refl _ | exact h | exact Nat.zero_le _

theorem zstep_length (ext : Ext) {name : Bytes} : zlen (step (numOf ext) w name args m k) ≤ zlen (w k) + args.length := by
  unfold step
  split
  · split
    · next k' a b rest =>
      obtain ⟨ha, hlen⟩ := zAddArgs_eq ext _ (a :: b :: rest) {} (Nat.le_refl _)
      have ha : addArgs (numOf ext) (a :: b :: rest) {} = _ := ha
      rw [ha]
      cases hz : zAddArgs ext (a :: b :: rest) {} with
      | none => simp
      | some r =>
        have := hlen r hz
        simp only [Option.map_some]
        refine zput_length (Nat.le_trans added_length ?_)
        simp only [List.length_cons] at this ⊢; omega
    · omega
  · split
    · split
      · next k' a b rest =>
        cases (numOf ext).parse a with
        | none => exact Nat.le_add_right _ _
        | some sc =>
          refine zput_length (Nat.le_trans added_length ?_)
          simp
      · omega
    · split
      · split
        · refine zput_length (Nat.le_trans (change_length fun z z' h => ?_) (Nat.le_add_right _ _))
          cases h2 : removeAll _ z with
          | none => rw [h2] at h; cases h
          | some r => rw [h2] at h; cases h; exact removeAll_length _ h2
        · omega
      · split
        · split
          · next k' rest =>
            cases ZSpec.popCount rest with
            | none => exact Nat.le_add_right _ _
            | some n =>
              refine zput_length (Nat.le_trans (change_length fun z z' h => ?_) (Nat.le_add_right _ _))
              cases h; simp
          · omega
        · split
          · split
            · next k' rest =>
              cases ZSpec.popCount rest with
              | none => exact Nat.le_add_right _ _
              | some n =>
                refine zput_length (Nat.le_trans (change_length fun z z' h => ?_) (Nat.le_add_right _ _))
                split at h
                · cases h; simp
                · split at h
                  · cases h; simp
                  · cases h
            · omega
          · exact Nat.le_trans foreign_length (Nat.le_add_right _ _)

theorem zsets_snoc (N : Num) (tr : List (List Bytes × Reply)) (p : List Bytes × Reply) :
    after N (tr ++ [p]) = step N (after N tr) (lower (p.1.headD [])) p.1.tail p.2 := by
  simp [after, List.foldl_append]

theorem words_snoc (tr : List (List Bytes × Reply)) (p : List Bytes × Reply) : words (tr ++ [p]) = words tr + p.1.length := by
  simp [words]

theorem zlen_after (ext : Ext) (tr : List (List Bytes × Reply)) (k : Bytes) : zlen (after (numOf ext) tr k) ≤ words tr := by
  induction tr using List.reverseRecOn with
  | nil => exact Nat.zero_le _
  | append_singleton tr p ih =>
    rw [zsets_snoc, words_snoc]
    have := zstep_length ext (w := after (numOf ext) tr) (name := lower (p.1.headD [])) (args := p.1.tail) (m := p.2) (k := k)
    have h2 : p.1.tail.length ≤ p.1.length := by simp
    omega

/-! ## histories -/

/-- a store with its views -/
structure ZGood (s : Store) (w : Bytes → ZView) : Prop where
  typed : Typed s
  ns : ShareSets s
  all : ZAll s w

theorem zgood_init (rng : Rng) : ZGood (Store.init rng) (fun _ => .absent) :=
  ⟨typed_init rng, shareSets_init rng, fun _ => trivial⟩

/-- one more request: it is answered as specified, and the views afterwards -/
theorem ZGood.step {req : List Bytes} (hg : ZGood s w) (hr : Named req) (hsm : ∀ k, zlen (w k) + req.length < 2 ^ 63)
    (ha : Answers ext it s req m s') :
    ZGood s' (step (numOf ext) w (lower (req.headD [])) req.tail m) ∧
      (lower (req.headD []) ∈ commands → Fits (numOf ext) w (lower (req.headD [])) req.tail m) := by
  have key : ZAll s' (ZSpec.step (numOf ext) w (lower (req.headD [])) req.tail m) ∧
      (lower (req.headD []) ∈ commands → Fits (numOf ext) w (lower (req.headD [])) req.tail m) := by
    obtain ⟨name, args, rfl, ⟨hl, rfl, rfl⟩ | ⟨c, o, hl, hf, hm⟩⟩ := ha.cases
    · rw [lower_eq (hr name rfl)] at hl
      show ZAll _ (ZSpec.step (numOf ext) w (lower name) args _) ∧ (lower name ∈ commands → _)
      have : lower name ∉ commands := by
        intro h
        have hall : ∀ n ∈ commands, (lookupCmd n).isSome := by decide
        have := hall _ h
        rw [hl] at this
        cases this
      have h2 : lower name ∉ zwriters := by
        have hall : ∀ n ∈ zwriters, n ∈ commands := by decide
        exact fun h => this (hall _ h)
      refine ⟨?_, fun h => absurd h this⟩
      rw [zstep_foreign h2]
      exact hg.all
    · rw [lower_eq (hr name rfl)] at hl
      show ZAll s' (ZSpec.step (numOf ext) w (lower name) args m) ∧ (lower name ∈ commands → Fits _ w (lower name) args m)
      rw [lookup_name hl]
      by_cases hc : c.name ∈ commands
      · obtain ⟨h1, h2⟩ := zset_runs (args := args) hc hg.typed hg.ns hg.all (fun k => by have := hsm k; simp at this; omega) s' o m hf hm
        exact ⟨h2, fun _ => h1⟩
      · have h2 : c.name ∉ zwriters := by
          have hall : ∀ n ∈ zwriters, n ∈ commands := by decide
          exact fun h => hc (hall _ h)
        exact ⟨hg.all.other hg.typed h2 hf hm, fun h => absurd h hc⟩
  exact ⟨⟨ha.typed hg.typed, ha.shareSets hg.typed hg.ns, key.1⟩, key.2⟩

theorem Trace.zgood {rng tr} (h : Trace ext (Store.init rng) tr s) (hp : ∀ p ∈ tr, Named p.1) (hsm : words tr < 2 ^ 62) :
    ZGood s (after (numOf ext) tr) := by
  induction h with
  | nil => exact zgood_init rng
  | @snoc tr s it req m s' h0 ha ih =>
    rw [zsets_snoc]
    rw [words_snoc] at hsm
    refine ((ih (fun p hp' => hp p (by simp [hp'])) (by omega)).step (hp (req, m) (by simp)) (fun k => ?_) ha).1
    have := zlen_after ext tr k
    have : (req, m).1.length = req.length := rfl
    omega

/-- the reply to the last request of a history -/
theorem Trace.zfits {rng tr} {name : Bytes} (h : Trace ext (Store.init rng) tr s) (hp : ∀ p ∈ tr, Named p.1)
    (hsm : words tr + args.length < 2 ^ 62) (hn : Ascii name) (hc : lower name ∈ commands) (ha : Answers ext it s (name :: args) m s') :
    Fits (numOf ext) (after (numOf ext) tr) (lower name) args m := by
  refine ((h.zgood hp (by omega)).step (req := name :: args) (by simpa [Named] using hn) (fun k => ?_) ha).2 hc
  have := zlen_after ext tr k
  simp only [List.length_cons]
  omega

end Godis
