import Verif.Proofs.Scores2
/-!
# Sorted-set commands that write, and histories: the score table
-/
namespace Godis
open Resp (Reply bulks)
open ScoreSpec
open ZSpec (Num Entry Flags addArgs bound everything listing errInt errFloat commands)
open ListSpec (errType errArgs errRange window)
open StrSpec (int64 lower Ascii)
open KeySpec (KView foreign)

variable {s s' : Store} {k : Bytes} {ext : Ext} {it : Iter} {c : Cmd} {args : List Bytes} {m : Reply} {w : Bytes → View}

theorem truns_zadd (ht : Typed s) (hn : ShareSets s) (hw : TAll s w) : TRuns .zAdd ext it s args w := by
  intro s' o m h hm
  rcases args with _ | ⟨k, _ | ⟨a, _ | ⟨b, rest⟩⟩⟩
  · cases h; cases hm; exact served_none (by decide) hw
  · cases h; cases hm; exact served_same (by decide) ⟨rfl, rfl⟩ hw
  · cases h; cases hm; exact served_same (by decide) ⟨rfl, rfl⟩ hw
  simp only [Cmd.fn, cmdZAdd] at h
  have ha := (zAddArgs_eq ext _ (a :: b :: rest) {} (Nat.le_refl _)).1
  have hF : ∀ v v', OnKey (numOf ext) (Cmd.name .zAdd) (a :: b :: rest) m v v' = match addArgs (numOf ext) (a :: b :: rest) (fl {}) with
      | none => v' = v ∧ m = errRange
      | some (es, f) => creating v v' m (fun t t' => ∃ n : Nat, Offers (numOf ext) f es t t' n ∧ m = .int n) := fun _ _ => rfl
  rw [ha] at hF
  cases hz : zAddArgs ext (a :: b :: rest) {} with
  | none =>
    rw [hz] at h hF; cases h; cases hm
    exact served_same (by decide) (by rw [hF]; exact ⟨rfl, rfl⟩) hw
  | some r =>
    obtain ⟨ms, f⟩ := r
    rw [hz] at h hF
    simp only [Option.map_some] at hF
    simp only [Store.zAdd] at h
    have hl := tload ht (hw k)
    generalize hv : w k = v at hl
    cases hl with
    | absent hg hl =>
      simp only [hl, bind, Except.bind] at h
      cases hr : ZObj.empty.zAddAll ext f ms s.rng with
      | error e => rw [hr] at h; cases h
      | ok r =>
        obtain ⟨zs', cnt, rng'⟩ := r
        rw [hr] at h
        cases h; cases hm
        obtain ⟨K, n, h1, h2⟩ := ZObj.wp_zAddAll ext f ms s.rng ZObj.keyed_empty _ hr
        refine served (by decide) (v' := .here zs'.tab) ?_ (hw.putNew ht K k rng')
        rw [hF, hv]
        exact ⟨_, rfl, n, h1, by dsimp only at h2; rw [h2]⟩
    | other hl =>
      simp only [hl, bind, Except.bind] at h; cases h; cases hm
      exact served_same (by decide) (by rw [hF, hv]; exact ⟨rfl, rfl⟩) hw
    | @here r zs hg ho K hl =>
      have hl := hl false
      simp only [Bool.false_and, Bool.false_eq_true, if_false] at hl
      simp only [hl, bind, Except.bind] at h
      cases hr : zs.zAddAll ext f ms s.rng with
      | error e => rw [hr] at h; cases h
      | ok r =>
        obtain ⟨zs', cnt, rng'⟩ := r
        rw [hr] at h
        cases h; cases hm
        obtain ⟨K', n, h1, h2⟩ := ZObj.wp_zAddAll ext f ms s.rng K _ hr
        refine served (by decide) (v' := .here zs'.tab) ?_ (hw.write ht hn hg K' rng')
        rw [hF, hv]
        exact ⟨_, rfl, n, h1, by dsimp only at h2; rw [h2]⟩

theorem truns_zincr (ht : Typed s) (hn : ShareSets s) (hw : TAll s w) : TRuns .zIncr ext it s args w := by
  intro s' o m h hm
  rcases args with _ | ⟨k, _ | ⟨d, _ | ⟨x, rest⟩⟩⟩
  · cases h; cases hm; exact served_none (by decide) hw
  · cases h; cases hm; exact served_same (by decide) ⟨rfl, rfl⟩ hw
  · cases h; cases hm; exact served_same (by decide) ⟨rfl, rfl⟩ hw
  simp only [Cmd.fn, cmdZIncr] at h
  have hF : ∀ v v', OnKey (numOf ext) (Cmd.name .zIncr) (d :: x :: rest) m v v' = match ext.parseFloat d with
      | none => v' = v ∧ m = errRange
      | some sc => creating v v' m (Incremented (numOf ext) sc x m) := fun _ _ => rfl
  cases hz : ext.parseFloat d with
  | none =>
    rw [hz] at h hF; cases h; cases hm
    exact served_same (by decide) (by rw [hF]; exact ⟨rfl, rfl⟩) hw
  | some sc =>
    rw [hz] at h hF
    simp only at hF
    simp only [Store.zIncr] at h
    have hl := tload ht (hw k)
    generalize hv : w k = v at hl
    cases hl with
    | absent hg hl =>
      simp only [hl, bind, Except.bind] at h
      cases hr : ZObj.empty.zAdd ext sc x { incr := true } s.rng with
      | error e => rw [hr] at h; cases h
      | ok r =>
        obtain ⟨zs', node, rng'⟩ := r
        simp only [hr] at h
        obtain ⟨K, h1, h2⟩ := ZObj.wp_zAdd ZObj.keyed_empty ext sc x { incr := true } s.rng _ hr
        cases node with
        | none =>
          cases h; cases hm
          refine served (by decide) (v' := .here zs'.tab) ?_ (hw.putNew ht K k rng')
          rw [hF, hv]
          exact ⟨_, rfl, 0, h1, rfl⟩
        | some y =>
          simp only at h
          obtain ⟨n, hn', h3⟩ := h2 y rfl
          rw [show ZSL.load zs'.zsl.nodes y = .ok n by unfold ZSL.load; rw [hn']] at h
          cases h; cases hm
          refine served (by decide) (v' := .here zs'.tab) ?_ (hw.putNew ht K k rng')
          rw [hF, hv]
          exact ⟨_, rfl, 1, h1, by dsimp only at h3; rw [h3]; rfl⟩
    | other hl =>
      simp only [hl, bind, Except.bind] at h; cases h; cases hm
      exact served_same (by decide) (by rw [hF, hv]; exact ⟨rfl, rfl⟩) hw
    | @here r zs hg ho K hl =>
      have hl := hl false
      simp only [Bool.false_and, Bool.false_eq_true, if_false] at hl
      simp only [hl, bind, Except.bind] at h
      cases hr : zs.zAdd ext sc x { incr := true } s.rng with
      | error e => rw [hr] at h; cases h
      | ok r =>
        obtain ⟨zs', node, rng'⟩ := r
        simp only [hr] at h
        obtain ⟨K', h1, h2⟩ := ZObj.wp_zAdd K ext sc x { incr := true } s.rng _ hr
        cases node with
        | none =>
          cases h; cases hm
          refine served (by decide) (v' := .here zs'.tab) ?_ (hw.write ht hn hg K' rng')
          rw [hF, hv]
          exact ⟨_, rfl, 0, h1, rfl⟩
        | some y =>
          simp only at h
          obtain ⟨n, hn', h3⟩ := h2 y rfl
          rw [show ZSL.load zs'.zsl.nodes y = .ok n by unfold ZSL.load; rw [hn']] at h
          cases h; cases hm
          refine served (by decide) (v' := .here zs'.tab) ?_ (hw.write ht hn hg K' rng')
          rw [hF, hv]
          exact ⟨_, rfl, 1, h1, by dsimp only at h3; rw [h3]; rfl⟩

theorem truns_zrem (ht : Typed s) (hn : ShareSets s) (hw : TAll s w) : TRuns .zRem ext it s args w := by
  intro s' o m h hm
  rcases args with _ | ⟨k, _ | ⟨x, xs⟩⟩
  · cases h; cases hm; exact served_none (by decide) hw
  · cases h; cases hm; exact served_same (by decide) ⟨rfl, rfl⟩ hw
  simp only [Cmd.fn, cmdZRem, Store.zRem] at h
  have hF : ∀ v v', OnKey (numOf ext) (Cmd.name .zRem) (x :: xs) m v v' = changing errType v v' m (Removed (x :: xs) m) := fun _ _ => rfl
  have hl := tload ht (hw k)
  generalize hv : w k = v at hl
  cases hl with
  | absent hg hl =>
    simp only [hl, bind, Except.bind] at h; cases h; cases hm
    exact served_same (by decide) (by rw [hF, hv]; refine ⟨rfl, ?_⟩; unfold Removed; rw [if_pos (show ScoreSpec.empty.card = 0 from rfl)]; exact ⟨rfl, rfl⟩) hw
  | other hl =>
    simp only [hl, bind, Except.bind] at h; cases h; cases hm
    exact served_same (by decide) (by rw [hF, hv]; exact ⟨rfl, rfl⟩) hw
  | @here r zs hg ho K hl =>
    have hl := hl true
    rw [Bool.true_and] at hl
    by_cases h0 : zs.zsl.length = 0
    · rw [if_pos (by simpa using h0)] at hl
      simp only [hl, bind, Except.bind] at h; cases h; cases hm
      exact served_same (by decide) (by rw [hF, hv]; refine ⟨_, rfl, ?_⟩; unfold Removed; rw [if_pos (show zs.tab.card = 0 from h0)]; exact ⟨rfl, rfl⟩) hw
    · rw [if_neg (by simpa using h0)] at hl
      simp only [hl, bind, Except.bind] at h
      cases hr : zs.zRemAll (x :: xs) with
      | error e => rw [hr] at h; cases h
      | ok r =>
        obtain ⟨zs', cnt⟩ := r
        rw [hr] at h; cases h; cases hm
        obtain ⟨K', h1, h2, h3, h4⟩ := ZObj.wp_zRemAll (x :: xs) K _ hr
        refine served (by decide) (v' := .here zs'.tab) ?_ (TAll.write ht hn hw hg K' s.rng)
        rw [hF, hv]
        refine ⟨_, rfl, ?_⟩
        unfold Removed
        rw [if_neg (show ¬ zs.tab.card = 0 from h0)]
        exact ⟨by dsimp only at h1; rw [h1], h2, h3, h4⟩

/-- the pop commands -/
theorem truns_pop {name : Bytes} {rest : List Bytes} {o : Except Err Response} (hname : name = s!! "zpopmin" ∨ name = s!! "zpopmax") {loop : Nat → ZSL → Go (ZSL × List Bytes)}
    (hloop : ∀ n z, Wp (loop n z) (ZObj.Pops ext n z)) (ht : Typed s) (hn : ShareSets s) (hw : TAll s w)
    (h : (match ZSpec.popCount rest with
      | none => retErr s .notInteger
      | some n => ((s.loadZSet k true >>= fun r => match r with
          | .error e => .ok (s, [], some e)
          | .ok (r, z) => loop n.toNat z.zsl >>= fun p => .ok (s.write r (.zset ⟨z.m, p.1⟩), p.2, none) : Go (Store × Ret (List Bytes)))
          >>= fun p => zPopReply p.1 p.2) : CmdRes) = .ok (s', o))
    (hm : (setRsp o).reply = some m) : ∃ w', TAll s' w' ∧ Serves (numOf ext) name (k :: rest) m w w' := by
  have hc : name ∈ commands := by rcases hname with rfl | rfl <;> decide
  have hF : ∀ v v', OnKey (numOf ext) name rest m v v' = match ZSpec.popCount rest with
      | none => v' = v ∧ m = errInt
      | some n => changing (bulks []) v v' m (Popped (numOf ext) n m) := fun _ _ => by
    rcases hname with rfl | rfl <;> rfl
  cases hp : ZSpec.popCount rest with
  | none =>
    rw [hp] at h hF; cases h; cases hm
    exact served_same hc (by rw [hF]; exact ⟨rfl, rfl⟩) hw
  | some n =>
    rw [hp] at h hF
    simp only at h hF
    have hl := tload ht (hw k)
    generalize hv : w k = v at hl
    cases hl with
    | absent hg hl =>
      simp only [hl, bind, Except.bind] at h; cases h; cases hm
      exact served_same hc (by rw [hF, hv]; refine ⟨rfl, ?_⟩; unfold Popped; rw [if_pos (show ScoreSpec.empty.card = 0 from rfl)]; exact ⟨rfl, rfl⟩) hw
    | other hl =>
      simp only [hl, bind, Except.bind] at h; cases h; cases hm
      exact served_same hc (by rw [hF, hv]; exact ⟨rfl, rfl⟩) hw
    | @here r zs hg ho K hl =>
      have hl := hl true
      rw [Bool.true_and] at hl
      by_cases h0 : zs.zsl.length = 0
      · rw [if_pos (by simpa using h0)] at hl
        simp only [hl, bind, Except.bind] at h; cases h; cases hm
        exact served_same hc (by rw [hF, hv]; refine ⟨_, rfl, ?_⟩; unfold Popped; rw [if_pos (show zs.tab.card = 0 from h0)]; exact ⟨rfl, rfl⟩) hw
      · rw [if_neg (by simpa using h0)] at hl
        simp only [hl, bind, Except.bind] at h
        cases hr : loop n.toNat zs.zsl with
        | error e => rw [hr] at h; cases h
        | ok p =>
          rw [hr] at h
          obtain ⟨rfl, rfl⟩ := pop_reply h hm
          obtain ⟨hk, l, h1, h2, h3, h4⟩ := hloop _ _ _ hr
          obtain ⟨K', ht'⟩ := K.keep hk
          refine served hc (v' := .here (ZObj.tab ⟨zs.m, p.1⟩)) ?_ (TAll.write ht hn hw hg K' s.rng)
          rw [hF, hv]
          refine ⟨_, rfl, ?_⟩
          unfold Popped
          rw [if_neg (show ¬ zs.tab.card = 0 from h0), ht']
          refine ⟨l, ?_, h2, rfl, h3, h4⟩
          rw [h1]; rfl

theorem truns_zpopmin (ht : Typed s) (hn : ShareSets s) (hw : TAll s w) : TRuns .zPopMin ext it s args w := by
  intro s' o m h hm
  rcases args with _ | ⟨k, rest⟩
  · cases h; cases hm; exact served_none (by decide) hw
  simp only [Cmd.fn, zpopmin_args, Store.zPopMin] at h
  exact truns_pop (.inl rfl) (ZObj.wp_zPopMin ext) ht hn hw h hm

theorem truns_zpopmax (ht : Typed s) (hn : ShareSets s) (hw : TAll s w) : TRuns .zPopMix ext it s args w := by
  intro s' o m h hm
  rcases args with _ | ⟨k, rest⟩
  · cases h; cases hm; exact served_none (by decide) hw
  simp only [Cmd.fn, zpopmax_args, Store.zPopMax] at h
  exact truns_pop (.inr rfl) (ZObj.wp_zPopMax ext) ht hn hw h hm

/-! ## histories -/

/-- a command of another family -/
theorem TAll.other (ht : Typed s) (hw : TAll s w) {o} (hc : c.name ∉ commands) (h : c.fn ext it s args = .ok (s', o))
    (hm : (setRsp o).reply = some m) : TAll s' (fun k => foreign k (w k) c.name args m) := by
  intro k
  have h2 : c.name ∉ zwriters := by
    have hall : ∀ n ∈ zwriters, n ∈ commands := by decide
    exact fun h => hc (hall _ h)
  rw [foreign_step ht (zwriters_writes h2) h hm k]
  exact (hw k).foreign _ _ _ _

theorem tset_runs (ht : Typed s) (hn : ShareSets s) (hw : TAll s w) : TRuns c ext it s args w := by
  by_cases hc : c.name ∈ commands
  · cases c <;> first
      | exact absurd hc (by decide)
      | exact truns_zadd ht hn hw
      | exact truns_zincr ht hn hw
      | exact truns_zrem ht hn hw
      | exact truns_zpopmin ht hn hw
      | exact truns_zpopmax ht hn hw
      | exact truns_zscore ht hw
      | exact truns_zrank ht hw
      | exact truns_zcard ht hw
      | exact truns_zcount ht hw
      | exact truns_zrange ht hw
      | exact truns_zrangebyscore ht hw
      | exact truns_zrevrange ht hw
  · intro s' o m h hm
    refine ⟨_, hw.other ht hc h hm, ?_⟩
    unfold Serves
    rw [if_neg hc]
    exact fun _ => rfl

theorem Answers.tables {req : List Bytes} (ha : Answers ext it s req m s') (ht : Typed s) (hn : ShareSets s) (hw : TAll s w) (hr : Named req) :
    ∃ w', TAll s' w' ∧ Serves (numOf ext) (lower (req.headD [])) req.tail m w w' := by
  obtain ⟨name, args, rfl, ⟨hl, rfl, rfl⟩ | ⟨c, o, hl, hf, hm⟩⟩ := ha.cases
  · rw [lower_eq (hr name rfl)] at hl
    refine ⟨w, hw, ?_⟩
    show Serves _ (lower name) args _ _ _
    unfold Serves
    rw [if_neg]
    · exact fun k => rfl
    · intro h
      have hall : ∀ n ∈ commands, (lookupCmd n).isSome := by decide
      have := hall _ h
      rw [hl] at this
      cases this
  · rw [lower_eq (hr name rfl)] at hl
    show ∃ w', TAll s' w' ∧ Serves (numOf ext) (lower name) args m w w'
    rw [lookup_name hl]
    exact tset_runs ht hn hw s' o m hf hm

theorem Trace.tables {rng tr} (h : Trace ext (Store.init rng) tr s) (hp : ∀ p ∈ tr, Named p.1) :
    ∃ w, Explains (numOf ext) tr w ∧ TAll s w ∧ Typed s ∧ ShareSets s := by
  induction h with
  | nil => exact ⟨_, .start, fun _ => trivial, typed_init rng, shareSets_init rng⟩
  | @snoc tr s it req m s' h0 ha ih =>
    obtain ⟨w, he, hw, ht, hn⟩ := ih (fun p hp' => hp p (by simp [hp']))
    obtain ⟨w', hw', hs⟩ := ha.tables ht hn hw (hp (req, m) (by simp))
    exact ⟨w', .next he hs, hw', ha.typed ht, ha.shareSets ht hn⟩

end Godis
