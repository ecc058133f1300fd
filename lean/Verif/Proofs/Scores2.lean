import Verif.Proofs.Scores
/-!
# Sorted-set commands and the score table
-/
namespace Godis
open Resp (Reply bulks)
open ScoreSpec
open ZSpec (Num Entry Flags addArgs bound everything listing errInt errFloat commands)
open ListSpec (errType errArgs errRange window)
open StrSpec (int64 lower)
open KeySpec (KView foreign)
open ZSL (normRange)

variable {s s' : Store} {k : Bytes} {ext : Ext} {it : Iter} {c : Cmd} {args : List Bytes} {m : Reply} {w : Bytes → View}

/-! ## sizes of ranges -/

/-- entries as the server lists them -/
def showE (ext : Ext) (ws : Bool) (l : List Entry) : List Bytes := l.flatMap (fun e => e.2 :: if ws then [(numOf ext).fmt e.1] else [])

theorem wp_collectFwd (ext : Ext) (h : List ZNode) (ws : Bool) : ∀ k o, Wp (ZSL.collectFwd ext h ws k o) (fun r => ∃ l, r = showE ext ws l ∧ l.length = k)
  | 0, _ => by unfold ZSL.collectFwd; exact Wp.pure ⟨[], rfl, rfl⟩
  | k + 1, none => by unfold ZSL.collectFwd; exact Wp.error
  | k + 1, some x => by
    unfold ZSL.collectFwd
    refine (Wp.triv _).bind fun n _ _ => (Wp.triv _).bind fun l _ _ => (wp_collectFwd ext h ws k _).bind fun r _ ⟨l, h1, h2⟩ => ?_
    refine Wp.pure ⟨(n.score, n.value) :: l, ?_, by rw [List.length_cons, h2]⟩
    rw [h1]
    cases ws <;> rfl

theorem wp_collectBwd (ext : Ext) (h : List ZNode) (ws : Bool) : ∀ k o, Wp (ZSL.collectBwd ext h ws k o) (fun r => ∃ l, r = showE ext ws l ∧ l.length = k)
  | 0, _ => by unfold ZSL.collectBwd; exact Wp.pure ⟨[], rfl, rfl⟩
  | k + 1, none => by unfold ZSL.collectBwd; exact Wp.error
  | k + 1, some x => by
    unfold ZSL.collectBwd
    refine (Wp.triv _).bind fun n _ _ => (wp_collectBwd ext h ws k _).bind fun r _ ⟨l, h1, h2⟩ => ?_
    refine Wp.pure ⟨(n.score, n.value) :: l, ?_, by rw [List.length_cons, h2]⟩
    rw [h1]
    cases ws <;> rfl

theorem span_eq (len start stop : Int) : span len start stop = match normRange len start stop with
    | none => 0
    | some (a, b) => (b - a + 1).toNat := by
  unfold span
  rw [slice_window, List.length_replicate]
  by_cases h0 : len < 0
  · have h1 : normRange (len.toNat : Nat) start stop = none := by
      unfold normRange
      rw [show ((len.toNat : Nat) : Int) = 0 by omega]
      simp only
      rw [if_pos]
      right
      split <;> [split; skip] <;> omega
    have h2 : normRange len start stop = none := by
      unfold normRange
      simp only
      rw [if_pos]
      right
      split <;> [split; skip] <;> omega
    rw [h1, h2]; rfl
  · rw [show ((len.toNat : Nat) : Int) = len by omega]
    cases hn : normRange len start stop with
    | none => rfl
    | some p =>
      obtain ⟨a, b⟩ := p
      simp only [List.length_take, List.length_drop, List.length_replicate]
      unfold normRange at hn
      simp only at hn
      have h0 : 0 ≤ (if start < 0 then if start + len < 0 then 0 else start + len else start) := by
        split <;> [split; skip] <;> omega
      generalize (if start < 0 then if start + len < 0 then 0 else start + len else start) = A at *
      generalize (if stop < 0 then stop + len else stop) = B at *
      by_cases hc : A > B ∨ A ≥ len
      · rw [if_pos hc] at hn; cases hn
      · rw [if_neg hc] at hn; cases hn
        split <;> omega

theorem span_le (len start stop : Int) : span len start stop ≤ len.toNat := by
  unfold span window
  rw [List.length_map]
  refine Nat.le_trans (List.length_filter_le _ _) ?_
  simp

theorem span_whole (len : Int) : span len 0 len = len.toNat := by
  rw [span_eq]
  unfold normRange
  simp only [Int.lt_irrefl, if_false]
  by_cases h : len < 0
  · rw [if_pos h, if_pos (.inr (by omega))]; simp; omega
  · rw [if_neg h]
    by_cases h2 : len = 0
    · rw [if_pos (.inr (by omega))]; simp; omega
    · rw [if_neg (by omega), if_pos (Int.le_refl _)]; simp

theorem wp_zRange (z : ZSL) (start stop : Int) (ws : Bool) :
    Wp (z.zRange ext start stop ws) (fun r => ∃ l, r = showE ext ws l ∧ l.length = span z.length start stop) := by
  rw [span_eq]
  unfold ZSL.zRange
  split
  · next h => rw [h]; exact Wp.pure ⟨[], rfl, rfl⟩
  · next a b h => rw [h]; exact (Wp.triv _).bind fun n _ _ => wp_collectFwd _ _ _ _ _

theorem wp_zRevRange (z : ZSL) (start stop : Int) (ws : Bool) :
    Wp (z.zRevRange ext start stop ws) (fun r => ∃ l, r = showE ext ws l ∧ l.length = span z.length start stop) := by
  rw [span_eq]
  unfold ZSL.zRevRange
  split
  · next h => rw [h]; exact Wp.pure ⟨[], rfl, rfl⟩
  · next a b h => rw [h]; exact (Wp.triv _).bind fun n _ _ => wp_collectBwd _ _ _ _ _

theorem wp_zRangeByScore (z : ZSL) (lo hi : F64 × Bool) (ws : Bool) :
    Wp (z.zRangeByScore ext lo.1 lo.2 hi.1 hi.2 ws) (fun r => ∃ l, r = showE ext ws l ∧ l.length ≤ z.length.toNat ∧
      (everything lo hi → l.length = z.length.toNat)) := by
  have some : ∀ a b, ¬ everything lo hi → Wp (z.zRange ext a b ws) (fun r => ∃ l, r = showE ext ws l ∧ l.length ≤ z.length.toNat ∧
      (everything lo hi → l.length = z.length.toNat)) := fun a b he =>
    (wp_zRange z a b ws).mono fun r ⟨l, h1, h2⟩ => ⟨l, h1, by rw [h2]; exact span_le _ _ _, fun h => absurd h he⟩
  unfold ZSL.zRangeByScore
  split
  · exact (wp_zRange z _ _ _).mono fun r ⟨l, h1, h2⟩ => ⟨l, h1, by rw [h2, span_whole], fun _ => by rw [h2, span_whole]⟩
  · next h =>
    have he : ¬ everything lo hi := fun h' => h ((everything_iff lo hi).mpr h')
    refine (Wp.triv _).bind fun r1 _ _ => (Wp.triv _).bind fun r2 _ _ => ?_
    split
    · exact some _ _ he
    · split <;> exact some _ _ he

theorem wp_count (z : ZSL) (lo hi : F64 × Bool) :
    Wp (z.count lo.1 lo.2 hi.1 hi.2) (fun n => everything lo hi → n = z.length) := by
  unfold ZSL.count
  split
  · exact Wp.pure fun _ => rfl
  · next h => exact fun _ _ h' => absurd ((everything_iff lo hi).mpr h') h

/-! ## views -/

/-- the object is a sorted set with this table -/
def TIs (zs : ZObj) (t : Table) : Prop := zs.Keyed ∧ zs.tab = t

def TRel : KView Obj → View → Prop
  | .absent, .absent => True
  | .other, .other => True
  | .here (.zset zs), .here t => TIs zs t
  | _, _ => False

def TAll (s : Store) (w : Bytes → View) : Prop := ∀ k, TRel (kview .sortedSet s k) (w k)

theorem TRel.createOther {a : KView Obj} {b : View} (h : TRel a b) : TRel a.createOther b.createOther := by
  rcases a with _ | _ | (_ | _ | _ | _) <;> cases b <;> first | exact h | exact trivial

theorem TRel.foreign {a : KView Obj} {b : View} (h : TRel a b) (k name : Bytes) (args : List Bytes) (m : Reply) :
    TRel (foreign k a name args m) (KeySpec.foreign k b name args m) := by
  unfold KeySpec.foreign
  repeat' split
  all_goals first | exact h | exact trivial | exact h.createOther

/-- the outcomes of loading a sorted set, by the view -/
inductive TLoad (s : Store) (k : Bytes) : View → Prop
  | absent (hg : s.keys.get k = none) (h : ∀ b, s.loadZSet k b = .ok (.error .nil)) : TLoad s k .absent
  | other (h : ∀ b, s.loadZSet k b = .ok (.error .keyAndCommandNotMatch)) : TLoad s k .other
  | here {r zs} (hg : s.keys.get k = some ⟨.sortedSet, .ref r⟩) (ho : s.heap[r]? = some (.zset zs)) (K : zs.Keyed)
      (h : ∀ b, s.loadZSet k b = if b && zs.zsl.length == 0 then .ok (.error .nil) else .ok (.ok (r, zs))) : TLoad s k (.here zs.tab)

/-- the view with the object -/
def putView (w : Bytes → View) (k : Bytes) (v : View) : Bytes → View := fun k' => if k' = k then v else w k'

theorem tload (ht : Typed s) {v : View} (hv : TRel (kview .sortedSet s k) v) : TLoad s k v := by
  have hc : ∀ b, _ := fun b => loadZSet_cases ht k b
  rcases hc false with ⟨hg, _⟩ | ⟨info, hg, hi, _⟩ | ⟨r, zs, hg, ho, h0⟩
  · rw [kview_absent hg] at hv
    cases v <;> try exact hv.elim
    refine .absent hg (fun b => ?_)
    rcases hc b with ⟨_, h⟩ | ⟨info, h, _⟩ | ⟨_, _, h, _⟩
    · exact h
    · rw [hg] at h; cases h
    · rw [hg] at h; cases h
  · have hk : kview .sortedSet s k = .other := by
      rcases ht.kind _ _ hg with ⟨v, rfl⟩ | ⟨r, o, rfl, ho, _⟩
      · exact kview_str hg
      · rw [kview_ref hg ho, if_neg hi]
    rw [hk] at hv
    cases v <;> try exact hv.elim
    refine .other (fun b => ?_)
    rcases hc b with ⟨h, _⟩ | ⟨info, _, _, h⟩ | ⟨_, _, h, _⟩
    · rw [hg] at h; cases h
    · exact h
    · rw [hg] at h; cases h; exact absurd rfl hi
  · rw [kview_ref hg ho, if_pos (show (Obj.zset zs).kind = .sortedSet from rfl)] at hv
    cases v with
    | absent => exact hv.elim
    | other => exact hv.elim
    | here t =>
      obtain ⟨K, rfl⟩ : TIs zs t := hv
      refine .here hg ho K (fun b => ?_)
      rcases hc b with ⟨h, _⟩ | ⟨info, h, hne, _⟩ | ⟨r', o', h, ho', h1⟩
      · rw [hg] at h; cases h
      · rw [hg] at h; cases h; exact absurd rfl hne
      · rw [hg] at h; cases h
        rw [ho] at ho'; cases ho'
        exact h1

theorem kview_write (ht : Typed s) (hn : ShareSets s) {r zs'} (hg : s.keys.get k = some ⟨.sortedSet, .ref r⟩)
    (rng : Rng) (k' : Bytes) : kview .sortedSet { s.write r (.zset zs') with rng := rng } k' = if k' = k then .here (.zset zs') else kview .sortedSet s k' := by
  have hr : r < s.heap.length := ht.ref_lt hg
  by_cases hk : k' = k
  · subst hk
    rw [if_pos rfl, kview_ref (s := { s.write r (.zset zs') with rng := rng }) (t := .sortedSet) (r := r) (o := .zset zs') hg (by simp [Store.write, hr]),
      if_pos (show (Obj.zset zs').kind = .sortedSet from rfl)]
  · rw [if_neg hk]
    cases hg' : s.keys.get k' with
    | none => rw [kview_absent hg', kview_absent (s := { s.write r (.zset zs') with rng := rng }) hg']
    | some info =>
      rcases ht.kind _ _ hg' with ⟨v, rfl⟩ | ⟨r', o1, rfl, ho1, _⟩
      · rw [kview_str hg', kview_str (s := { s.write r (.zset zs') with rng := rng }) hg']
      · have hne : r ≠ r' := by
          rintro rfl
          rcases hn _ _ _ _ _ hg hg' with h | h
          · exact hk h.symm
          · cases h
        rw [kview_ref hg' ho1, kview_ref (s := { s.write r (.zset zs') with rng := rng }) (o := o1) hg' (by
          simp only [Store.write]; rw [List.getElem?_set_ne hne]; exact ho1)]

theorem kview_putNew (ht : Typed s) {zs} (k : Bytes) (rng : Rng) (k' : Bytes) :
    kview .sortedSet { s.putNew k .sortedSet (.zset zs) with rng := rng } k' = if k' = k then .here (.zset zs) else kview .sortedSet s k' := by
  by_cases hk : k' = k
  · subst hk
    rw [if_pos rfl, kview_ref (t := .sortedSet) (r := s.heap.length) (o := .zset zs) (by simp [Store.putNew]) (by simp [Store.putNew]),
      if_pos (show (Obj.zset zs).kind = .sortedSet from rfl)]
  · rw [if_neg hk]
    have hgg : ({ s.putNew k .sortedSet (.zset zs) with rng := rng } : Store).keys.get k' = s.keys.get k' := by
      simp [Store.putNew, SMap.get_set, hk]
    cases hg' : s.keys.get k' with
    | none => rw [kview_absent hg', kview_absent (hgg.trans hg')]
    | some info =>
      rcases ht.kind _ _ hg' with ⟨v, rfl⟩ | ⟨r', o1, rfl, ho1, _⟩
      · rw [kview_str hg', kview_str (hgg.trans hg')]
      · rw [kview_ref hg' ho1, kview_ref (o := o1) (hgg.trans hg') (by
          simp only [Store.putNew]; rw [List.getElem?_append_left (ht.ref_lt hg')]; exact ho1)]

theorem TAll.write (ht : Typed s) (hn : ShareSets s) (hw : TAll s w) {r zs'} (hg : s.keys.get k = some ⟨.sortedSet, .ref r⟩)
    (K : zs'.Keyed) (rng : Rng) : TAll { s.write r (.zset zs') with rng := rng } (putView w k (.here zs'.tab)) := by
  intro k'
  rw [kview_write ht hn hg]
  unfold putView
  split
  · exact ⟨K, rfl⟩
  · exact hw k'

theorem TAll.putNew (ht : Typed s) (hw : TAll s w) {zs : ZObj} (K : zs.Keyed) (k : Bytes) (rng : Rng) :
    TAll { s.putNew k .sortedSet (.zset zs) with rng := rng } (putView w k (.here zs.tab)) := by
  intro k'
  rw [kview_putNew ht]
  unfold putView
  split
  · exact ⟨K, rfl⟩
  · exact hw k'

/-! ## commands -/

/-- every answer to the command is as specified, for views that fit -/
def TRuns (c : Cmd) (ext : Ext) (it : Iter) (s : Store) (args : List Bytes) (w : Bytes → View) : Prop :=
  ∀ s' o m, c.fn ext it s args = .ok (s', o) → (setRsp o).reply = some m →
    ∃ w', TAll s' w' ∧ Serves (numOf ext) c.name args m w w'

theorem served {name : Bytes} {rest : List Bytes} {v' : View} (hc : name ∈ commands) (h : OnKey (numOf ext) name rest m (w k) v')
    (ha : TAll s' (putView w k v')) : ∃ w', TAll s' w' ∧ Serves (numOf ext) name (k :: rest) m w w' := by
  refine ⟨_, ha, ?_⟩
  unfold Serves
  rw [if_pos hc]
  refine ⟨?_, fun k' hk => by unfold putView; rw [if_neg hk]⟩
  unfold putView
  rw [if_pos rfl]; exact h

theorem putView_self (w : Bytes → View) (k : Bytes) : putView w k (w k) = w := by
  funext k'; unfold putView; split
  · next e => rw [e]
  · rfl

theorem served_same {name : Bytes} {rest : List Bytes} (hc : name ∈ commands) (h : OnKey (numOf ext) name rest m (w k) (w k))
    (ha : TAll s w) : ∃ w', TAll s w' ∧ Serves (numOf ext) name (k :: rest) m w w' := served hc h (by rw [putView_self]; exact ha)

theorem served_none {name : Bytes} (hc : name ∈ commands) (ha : TAll s w) :
    ∃ w', TAll s w' ∧ Serves (numOf ext) name [] errArgs w w' := by
  refine ⟨w, ha, ?_⟩
  unfold Serves
  rw [if_pos hc]
  exact ⟨rfl, rfl⟩

/-- a command that reads: how the three kinds of values are answered -/
theorem runs_read {e : Reply} {P : Table → Prop} {X : CmdRes} (ht : Typed s) (hw : TAll s w) {o}
    (h : X = .ok (s', o)) (_ : (setRsp o).reply = some m)
    (habs : (∀ b, s.loadZSet k b = .ok (.error .nil)) → X = .ok (s', o) → s' = s ∧ P ScoreSpec.empty)
    (hoth : (∀ b, s.loadZSet k b = .ok (.error .keyAndCommandNotMatch)) → X = .ok (s', o) → s' = s ∧ m = e)
    (hnil : ∀ zs : ZObj, zs.Keyed → zs.tab.card = 0 → s.loadZSet k true = .ok (.error .nil) → X = .ok (s', o) → s' = s ∧ P zs.tab)
    (hhere : ∀ (r : Nat) (zs : ZObj), zs.Keyed → zs.tab.card ≠ 0 → s.loadZSet k true = .ok (.ok (r, zs)) → X = .ok (s', o) → s' = s ∧ P zs.tab) :
    s' = s ∧ changing e (w k) (w k) m (fun t t' => t' = t ∧ P t) := by
  have hl := tload ht (hw k)
  generalize w k = v at hl
  cases hl with
  | absent hg hl => obtain ⟨h1, h2⟩ := habs hl h; exact ⟨h1, rfl, rfl, h2⟩
  | other hl => obtain ⟨h1, h2⟩ := hoth hl h; exact ⟨h1, rfl, h2⟩
  | @here r zs hg ho K hl =>
    have hl := hl true
    rw [Bool.true_and] at hl
    by_cases h0 : zs.zsl.length = 0
    · rw [if_pos (by simpa using h0)] at hl
      obtain ⟨h1, h2⟩ := hnil zs K h0 hl h
      exact ⟨h1, _, rfl, rfl, h2⟩
    · rw [if_neg (by simpa using h0)] at hl
      obtain ⟨h1, h2⟩ := hhere r zs K h0 hl h
      exact ⟨h1, _, rfl, rfl, h2⟩

theorem truns_zscore (ht : Typed s) (hw : TAll s w) : TRuns .zScore ext it s args w := by
  intro s' o m h hm
  rcases args with _ | ⟨k, _ | ⟨x, rest⟩⟩
  · cases h; cases hm; exact served_none (by decide) hw
  · cases h; cases hm; exact served_same (by decide) ⟨rfl, rfl⟩ hw
  simp only [Cmd.fn, cmdZScore, Store.zScore] at h
  obtain ⟨rfl, hc⟩ := runs_read (k := k) (e := errType) (P := fun t => m = .bulk (if t.card = 0 then none else (t.score x).map (numOf ext).fmt)) ht hw h hm
    (fun hl h => by simp only [hl, bind, Except.bind] at h; cases h; cases hm; exact ⟨rfl, rfl⟩)
    (fun hl h => by simp only [hl, bind, Except.bind] at h; cases h; cases hm; exact ⟨rfl, rfl⟩)
    (fun zs K h0 hl h => by simp only [hl, bind, Except.bind] at h; cases h; cases hm; rw [if_pos h0]; exact ⟨rfl, rfl⟩)
    (fun r zs K h0 hl h => by
      rw [if_neg h0]
      simp only [hl, bind, Except.bind] at h
      cases hd : zs.m.get x with
      | none => simp only [hd] at h; cases h; cases hm; rw [ZObj.tab_none hd]; exact ⟨rfl, rfl⟩
      | some y =>
        obtain ⟨n, hn, _⟩ := K.dict x y hd
        simp only [hd, show ZSL.load zs.zsl.nodes y = .ok n by unfold ZSL.load; rw [hn]] at h
        cases h; cases hm; rw [ZObj.tab_some hd hn]; exact ⟨rfl, rfl⟩)
  exact served_same (by decide) hc hw

theorem truns_zrank (ht : Typed s) (hw : TAll s w) : TRuns .zRank ext it s args w := by
  intro s' o m h hm
  rcases args with _ | ⟨k, _ | ⟨x, rest⟩⟩
  · cases h; cases hm; exact served_none (by decide) hw
  · cases h; cases hm; exact served_same (by decide) ⟨rfl, rfl⟩ hw
  simp only [Cmd.fn, cmdZRank, Store.zRank] at h
  obtain ⟨rfl, hc⟩ := runs_read (k := k) (e := errType) (P := fun t => if t.card = 0 ∨ t.score x = none then m = .bulk none else ∃ n, m = .int n) ht hw h hm
    (fun hl h => by simp only [hl, bind, Except.bind] at h; cases h; cases hm; rw [if_pos (.inl rfl)]; exact ⟨rfl, rfl⟩)
    (fun hl h => by simp only [hl, bind, Except.bind] at h; cases h; cases hm; exact ⟨rfl, rfl⟩)
    (fun zs K h0 hl h => by simp only [hl, bind, Except.bind] at h; cases h; cases hm; rw [if_pos (.inl h0)]; exact ⟨rfl, rfl⟩)
    (fun r zs K h0 hl h => by
      simp only [hl, bind, Except.bind] at h
      cases hd : zs.m.get x with
      | none => simp only [hd] at h; cases h; cases hm; rw [if_pos (.inr (ZObj.tab_none hd))]; exact ⟨rfl, rfl⟩
      | some y =>
        obtain ⟨n, hn, _⟩ := K.dict x y hd
        simp only [hd, show ZSL.load zs.zsl.nodes y = .ok n by unfold ZSL.load; rw [hn]] at h
        rw [if_neg (by rw [ZObj.tab_some hd hn]; simp [h0])]
        cases hr : zs.zsl.rank n.score x with
        | error e => rw [hr] at h; cases h
        | ok r =>
          rw [hr] at h; cases h
          simp only [setRsp_ok, reply_int, Option.some.injEq] at hm
          exact ⟨rfl, _, hm.symm⟩)
  exact served_same (by decide) hc hw

theorem truns_zcard (ht : Typed s) (hw : TAll s w) : TRuns .zCard ext it s args w := by
  intro s' o m h hm
  rcases args with _ | ⟨k, rest⟩
  · cases h; cases hm; exact served_none (by decide) hw
  simp only [Cmd.fn, cmdZCard, Store.zCard] at h
  obtain ⟨rfl, hc⟩ := runs_read (k := k) (e := errType) (P := fun t => m = .int t.card) ht hw h hm
    (fun hl h => by simp only [hl, bind, Except.bind] at h; cases h; cases hm; exact ⟨rfl, rfl⟩)
    (fun hl h => by simp only [hl, bind, Except.bind] at h; cases h; cases hm; exact ⟨rfl, rfl⟩)
    (fun zs K h0 hl h => by simp only [hl, bind, Except.bind] at h; cases h; cases hm; rw [h0]; exact ⟨rfl, rfl⟩)
    (fun r zs K h0 hl h => by simp only [hl, bind, Except.bind] at h; cases h; cases hm; exact ⟨rfl, rfl⟩)
  exact served_same (by decide) hc hw

theorem truns_zcount (ht : Typed s) (hw : TAll s w) : TRuns .zCount ext it s args w := by
  intro s' o m h hm
  rcases args with _ | ⟨k, _ | ⟨a, _ | ⟨b, rest⟩⟩⟩
  · cases h; cases hm; exact served_none (by decide) hw
  · cases h; cases hm; exact served_same (by decide) ⟨rfl, rfl⟩ hw
  · cases h; cases hm; exact served_same (by decide) ⟨rfl, rfl⟩ hw
  simp only [Cmd.fn, cmdZCount, Store.zCount] at h
  obtain ⟨rfl, hc⟩ := runs_read (k := k) (e := errType)
    (P := fun t => if t.card = 0 then m = .int 0 else Count (numOf ext) (toLower ext.lowerUni a) (toLower ext.lowerUni b) m t) ht hw h hm
    (fun hl h => by simp only [hl, bind, Except.bind] at h; cases h; cases hm; exact ⟨rfl, rfl⟩)
    (fun hl h => by simp only [hl, bind, Except.bind] at h; cases h; cases hm; exact ⟨rfl, rfl⟩)
    (fun zs K h0 hl h => by simp only [hl, bind, Except.bind] at h; cases h; cases hm; rw [if_pos h0]; exact ⟨rfl, rfl⟩)
    (fun r zs K h0 hl h => by
      rw [if_neg h0]
      simp only [hl, bind, Except.bind, bound_eq] at h
      unfold Count
      cases h1 : bound (numOf ext) (toLower ext.lowerUni a) with
      | none => simp only [h1, Option.elim] at h; cases h; cases hm; exact ⟨rfl, rfl⟩
      | some lo =>
        cases h2 : bound (numOf ext) (toLower ext.lowerUni b) with
        | none => simp only [h1, h2, Option.elim] at h; cases h; cases hm; exact ⟨rfl, rfl⟩
        | some hi =>
          simp only [h1, h2, Option.elim] at h
          cases hr : zs.zsl.count lo.1 lo.2 hi.1 hi.2 with
          | error e => rw [hr] at h; cases h
          | ok n =>
            rw [hr] at h; cases h
            cases hm
            exact ⟨rfl, _, rfl, wp_count zs.zsl lo hi n hr⟩)
  exact served_same (by decide) hc hw

/-- the reply to a range by score -/
theorem trange_byscore {zs : ZObj} {a b : Bytes} {ws : Bool} {r : Ret (List Bytes)}
    (h : (match Store.handleFloatScoreStr ext a with
      | .error e => (Except.ok ([], some e) : Go (Ret (List Bytes)))
      | .ok (mn, mnO) =>
        match Store.handleFloatScoreStr ext b with
        | .error e => (Except.ok ([], some e) : Go (Ret (List Bytes)))
        | .ok (mx, mxO) => (do
          let vs ← zs.zsl.zRangeByScore ext mn mnO mx mxO ws
          .ok (vs, none) : Go (Ret (List Bytes)))) = .ok r) {o} (ha : arrReply s newResponseWithNilBulk r = .ok (s', o))
    (hm : (setRsp o).reply = some m) : s' = s ∧ ByScore (numOf ext) a b ws m zs.tab := by
  unfold ByScore
  simp only [bound_eq] at h
  cases h1 : bound (numOf ext) a with
  | none => simp only [h1, Option.elim] at h; cases h; cases ha; cases hm; exact ⟨rfl, rfl⟩
  | some lo =>
    cases h2 : bound (numOf ext) b with
    | none => simp only [h1, h2, Option.elim] at h; cases h; cases ha; cases hm; exact ⟨rfl, rfl⟩
    | some hi =>
      simp only [h1, h2, Option.elim] at h
      cases hr : zs.zsl.zRangeByScore ext lo.1 lo.2 hi.1 hi.2 ws with
      | error e => rw [hr] at h; cases h
      | ok vs =>
        rw [hr] at h
        cases h
        obtain ⟨l, rfl, h3, h4⟩ := wp_zRangeByScore (ext := ext) zs.zsl lo hi ws vs hr
        simp only [arrReply, retOk, Except.ok.injEq, Prod.mk.injEq] at ha
        obtain ⟨rfl, rfl⟩ := ha
        simp only [setRsp_ok, reply_bulks, Option.some.injEq] at hm
        exact ⟨rfl, l, hm.symm, h3, h4⟩

theorem truns_zrangebyscore (ht : Typed s) (hw : TAll s w) : TRuns .zRangeByScore ext it s args w := by
  intro s' o m h hm
  rcases args with _ | ⟨k, _ | ⟨a, _ | ⟨b, rest⟩⟩⟩
  · cases h; cases hm; exact served_none (by decide) hw
  · cases h; cases hm; exact served_same (by decide) ⟨rfl, rfl⟩ hw
  · cases h; cases hm; exact served_same (by decide) ⟨rfl, rfl⟩ hw
  simp only [Cmd.fn, cmdZRangeByScore, Store.zRange] at h
  obtain ⟨rfl, hc⟩ := runs_read (k := k) (e := errType) (P := fun t => if t.card = 0 then m = .bulk none else ByScore (numOf ext) a b false m t) ht hw h hm
    (fun hl h => by simp only [hl, bind, Except.bind] at h; cases h; cases hm; exact ⟨rfl, rfl⟩)
    (fun hl h => by simp only [hl, bind, Except.bind] at h; cases h; cases hm; exact ⟨rfl, rfl⟩)
    (fun zs K h0 hl h => by simp only [hl, bind, Except.bind] at h; cases h; cases hm; rw [if_pos h0]; exact ⟨rfl, rfl⟩)
    (fun r zs K h0 hl h => by
      rw [if_neg h0]
      rw [hl] at h
      simp only [bind, Except.bind, if_true] at h
      split at h
      · cases h
      · next r hr => exact trange_byscore hr h hm)
  exact served_same (by decide) hc hw

theorem truns_zrange (ht : Typed s) (hw : TAll s w) : TRuns .zRange ext it s args w := by
  intro s' o m h hm
  rcases args with _ | ⟨k, _ | ⟨a, _ | ⟨b, rest⟩⟩⟩
  · cases h; cases hm; exact served_none (by decide) hw
  · cases h; cases hm; exact served_same (by decide) ⟨rfl, rfl⟩ hw
  · cases h; cases hm; exact served_same (by decide) ⟨rfl, rfl⟩ hw
  simp only [Cmd.fn, cmdZRange, Store.zRange] at h
  obtain ⟨rfl, hc⟩ := runs_read (k := k) (e := errType) (P := fun t =>
        if t.card = 0 then m = .bulk none
        else if ZSpec.hasWord (numOf ext) (s!! "byscore") (b :: rest) = true then ByScore (numOf ext) a b (ZSpec.hasWord (numOf ext) (s!! "withscores") (b :: rest)) m t
        else ByPosition (numOf ext) a b (ZSpec.hasWord (numOf ext) (s!! "withscores") (b :: rest)) m t) ht hw h hm
    (fun hl h => by simp only [hl, bind, Except.bind] at h; cases h; cases hm; exact ⟨rfl, rfl⟩)
    (fun hl h => by simp only [hl, bind, Except.bind] at h; cases h; cases hm; exact ⟨rfl, rfl⟩)
    (fun zs K h0 hl h => by simp only [hl, bind, Except.bind] at h; cases h; cases hm; rw [if_pos h0]; exact ⟨rfl, rfl⟩)
    (fun r zs K h0 hl h => by
      rw [if_neg h0]
      rw [hl] at h
      simp only [bind, Except.bind, hasWord_eq] at h
      rw [show b! "byscore" = s!! "byscore" from rfl, show b! "withscores" = s!! "withscores" from rfl] at h
      by_cases hb : ZSpec.hasWord (numOf ext) (s!! "byscore") (b :: rest) = true
      · rw [if_pos hb]
        simp only [hb, if_true] at h
        split at h
        · cases h
        · next r hr => exact trange_byscore hr h hm
      · rw [if_neg hb]
        simp only [hb, Bool.false_eq_true, if_false] at h
        unfold ByPosition
        rw [int64_eq, int64_eq]
        cases h1 : parseInt a with
        | none => simp only [atoi, h1] at h; cases h; cases hm; exact ⟨rfl, rfl⟩
        | some start =>
          cases h2 : parseInt b with
          | none => simp only [atoi, h1, h2] at h; cases h; cases hm; exact ⟨rfl, rfl⟩
          | some stop =>
            simp only [atoi, h1, h2] at h
            cases hr : zs.zsl.zRange ext start stop (ZSpec.hasWord (numOf ext) (s!! "withscores") (b :: rest)) with
            | error e => rw [hr] at h; cases h
            | ok vs =>
              rw [hr] at h
              obtain ⟨l, rfl, h3⟩ := wp_zRange (ext := ext) zs.zsl _ _ _ vs hr
              simp only [arrReply, retOk, Except.ok.injEq, Prod.mk.injEq] at h
              obtain ⟨rfl, rfl⟩ := h
              simp only [setRsp_ok, reply_bulks, Option.some.injEq] at hm
              exact ⟨rfl, l, hm.symm, h3⟩)
  exact served_same (by decide) hc hw

theorem truns_zrevrange (ht : Typed s) (hw : TAll s w) : TRuns .zRevRange ext it s args w := by
  intro s' o m h hm
  rcases args with _ | ⟨k, _ | ⟨a, _ | ⟨b, rest⟩⟩⟩
  · cases h; cases hm; exact served_none (by decide) hw
  · cases h; cases hm; exact served_same (by decide) ⟨rfl, rfl⟩ hw
  · cases h; cases hm; exact served_same (by decide) ⟨rfl, rfl⟩ hw
  simp only [Cmd.fn, cmdZRevRange, Store.zRevRange] at h
  obtain ⟨rfl, hc⟩ := runs_read (k := k) (e := errType) (P := fun t =>
        if t.card = 0 then m = .bulk none
        else ByPosition (numOf ext) a b (ZSpec.hasWord (numOf ext) (s!! "withscores") (b :: rest)) m t) ht hw h hm
    (fun hl h => by simp only [hl, bind, Except.bind] at h; cases h; cases hm; exact ⟨rfl, rfl⟩)
    (fun hl h => by simp only [hl, bind, Except.bind] at h; cases h; cases hm; exact ⟨rfl, rfl⟩)
    (fun zs K h0 hl h => by simp only [hl, bind, Except.bind] at h; cases h; cases hm; rw [if_pos h0]; exact ⟨rfl, rfl⟩)
    (fun r zs K h0 hl h => by
      rw [if_neg h0]
      rw [hl] at h
      simp only [bind, Except.bind, hasWord_eq] at h
      rw [show b! "withscores" = s!! "withscores" from rfl] at h
      unfold ByPosition
      rw [int64_eq, int64_eq]
      cases h1 : parseInt a with
      | none => simp only [atoi, h1] at h; cases h; cases hm; exact ⟨rfl, rfl⟩
      | some start =>
        cases h2 : parseInt b with
        | none => simp only [atoi, h1, h2] at h; cases h; cases hm; exact ⟨rfl, rfl⟩
        | some stop =>
          simp only [atoi, h1, h2] at h
          cases hr : zs.zsl.zRevRange ext start stop (ZSpec.hasWord (numOf ext) (s!! "withscores") (b :: rest)) with
          | error e => rw [hr] at h; cases h
          | ok vs =>
            rw [hr] at h
            obtain ⟨l, rfl, h3⟩ := wp_zRevRange (ext := ext) zs.zsl _ _ _ vs hr
            simp only [arrReply, retOk, Except.ok.injEq, Prod.mk.injEq] at h
            obtain ⟨rfl, rfl⟩ := h
            simp only [setRsp_ok, reply_bulks, Option.some.injEq] at hm
            exact ⟨rfl, l, hm.symm, h3⟩)
  exact served_same (by decide) hc hw

end Godis
