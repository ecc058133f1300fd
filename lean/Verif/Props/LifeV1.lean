import Verif.Proofs.V15
import Verif.Props.ServerV1
import Verif.Props.SchedulesV1
import Verif.Props.Settle
import Verif.Props.Reader
/-!
# The v1 server: C61 (starting and stopping), C62 (what ends the process)
-/
namespace Godis.V1
open Godis.Event (Sys Label Step Run Stopper upd upd_apply upd_same sum_upd sum_upd_absent)

/-! ## Runs in pieces -/

theorem VSteps.at {ext v w} {A : List VLabel} {l : VLabel} : ∀ {B : List VLabel}, VSteps ext v (A ++ l :: B) w →
    ∃ w1 w2, VSteps ext v A w1 ∧ w1.sys.crashed = false ∧ w1.crashed = false ∧ VStep ext w1 l w2 ∧ VSteps ext w2 B w := by
  intro B
  induction B using List.reverseRecOn generalizing w with
  | nil =>
    intro h
    generalize hX : A ++ [l] = X at h
    cases h with
    | nil => simp at hX
    | snoc h1 h2 h3 h4 =>
      obtain ⟨rfl, e⟩ := List.append_inj' hX rfl
      cases e
      exact ⟨_, _, h1, h2, h3, h4, .nil⟩
  | append_singleton B x ih =>
    intro h
    generalize hX : A ++ l :: (B ++ [x]) = X at h
    cases h with
    | nil => simp at hX
    | @snoc L _ x' _ h1 h2 h3 h4 =>
      have hX' : (A ++ l :: B) ++ [x] = L ++ [x'] := by rw [← hX]; simp
      obtain ⟨e1, e⟩ := List.append_inj' hX' rfl
      cases e
      subst e1
      obtain ⟨w1, w2, g1, g2, g3, g4, g5⟩ := ih h1
      exact ⟨w1, w2, g1, g2, g3, g4, .snoc g5 h2 h3 h4⟩

theorem VSteps.append {ext u v w} {A B : List VLabel} (h1 : VSteps ext u A v) (h2 : VSteps ext v B w) : VSteps ext u (A ++ B) w := by
  induction h2 with
  | nil => simpa using h1
  | snoc h a b c ih => rw [← List.append_assoc]; exact .snoc ih a b c

theorem no_sys_stop {L : List VLabel} : .stop ∈ sysLabels L ↔ .sys .stop ∈ L := by
  unfold sysLabels
  rw [List.mem_flatMap]
  constructor
  · rintro ⟨l, hl, hm⟩
    cases l <;> simp [VLabel.steps] at hm
    subst hm; exact hl
  · intro h; exact ⟨_, h, by simp [VLabel.steps]⟩

/-- a label that is neither the arrival nor the logging of a request -/
theorem mem_sysLabels {L : List VLabel} {l : Label} (h1 : ∀ i c f, l ≠ .recv i c f) (h2 : ∀ i t, l ≠ .log i t) :
    l ∈ sysLabels L ↔ .sys l ∈ L := by
  unfold sysLabels
  rw [List.mem_flatMap]
  constructor
  · rintro ⟨x, hx, hm⟩
    cases x with
    | sys x => simp [VLabel.steps] at hm; subst hm; exact hx
    | handle i c b t =>
      simp only [VLabel.steps, List.mem_cons, List.not_mem_nil, or_false] at hm
      rcases hm with rfl | rfl
      · exact absurd rfl (h1 _ _ _)
      · exact absurd rfl (h2 _ _)
    | _ => simp [VLabel.steps] at hm
  · intro h; exact ⟨_, h, by simp [VLabel.steps]⟩

/-! ## C61 -/

theorem after_started {ext w} (hw : w.starter = .returned) (hgone : ∀ c, (w.conn c).loop = .absent ∨ (w.conn c).loop = .gone) :
    ∀ {B v}, VSteps ext w B v → v.starter = .returned ∧ (∀ c, (v.conn c).loop = .absent ∨ (v.conn c).loop = .gone) ∧
    (∀ c b, .accept c b ∉ B) ∧ (∀ i c b t, .handle i c b t ∉ B) ∧ ∀ i c b, .sys (.write i c b) ∉ B := by
  intro B v hB
  induction hB with
  | nil => exact ⟨hw, hgone, by simp, by simp, by simp⟩
  | @snoc L w l w' _ _ _ hs ih =>
    obtain ⟨i1, i2, i3, i4, i5⟩ := ih
    cases hs with
    | accept c b k => rw [i1] at k; cases k
    | sys l σ' _ _ _ _ _ k =>
      have hw : ∀ i c b, l ≠ .write i c b := by
        rintro i c b rfl
        obtain ⟨c', hc'⟩ := k i rfl
        rcases i2 c' with e | e <;> rw [e] at hc' <;> cases hc'
      exact ⟨i1, i2, by simpa using i3, by simpa using i4, fun i c b => by
        simpa using ⟨i5 i c b, fun e => hw i c b e.symm⟩⟩
    | begun k | startFailed k | listening k | serving k | acceptEnd k | started k => rw [i1] at k; cases k
    | handle c | quit c | gotError c | next c | writeFailed c | closeConn c | gone c =>
      exfalso; rcases i2 c with e | e <;> simp_all
    | decode c | malformed c | readClosed c | request c | error c | closeReceive c | closeError c =>
      refine ⟨i1, fun c' => ?_, by simpa using i3, by simpa using i4, by simpa using i5⟩
      simp only [upd_apply]
      split
      · next e => subst e; exact i2 _
      · exact i2 c'
    | _ => exact ⟨i1, i2, by simpa using i3, by simpa using i4, by simpa using i5⟩

/-- C61: when `Start` returns, `Stop` was called (and not too early), the connections that were ever accepted are all closed
and their goroutines have ended; afterwards no connection is accepted, no request is taken, nothing is written to a peer. -/
theorem C61_start_clean {ext rng A B v} (h : VRun ext rng (A ++ .started :: B) v) :
    (∃ P Q, A = P ++ .stopCalled :: Q ∧ .serving ∈ P) ∧ (∀ c b, .accept c b ∈ A → .closeConn c ∈ A ∧ .gone c ∈ A) ∧
    (∀ c b, .accept c b ∉ B) ∧ (∀ i c b t, .handle i c b t ∉ B) ∧ ∀ i c b, .sys (.write i c b) ∉ B := by
  obtain ⟨w1, w2, h1, _, _, hs, hB⟩ := h.at
  have hl := life h1
  have hn := conns h1
  cases hs with
  | started k1 k2 =>
    have hlis := hl.ending (.inl k1)
    have hstop := hl.closed hlis
    have hserv : .serving ∈ A := hl.serving.mpr (.inr (.inl k1))
    have hgone : ∀ c, (w1.conn c).loop = .absent ∨ (w1.conn c).loop = .gone := by
      intro c
      by_cases hc : c ∈ accepted A
      · right
        have := hn.count
        rw [k2] at this
        have := List.filter_eq_nil_iff.mp (List.length_eq_zero_iff.mp this.symm) c hc
        simpa using this
      · exact .inl ((hn.absent c).mpr hc)
    refine ⟨?_, ?_, ?_⟩
    · obtain ⟨P, Q, rfl⟩ := List.append_of_mem hstop
      refine ⟨P, Q, rfl, ?_⟩
      by_contra hp
      exact hl.late ⟨P, Q, rfl, hp⟩ hlis
    · intro c b hm
      have hc : c ∈ accepted A := mem_accepted.mpr ⟨b, hm⟩
      have : (w1.conn c).loop = .gone := by
        rcases hgone c with hg | hg
        · exact absurd hc ((hn.absent c).mp hg)
        · exact hg
      exact ⟨(hn.closed c).mpr (.inr this), (hn.gone c).mpr this⟩
    · exact (after_started (w := { w1 with starter := .returned }) rfl hgone hB).2.2

/-- C61: the count of the connections never goes wrong: no panic of the wait group. -/
theorem C61_counter {ext rng L v} (h : VRun ext rng L v) : .panic .negativeCounter ∉ L := by
  intro hm
  obtain ⟨A, B, rfl⟩ := List.append_of_mem hm
  obtain ⟨w1, w2, h1, _, _, hs, _⟩ := h.at
  have hn := conns h1
  cases hs with
  | goneNegative c k1 k2 =>
    have hc : c ∈ accepted A := by
      by_contra hc
      rw [(hn.absent c).mpr hc] at k1; cases k1
    have := hn.count
    rw [k2] at this
    have := List.filter_eq_nil_iff.mp (List.length_eq_zero_iff.mp this.symm) c hc
    simp [k1] at this

/-- C61: when `Stop` returns, the event pool has stopped; afterwards no command is executed. -/
theorem C61_stop_returned {ext rng A B v} (h : VRun ext rng (A ++ .stopReturned :: B) v) :
    .sys .stopped ∈ A ∧ ∀ w i rsp, .sys (.exec w i rsp) ∉ B := by
  obtain ⟨w1, w2, h1, _, _, hs, hB⟩ := h.at
  cases hs with
  | cancel k1 k2 k3 =>
    have hst := h1.run.stopping.2.2.2.1 k2
    refine ⟨(mem_sysLabels (by simp) (by simp)).mp hst, ?_⟩
    intro w i rsp hm
    obtain ⟨P, Q, hPQ⟩ := List.append_of_mem hst
    have hr := h.run
    rw [sysLabels_append, hPQ, List.append_assoc, List.cons_append] at hr
    have := Event.C45_nothing_after_stop hr (.exec w i rsp) (by
      rw [List.mem_append]; right
      exact (mem_sysLabels (by simp) (by simp)).mpr (List.mem_cons_of_mem _ hm))
    cases this

/-- C61: when nothing can happen any more, except that readers read, that a connection is accepted or that `Accept` fails,
and `Stop` was called, but not before the server listened: then `Start` and `Stop` have returned, every connection is closed
and its goroutine has ended. -/
theorem C61_rest_partial {ext rng L v} (h : VRun ext rng L v)
    (hearly : ¬ EarlyStop L) (hstop : .stopCalled ∈ L) (hq : AtRest ext v) :
    .started ∈ L ∧ .stopReturned ∈ L ∧ ∀ c b, .accept c b ∈ L → .closeConn c ∈ L ∧ .gone c ∈ L := by
  have hl := life h
  have hn := conns h
  have bad : ∀ {l v'}, VStep ext v l v' → (∀ c, l ≠ .reader c) → (∀ p, l ≠ .panic (.decoding p)) → (∀ c b, l ≠ .accept c b) →
      l ≠ .acceptFailed → l ≠ .stopCalled → False := by
    intro l v' hs h1 h2 h3 h4 h5
    rcases hq l v' hs with ⟨c, e⟩ | ⟨p, e⟩ | ⟨c, b, e⟩ | e | e
    · exact h1 c e
    · exact h2 p e
    · exact h3 c b e
    · exact h4 e
    · exact h5 e
  have hserv : .serving ∈ L := by
    by_contra hs
    exact hearly (hl.none hs hstop)
  have hlis := hl.early hearly hserv hstop
  have hctx : v.ctx = true := hl.ctx.mpr (by rcases hl.serving.mp hserv with e | e | e <;> simp [e])
  -- steps of the pool
  have hbw : ∀ l σ', Step ext 1 v.sys l σ' → l.byWorker = false := by
    intro l σ' hs
    by_contra hcon
    refine bad (.sys v l σ' hs ?_ ?_ ?_ ?_ ?_) (by simp) (by simp) (by simp) (by simp) (by simp)
    · rintro rfl; exact hcon rfl
    · rintro i c f rfl; exact hcon rfl
    · rintro i t rfl; exact hcon rfl
    · rintro i p rfl; exact hcon rfl
    · intro i hi; cases l <;> first | exact absurd rfl hcon | exact absurd hi (by simp [actor])
  have hcl : v.closer = .returned := by
    have hr := h.run
    cases hk : v.closer with
    | no => exact absurd hk (hl.stop.mp hstop)
    | returned => rfl
    | closedListener =>
      exfalso
      have hns : .stop ∉ sysLabels L := by
        rw [no_sys_stop, hl.pool, hk]; simp
      have hst : v.sys.stopper = .no := by
        by_contra hst
        exact hns (hr.workers.2.2.2.mpr hst)
      exact bad (.stopPool v _ hk (.stop v.sys hst)) (by simp) (by simp) (by simp) (by simp) (by simp)
    | stopping =>
      exfalso
      have hs : .stop ∈ sysLabels L := by rw [no_sys_stop, hl.pool]; exact .inl hk
      cases hst : v.sys.stopper with
      | no => exact hr.workers.2.2.2.mp hs hst
      | returned => exact bad (.cancel v hk hst hctx) (by simp) (by simp) (by simp) (by simp) (by simp)
      | signalling k =>
        obtain ⟨hk1, ht⟩ := hr.stopping.1 k hst
        by_cases hkn : k < 1
        · exact bad (.sys v _ _ (.signal v.sys k hst hkn) (by simp) (by simp) (by simp) (by simp) (by simp [actor]))
            (by simp) (by simp) (by simp) (by simp) (by simp)
        · have : k = 1 := by omega
          subst this
          refine bad (.sys v _ _ (.stopped v.sys hst fun w hw => ?_) (by simp) (by simp) (by simp) (by simp) (by simp [actor]))
            (by simp) (by simp) (by simp) (by simp) (by simp)
          rcases hr.idle_worker hw hbw with hi | hi
          · exact (bad (.sys v _ _ (.exitTold v.sys w hw hi (ht w hw)) (by simp) (by simp) (by simp) (by simp) (by simp [actor]))
              (by simp) (by simp) (by simp) (by simp) (by simp)).elim
          · exact hi
  have hcan : v.cancelled = true := hl.cancelled.mpr hcl
  have hclosed : v.sys.closed = true := h.run.workers.2.2.1.mp (by rw [no_sys_stop, hl.pool]; exact .inr hcl)
  have hgone : ∀ c, (v.conn c).loop = .absent ∨ (v.conn c).loop = .gone := by
    intro c
    cases hk : (v.conn c).loop with
    | absent => exact .inl rfl
    | gone => exact .inr rfl
    | selecting => exact (bad (.quit v c hk hcan) (by simp) (by simp) (by simp) (by simp) (by simp)).elim
    | leaving => exact (bad (.closeConn v c hk) (by simp) (by simp) (by simp) (by simp) (by simp)).elim
    | closed =>
      exfalso
      by_cases hw : 0 < v.wg
      · exact bad (.gone v c hk hw) (by simp) (by simp) (by simp) (by simp) (by simp)
      · exact bad (.goneNegative v c hk (by omega)) (by simp) (by simp) (by simp) (by simp) (by simp)
    | handling i =>
      exfalso
      have act : ∀ {l σ'}, Step ext 1 v.sys l σ' → actor l = some i → False := by
        intro l σ' hs ha
        by_cases hd : ∃ p, l = .died i p
        · obtain ⟨p, rfl⟩ := hd
          exact bad (.died v c i p σ' hk hs) (by simp) (by simp) (by simp) (by simp) (by simp)
        · refine bad (.sys v l σ' hs ?_ ?_ ?_ ?_ ?_) (by simp) (by simp) (by simp) (by simp) (by simp)
          · rintro rfl; cases ha
          · rintro _ _ _ rfl; cases ha
          · rintro _ _ rfl; cases ha
          · rintro j p rfl; cases ha; exact hd ⟨p, rfl⟩
          · intro j hj; rw [ha] at hj; cases hj; exact ⟨c, hk⟩
      cases hh : v.sys.handler i with
      | absent =>
        have ht := turns h c
        rw [hk] at ht
        obtain ⟨A, hA, _⟩ := ht
        have hm : i ∈ Event.arrived (sysLabels L) c := by rw [hA]; simp
        obtain ⟨b, hb⟩ := Event.mem_arrived.mp hm
        have := h.run.inv.handlers i
        rw [hh] at this
        exact this _ hb rfl
      | submitted c' f => exact submitted_never h i c' f hh
      | logged c' rec =>
        cases hcmd : newCommand ext rec.elements with
        | none => exact act (.noCommand v.sys i c' rec hh hcmd) rfl
        | some p => exact act (.sendClosed v.sys i c' rec p.1 p.2 hh hcmd hclosed) rfl
      | waiting c' => exact act (.timeout v.sys i c' hh) rfl
      | replying c' rsp =>
        cases he : rsp.encode with
        | error p => exact act (.encodePanic v.sys i c' rsp p hh he) rfl
        | ok b =>
          by_cases hb : b = []
          · subst hb; exact act (.writeNothing v.sys i c' rsp hh he) rfl
          · exact act (.write v.sys i c' rsp b hh he hb) rfl
      | ended => exact bad (.next v c i hk hh) (by simp) (by simp) (by simp) (by simp) (by simp)
  have hwg : v.wg = 0 := by
    rw [hn.count, List.length_eq_zero_iff, List.filter_eq_nil_iff]
    intro c hm
    rcases hgone c with e | e
    · exact absurd hm ((hn.absent c).mp e)
    · simp [e]
  refine ⟨?_, hl.ret.mpr hcl, ?_⟩
  · rw [hl.started]
    rcases hl.serving.mp hserv with e | e | e
    · exact (bad (.acceptEnd v e hlis) (by simp) (by simp) (by simp) (by simp) (by simp)).elim
    · exact (bad (.started v e hwg) (by simp) (by simp) (by simp) (by simp) (by simp)).elim
    · exact e
  · intro c b hm
    have hc : c ∈ accepted L := mem_accepted.mpr ⟨b, hm⟩
    have : (v.conn c).loop = .gone := by
      rcases hgone c with hg | hg
      · exact absurd hc ((hn.absent c).mp hg)
      · exact hg
    exact ⟨(hn.closed c).mpr (.inr this), (hn.gone c).mpr this⟩

/-- C61: `Stop` was called, and not too early: then nothing can happen any more (in the sense of `AtRest`) exactly when
`Start` and `Stop` have both returned. -/
theorem C61_rest_exact_partial {ext rng L v} (h : VRun ext rng L v) (hearly : ¬ EarlyStop L) (hstop : .stopCalled ∈ L) :
    AtRest ext v ↔ .started ∈ L ∧ .stopReturned ∈ L := by
  constructor
  · intro hq
    have := C61_rest_partial h hearly hstop hq
    exact ⟨this.1, this.2.1⟩
  · rintro ⟨h1, h2⟩
    have hl := life h
    have hst := hl.started.mp h1
    have hcl := hl.ret.mp h2
    have hgone : ∀ c, (v.conn c).loop = .absent ∨ (v.conn c).loop = .gone := by
      obtain ⟨A, B, rfl⟩ := List.append_of_mem h1
      obtain ⟨w1, w2, g1, _, _, hs, hB⟩ := h.at
      have hn := conns g1
      cases hs with
      | started k1 k2 =>
        refine (after_started (w := { w1 with starter := .returned }) rfl ?_ hB).2.1
        intro c
        by_cases hc : c ∈ accepted A
        · right
          have := hn.count
          rw [k2] at this
          have := List.filter_eq_nil_iff.mp (List.length_eq_zero_iff.mp this.symm) c hc
          simpa using this
        · exact .inl ((hn.absent c).mpr hc)
    have hstd : .stopped ∈ sysLabels L := by
      obtain ⟨A, B, rfl⟩ := List.append_of_mem h2
      have := (C61_stop_returned h).1
      exact (mem_sysLabels (by simp) (by simp)).mpr (List.mem_append_left _ this)
    obtain ⟨hsr, hex⟩ := h.run.workers.2.1 hstd
    intro l v' hs
    cases hs with
    | begun k | startFailed k | listening k | serving k | accept _ _ k | acceptFailed k | acceptEnd k | started k => rw [hst] at k; cases k
    | stopCalled k | stopPool _ k | cancel k | cancelNil k => rw [hcl] at k; cases k
    | decode c | malformed c | readClosed c | request c | error c | closeReceive c | closeError c => exact .inl ⟨c, rfl⟩
    | decodePanic c p => exact .inr (.inl ⟨p, rfl⟩)
    | quit c | gotError c | handle c | handleNil c | died c | next c | writeFailed c | closeConn c | gone c | goneNegative c =>
      exfalso; rcases hgone c with e | e <;> simp_all
    | sys l σ' k0 k1 k2 k3 k4 k5 =>
      exfalso
      have hno : actor l = none := by
        cases ha : actor l with
        | none => rfl
        | some i =>
          obtain ⟨c, hc⟩ := k5 i ha
          rcases hgone c with e | e <;> rw [e] at hc <;> cases hc
      cases k0 with
      | take w e rest g1 g2 | start w e g1 g2 | exec w e snap s' it rsp g1 g2 | crash w e snap it p g1 g2 | publish w e rsp g1 g2
        | exitTold w g1 g2 | exitClosed w g1 g2 => rw [hex w g1] at g2; cases g2
      | stop g | signal _ g | stopped g => rw [hsr] at g; cases g
      | recv => exact k2 _ _ _ rfl
      | log => exact k3 _ _ rfl
      | _ => simp [actor] at hno

theorem sys_count (L : List VLabel) : L.length + Event.frames (L.flatMap fun l => match l with | .handle i c b _ => [.recv i c b] | _ => []) ≤
    own L + (sysLabels L).length := by
  induction L with
  | nil => simp [Event.frames]
  | cons l L ih =>
    simp only [sysLabels, own, List.flatMap_cons, List.length_append, List.length_cons, List.countP_cons, Event.frames,
      List.countP_append] at ih ⊢
    cases l <;> simp [VLabel.steps] at ih ⊢ <;> omega

theorem frames_own {ext rng L v} (h : VRun ext rng L v) : Event.frames (sysLabels L) ≤ own L := by
  have hno : ∀ i c f, .sys (.recv i c f) ∉ L := no_recv h
  clear h
  induction L with
  | nil => simp [Event.frames, sysLabels]
  | cons l L ih =>
    have := ih fun i c f hm => hno i c f (List.mem_cons_of_mem _ hm)
    have h0 : Event.frames l.steps ≤ own [l] := by
      unfold Event.frames own
      cases l with
      | sys l =>
        cases l <;> simp [VLabel.steps]
        exact hno _ _ _ List.mem_cons_self
      | _ => simp [VLabel.steps]
    have h1 : Event.frames (sysLabels (l :: L)) = Event.frames l.steps + Event.frames (sysLabels L) := by
      simp [Event.frames, sysLabels]
    have h2 : own (l :: L) = own [l] + own L := List.countP_append (l₁ := [l])
    rw [h1, h2]
    exact Nat.add_le_add h0 this

/-- C61: whatever the schedule, the server makes a bounded number of steps per connection and per byte. -/
theorem C61_bounded {ext rng L v} (h : VRun ext rng L v) : L.length ≤ 12 * load L + 113 := by
  have h1 := own_bound h
  have h2 := Event.C52_bounded h.run
  have h3 := sys_count L
  have h4 := frames_own h
  omega

theorem load_append (A B : List VLabel) : load (A ++ B) = load A + load B := by simp [load]

/-- C61: from every situation the server comes to rest by itself: there is a continuation, without any connection accepted,
after which the process has ended by a panic or nothing can happen any more (in the sense of `AtRest`).
By `C61_bounded` every continuation gets there. -/
theorem C61_comes_to_rest {ext rng} : ∀ {L v}, VRun ext rng L v →
    ∃ B v', VSteps ext v B v' ∧ (∀ c b, .accept c b ∉ B) ∧ .stopCalled ∉ B ∧ (v'.crashed = true ∨ v'.sys.crashed = true ∨ AtRest ext v') := by
  suffices hk : ∀ (k : Nat) {L v}, VRun ext rng L v → 12 * load L + 113 - L.length ≤ k →
      ∃ B v', VSteps ext v B v' ∧ (∀ c b, .accept c b ∉ B) ∧ .stopCalled ∉ B ∧ (v'.crashed = true ∨ v'.sys.crashed = true ∨ AtRest ext v') from
    fun {_ _} h => hk _ h (Nat.le_refl _)
  intro k
  induction k with
  | zero =>
    intro L v h hk
    by_cases hc : v.crashed = true
    · exact ⟨[], v, .nil, by simp, by simp, .inl hc⟩
    by_cases hc' : v.sys.crashed = true
    · exact ⟨[], v, .nil, by simp, by simp, .inr (.inl hc')⟩
    refine ⟨[], v, .nil, by simp, by simp, .inr (.inr fun l v' hs => ?_)⟩
    by_contra hcon
    simp only [not_or, not_exists] at hcon
    have hr : VRun ext rng (L ++ [l]) v' := .snoc h (by simpa using hc') (by simpa using hc) hs
    have h1 := C61_bounded hr
    rw [load_append] at h1
    have : load [l] = 0 := by cases l <;> simp_all [load]
    simp only [List.length_append, List.length_singleton] at h1
    omega
  | succ k ih =>
    intro L v h hk
    by_cases hc : v.crashed = true
    · exact ⟨[], v, .nil, by simp, by simp, .inl hc⟩
    by_cases hc' : v.sys.crashed = true
    · exact ⟨[], v, .nil, by simp, by simp, .inr (.inl hc')⟩
    by_cases hx : ∃ l v', VStep ext v l v' ∧ (∀ c b, l ≠ .accept c b) ∧ l ≠ .acceptFailed ∧ l ≠ .stopCalled
    · obtain ⟨l, v', hs, g1, g2, g3⟩ := hx
      have hr : VRun ext rng (L ++ [l]) v' := .snoc h (by simpa using hc') (by simpa using hc) hs
      have h0 : load [l] = 0 := by cases l <;> simp_all [load]
      obtain ⟨B, w, k1, k2, k3, k4⟩ := ih hr (by rw [load_append, h0, List.length_append, List.length_singleton]; omega)
      refine ⟨l :: B, w, ?_, ?_, ?_, k4⟩
      · exact VSteps.append (A := [l]) (.snoc (L := []) .nil (by simpa using hc') (by simpa using hc) hs) k1
      · intro c b hm
        rcases List.mem_cons.mp hm with e | hm
        · exact g1 c b e.symm
        · exact k2 c b hm
      · intro hm
        rcases List.mem_cons.mp hm with e | hm
        · exact g3 e.symm
        · exact k3 hm
    · refine ⟨[], v, .nil, by simp, by simp, .inr (.inr fun l v' hs => ?_)⟩
      by_contra hcon
      simp only [not_or, not_exists] at hcon
      exact hx ⟨l, v', hs, hcon.2.2.1, hcon.2.2.2.1, hcon.2.2.2.2⟩

/-- C61: `Stop` crashes only if it was called, and the pool had stopped, before `Start` had set the context. -/
theorem C61_nil_cancel {ext rng L v} (h : VRun ext rng L v) (hm : .panic .nilCancel ∈ L) : .stopCalled ∈ L ∧ .begun ∉ L := by
  obtain ⟨A, B, rfl⟩ := List.append_of_mem hm
  obtain ⟨w1, w2, h1, _, _, hs, hB⟩ := h.at
  have hl := life h1
  cases hs with
  | cancelNil k1 k2 k3 =>
    have hBn : B = [] := by
      generalize hw : ({ w1 with crashed := true } : Srv) = w at hB
      clear h
      have key : ∀ {B v}, VSteps ext w B v → B = [] ∧ v = w := by
        intro B v hB
        induction hB with
        | nil => exact ⟨rfl, rfl⟩
        | snoc _ _ g _ ih => obtain ⟨_, rfl⟩ := ih; rw [← hw] at g; cases g
      exact (key hB).1
    subst hBn
    refine ⟨List.mem_append_left _ (hl.stop.mpr (by simp [k1])), ?_⟩
    intro hb
    have hb : .begun ∈ A := by simpa using hb
    have := hl.ctx.mpr (hl.begun.mp hb)
    rw [k3] at this; cases this

/-- C61 fails if `Stop` is called before `Start` has set the context: `Stop` calls a nil function and the process ends. -/
theorem C61_nil_cancel_violated (ext : Ext) (rng : Rng) : ∃ L v, VRun ext rng L v ∧ .panic .nilCancel ∈ L := by
  have h0 : VRun ext rng [] (Srv.init rng) := .nil
  have h1 := VSteps.snoc h0 rfl rfl (.stopCalled _ rfl)
  have h2 := VSteps.snoc h1 rfl rfl (.stopPool _ _ rfl (.stop _ rfl))
  have h3 := VSteps.snoc h2 rfl rfl (.sys _ _ _ (.signal _ 0 rfl (by decide)) (by simp) (by simp) (by simp) (by simp) (by simp [actor]))
  have h4 := VSteps.snoc h3 rfl rfl (.sys _ _ _ (.exitTold _ 0 (by decide) rfl rfl) (by simp) (by simp) (by simp) (by simp) (by simp [actor]))
  have h5 := VSteps.snoc h4 rfl rfl (.sys _ _ _ (.stopped _ rfl (by intro w hw; have : w = 0 := by omega
                                                                    subst this; rfl)) (by simp) (by simp) (by simp) (by simp) (by simp [actor]))
  have h6 := VSteps.snoc h5 rfl rfl (.cancelNil _ rfl rfl rfl)
  exact ⟨_, _, h6, by simp⟩

/-- C61 fails if `Stop` is called between the moment `Start` sets the context and the moment it sets the listener: then
`Stop` returns, but `Start` never does, whatever happens afterwards. -/
theorem C61_early_stop_violated (ext : Ext) (rng : Rng) : (∀ L v, VRun ext rng L v → EarlyStop L → .started ∉ L) ∧
    ∃ L v, VRun ext rng L v ∧ EarlyStop L ∧ .begun ∈ L ∧ .serving ∈ L ∧ .stopReturned ∈ L := by
  refine ⟨fun L v h he hs => ?_, ?_⟩
  · have hl := life h
    exact hl.late he (hl.ending (.inr (hl.started.mp hs)))
  · have h0 : VRun ext rng [] (Srv.init rng) := .nil
    have h0 := VSteps.snoc h0 rfl rfl (.begun _ rfl)
    have h1 := VSteps.snoc h0 rfl rfl (.stopCalled _ rfl)
    have h2 := VSteps.snoc h1 rfl rfl (.stopPool _ _ rfl (.stop _ rfl))
    have h3 := VSteps.snoc h2 rfl rfl (.sys _ _ _ (.signal _ 0 rfl (by decide)) (by simp) (by simp) (by simp) (by simp) (by simp [actor]))
    have h4 := VSteps.snoc h3 rfl rfl (.sys _ _ _ (.exitTold _ 0 (by decide) rfl rfl) (by simp) (by simp) (by simp) (by simp) (by simp [actor]))
    have h5 := VSteps.snoc h4 rfl rfl (.sys _ _ _ (.stopped _ rfl (by intro w hw; have : w = 0 := by omega
                                                                      subst this; rfl)) (by simp) (by simp) (by simp) (by simp) (by simp [actor]))
    have h6 := VSteps.snoc h5 rfl rfl (.cancel _ rfl rfl rfl)
    have h7 := VSteps.snoc h6 rfl rfl (.listening _ rfl)
    have h8 := VSteps.snoc h7 rfl rfl (.serving _ rfl)
    exact ⟨_, _, h8, ⟨[.begun], _, rfl, by simp⟩, by simp, by simp, by simp⟩

/-! ## C62 -/

/-- C62: whenever the process has ended by a panic, its cause is one of those of `Cause`, or a command that panics. -/
theorem C62_causes_partial {ext rng L v} (h : VRun ext rng L v) :
    (∀ why, .panic why ∈ L → Cause L why) ∧
    (v.crashed = true ∨ v.sys.crashed = true → (∃ why, .panic why ∈ L) ∨ ∃ w i p, .sys (.crash w i p) ∈ L) := by
  refine ⟨?_, ?_⟩
  · intro why hm
    obtain ⟨A, B, rfl⟩ := List.append_of_mem hm
    obtain ⟨w1, w2, h1, _, _, hs, hB⟩ := h.at
    have hA : ∀ l ∈ A, l ∈ A ++ .panic why :: B := fun l hl => List.mem_append_left _ hl
    have hn := conns h1
    cases hs with
    | cancelNil => exact C61_nil_cancel h hm
    | goneNegative => exact absurd hm (C61_counter h)
    | handleNil c k1 k2 k3 =>
      obtain ⟨g1, g2⟩ := over h1 c
      rcases g2 (g1 k3) with e | e | ⟨s, bs, b, rest, e1, e2, e3⟩
      · rw [k1] at e; cases e
      · rw [k1] at e; cases e
      · have hr := closed_after h1 c k3
        have hcl := (clean h1 c (by rw [k1]; trivial) s e1).2
        rcases hr with hr | hr <;> rw [hr] at hcl <;> obtain ⟨rs, rd, rest', f1, f2⟩ := hcl <;>
          exact ⟨c, s, rs, rd, rest', hA _ e1, f1, f2⟩
    | decodePanic c p k1 k2 k3 =>
      obtain ⟨s, hs⟩ := mem_accepted.mp (by by_contra hm; exact k1 ((hn.absent c).mpr hm) : c ∈ accepted A)
      have hp := (finds h1 c).2 s hs
      refine ⟨c, s, _, _, hA _ hs, ?_, hp, k3⟩
      have := rdDecode_fair (w1.conn c).input
      rw [k3] at this
      have h2 := this.1.suffix hp.suffix
      simpa [Rd.ahead, fresh] using h2
    | died c i p σ' k1 k2 =>
      have hh := h1.run.inv.handlers i
      generalize hl : Label.died i p = l at k2
      cases k2 with
      | decodePanic j c' f p' g1 => exact absurd g1 (submitted_never h1 _ _ _)
      | sendClosed j c' rec nm args g1 g2 g3 =>
        cases hl
        rw [g1] at hh
        left
        refine ⟨rfl, hA _ (no_sys_stop.mp (h1.run.workers.2.2.1.mpr g3)), ?_⟩
        intro he
        have hBn : B = [] := by
          have key : ∀ {B v}, VSteps ext { w1 with crashed := true } B v → B = [] ∧ v = { w1 with crashed := true } := by
            intro B v hB
            induction hB with
            | nil => exact ⟨rfl, rfl⟩
            | snoc _ _ g _ ih => obtain ⟨_, rfl⟩ := ih; cases g
          exact (key hB).1
        subst hBn
        have he : .sys (.enqueue i) ∈ A := by simpa using he
        have := hh.2.2 _ ((mem_sysLabels (by simp) (by simp)).mpr he) rfl
        cases this
      | encodePanic j c' rsp p' g1 g2 =>
        cases hl
        rw [g1] at hh
        obtain ⟨_, ho, _⟩ := hh
        rcases ho with ⟨_, rfl⟩ | ⟨_, _, w, ho⟩
        · simp [newResponseWithError, Response.encode, Item.encode] at g2
        · exact .inr ⟨w, rsp, hA _ ((mem_sysLabels (by simp) (by simp)).mp ho), g2⟩
      | _ => cases hl
  · rintro (hc | hc)
    · left
      induction h with
      | nil => cases hc
      | @snoc L w l w' h g1 g2 hs ih =>
        cases hs <;> first | exact absurd (g2.symm.trans hc) (by simp) | exact ⟨_, List.mem_append_right _ (List.mem_singleton.mpr rfl)⟩
    · right
      obtain ⟨w, i, p, hm⟩ := h.run.stopping.2.2.2.2 hc
      exact ⟨w, i, p, (mem_sysLabels (by simp) (by simp)).mp hm⟩

theorem serving_accepting {ext rng L v} (h : VRun ext rng L v) (hs : .serving ∈ L) (hns : .stopCalled ∉ L) :
    v.starter = .accepting ∧ v.listener = some true := by
  have hl := life h
  have hlis : v.listener = some true := by
    cases e : v.listener with
    | none => exact absurd hs (hl.listener.mp e)
    | some b =>
      cases b
      · exact absurd (hl.closed e) hns
      · rfl
  refine ⟨?_, hlis⟩
  rcases hl.serving.mp hs with e | e | e
  · exact e
  · have := hl.ending (.inl e); rw [hlis] at this; cases this
  · have := hl.ending (.inr e); rw [hlis] at this; cases this

/-- C62 fails: at any time while the server serves, a peer that connects and disconnects before it has sent a whole request (for
instance without sending anything) can end the process, whatever the other peers do. -/
theorem C62_disconnect_violated {ext rng L v} (h : VRun ext rng L v) (hc : v.crashed = false) (hc' : v.sys.crashed = false)
    (hs : .serving ∈ L) (hns : .stopCalled ∉ L) {c : Nat} (hn : ∀ b, .accept c b ∉ L) {segs rest}
    (he : rdDecode (fresh segs) = .err .eof rest) :
    ∃ v', VRun ext rng (L ++ [.accept c segs, .reader c, .reader c, .reader c, .panic .nilRequest]) v' := by
  obtain ⟨g1, g2⟩ := serving_accepting h hs hns
  have g3 : (v.conn c).loop = .absent := ((conns h).absent c).mpr (by rw [mem_accepted]; rintro ⟨b, hb⟩; exact hn b hb)
  have h1 := VSteps.snoc h hc' hc (.accept v c segs g1 g2 g3)
  have h2 := VSteps.snoc h1 hc' hc (.malformed _ c .eof rest true (by simp [Conn.new]) (by simp [Conn.new]) (by simpa [Conn.new, fresh] using he) (by simp))
  have h3 := VSteps.snoc h2 hc' hc (.error _ c true (by simp) (by simp [Conn.new]))
  have h4 := VSteps.snoc h3 hc' hc (.closeReceive _ c (by simp))
  have h5 := VSteps.snoc h4 hc' hc (.handleNil _ c (by simp [Conn.new]) (by simp [Conn.new]) (by simp))
  exact ⟨_, by simpa using h5⟩

example : rdDecode (fresh []) = .err .eof ⟨[], []⟩ := rfl
example : rdDecode (fresh [b! "*2\r\n$3\r\n", b! "GET\r\n$1"]) = .err .eof ⟨[], []⟩ := by decide +kernel

/-- C62 fails: at any time while the server serves, a peer that sends the line `$5`, without a carriage return, can end the
process, whatever the other peers do. -/
theorem C62_bad_header_violated {ext rng L v} (h : VRun ext rng L v) (hc : v.crashed = false) (hc' : v.sys.crashed = false)
    (hs : .serving ∈ L) (hns : .stopCalled ∉ L) {c : Nat} (hn : ∀ b, .accept c b ∉ L) :
    ∃ v', VRun ext rng (L ++ [.accept c [b! "$5\n"], .panic (.decoding .indexOutOfRange)]) v' := by
  obtain ⟨g1, g2⟩ := serving_accepting h hs hns
  have g3 : (v.conn c).loop = .absent := ((conns h).absent c).mpr (by rw [mem_accepted]; rintro ⟨b, hb⟩; exact hn b hb)
  have h1 := VSteps.snoc h hc' hc (.accept v c [b! "$5\n"] g1 g2 g3)
  have h2 := VSteps.snoc h1 hc' hc (.decodePanic _ c .indexOutOfRange (by simp [Conn.new]) (by simp [Conn.new])
    (by simp only [upd_same, Conn.new]; decide +kernel))
  exact ⟨_, by simpa using h2⟩


/-! ## Cases -/

/-- SET x 5, then INCR x, in two segments, the first of which ends in a header line of the second request -/
def pipeline : List Bytes := [b! "*3\r\n$3\r\nSET\r\n$1\r\nx\r\n$1\r\n5\r\n*2\r\n$", b! "4\r\nINCR\r\n$1\r\nx\r\n"]

/-- the labels of the cases, as comparable data -/
def code : VLabel → Nat × Option Why × List Bytes
  | .accept c b => (10 + c, none, b)
  | .serving => (1, none, [])
  | .started => (2, none, [])
  | .stopCalled => (3, none, [])
  | .stopReturned => (4, none, [])
  | .panic w => (5, some w, [])
  | _ => (0, none, [])

theorem mem_code {L : List VLabel} {l : VLabel} (hl : (code l).1 ≠ 0) (h : code l ∈ L.map code) : l ∈ L := by
  rw [List.mem_map] at h
  obtain ⟨x, hx, he⟩ := h
  have : x = l := by
    cases x <;> cases l <;> simp_all [code] <;> omega
  exact this ▸ hx

/-- Case for C60 and C61: a peer sends SET x 5 and INCR x without waiting; both are executed and answered in this order, then
the server is stopped: `Stop` and `Start` return. -/
example : ∃ L v, VRun ext0 rng0 L v ∧ .accept 0 pipeline ∈ L ∧ v.sys.sent 0 = [b! "+OK\r\n", b! ":6\r\n"] ∧ v.crashed = false ∧
    .serving ∈ L ∧ .stopCalled ∈ L ∧ .started ∈ L ∧ .stopReturned ∈ L ∧ ¬ EarlyStop L ∧ AtRest ext0 v := by
  obtain ⟨L, v, h1, h2⟩ := vtry (ext := ext0) (it := it0) (rng := rng0) (as :=
    [.start, .start, .start, .accept 0 pipeline, .read 0, .read 0, .read 0, .handle 0 0, .run 0, .read 0, .read 0, .work, .work,
     .work, .work, .run 0, .run 0, .next 0, .handle 0 1, .run 0, .work, .work, .work, .work, .run 0, .run 0, .next 0,
     .stop, .start, .stop, .stop, .quit, .stop, .stop, .cancelled 0, .close 0, .close 0, .start])
    (fun x => (x.2.sys.sent 0, [!x.2.crashed, decide (code (.accept 0 pipeline) ∈ x.1.map code), decide (code .serving ∈ x.1.map code),
      decide (code .stopCalled ∈ x.1.map code), decide (code .started ∈ x.1.map code), decide (code .stopReturned ∈ x.1.map code)]))
    (a := ([b! "+OK\r\n", b! ":6\r\n"], [true, true, true, true, true, true])) (by decide +kernel)
  simp only [Prod.mk.injEq, List.cons.injEq, decide_eq_true_eq, Bool.not_eq_true', and_true] at h2
  obtain ⟨a2, a3, a1, a4, a5, a6, a7⟩ := h2
  have b5 : .stopCalled ∈ L := mem_code (by simp [code]) a5
  have b6 : .started ∈ L := mem_code (by simp [code]) a6
  have b7 : .stopReturned ∈ L := mem_code (by simp [code]) a7
  have b8 : ¬ EarlyStop L := fun he => (C61_early_stop_violated ext0 rng0).1 L v h1 he b6
  exact ⟨L, v, h1, mem_code (by simp [code]) a1, a2, a3, mem_code (by simp [code]) a4, b5, b6, b7, b8,
    (C61_rest_exact_partial h1 b8 b5).mpr ⟨b6, b7⟩⟩

/-- the stream consists of the two requests, and no data is cut -/
example : Sends pipeline [[b! "SET", b! "x", b! "5"], [b! "INCR", b! "x"]] := by
  refine ⟨[[.line (b! "*3\r\n"), .line (b! "$3\r\n"), .data (b! "SET\r\n"), .line (b! "$1\r\n"), .data (b! "x\r\n"), .line (b! "$1\r\n"), .data (b! "5\r\n")],
      [.line (b! "*2\r\n"), .line (b! "$4\r\n"), .data (b! "INCR\r\n"), .line (b! "$1\r\n"), .data (b! "x\r\n")]],
    [(b! "*3\r\n$3\r\nSET\r\n$1\r\nx\r\n$1\r\n5\r\n*2\r\n$", true), (b! "4\r\nINCR\r\n$1\r\nx\r\n", true)], ?_, ?_, rfl⟩
  · refine .cons ⟨⟨b! "3", _, by decide, .cons (d := b! "3") (a := b! "SET") (by decide) (.cons (d := b! "1") (a := b! "x") (by decide)
      (.cons (d := b! "1") (a := b! "5") (by decide) .nil)), rfl⟩, by decide, by decide, by decide⟩
      (.cons ⟨⟨b! "2", _, by decide, .cons (d := b! "4") (a := b! "INCR") (by decide) (.cons (d := b! "1") (a := b! "x") (by decide) .nil), rfl⟩,
        by decide, by decide, by decide⟩ .nil)
  · exact uncut_two (d := [.line (b! "*3\r\n"), .line (b! "$3\r\n"), .data (b! "SET\r\n"), .line (b! "$1\r\n"), .data (b! "x\r\n"), .line (b! "$1\r\n"), .data (b! "5\r\n"), .line (b! "*2\r\n")])
      (r := [.line (b! "$4\r\n"), .data (b! "INCR\r\n"), .line (b! "$1\r\n"), .data (b! "x\r\n")]) (q := b! "$") (by decide) (by decide)
      rfl rfl rfl (.inr ⟨_, _, rfl, by decide, by decide⟩) (by decide) (by decide) (by decide) (by decide)

/-- C60 fails when data is cut (C64): a peer sends SET x hello, which arrives in two segments, the first of which ends inside
`hello`; the peer is told OK; another peer that asks for `x` afterwards gets the two bytes that arrived first and three zero
bytes. -/
theorem C60_cut_violated : ∃ L v, VRun ext0 rng0 L v ∧
    .accept 0 [b! "*3\r\n$3\r\nSET\r\n$1\r\nx\r\n$5\r\nhe", b! "llo\r\n"] ∈ L ∧ .accept 1 [b! "*2\r\n$3\r\nGET\r\n$1\r\nx\r\n"] ∈ L ∧
    v.sys.sent 0 = [b! "+OK\r\n"] ∧ v.sys.sent 1 = [b! "$5\r\nhe" ++ [0, 0, 0] ++ b! "\r\n"] := by
  obtain ⟨L, v, h1, h2⟩ := vtry (ext := ext0) (it := it0) (rng := rng0) (as :=
    [.start, .start, .start, .accept 0 [b! "*3\r\n$3\r\nSET\r\n$1\r\nx\r\n$5\r\nhe", b! "llo\r\n"], .read 0, .read 0, .handle 0 0, .run 0,
     .work, .work, .work, .work, .run 0, .run 0, .next 0, .accept 1 [b! "*2\r\n$3\r\nGET\r\n$1\r\nx\r\n"], .read 1, .read 1, .handle 1 1,
     .run 1, .work, .work, .work, .work, .run 1, .run 1])
    (fun x => (x.2.sys.sent 0, x.2.sys.sent 1,
      [decide (code (.accept 0 [b! "*3\r\n$3\r\nSET\r\n$1\r\nx\r\n$5\r\nhe", b! "llo\r\n"]) ∈ x.1.map code),
       decide (code (.accept 1 [b! "*2\r\n$3\r\nGET\r\n$1\r\nx\r\n"]) ∈ x.1.map code)]))
    (a := ([b! "+OK\r\n"], [b! "$5\r\nhe" ++ [0, 0, 0] ++ b! "\r\n"], [true, true])) (by decide +kernel)
  simp only [Prod.mk.injEq, List.cons.injEq, decide_eq_true_eq, and_true] at h2
  obtain ⟨a1, a2, a3, a4⟩ := h2
  exact ⟨L, v, h1, mem_code (by simp [code]) a3, mem_code (by simp [code]) a4, a1, a2⟩

/-- C61 fails: a request is in flight when the server is stopped; the process ends by a panic, instead of answering it. -/
theorem C61_in_flight_violated : ∃ L v, VRun ext0 rng0 L v ∧ .accept 0 [Event.setX5] ∈ L ∧ .serving ∈ L ∧ .stopCalled ∈ L ∧
    .panic (.handling 0 .sendOnClosed) ∈ L := by
  obtain ⟨L, v, h1, h2⟩ := vtry (ext := ext0) (it := it0) (rng := rng0) (as :=
    [.start, .start, .start, .accept 0 [Event.setX5], .read 0, .read 0, .handle 0 0, .stop, .stop, .run 0])
    (fun x => (decide (code (.accept 0 [Event.setX5]) ∈ x.1.map code), decide (code .serving ∈ x.1.map code),
      decide (code .stopCalled ∈ x.1.map code), decide (code (.panic (.handling 0 .sendOnClosed)) ∈ x.1.map code)))
    (a := (true, true, true, true)) (by decide +kernel)
  simp only [Prod.mk.injEq, decide_eq_true_eq] at h2
  obtain ⟨a1, a2, a3, a4⟩ := h2
  exact ⟨L, v, h1, mem_code (by simp [code]) a1, mem_code (by simp [code]) a2, mem_code (by simp [code]) a3, mem_code (by simp [code]) a4⟩

/-- RPUSH l a, then MGET l -/
def mgetList : Bytes := b! "*3\r\n$5\r\nRPUSH\r\n$1\r\nl\r\n$1\r\na\r\n*2\r\n$4\r\nMGET\r\n$1\r\nl\r\n"

/-- C62 fails: a peer asks for the string value of a list (`MGET`); the process ends. -/
theorem C62_reply_violated : ∃ L v p, VRun ext0 rng0 L v ∧ .accept 0 [mgetList] ∈ L ∧ .panic (.handling 1 p) ∈ L := by
  obtain ⟨L, v, h1, h2⟩ := vtry (ext := ext0) (it := it0) (rng := rng0) (as :=
    [.start, .start, .start, .accept 0 [mgetList], .read 0, .read 0, .handle 0 0, .run 0, .read 0, .read 0, .work, .work,
     .work, .work, .run 0, .run 0, .next 0, .handle 0 1, .run 0, .work, .work, .work, .work, .run 0, .run 0])
    (fun x => (decide (code (.accept 0 [mgetList]) ∈ x.1.map code), decide (code (.panic (.handling 1 .typeAssertion)) ∈ x.1.map code)))
    (a := (true, true)) (by decide +kernel)
  simp only [Prod.mk.injEq, decide_eq_true_eq] at h2
  exact ⟨L, v, _, h1, mem_code (by simp [code]) h2.1, mem_code (by simp [code]) h2.2⟩

end Godis.V1
