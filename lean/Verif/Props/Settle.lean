import Verif.Proofs.Event4
import Verif.Proofs.Order3
import Verif.Props.Shutdown
/-!
# C53 (every command finishes) and C52 (the server never gets stuck)
-/
namespace Godis

/-! ## C53 -/

/-- C53: on every store the server can reach, no request runs for ever: none of its loops over the nodes of a list or a
sorted set takes more steps than there are nodes.  The request may be malformed, the list or sorted set damaged by
earlier commands, scores may be NaN, the random heights and the iteration order are arbitrary. -/
theorem C53_finishes {ext : Ext} {s : Store} (hs : Reachable ext s) (it : Iter) (req : List Bytes) :
    runRequest ext it s req ≠ .error .diverge :=
  runRequest_nd hs.typed hs.ordered ext it req

/-- encoding a reply ends -/
theorem encode_nd (rsp : Response) : rsp.encode ≠ .error .diverge := by
  intro h
  have item : ∀ it : Item, it.encode ≠ .error .diverge := by
    intro it h; unfold Item.encode at h; split at h <;> cases h
  have items : ∀ its : List Item, encodeItems its ≠ .error .diverge := by
    intro its
    induction its with
    | nil => simp [encodeItems]
    | cons a its ih =>
      intro h
      unfold encodeItems at h
      cases hi : a.encode with
      | error p => rw [hi] at h; cases h; exact item a hi
      | ok x =>
        cases hj : encodeItems its with
        | error p => rw [hi, hj] at h; cases h; exact ih hj
        | ok y => rw [hi, hj] at h; cases h
  unfold Response.encode at h
  split at h
  · split at h <;> cases h
  · next a its hits =>
    split at h
    · exact item a h
    · cases hj : encodeItems (a :: its) with
      | error p => rw [hj] at h; cases h; exact items _ hj
      | ok b => rw [hj] at h; cases h

/-- C53: whole frames too: reading the request, executing it and encoding the reply all end, whatever bytes the frame
consists of. -/
theorem C53_frame_finishes {ext : Ext} {s : Store} (hs : Reachable ext s) (it : Iter) (frame : Bytes) :
    reactFrame ext it s frame ≠ .error .diverge := by
  intro h
  unfold reactFrame at h
  cases hd : decodeFromReader frame with
  | panic p => rw [hd] at h; cases h; exact C04_terminates frame hd
  | err e r => rw [hd] at h; cases h
  | ok rec rest =>
    rw [hd] at h
    refine ND.bind (f := fun x : Store × Bytes => if x.2 = [] then (.ok (x.1, FrameOut.silent) : Go _) else .ok (x.1, .reply x.2)) ?_ ?_ h
    · unfold handleRequest
      refine ND.bind (runRequest_nd hs.typed hs.ordered ext it _) fun a ha => ?_
      obtain ⟨s', o⟩ := a
      cases o with
      | none => exact .ok _
      | some rsp => exact ND.bind (encode_nd rsp) fun _ _ => .ok _
    · intro a _
      split <;> exact .ok _

/-- Case: the damaged sorted set of C33 (a member listed twice) and a list emptied by LREM are reachable; requests on
them end. -/
example : ∃ s, Reachable ext0 s ∧ (∃ r o, s.keys.get (b! "l") = some ⟨.list, .ref r⟩ ∧ s.heap[r]? = some (.list o) ∧ o.length = 0 ∧ o.tail ≠ none) :=
  ⟨_, play_reachable (it := it0) (rng := rng0) (reqs := [[b! "rpush", b! "l", b! "a"], [b! "lrem", b! "l", b! "0", b! "a"]]) rfl, 0, _, rfl, rfl, rfl, by decide⟩

namespace Event

/-! ## C52 -/

/-- the number of frames received -/
def frames (L : List Label) : Nat := L.countP fun l => match l with | .recv .. => true | _ => false

theorem received_length (L : List Label) : (received L).length = frames L := by
  induction L with
  | nil => rfl
  | cons l L ih =>
    unfold received frames at *
    cases l <;> simp_all

/-- C52: the server does a bounded amount of work per frame: whatever the schedule, a run in which `k` frames arrive has
at most `11 k + 2 n + 3` steps.  So when no more frames arrive, everything comes to rest. -/
theorem C52_bounded {ext n rng L σ} (h : Run ext n rng L σ) : L.length ≤ 11 * frames L + 2 * n + 3 := by
  have := h.left_bound
  rw [received_length] at this
  omega

/-- all stores a worker sees are in order -/
theorem Run.stores {ext n rng L σ} (h : Run ext n rng L σ) :
    (Typed σ.store ∧ OrderedStore σ.store) ∧ ∀ w e snap, σ.worker w = .running e snap → Typed snap ∧ OrderedStore snap := by
  induction h with
  | nil => exact ⟨⟨typed_init rng, fun r o ho => by simp [Sys.init, Store.init] at ho⟩, fun w e snap hh => by cases hh⟩
  | @snoc L σ l σ' hr hc hs ih =>
    obtain ⟨i1, i2⟩ := ih
    cases hs with
    | take v e rest k0 k1 k2 | publish v e rsp k0 k1 | exitTold v k0 k1 | exitClosed v k0 k1 =>
      refine ⟨i1, fun w e snap hh => ?_⟩
      simp only [upd_apply] at hh
      split at hh
      · cases hh
      · exact i2 w e snap hh
    | start v e k0 k1 =>
      refine ⟨i1, fun w e snap hh => ?_⟩
      simp only [upd_apply] at hh
      split at hh
      · cases hh; exact i1
      · exact i2 w e snap hh
    | exec v e snap s' it rsp k0 k1 k2 =>
      obtain ⟨ht, ho⟩ := i2 v e snap k1
      have hs' : Typed s' ∧ OrderedStore s' := by
        unfold execute at k2
        split at k2
        · cases k2; exact ⟨ht, ho⟩
        · obtain ⟨⟨s2, r2⟩, h3, h4⟩ := bind_ok k2
          cases h4
          have := fn_eff _ ht h3
          exact ⟨this.typed ht, this.ordered ho⟩
      refine ⟨hs', fun w e' snap' hh => ?_⟩
      simp only [upd_apply] at hh
      split at hh
      · cases hh
      · exact i2 w e' snap' hh
    | _ => exact ⟨i1, i2⟩

theorem Run.waiting_enqueued {ext n rng L σ} (h : Run ext n rng L σ) : ∀ i c, σ.handler i = .waiting c → .enqueue i ∈ L := by
  induction h with
  | nil => intro i c hh; cases hh
  | @snoc L σ l σ' hr hc hs ih =>
    intro i c hh
    rw [List.mem_append]
    cases hs with
    | enqueue j c' rec nm args k1 =>
      simp only [upd_apply] at hh
      split at hh
      · next e => subst e; exact .inr (by simp)
      · exact .inl (ih i c hh)
    | take | start | exec | crash | publish | stop | signal | exitTold | exitClosed | stopped => exact .inl (ih i c hh)
    | _ =>
      simp only [upd_apply] at hh
      split at hh
      · cases hh
      · exact .inl (ih i c hh)

/-- a worker that cannot move is in the select or has returned -/
theorem Run.idle_worker {ext n rng L σ} (h : Run ext n rng L σ) {w : Nat} (hw : w < n)
    (hq : ∀ l σ', Step ext n σ l σ' → l.byWorker = false) : σ.worker w = .idle ∨ σ.worker w = .exited := by
  cases hk : σ.worker w with
  | idle => exact .inl rfl
  | exited => exact .inr rfl
  | took e => have := hq _ _ (.start σ w e hw hk); cases this
  | got e rsp => have := hq _ _ (.publish σ w e rsp hw hk); cases this
  | running e snap =>
    obtain ⟨ht, ho⟩ := h.stores.2 w e snap hk
    cases hx : execute ext it0 snap e.name e.args with
    | ok p => have := hq _ _ (.exec σ w e snap p.1 it0 p.2 hw hk hx); cases this
    | error p =>
      have hp : p ≠ .diverge := by
        rintro rfl; exact execute_nd ht ho ext it0 _ _ hx
      have := hq _ _ (.crash σ w e snap it0 p hw hk hx hp); cases this

/-- C52: before `Stop`, nothing ever gets stuck, and no timeout is needed for that.  In every reachable situation in
which no goroutine can move (other than by a frame arriving, a timeout expiring, `Stop` being called or the pool refusing a well-formed
request), all the work is done: every accepted request was executed and its result
published, and the handling of every frame has ended. -/
theorem C52_no_deadlock {ext n rng L σ} (hn : 0 < n) (h : Run ext n rng L σ) (hstop : .stop ∉ L)
    (hq : ∀ l σ', Step ext n σ l σ' → (∃ i c f, l = .recv i c f) ∨ (∃ i, l = .timeout i) ∨ l = .stop ∨
      ∃ i c f rec rest, l = .quiet i ∧ σ.handler i = .submitted c f ∧ decodeFromReader f = .ok rec rest) :
    (∀ i, .enqueue i ∈ L → ∃ w rsp, .exec w i rsp ∈ L ∧ .publish w i ∈ L) ∧
    ∀ i c f, .recv i c f ∈ L → .quiet i ∈ L ∨ (∃ p, .died i p ∈ L) ∨ ∃ b, .write i c b ∈ L := by
  have hw := h.workers
  have hclosed : σ.closed = false := by
    cases hc : σ.closed with
    | false => rfl
    | true => exact absurd (hw.2.2.1.mpr hc) hstop
  have hbw : ∀ l σ', Step ext n σ l σ' → l.byWorker = false := by
    intro l σ' hs
    rcases hq l σ' hs with ⟨i, c, f, rfl⟩ | ⟨i, rfl⟩ | rfl | ⟨i, c, f, _, _, rfl, _⟩ <;> rfl
  have hidle : ∀ w, σ.worker w = .idle := by
    intro w
    by_cases hwn : w < n
    · rcases h.idle_worker hwn hbw with hi | hi
      · exact hi
      · have := h.stopping.2.1 w hi
        rw [hclosed] at this; cases this
    · exact hw.1 w (by omega)
  have hchan : σ.chan = [] := by
    cases hc : σ.chan with
    | nil => rfl
    | cons e rest => have := hbw _ _ (.take σ 0 e rest hn (hidle 0) hc); cases this
  have hdone : ∀ i, .enqueue i ∈ L → ∃ w rsp, .exec w i rsp ∈ L ∧ .publish w i ∈ L ∧ σ.done i = some rsp := by
    intro i hi
    rcases h.located i hi with ⟨e, he, _⟩ | ⟨w, e, he, _⟩ | ⟨w, e, rsp, he, _⟩ | hd
    · rw [hchan] at he; cases he
    · rw [hidle w] at he; cases he
    · rw [hidle w] at he; cases he
    · exact hd
  have bad : ∀ {l σ'}, Step ext n σ l σ' → (∀ i c f, l ≠ .recv i c f) → (∀ i, l ≠ .timeout i) → l ≠ .stop →
      (∀ i c f rec rest, l = .quiet i → σ.handler i = .submitted c f → decodeFromReader f ≠ .ok rec rest) → False := by
    intro l σ' hs h1 h2 h3 h4
    rcases hq l σ' hs with ⟨i, c, f, e⟩ | ⟨i, e⟩ | e | ⟨i, c, f, rec, rest, e, e2, e3⟩
    · exact h1 i c f e
    · exact h2 i e
    · exact h3 e
    · exact h4 i c f rec rest e e2 e3
  refine ⟨fun i hi => by obtain ⟨w, rsp, h1, h2, _⟩ := hdone i hi; exact ⟨w, rsp, h1, h2⟩, fun i c f hi => ?_⟩
  have hk := h.inv.handlers i
  cases hh : σ.handler i with
  | absent => rw [hh] at hk; exact absurd rfl (hk _ hi)
  | submitted c' f' =>
    exfalso
    cases hd : decodeFromReader f' with
    | panic p => exact bad (.decodePanic σ i c' f' p hh hd) (by simp) (by simp) (by simp) (by simp)
    | err e r =>
      refine bad (.badFrame σ i c' f' e r hh hd) (by simp) (by simp) (by simp) ?_
      intro j c2 f2 rec rest e1 e2 e3
      cases e1; rw [hh] at e2; cases e2; rw [hd] at e3; cases e3
    | ok rec rest => exact bad (.log σ i c' f' rec rest hh hd) (by simp) (by simp) (by simp) (by simp)
  | logged c' rec =>
    cases hcmd : newCommand ext rec.elements with
    | none => exact (bad (.noCommand σ i c' rec hh hcmd) (by simp) (by simp) (by simp) (by rintro _ _ _ _ _ ⟨⟩ <;> simp [hh])).elim
    | some p => exact (bad (.enqueue σ i c' rec p.1 p.2 hh hcmd hclosed (by rw [hchan]; simp)) (by simp) (by simp) (by simp) (by rintro _ _ _ _ _ ⟨⟩ <;> simp [hh])).elim
  | waiting c' =>
    obtain ⟨w, rsp, _, _, hd⟩ := hdone i (h.waiting_enqueued i c' hh)
    exact (bad (.result σ i c' rsp hh hd) (by simp) (by simp) (by simp) (by rintro _ _ _ _ _ ⟨⟩ <;> simp [hh])).elim
  | replying c' rsp =>
    exfalso
    cases he : rsp.encode with
    | error p => exact bad (.encodePanic σ i c' rsp p hh he) (by simp) (by simp) (by simp) (by rintro _ _ _ _ _ ⟨⟩ <;> simp [hh])
    | ok b =>
      by_cases hb : b = []
      · subst hb; exact bad (.writeNothing σ i c' rsp hh he) (by simp) (by simp) (by simp) (by rintro _ _ _ _ _ ⟨⟩ <;> simp [hh])
      · exact bad (.write σ i c' rsp b hh he hb) (by simp) (by simp) (by simp) (by simp)
  | ended =>
    rw [hh] at hk
    rcases hk with hk | ⟨p, hk⟩ | ⟨c', b, hk⟩
    · exact .inl hk
    · exact .inr (.inl ⟨p, hk⟩)
    · obtain ⟨⟨f', hf'⟩, _⟩ := h.inv.written i c' b hk
      have := h.recv_unique hi hf'
      exact .inr (.inr ⟨b, by rw [this.1]; exact hk⟩)

/-- C52: with `Stop`.  In every reachable situation in which no goroutine can move (other than by a frame arriving or
`Stop` being called), the handling of every frame has ended and `Stop`, if it was called, has returned. -/
theorem C52_stop_returns {ext n rng L σ} (hn : 0 < n) (h : Run ext n rng L σ)
    (hq : ∀ l σ', Step ext n σ l σ' → (∃ i c f, l = .recv i c f) ∨ l = .stop) :
    (.stop ∈ L → .stopped ∈ L) ∧
    ∀ i c f, .recv i c f ∈ L → .quiet i ∈ L ∨ (∃ p, .died i p ∈ L) ∨ ∃ b, .write i c b ∈ L := by
  by_cases hstop : .stop ∈ L
  swap
  · exact ⟨fun hh => absurd hh hstop, (C52_no_deadlock hn h hstop (fun l σ' hs => (hq l σ' hs).imp id fun h => .inr (.inl h))).2⟩
  have hw := h.workers
  have hclosed : σ.closed = true := hw.2.2.1.mp hstop
  have hbw : ∀ l σ', Step ext n σ l σ' → l.byWorker = false := by
    intro l σ' hs
    rcases hq l σ' hs with ⟨i, c, f, rfl⟩ | rfl <;> rfl
  have bad : ∀ {l σ'}, Step ext n σ l σ' → (∀ i c f, l ≠ .recv i c f) → l ≠ .stop → False := by
    intro l σ' hs h1 h3
    rcases hq l σ' hs with ⟨i, c, f, e⟩ | e
    · exact h1 i c f e
    · exact h3 e
  refine ⟨fun _ => ?_, fun i c f hi => ?_⟩
  · cases hs : σ.stopper with
    | no => exact absurd hs (hw.2.2.2.mp hstop)
    | returned => exact h.stopping.2.2.2.1 hs
    | signalling k =>
      exfalso
      obtain ⟨hk, ht⟩ := h.stopping.1 k hs
      by_cases hkn : k < n
      · exact bad (.signal σ k hs hkn) (by simp) (by simp)
      · have hk : k = n := by omega
        subst hk
        refine bad (.stopped σ hs (fun w hwn => ?_)) (by simp) (by simp)
        rcases h.idle_worker hwn hbw with hi | hi
        · exact (bad (.exitTold σ w hwn hi (ht w hwn)) (by simp) (by simp)).elim
        · exact hi
  · have hk := h.inv.handlers i
    cases hh : σ.handler i with
    | absent => rw [hh] at hk; exact absurd rfl (hk _ hi)
    | submitted c' f' => exact (bad (.drop σ i c' f' hh) (by simp) (by simp)).elim
    | logged c' rec =>
      cases hcmd : newCommand ext rec.elements with
      | none => exact (bad (.noCommand σ i c' rec hh hcmd) (by simp) (by simp)).elim
      | some p => exact (bad (.sendClosed σ i c' rec p.1 p.2 hh hcmd hclosed) (by simp) (by simp)).elim
    | waiting c' => exact (bad (.timeout σ i c' hh) (by simp) (by simp)).elim
    | replying c' rsp =>
      exfalso
      cases he : rsp.encode with
      | error p => exact bad (.encodePanic σ i c' rsp p hh he) (by simp) (by simp)
      | ok b =>
        by_cases hb : b = []
        · subst hb; exact bad (.writeNothing σ i c' rsp hh he) (by simp) (by simp)
        · exact bad (.write σ i c' rsp b hh he hb) (by simp) (by simp)
    | ended =>
      rw [hh] at hk
      rcases hk with hk | ⟨p, hk⟩ | ⟨c', b, hk⟩
      · exact .inl hk
      · exact .inr (.inl ⟨p, hk⟩)
      · obtain ⟨⟨f', hf'⟩, _⟩ := h.inv.written i c' b hk
        have := h.recv_unique hi hf'
        exact .inr (.inr ⟨b, by rw [this.1]; exact hk⟩)

/-- the server can always come to rest -/
theorem rests {ext n rng} : ∀ (k : Nat) {L σ}, Run ext n rng L σ → left n L σ ≤ k → σ.crashed = false →
    ∃ B σ', Run ext n rng (L ++ B) σ' ∧ (∀ l ∈ B, (∀ i c f, l ≠ .recv i c f) ∧ l ≠ .stop) ∧
      (σ'.crashed = true ∨ ∀ l σ'', Step ext n σ' l σ'' → (∃ i c f, l = .recv i c f) ∨ l = .stop)
  | k, L, σ, h, hk, hc => by
    by_cases hx : ∃ l σ', Step ext n σ l σ' ∧ (∀ i c f, l ≠ .recv i c f) ∧ l ≠ .stop
    · obtain ⟨l, σ', hs, h1, h2⟩ := hx
      have hr : Run ext n rng (L ++ [l]) σ' := .snoc h hc hs
      have hstep := h.step_left hc hs
      have hlt : left n (L ++ [l]) σ' + 1 ≤ left n L σ := by
        cases l <;> first | exact absurd rfl (h1 _ _ _) | exact hstep
      cases k with
      | zero => omega
      | succ k =>
        by_cases hc' : σ'.crashed = true
        · exact ⟨[l], σ', hr, by simpa using ⟨h1, h2⟩, .inl hc'⟩
        · obtain ⟨B, σ'', hB, hno, hend⟩ := rests k hr (by omega) (by simpa using hc')
          refine ⟨l :: B, σ'', by simpa using hB, ?_, hend⟩
          intro l' hl'
          rcases List.mem_cons.mp hl' with rfl | hl'
          · exact ⟨h1, h2⟩
          · exact hno l' hl'
    · refine ⟨[], σ, by simpa using h, by simp, .inr fun l σ'' hs => ?_⟩
      by_contra hcon
      rw [not_or] at hcon
      exact hx ⟨l, σ'', hs, fun i c f e => hcon.1 ⟨i, c, f, e⟩, hcon.2⟩

/-- C52: from every situation the server can reach it gets to rest by itself: there is a continuation, without any frame
arriving, after which the process has crashed or the handling of every frame has ended (and `Stop`, if it was
called, has returned).  By `C52_bounded` every continuation gets there. -/
theorem C52_comes_to_rest {ext n rng L σ} (hn : 0 < n) (h : Run ext n rng L σ) :
    ∃ B σ', Run ext n rng (L ++ B) σ' ∧ (∀ i c f, .recv i c f ∉ B) ∧
      ((∃ w i p, .crash w i p ∈ L ++ B) ∨
       ((.stop ∈ L ++ B → .stopped ∈ L ++ B) ∧
        ∀ i c f, .recv i c f ∈ L ++ B → .quiet i ∈ L ++ B ∨ (∃ p, .died i p ∈ L ++ B) ∨ ∃ b, .write i c b ∈ L ++ B)) := by
  by_cases hc : σ.crashed = true
  · obtain ⟨w, i, p, hm⟩ := h.stopping.2.2.2.2 hc
    exact ⟨[], σ, by simpa using h, by simp, .inl ⟨w, i, p, by simpa using hm⟩⟩
  · obtain ⟨B, σ', hr, hno, hend⟩ := rests _ h (Nat.le_refl _) (by simpa using hc)
    refine ⟨B, σ', hr, fun i c f hm => (hno _ hm).1 i c f rfl, ?_⟩
    by_cases hcr : ∃ w i p, .crash w i p ∈ L ++ B
    · exact .inl hcr
    · refine .inr (C52_stop_returns hn hr ?_)
      rcases hend with hend | hend
      · exact absurd (hr.stopping.2.2.2.2 hend) hcr
      · exact hend

/-- Case: two requests, one worker: the first is being executed, the second waits for room in the channel. -/
example : ((trySchedule ext0 it0 1 rng0
    [.recv 0 0 incrX, .recv 1 1 incrX, .recv 2 2 incrX, .handle 0, .handle 1, .handle 2, .handle 0, .work 0, .work 0, .handle 1]).map
      (fun p => (p.1.length, p.2.chan.map (·.id)))) = some (10, [1]) := by decide +kernel

end Event
end Godis
