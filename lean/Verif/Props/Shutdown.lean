import Verif.Props.Concurrency
/-!
# Shutdown, reply order and the command log: C45, C46, C49
-/
namespace Godis.Event
open Resp (Reply Denotes IsRequest)
open Linear (gaveUp)

/-! ## C45 -/

/-- C45, what holds: when `Stop` has returned, every accepted request (its event entered the channel) has been executed
to its end and its result published, except possibly one that was still in the channel; and nothing is executed
afterwards. -/
theorem C45_at_most_one_lost_partial {ext n rng L σ} (h : Run ext n rng L σ) (hs : .stopped ∈ L) :
    ∃ lost : List Nat, lost.length ≤ 1 ∧
      ∀ i, .enqueue i ∈ L → i ∈ lost ∨ ∃ w rsp, .exec w i rsp ∈ L ∧ .publish w i ∈ L := by
  refine ⟨σ.chan.map (·.id), by simpa using h.inv.chanLen, ?_⟩
  intro i hi
  have hw := h.workers
  have hex : ∀ w, σ.worker w = .idle ∨ σ.worker w = .exited := by
    intro w
    by_cases hn : w < n
    · exact .inr ((hw.2.1 hs).2 w hn)
    · exact .inl (hw.1 w (by omega))
  rcases h.located i hi with ⟨e, he, hid⟩ | ⟨w, e, he, hid⟩ | ⟨w, e, rsp, he, hid⟩ | ⟨w, rsp, h1, h2, _⟩
  · exact .inl (List.mem_map.mpr ⟨e, he, hid⟩)
  · rcases hex w with hx | hx <;> rw [hx] at he <;> cases he
  · rcases hex w with hx | hx <;> rw [hx] at he <;> cases he
  · exact .inr ⟨w, rsp, h1, h2⟩

/-- C45: after `Stop` has returned no worker does anything: the store does not change any more. -/
theorem C45_nothing_after_stop {ext n rng A B σ} (h : Run ext n rng (A ++ .stopped :: B) σ) :
    ∀ l ∈ B, l.byWorker = false := by
  intro l hl
  obtain ⟨B1, B2, rfl⟩ := List.append_of_mem hl
  have h' : Run ext n rng ((A ++ .stopped :: B1) ++ l :: B2) σ := by simpa using h
  obtain ⟨σ1, σ2, h1, h2, _⟩ := h'.at
  have hw := h1.workers
  have hex := (hw.2.1 (by simp)).2
  cases h2 with
  | take w e rest k0 k1 => rw [hex w k0] at k1; cases k1
  | start w e k0 k1 => rw [hex w k0] at k1; cases k1
  | exec w e snap s' it rsp k0 k1 => rw [hex w k0] at k1; cases k1
  | crash w e snap it p k0 k1 => rw [hex w k0] at k1; cases k1
  | publish w e rsp k0 k1 => rw [hex w k0] at k1; cases k1
  | _ => rfl

/-- the request in frame `i` has been accepted (its event entered the channel) or needs no more attention -/
def Settled (L : List Label) (i : Nat) : Prop := .enqueue i ∈ L ∨ .quiet i ∈ L ∨ ∃ p, .died i p ∈ L

theorem decode_not_closed (f : Bytes) : decodeFromReader f ≠ .panic .sendOnClosed := by
  intro h
  rcases ((decode_spec f).2 _ h).2 with h | h <;> cases h

theorem item_not_closed (it : Item) : it.encode ≠ .error .sendOnClosed := by
  intro h
  unfold Item.encode at h
  split at h <;> cases h

theorem items_not_closed : ∀ its : List Item, encodeItems its ≠ .error .sendOnClosed
  | [] => by simp [encodeItems]
  | it :: its => by
    intro h
    have h1 := item_not_closed it
    have h2 := items_not_closed its
    unfold encodeItems at h
    cases hi : it.encode with
    | error p => rw [hi] at h h1; cases h; exact h1 rfl
    | ok a =>
      cases hj : encodeItems its with
      | error p => rw [hi, hj] at h; rw [hj] at h2; cases h; exact h2 rfl
      | ok b => rw [hi, hj] at h; cases h

theorem encode_not_closed (r : Response) : r.encode ≠ .error .sendOnClosed := by
  intro h
  unfold Response.encode at h
  split at h
  · split at h <;> cases h
  · next it its hits =>
    split at h
    · exact item_not_closed it h
    · have h2 := items_not_closed (it :: its)
      cases hj : encodeItems (it :: its) with
      | error p => rw [hj] at h h2; cases h; exact h2 rfl
      | ok b => rw [hj] at h; cases h

/-- once accepted, a request cannot run into the closed channel -/
theorem settled_safe {ext n rng A l B σ} (h : Run ext n rng (A ++ l :: B) σ) {i : Nat} (hs : Settled A i) : l ≠ .died i .sendOnClosed := by
  obtain ⟨σ1, σ2, h1, h2, _⟩ := h.at
  rintro rfl
  have hl : ∀ c rec, σ1.handler i ≠ .logged c rec := by
    intro c rec hk
    rcases hs with hs | hs | ⟨p, hs⟩
    · have := h1.inv.enq i hs
      rw [hk] at this; exact this
    · have := h1.ended (l := .quiet i) hs rfl rfl
      rw [hk] at this; cases this
    · have := h1.ended (l := .died i p) hs rfl rfl
      rw [hk] at this; cases this
  generalize hp : Panic.sendOnClosed = p at h2
  cases h2 with
  | sendClosed i c rec nm args k1 => exact hl c rec k1
  | decodePanic i c f p k1 k2 =>
    subst hp
    exact decode_not_closed f k2
  | encodePanic i c rsp p k1 k2 =>
    subst hp
    exact encode_not_closed rsp k2

/-- C45, what holds: if `Stop` is called when every frame received so far is settled and every accepted request was
taken by a worker, and no frame arrives later, then no handler runs into the closed channel, and when `Stop` has returned every accepted request
has been executed and its result published. -/
theorem C45_quiet_stop_partial {ext n rng A B σ} (h : Run ext n rng (A ++ .stop :: B) σ)
    (htaken : ∀ i, .enqueue i ∈ A → ∃ w, .take w i ∈ A) (hset : ∀ i c f, .recv i c f ∈ A → Settled A i) (hno : ∀ i c f, .recv i c f ∉ B)
    (hs : .stopped ∈ B) :
    (∀ i, .died i .sendOnClosed ∉ B) ∧ ∀ i, .enqueue i ∈ A ++ .stop :: B → ∃ w rsp, .exec w i rsp ∈ A ++ .stop :: B ∧ .publish w i ∈ A ++ .stop :: B := by
  refine ⟨?_, ?_⟩
  · intro i hd
    obtain ⟨B1, B2, rfl⟩ := List.append_of_mem hd
    have h' : Run ext n rng ((A ++ .stop :: B1) ++ .died i .sendOnClosed :: B2) σ := by simpa using h
    obtain ⟨σ1, σ2, h1, h2, _⟩ := h'.at
    have hrecv : ∃ c f, .recv i c f ∈ A := by
      have hx : ∃ c f, .recv i c f ∈ A ++ .stop :: B1 := by
        generalize hp : Panic.sendOnClosed = p at h2
        cases h2 with
        | sendClosed i c rec nm args k1 =>
          have hk := h1.inv.handlers i
          rw [k1] at hk
          obtain ⟨⟨f, _, h3, _⟩, _⟩ := hk
          exact ⟨c, f, h3⟩
        | decodePanic i c f p k1 k2 => subst hp; exact absurd k2 (decode_not_closed f)
        | encodePanic i c rsp p k1 k2 => subst hp; exact absurd k2 (encode_not_closed rsp)
      obtain ⟨c, f, hx⟩ := hx
      refine ⟨c, f, ?_⟩
      rcases List.mem_append.mp hx with hx | hx
      · exact hx
      · rcases List.mem_cons.mp hx with hx | hx
        · cases hx
        · exact absurd (List.mem_append_left _ hx) (hno i c f)
    obtain ⟨c, f, hrecv⟩ := hrecv
    have hst : Settled (A ++ .stop :: B1) i := by
      rcases hset i c f hrecv with h | h | ⟨p, h⟩
      · exact .inl (List.mem_append_left _ h)
      · exact .inr (.inl (List.mem_append_left _ h))
      · exact .inr (.inr ⟨p, List.mem_append_left _ h⟩)
    exact settled_safe h' hst rfl
  · intro i hi
    -- it was accepted before `Stop`
    have hiA : .enqueue i ∈ A := by
      rcases List.mem_append.mp hi with hi | hi
      · exact hi
      · exfalso
        rcases List.mem_cons.mp hi with hi | hi
        · cases hi
        · obtain ⟨B1, B2, rfl⟩ := List.append_of_mem hi
          have h' : Run ext n rng ((A ++ .stop :: B1) ++ .enqueue i :: B2) σ := by simpa using h
          obtain ⟨σ1, σ2, h1, h2, _⟩ := h'.at
          have hc := h1.workers.2.2.1.mp (by simp)
          cases h2 with
          | enqueue i c rec nm args k1 k2 k3 => rw [hc] at k3; cases k3
    obtain ⟨w, hw⟩ := htaken i hiA
    have hwk := h.workers
    have hex : ∀ w, σ.worker w = .idle ∨ σ.worker w = .exited := by
      intro w
      by_cases hn : w < n
      · exact .inr ((hwk.2.1 (by simp [hs])).2 w hn)
      · exact .inl (hwk.1 w (by omega))
    rcases h.located i hi with ⟨e, he, hid⟩ | ⟨w, e, he, hid⟩ | ⟨w, e, rsp, he, hid⟩ | ⟨w, rsp, h1, h2, _⟩
    · have := (h.inv.chanGood e he).2.2 (.take w i) (List.mem_append_left _ hw) (by rw [hid]; rfl)
      cases this
    · rcases hex w with hx | hx <;> rw [hx] at he <;> cases he
    · rcases hex w with hx | hx <;> rw [hx] at he <;> cases he
    · exact ⟨w, rsp, h1, h2⟩

/-- `SET x 5` as a frame -/
def setX5 : Bytes := b! "*3\r\n$3\r\nSET\r\n$1\r\nx\r\n$1\r\n5\r\n"

/-- Case: `Stop` during the execution of `INCR x`; the request is completed, `Stop` returns, the client is answered. -/
example : (trySchedule ext0 it0 1 rng0
    [.recv 0 0 incrX, .handle 0, .handle 0, .work 0, .work 0, .stop, .stop, .work 0, .work 0, .quit 0, .stop, .handle 0, .handle 0]).map (·.2.out)
    = some [(0, b! ":1\r\n")] := by decide +kernel

/-- C45 fails: a request that arrived before `Stop` makes its handler panic (send on a closed channel); it is neither
executed nor answered. -/
theorem C45_handler_crash_violated : ∃ σ, Run ext0 1 rng0
    [.recv 0 0 incrX, .log 0 incrX, .stop, .died 0 .sendOnClosed, .signal 0, .exit 0, .stopped] σ :=
  try_labels (it := it0) (as := [.recv 0 0 incrX, .handle 0, .stop, .handle 0, .stop, .quit 0, .stop]) rfl

/-- C45 fails: a request already in the channel is dropped, because the worker may see its `done` channel first. `Stop`
returns; the request was accepted, is never executed, and can only be answered by the timeout. -/
theorem C45_accepted_lost_violated : ∃ σ, Run ext0 1 rng0
    [.recv 0 0 incrX, .log 0 incrX, .enqueue 0, .stop, .signal 0, .exit 0, .stopped] σ :=
  try_labels (it := it0) (as := [.recv 0 0 incrX, .handle 0, .handle 0, .stop, .stop, .quit 0, .stop]) rfl

/-! ## C46 -/

/-- no request of connection `c` arrives while an earlier one on `c` is still being handled -/
def OneAtATime (L : List Label) (c : Nat) : Prop :=
  ∀ A j f B, L = A ++ .recv j c f :: B → ∀ i f', .recv i c f' ∈ A → ∃ l ∈ A, l.about = some i ∧ l.ends = true

/-- C46 for clients that wait for each reply (or know that none comes) before they send the next request: if request `i`
was sent before request `j` on the same connection, the reply to `i` is not written after the reply to `j`. -/
theorem C46_in_order_partial {ext n rng L σ} (h : Run ext n rng L σ) {c : Nat} (hone : OneAtATime L c)
    {A j c1 b B i c2 b'} (hL : L = A ++ .write j c1 b :: B) (hw : .write i c2 b' ∈ B) {f f'}
    (hij : Linear.Before L (.recv i c f) (.recv j c f')) : False := by
  obtain ⟨l1, l2, l3, he⟩ := hij
  have he' : L = (l1 ++ .recv i c f :: l2) ++ .recv j c f' :: l3 := by rw [he]; simp
  obtain ⟨l, hl, hi, hend⟩ := hone _ j f' l3 he' i f (by simp)
  -- `i` has ended before `j` was received, hence before the reply to `j`
  have hlA : l ∈ A := by
    have hsplit : (l1 ++ .recv i c f :: l2) ++ .recv j c f' :: l3 = A ++ .write j c1 b :: B := by rw [← he', hL]
    rcases List.append_eq_append_iff.mp hsplit with ⟨a, ha, _⟩ | ⟨a, ha, hb⟩
    · rw [ha]; exact List.mem_append_left _ hl
    · -- the reply to `j` would come before `j` was received
      exfalso
      have hr : Run ext n rng ((l1 ++ .recv i c f :: l2) ++ .recv j c f' :: l3) σ := by rw [← he']; exact h
      cases a with
      | nil => simp at hb
      | cons x a =>
        simp only [List.cons_append, List.cons.injEq] at hb
        have := hr.recv_first (.write j c1 b) (by rw [ha, ← hb.1]; simp)
        exact this rfl
  obtain ⟨A1, A2, rfl⟩ := List.append_of_mem hlA
  have hr : Run ext n rng (A1 ++ l :: (A2 ++ .write j c1 b :: B)) σ := by rw [hL] at h; simpa using h
  have := hr.after_end hi hend (.write i c2 b') (by simp [hw]) rfl
  cases this

/-- the replies written, each with the number of its request -/
def writes (L : List Label) : List (Nat × Nat × Bytes) :=
  L.filterMap fun l => match l with
    | .write i c b => some (i, c, b)
    | _ => none

theorem mem_writes {L i c b} : (i, c, b) ∈ writes L ↔ .write i c b ∈ L := by
  simp only [writes, List.mem_filterMap]
  constructor
  · rintro ⟨l, hl, he⟩
    cases l <;> simp at he
    obtain ⟨rfl, rfl, rfl⟩ := he
    exact hl
  · intro h; exact ⟨_, h, rfl⟩

theorem writes_snoc (L : List Label) (l : Label) : writes (L ++ [l]) = writes L ++ (match l with
    | .write i c b => [(i, c, b)]
    | _ => []) := by
  unfold writes
  rw [List.filterMap_append]
  cases l <;> rfl

/-- what was sent to the connections is what was written, in that order -/
theorem Run.out_eq {ext n rng L σ} (h : Run ext n rng L σ) : σ.out = (writes L).map (·.2) := by
  induction h with
  | nil => rfl
  | snoc hr hc hs ih =>
    rw [writes_snoc]
    cases hs <;> simp_all

theorem Run.writes_nodup {ext n rng L σ} (h : Run ext n rng L σ) : ((writes L).map (·.1)).Nodup := by
  induction h with
  | nil => simp [writes]
  | @snoc L σ l σ' hr hc hs ih =>
    rw [writes_snoc]
    cases hs with
    | write i c rsp b k1 k2 k3 =>
      rw [List.map_append, List.nodup_append]
      refine ⟨ih, by simp, ?_⟩
      rintro a ha b' hb rfl
      simp only [List.map_cons, List.map_nil, List.mem_singleton] at hb
      subst hb
      obtain ⟨⟨j, t1, t2⟩, hm, hi⟩ := List.mem_map.mp ha
      simp only at hi
      subst hi
      have hk := hr.inv.handlers j
      rw [k1] at hk
      exact hk.2.2.1 _ _ (mem_writes.mp hm)
    | _ => simpa using ih

/-- C44, read off the sockets: the byte strings the server has sent, in the order in which it sent them, belong to
distinct requests; each went to the connection of its request and is what executing that request returned, or says that
the server gave up on it. -/
theorem C44_sent {ext n rng L σ} (h : Run ext n rng L σ) :
    ∃ ids : List Nat, ids.Nodup ∧ List.Forall₂ (fun i p => (∃ f, .recv i p.1 f ∈ L) ∧
      ((.timeout i ∈ L ∧ Denotes p.2 gaveUp) ∨ (.timeout i ∉ L ∧ ∃ w rsp, .exec w i rsp ∈ L ∧ rsp.encode = .ok p.2))) ids σ.out := by
  refine ⟨(writes L).map (·.1), h.writes_nodup, ?_⟩
  rw [h.out_eq, List.forall₂_map_left_iff, List.forall₂_map_right_iff, List.forall₂_same]
  rintro ⟨i, c, b⟩ hm
  rw [mem_writes] at hm
  obtain ⟨A, B, hL⟩ := List.append_of_mem hm
  obtain ⟨⟨f, h1⟩, h2⟩ := C44_own_reply h hL
  have hA : ∀ l ∈ A, l ∈ L := by intro l hl; rw [hL]; exact List.mem_append_left _ hl
  refine ⟨⟨f, hA _ h1⟩, ?_⟩
  rcases h2 with ⟨h2, h3⟩ | ⟨h2, w, rsp, h3, h4⟩
  · exact .inl ⟨hA _ h2, h3⟩
  · exact .inr ⟨h2, w, rsp, hA _ h3, h4⟩

/-- the requests that arrived on a connection, oldest first -/
def arrived (L : List Label) (c : Nat) : List Nat :=
  L.filterMap fun l => match l with
    | .recv i c' _ => if c' = c then some i else none
    | _ => none

/-- the byte strings sent on a connection, oldest first -/
def Sys.sent (σ : Sys) (c : Nat) : List Bytes := (σ.out.filter (·.1 = c)).map (·.2)

theorem mem_arrived {L c i} : i ∈ arrived L c ↔ ∃ f, .recv i c f ∈ L := by
  simp only [arrived, List.mem_filterMap]
  constructor
  · rintro ⟨l, hl, he⟩
    cases l <;> simp at he
    obtain ⟨rfl, rfl⟩ := he
    exact ⟨_, hl⟩
  · rintro ⟨f, h⟩; exact ⟨_, h, by simp⟩

theorem arrived_append (A B : List Label) (c : Nat) : arrived (A ++ B) c = arrived A c ++ arrived B c := List.filterMap_append ..

theorem OneAtATime.prefix {A B : List Label} {c} (h : OneAtATime (A ++ B) c) : OneAtATime A c := by
  rintro A' j f B' rfl
  exact h A' j f (B' ++ B) (by simp)

/-- with `OneAtATime`, a request that is not over is the last one that arrived -/
theorem arrived_last {ext n rng L σ c i f} (h : Run ext n rng L σ) (hone : OneAtATime L c) (hr : .recv i c f ∈ L)
    (hne : σ.handler i ≠ .ended) : ∃ R, arrived L c = R ++ [i] := by
  obtain ⟨A, B, rfl⟩ := List.append_of_mem hr
  refine ⟨arrived A c, ?_⟩
  rw [show A ++ .recv i c f :: B = A ++ ([.recv i c f] ++ B) from rfl, arrived_append, arrived_append]
  have hB : arrived B c = [] := by
    rw [List.eq_nil_iff_forall_not_mem]
    intro j hj
    obtain ⟨f', hj⟩ := mem_arrived.mp hj
    obtain ⟨B1, B2, rfl⟩ := List.append_of_mem hj
    obtain ⟨l, hl, hi, he⟩ := hone (A ++ .recv i c f :: B1) j f' B2 (by simp) i f (by simp)
    refine hne (h.ended (l := l) ?_ hi he)
    rcases List.mem_append.mp hl with hl | hl
    · simp [hl]
    · rcases List.mem_cons.mp hl with hl | hl <;> simp [hl]
  rw [hB]
  simp [arrived]

/-- the requests of one connection that were answered, in the order of the replies -/
def answeredOn (L : List Label) (c : Nat) : List Nat := ((writes L).filter (·.2.1 = c)).map (·.1)

theorem OneAtATime.answeredOn {ext n rng L σ} (h : Run ext n rng L σ) {c : Nat} (hone : OneAtATime L c) :
    (answeredOn L c).Sublist (arrived L c) := by
  unfold Event.answeredOn
  induction h with
  | nil => exact .slnil
  | @snoc L σ l σ' hr hc hs ih =>
    have ih := ih hone.prefix
    rw [writes_snoc, arrived_append, List.filter_append, List.map_append]
    cases hs with
    | write i c' rsp b k1 k2 k3 =>
      by_cases hcc : c' = c
      · subst hcc
        have hk := hr.inv.handlers i
        rw [k1] at hk
        obtain ⟨⟨f, hf⟩, _, hnw, _⟩ := hk
        obtain ⟨R, hR⟩ := arrived_last hr hone.prefix hf (by rw [k1]; simp)
        have hni : i ∉ ((writes L).filter (·.2.1 = c')).map (·.1) := by
          intro hm
          obtain ⟨⟨j, t1, t2⟩, hm', hi⟩ := List.mem_map.mp hm
          simp only at hi
          subst hi
          exact hnw _ _ (mem_writes.mp (List.mem_filter.mp hm').1)
        have h2 : ∀ {X R : List Nat}, i ∉ X → X.Sublist (R ++ [i]) → X.Sublist R := by
          intro X R hX hs
          obtain ⟨X1, X2, rfl, h1, h2⟩ := List.sublist_append_iff.mp hs
          cases X2 with
          | nil => simpa using h1
          | cons x X2 =>
            rw [List.sublist_singleton] at h2
            rcases h2 with h2 | h2
            · cases h2
            · rw [h2] at hX; simp at hX
        rw [hR] at ih ⊢
        have := h2 hni ih
        simpa [arrived] using this
      · simpa [arrived, hcc] using ih
    | _ => simpa using ih.trans (List.sublist_append_left _ _)

theorem Run.sent_eq {ext n rng L σ} (h : Run ext n rng L σ) (c : Nat) :
    List.Forall₂ (fun i b => .write i c b ∈ L) (answeredOn L c) (σ.sent c) := by
  unfold answeredOn
  unfold Sys.sent
  rw [h.out_eq, List.filter_map, List.map_map, List.forall₂_map_left_iff, List.forall₂_map_right_iff]
  show List.Forall₂ _ ((writes L).filter _) ((writes L).filter (fun p => p.2.1 = c))
  rw [List.forall₂_same]
  rintro ⟨i, c', b⟩ hm
  rw [List.mem_filter, mem_writes] at hm
  have := of_decide_eq_true hm.2
  simp only at this
  subst this
  exact hm.1

/-- C46, read off the sockets: on a connection whose client waits for each reply before it sends the next request, the
byte strings the client receives are, in the order in which it receives them, replies to requests of this connection in
the order in which it sent them (some requests may remain without a reply). -/
theorem C46_stream_partial {ext n rng L σ} (h : Run ext n rng L σ) {c : Nat} (hone : OneAtATime L c) :
    ∃ ids : List Nat, ids.Sublist (arrived L c) ∧ List.Forall₂ (fun i b => .write i c b ∈ L) ids (σ.sent c) := by
  exact ⟨_, OneAtATime.answeredOn h hone, h.sent_eq c⟩

/-- a test for `OneAtATime` -/
def oneCheck (c : Nat) : List Label → List Label → Bool
  | _, [] => true
  | A, l :: B => (match l with
      | .recv _ c' _ => c' != c || A.all fun l' => match l' with
          | .recv i c'' _ => c'' != c || A.any fun e => e.about == some i && e.ends
          | _ => true
      | _ => true) && oneCheck c (A ++ [l]) B

theorem oneCheck_sound {c} : ∀ {B A : List Label}, oneCheck c A B = true → ∀ A' j f B', B = A' ++ .recv j c f :: B' →
    ∀ i f', .recv i c f' ∈ A ++ A' → ∃ l ∈ A ++ A', l.about = some i ∧ l.ends = true
  | [], A, _, A', j, f, B', hB, i, f', hi => by simp at hB
  | l :: B, A, h, [], j, f, B', hB, i, f', hi => by
    simp only [List.nil_append, List.cons.injEq] at hB
    obtain ⟨rfl, rfl⟩ := hB
    simp only [oneCheck, Bool.and_eq_true, bne_self_eq_false, Bool.false_or, List.all_eq_true] at h
    have := h.1 _ (by simpa using hi)
    simp only [bne_self_eq_false, Bool.false_or, List.any_eq_true, Bool.and_eq_true, beq_iff_eq] at this
    simpa using this
  | l :: B, A, h, a :: A', j, f, B', hB, i, f', hi => by
    simp only [List.cons_append, List.cons.injEq] at hB
    obtain ⟨rfl, rfl⟩ := hB
    simp only [oneCheck, Bool.and_eq_true] at h
    have := oneCheck_sound h.2 A' j f B' rfl i f' (by simpa using hi)
    simpa using this

/-- Case: in the run of the example below the client waits for its reply. -/
example : ∃ L σ, Run ext0 1 rng0 L σ ∧ OneAtATime L 0 ∧ arrived L 0 = [0, 1] ∧ σ.sent 0 = [b! ":1\r\n", b! ":2\r\n"] := by
  have h : (trySchedule ext0 it0 1 rng0
    [.recv 0 0 incrX, .handle 0, .handle 0, .work 0, .work 0, .work 0, .work 0, .handle 0, .handle 0,
     .recv 1 0 incrX, .handle 1, .handle 1, .work 0, .work 0, .work 0, .work 0, .handle 1, .handle 1]).map
       (fun p => (oneCheck 0 [] p.1, arrived p.1 0, p.2.sent 0)) = some (true, [0, 1], [b! ":1\r\n", b! ":2\r\n"]) := by decide +kernel
  obtain ⟨⟨L, σ⟩, h1, h2⟩ := Option.map_eq_some_iff.mp h
  simp only [Prod.mk.injEq] at h2
  refine ⟨L, σ, try_run h1, ?_, h2.2.1, h2.2.2⟩
  intro A j f B hL i f' hi
  simpa using oneCheck_sound h2.1 A j f B hL i f' (by simpa using hi)

/-- Case: two requests on one connection, the second sent after the first was answered. -/
example : (trySchedule ext0 it0 1 rng0
    [.recv 0 0 incrX, .handle 0, .handle 0, .work 0, .work 0, .work 0, .work 0, .handle 0, .handle 0,
     .recv 1 0 incrX, .handle 1, .handle 1, .work 0, .work 0, .work 0, .work 0, .handle 1, .handle 1]).map (·.2.out)
    = some [(0, b! ":1\r\n"), (0, b! ":2\r\n")] := by decide +kernel

/-- C46 fails for a client that sends two requests without waiting: `SET x 5`, then `INCR x`, on one connection. The
requests are even executed in the other order, and the first reply the client reads belongs to its second request. -/
theorem C46_swapped_violated : ∃ σ, Run ext0 1 rng0
    [.recv 0 0 setX5, .recv 1 0 incrX, .log 0 setX5, .log 1 incrX, .enqueue 1, .take 0 1, .start 0 1,
     .exec 0 1 (newResponseWithInteger 1), .publish 0 1, .enqueue 0, .take 0 0, .start 0 0,
     .exec 0 0 (newResponseWithSimpleString respOK), .publish 0 0, .result 1, .write 1 0 (b! ":1\r\n"),
     .result 0, .write 0 0 (b! "+OK\r\n")] σ :=
  try_labels (it := it0) (as := [.recv 0 0 setX5, .recv 1 0 incrX, .handle 0, .handle 1, .handle 1, .work 0, .work 0, .work 0, .work 0,
    .handle 0, .work 0, .work 0, .work 0, .work 0, .handle 1, .handle 1, .handle 0, .handle 0]) rfl

end Godis.Event
