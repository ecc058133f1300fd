import Verif.Proofs.V12
import Verif.Proofs.Reader2
/-!
# The v1 server: C60
-/
namespace Godis.V1
open Godis.Event (Sys Label Step Run Stopper upd upd_apply upd_same OneAtATime arrived arrived_append mem_arrived Decodes
  execs visible Sys.sent)
open Linear (Linearizable gaveUp)
open Resp (Denotes IsRequest)

theorem mem_taken {L i c b} : .recv i c b ∈ sysLabels L ↔ (∃ t, .handle i c b t ∈ L) ∨ .sys (.recv i c b) ∈ L := by
  unfold sysLabels
  rw [List.mem_flatMap]
  constructor
  · rintro ⟨l, hl, hm⟩
    cases l with
    | sys l => simp only [VLabel.steps, List.mem_singleton] at hm; subst hm; exact .inr hl
    | handle i' c' b' t =>
      simp only [VLabel.steps, List.mem_cons, reduceCtorEq, List.not_mem_nil, or_false, Label.recv.injEq] at hm
      obtain ⟨rfl, rfl, rfl⟩ := hm
      exact .inl ⟨t, hl⟩
    | _ => simp [VLabel.steps] at hm
  · rintro (⟨t, h⟩ | h)
    · exact ⟨_, h, by simp [VLabel.steps]⟩
    · exact ⟨_, h, by simp [VLabel.steps]⟩

theorem no_recv {ext rng L v} (h : VRun ext rng L v) (i c : Nat) (b : Bytes) : .sys (.recv i c b) ∉ L := by
  induction h with
  | nil => simp
  | @snoc L w l w' h hc hc' hs ih =>
    intro hm
    rcases List.mem_append.mp hm with hm | hm
    · exact ih hm
    · rw [List.mem_singleton] at hm
      subst hm
      cases hs with
      | sys l σ' _ _ hno => exact hno _ _ _ rfl

/-- what stands for a request is decoded to it -/
theorem handle_decodes {ext rng L v} (h : VRun ext rng L v) {i c b r} (hm : .handle i c b r ∈ L) : decodeFromReader b = .ok r [] := by
  induction h with
  | nil => simp at hm
  | @snoc L w l w' h hc hc' hs ih =>
    rcases List.mem_append.mp hm with hm | hm
    · exact ih hm
    · rw [List.mem_singleton] at hm
      subst hm
      cases hs with
      | handle c i b r rest h1 h2 => exact (held h c).1 (b, r) (by rw [h2]; simp)

/-- a request gets an answer only if it has words -/
theorem enqueued_words {ext n rng L σ} (h : Run ext n rng L σ) {i c f} (hr : .recv i c f ∈ L) (hq : .enqueue i ∈ L) : ¬ Decodes f [] := by
  induction h with
  | nil => simp at hq
  | @snoc L w l w' h hc hs ih =>
    by_cases hq' : .enqueue i ∈ L
    · refine ih ?_ hq'
      rcases List.mem_append.mp hr with hr | hr
      · exact hr
      · rw [List.mem_singleton] at hr
        subst hr
        cases hs with
        | recv i c f h1 => have := h.inv.enq i hq'; rw [h1] at this; exact this.elim
    · have hl := (List.mem_append.mp hq).resolve_left hq'
      rw [List.mem_singleton] at hl
      subst hl
      have hr' : .recv i c f ∈ L := by simpa using hr
      cases hs with
      | enqueue i c' rec nm args h1 h2 =>
        have hk := h.inv.handlers i
        rw [h1] at hk
        obtain ⟨⟨f', rest, h3, h4⟩, _⟩ := hk
        obtain ⟨rfl, rfl⟩ := h.recv_unique hr' h3
        rintro ⟨rec', rest', h5, h6⟩
        rw [h4] at h5
        cases h5
        rw [h6] at h2
        simp [newCommand] at h2

theorem written_enqueued {ext n rng L σ} (h : Run ext n rng L σ) (i : Nat) :
    (∀ c rsp, σ.handler i = .replying c rsp → .enqueue i ∈ L) ∧ (∀ c b, .write i c b ∈ L → .enqueue i ∈ L) := by
  induction h with
  | nil => simp [Sys.init]
  | @snoc L w l w' h hc hs ih =>
    obtain ⟨i1, i2⟩ := ih
    have hw := h.waiting_enqueued i
    have up : .enqueue i ∈ L → .enqueue i ∈ L ++ [l] := List.mem_append_left _
    refine ⟨fun c rsp hh => ?_, fun c b hm => ?_⟩
    · cases hs with
      | timeout j c' h1 | result j c' rsp' h1 =>
        simp only [upd_apply] at hh
        split at hh
        · next e => subst e; exact up (hw _ h1)
        · exact up (i1 _ _ hh)
      | take | start | exec | crash | publish | stop | signal | exitTold | exitClosed | stopped => exact up (i1 _ _ hh)
      | _ =>
        simp only [upd_apply] at hh
        split at hh
        · cases hh
        · exact up (i1 _ _ hh)
    · rcases List.mem_append.mp hm with hm | hm
      · exact up (i2 _ _ hm)
      · rw [List.mem_singleton] at hm
        subst hm
        cases hs with
        | write i c rsp b h1 => exact up (i1 _ _ h1)

theorem withWords_filter {R : Nat → Receive → Prop} {W : Nat → Prop} [DecidablePred W] :
    ∀ {ids : List Nat} {rs more : List Receive}, List.Forall₂ R ids rs → (∀ i ∈ ids, ∀ r, R i r → (W i ↔ r.elements ≠ [])) →
    withWords ids (rs ++ more) = ids.filter W
  | _, _, more, .nil, _ => by simp [withWords]
  | _, _, more, .cons (a := i) (b := r) h1 h2, hW => by
    have ih := withWords_filter (more := more) h2 (fun j hj => hW j (List.mem_cons_of_mem _ hj))
    have hi := hW i List.mem_cons_self r h1
    unfold withWords at ih ⊢
    simp only [List.cons_append, List.zip_cons_cons, List.filter_cons]
    by_cases hr : r.elements = []
    · have : ¬ W i := fun hw => hi.mp hw hr
      simp only [hr, ne_eq, not_true_eq_false, decide_false, Bool.false_eq_true, if_false, this]
      exact ih
    · have : W i := hi.mpr hr
      simp only [hr, ne_eq, not_false_eq_true, decide_true, if_true, this, List.map_cons]
      rw [ih]

/-- C60, for any bytes, however they arrive: the requests taken from a connection are those the decoder finds on it, one
after the other, none skipped and none twice. -/
theorem C60_stream {ext rng L v} (h : VRun ext rng L v) {c segs} (ha : .accept c segs ∈ L) :
    ∃ more rest, Finds (fresh segs) (taken L c ++ more) rest ∧ more.length ≤ 2 := by
  refine ⟨(v.conn c).receive.map (·.2) ++ heldRequest (v.conn c).reader, (v.conn c).input, ?_, ?_⟩
  · rw [← List.append_assoc]
    exact (finds h c).2 segs ha
  · have h1 := receive_length h c
    have h2 : (heldRequest (v.conn c).reader).length ≤ 1 := by cases (v.conn c).reader <;> simp [heldRequest]
    simp only [List.length_append, List.length_map]
    omega

/-- C60: any bytes arrive on a connection, in any segments.  Whatever the schedule, whatever happens on other connections: the
requests that the decoder finds on it (`found`) are taken one after the other (the `k`-th number in `ids` is that of the `k`-th
request), at most two more are found than taken, those that are executed are executed in this order, and the `k`-th reply the
peer gets is the reply to the `k`-th request that has words: what executing that request returned, or that the server gave up
on it.  At most one request that was taken has no reply (yet). -/
theorem C60_in_order {ext rng L v} (h : VRun ext rng L v) {c segs} (ha : .accept c segs ∈ L) :
    ∃ (ids : List Nat) (found : List Receive) (rest : Rd), Finds (fresh segs) found rest ∧ ids.Nodup ∧
      ids.length ≤ found.length ∧ found.length ≤ ids.length + 2 ∧
      List.Forall₂ (fun i r => ∃ b, .handle i c b r ∈ L) ids (found.take ids.length) ∧
      (((execs (sysLabels L)).map (·.1)).filter (· ∈ ids)).Sublist ids ∧
      (v.sys.sent c).length ≤ (withWords ids found).length ∧ (withWords ids found).length ≤ (v.sys.sent c).length + 1 ∧
      List.Forall₂ (fun i b => (.timeout i ∈ sysLabels L ∧ Denotes b gaveUp) ∨
          (.timeout i ∉ sysLabels L ∧ ∃ w rsp, .exec w i rsp ∈ sysLabels L ∧ rsp.encode = .ok b))
        ((withWords ids found).take (v.sys.sent c).length) (v.sys.sent c) := by
  classical
  have hone := one_at_a_time h c
  have hids := taken_arrived h c
  obtain ⟨more, rest, hfind, hmore⟩ := C60_stream h ha
  have hnd := arrived_nodup h.run c
  generalize hI : arrived (sysLabels L) c = ids at hids hnd
  have hlen : ids.length = (taken L c).length := hids.length_eq
  -- the requests with words
  have hW : ∀ i ∈ ids, ∀ r, (∃ b, .handle i c b r ∈ L) → ((∃ b r, .handle i c b r ∈ L ∧ r.elements ≠ []) ↔ r.elements ≠ []) := by
    rintro i _ r ⟨b, hm⟩
    refine ⟨?_, fun hne => ⟨b, r, hm, hne⟩⟩
    rintro ⟨b', r', hm', hne⟩
    obtain ⟨_, rfl⟩ := h.run.recv_unique (mem_taken.mpr (.inl ⟨_, hm⟩)) (mem_taken.mpr (.inl ⟨_, hm'⟩))
    have e1 := handle_decodes h hm
    rw [handle_decodes h hm'] at e1
    cases e1
    exact hne
  have hww : withWords ids (taken L c ++ more) = ids.filter fun i => ∃ b r, .handle i c b r ∈ L ∧ r.elements ≠ [] :=
    withWords_filter hids hW
  -- the replies
  obtain ⟨A, B, hAB, hB, hA⟩ : ∃ A B, ids = A ++ B ∧ B.length ≤ 1 ∧ ∀ j ∈ A, v.sys.handler j = .ended := by
    have := (turns h c).leave (q := .gone) (by simp)
    rw [hI] at this
    exact this
  have hans := OneAtATime.answeredOn h.run hone
  rw [hI] at hans
  have hword : ∀ a ∈ Event.answeredOn (sysLabels L) c, ∃ b r, .handle a c b r ∈ L ∧ r.elements ≠ [] := by
    intro a haa
    have hma : a ∈ arrived (sysLabels L) c := by rw [hI]; exact hans.subset haa
    obtain ⟨f, hf⟩ := mem_arrived.mp hma
    obtain ⟨⟨a', c', b'⟩, hx, rfl⟩ := List.mem_map.mp haa
    have hwr := Event.mem_writes.mp (List.mem_filter.mp hx).1
    have hnw := enqueued_words h.run hf ((written_enqueued h.run _).2 _ _ hwr)
    rcases mem_taken.mp hf with ⟨r, ht⟩ | ht
    · refine ⟨f, r, ht, fun hne => hnw ⟨r, [], handle_decodes h ht, hne⟩⟩
    · exact absurd ht (no_recv h _ _ _)
  have hall : ∀ a ∈ A, (∃ b r, .handle a c b r ∈ L ∧ r.elements ≠ []) → a ∈ Event.answeredOn (sysLabels L) c := by
    rintro a haA ⟨b0, r0, hm0, hne0⟩
    have hk := h.run.inv.handlers a
    rw [hA a haA] at hk
    have hb := mem_taken.mpr (.inl ⟨r0, hm0⟩)
    rcases hk with hk | ⟨p, hk⟩ | ⟨c', b', hk⟩
    · exfalso
      obtain ⟨rec, rest, hd1, hd2⟩ := quiet_empty h hb hk
      rw [handle_decodes h hm0] at hd1
      cases hd1
      exact hne0 hd2
    · exact absurd hk (no_died h a p)
    · obtain ⟨⟨f', hf'⟩, _⟩ := h.run.inv.written a c' b' hk
      obtain ⟨rfl, rfl⟩ := h.run.recv_unique hb hf'
      refine List.mem_map.mpr ⟨(a, c, b'), List.mem_filter.mpr ⟨Event.mem_writes.mpr hk, by simp⟩, rfl⟩
  have hans' : (Event.answeredOn (sysLabels L) c).Sublist (A.filter (fun i => ∃ b r, .handle i c b r ∈ L ∧ r.elements ≠ []) ++
      B.filter fun i => ∃ b r, .handle i c b r ∈ L ∧ r.elements ≠ []) := by
    rw [← List.filter_append, ← hAB]
    have := hans.filter fun i => decide (∃ b r, .handle i c b r ∈ L ∧ r.elements ≠ [])
    rwa [List.filter_eq_self.mpr (fun a ha => by simpa using hword a ha)] at this
  have hnd' : (A.filter (fun i => ∃ b r, .handle i c b r ∈ L ∧ r.elements ≠ []) ++
      B.filter fun i => ∃ b r, .handle i c b r ∈ L ∧ r.elements ≠ []).Nodup := by
    rw [← List.filter_append, ← hAB]
    exact hnd.filter _
  have hB' : (B.filter fun i => ∃ b r, .handle i c b r ∈ L ∧ r.elements ≠ []).length ≤ 1 := (List.length_filter_le _ _).trans hB
  obtain ⟨k1, k2⟩ := sublist_front hans' hnd' hB' (fun a ha => hall a (List.mem_filter.mp ha).1 (by simpa using (List.mem_filter.mp ha).2))
  have hl1 := hans'.length_le
  rw [← List.filter_append, ← hAB, ← hww] at k2 hl1
  have hl2 : (withWords ids (taken L c ++ more)).length ≤ (Event.answeredOn (sysLabels L) c).length + 1 := by
    rw [hww, hAB, List.filter_append, List.length_append]
    omega
  have hsent := h.run.sent_eq c
  have hsl := hsent.length_eq
  refine ⟨ids, taken L c ++ more, rest, hfind, hnd, by rw [List.length_append]; omega, by rw [List.length_append]; omega, ?_, ?_, ?_, ?_, ?_⟩
  · rw [hlen, List.take_left]; exact hids
  · have := OneAtATime.executed h.run hone
    rw [hI] at this
    exact this
  · rw [← hsl]; exact hl1
  · rw [← hsl]; exact hl2
  · rw [← hsl, k2]
    refine hsent.imp fun i b hw => ?_
    obtain ⟨P, Q, hPQ⟩ := List.append_of_mem hw
    obtain ⟨_, h2⟩ := Event.C44_own_reply h.run hPQ
    have hP : ∀ l ∈ P, l ∈ sysLabels L := by intro l hl; rw [hPQ]; exact List.mem_append_left _ hl
    rcases h2 with ⟨g1, g2⟩ | ⟨g1, w, rsp, g2, g3⟩
    · exact .inl ⟨hP _ g1, g2⟩
    · exact .inr ⟨g1, w, rsp, hP _ g2, g3⟩

/-- requests of which no data is cut are found as they were sent -/
theorem Finds.sends {rd rs rest} (h : Finds rd rs rest) : ∀ {parts ps buf reqs},
    List.Forall₂ (fun us req => Resp.RequestParts us req ∧ req ≠ [] ∧ Fits req) parts reqs → Ahead buf parts.flatten ps →
    rd = ⟨buf, Resp.segments ps⟩ →
    ∃ r1 r2 parts' ps' buf', reqs = r1 ++ r2 ∧ rs.map (·.elements) = r1 ∧
      List.Forall₂ (fun us req => Resp.RequestParts us req ∧ req ≠ [] ∧ Fits req) parts' r2 ∧ Ahead buf' parts'.flatten ps' ∧
      rest = ⟨buf', Resp.segments ps'⟩ := by
  induction h with
  | nil => intro parts ps buf reqs h1 h2 h3; exact ⟨[], reqs, parts, ps, buf, rfl, rfl, h1, h2, h3⟩
  | @ok rs rd' r rest hp hd ih =>
    intro parts ps buf reqs h1 h2 h3
    obtain ⟨r1, r2, parts', ps', buf', rfl, e2, h4, h5, rfl⟩ := ih h1 h2 h3
    cases h4 with
    | nil =>
      exfalso
      have hst := h5.stream
      simp only [List.flatten_nil, Resp.Part.all, List.map_nil, List.append_eq_nil_iff] at hst
      have := rdDecode_fair ⟨buf', Resp.segments ps'⟩
      rw [hd] at this
      have hz := this.2.1
      simp [Rd.ahead, segments_flat, hst] at hz
    | @cons us req parts'' reqs'' h6 h7 =>
      obtain ⟨buf2, ps2, h8, h9⟩ := rdDecode_parts h6.1 h6.2.2.1 h6.2.2.2 (more := parts''.flatten) (by simpa using h5)
      rw [h9] at hd
      cases hd
      exact ⟨r1 ++ [req], reqs'', parts'', ps2, buf2, by simp, by simp [e2], h7, h8, rfl⟩
  | @err rs rd' e rest hp hd ih =>
    intro parts ps buf reqs h1 h2 h3
    obtain ⟨r1, r2, parts', ps', buf', rfl, e2, h4, h5, rfl⟩ := ih h1 h2 h3
    cases h4 with
    | nil =>
      have hst := h5.stream
      simp only [List.flatten_nil, Resp.Part.all, List.map_nil, List.append_eq_nil_iff] at hst
      refine ⟨r1, [], [], [], [], rfl, e2, .nil, ⟨by simp, by simp [Resp.Part.all], by simp⟩, ?_⟩
      rcases readBytes_cases ⟨buf', Resp.segments ps'⟩ with hr | ⟨l, rd2, hr, e1, hl⟩
      · unfold rdDecode at hd
        rw [hr] at hd
        cases hd
        rfl
      · exfalso
        simp only [Rd.ahead, segments_flat, hst, List.append_nil] at e1
        obtain ⟨b, rfl, _⟩ := hl
        simp at e1
    | @cons us req parts'' reqs'' h6 h7 =>
      obtain ⟨buf2, ps2, h8, h9⟩ := rdDecode_parts h6.1 h6.2.2.1 h6.2.2.2 (more := parts''.flatten) (by simpa using h5)
      rw [h9] at hd
      cases hd

/-- C60: a peer sends requests on one connection, without waiting for replies, and they arrive such that no data is cut (C64).
Whatever the schedule, whatever happens on other connections: the requests are taken one after the other (the `k`-th number
in `ids` is that of its `k`-th request), those that are executed are executed in this order, and the `k`-th reply the peer
gets is the reply to its `k`-th request: what executing that request returned, or that the server gave up on it.  At most one
request that was taken has no reply (yet). -/
theorem C60_pipelined {ext rng L v} (h : VRun ext rng L v) {c segs reqs} (ha : .accept c segs ∈ L) (hs : Sends segs reqs) :
    ∃ ids : List Nat, ids.Nodup ∧ ids.length ≤ reqs.length ∧
      List.Forall₂ (fun i req => ∃ b r, .handle i c b r ∈ L ∧ r.elements = req) ids (reqs.take ids.length) ∧
      (((execs (sysLabels L)).map (·.1)).filter (· ∈ ids)).Sublist ids ∧
      (v.sys.sent c).length ≤ ids.length ∧ ids.length ≤ (v.sys.sent c).length + 1 ∧
      List.Forall₂ (fun i b => (.timeout i ∈ sysLabels L ∧ Denotes b gaveUp) ∨
          (.timeout i ∉ sysLabels L ∧ ∃ w rsp, .exec w i rsp ∈ sysLabels L ∧ rsp.encode = .ok b))
        (ids.take (v.sys.sent c).length) (v.sys.sent c) := by
  obtain ⟨ids, found, rest, g1, g2, g3, _, g4, g5, g6, g7, g8⟩ := C60_in_order h ha
  obtain ⟨parts, ps, k1, k2, rfl⟩ := hs
  obtain ⟨r1, r2, _, _, _, rfl, rfl, _⟩ := g1.sends k1 (uncut_ahead k2) rfl
  have hne : ∀ r ∈ found, r.elements ≠ [] := by
    intro r hr
    have hm : r.elements ∈ found.map (·.elements) ++ r2 := List.mem_append_left _ (List.mem_map_of_mem hr)
    obtain ⟨k, hk1, hk2⟩ := List.mem_iff_getElem.mp hm
    have hk := (List.forall₂_iff_get.mp k1).2 k (by rw [k1.length_eq]; exact hk1) hk1
    simp only [List.get_eq_getElem, hk2] at hk
    exact hk.2.1
  have hww : withWords ids found = ids := by
    unfold withWords
    rw [List.filter_eq_self.mpr (fun p hp => by simpa using hne p.2 (List.of_mem_zip hp).2), List.map_fst_zip g3]
  rw [hww] at g6 g7 g8
  refine ⟨ids, g2, by simp only [List.length_append, List.length_map]; omega, ?_, g5, g6, g7, g8⟩
  rw [List.take_append_of_le_length (by simpa using g3), ← List.map_take, List.forall₂_map_right_iff]
  exact g4.imp fun i r ⟨b, hb⟩ => ⟨b, r, hb, rfl⟩

/-- the byte string that stands for a request in the model is never in the way: a reader that is about to decode can act -/
theorem reader_moves (ext : Ext) (v : Srv) (c : Nat) (h1 : (v.conn c).loop ≠ .absent) (h2 : (v.conn c).reader = .loop) :
    ∃ l v', VStep ext v l v' ∧ (l = .reader c ∨ ∃ p, l = .panic (.decoding p)) := by
  have hf := rdDecode_fair (v.conn c).input
  cases hd : rdDecode (v.conn c).input with
  | ok r rest =>
    rw [hd] at hf
    obtain ⟨_, _, b, hb⟩ := hf
    exact ⟨_, _, .decode v c b r rest h1 h2 hd hb, .inl rfl⟩
  | err e rest => exact ⟨_, _, .malformed v c e rest (e = .eof) h1 h2 hd (by simp), .inl rfl⟩
  | panic p => exact ⟨_, _, .decodePanic v c p h1 h2 hd, .inr ⟨p, rfl⟩⟩

/-- C60: all clients together see the replies of a server that executes the requests one at a time, as with the v2 server
(C43). -/
theorem C60_linearizable {ext rng L v} (h : VRun ext rng L v) :
    Linearizable (fun tr => Trace ext (Store.init rng) tr v.sys.store) Decodes (visible (sysLabels L)) :=
  Event.C43_linearizable h.run

end Godis.V1
