import Verif.Proofs.Event3
import Verif.Props.Schedules
/-!
# Concurrent clients: C43, C44

`Run ext n rng L σ` (Model/Event.lean): in some schedule of the goroutines of a fresh server with `n` workers the actions
`L` happened, in this order, and led to the state `σ`. The server has one worker.
-/
namespace Godis.Event
open Resp (Reply Denotes IsRequest)
open Linear (Before Op Linearizable gaveUp)

/-- what is visible at the sockets -/
def visible (L : List Label) : List Linear.Ev :=
  L.filterMap fun l => match l with
    | .recv i c f => some (.call i c f)
    | .write i c b => some (.ret i c b)
    | _ => none

/-- the bytes are decoded as this request -/
def Decodes (frame : Bytes) (req : List Bytes) : Prop := ∃ rec rest, decodeFromReader frame = .ok rec rest ∧ rec.elements = req

/-- a frame that begins with a well-formed request is decoded as that request and no other -/
theorem decodes_request {s rest : Bytes} {req req' : List Bytes} (h : IsRequest s req) (hn : req.length < 2 ^ 63)
    (hlen : ∀ a ∈ req, a.length + 2 ≤ 2 ^ 48) : Decodes (s ++ rest) req' ↔ req' = req := by
  have := decode_request s req h rest hn hlen
  unfold Decodes
  rw [this]
  constructor
  · rintro ⟨rec, r, h1, rfl⟩; cases h1; rfl
  · rintro rfl; exact ⟨_, _, rfl, rfl⟩

theorem mem_visible_call {L i c f} : .call i c f ∈ visible L ↔ .recv i c f ∈ L := by
  simp only [visible, List.mem_filterMap]
  constructor
  · rintro ⟨l, hl, he⟩
    cases l <;> simp at he
    obtain ⟨rfl, rfl, rfl⟩ := he
    exact hl
  · intro h; exact ⟨_, h, rfl⟩

theorem mem_visible_ret {L i c f} : .ret i c f ∈ visible L ↔ .write i c f ∈ L := by
  simp only [visible, List.mem_filterMap]
  constructor
  · rintro ⟨l, hl, he⟩
    cases l <;> simp at he
    obtain ⟨rfl, rfl, rfl⟩ := he
    exact hl
  · intro h; exact ⟨_, h, rfl⟩

/-- an occurrence in the visible history is an occurrence in the run -/
theorem visible_split : ∀ {L : List Label} {A B : List Linear.Ev} {v : Linear.Ev}, visible L = A ++ v :: B →
    ∃ L1 l L2, L = L1 ++ l :: L2 ∧ visible L1 = A ∧ visible [l] = [v] ∧ visible L2 = B
  | [], A, B, v, h => by simp [visible] at h
  | l :: L, A, B, v, h => by
    have hc : visible (l :: L) = visible [l] ++ visible L := by
      rw [show l :: L = [l] ++ L from rfl]; exact List.filterMap_append ..
    rw [hc] at h
    have hl : visible [l] = [] ∨ ∃ u, visible [l] = [u] := by cases l <;> simp [visible]
    rcases hl with hl | ⟨u, hu⟩
    · rw [hl, List.nil_append] at h
      obtain ⟨L1, l', L2, rfl, h2, h3, h4⟩ := visible_split h
      refine ⟨l :: L1, l', L2, rfl, ?_, h3, h4⟩
      rw [show l :: L1 = [l] ++ L1 from rfl]
      unfold visible at *
      rw [List.filterMap_append, hl, h2]; rfl
    · rw [hu] at h
      cases A with
      | nil =>
        simp only [List.singleton_append, List.nil_append, List.cons.injEq] at h
        obtain ⟨rfl, h2⟩ := h
        exact ⟨[], l, L, rfl, rfl, hu, h2⟩
      | cons a A =>
        simp only [List.singleton_append, List.cons_append, List.cons.injEq] at h
        obtain ⟨rfl, h2⟩ := h
        obtain ⟨L1, l', L2, rfl, h2, h3, h4⟩ := visible_split h2
        refine ⟨l :: L1, l', L2, rfl, ?_, h3, h4⟩
        rw [show l :: L1 = [l] ++ L1 from rfl]
        unfold visible at *
        rw [List.filterMap_append, hu, h2]; rfl

theorem before_visible {L i c b j c' b'} (h : Before (visible L) (.ret i c b) (.call j c' b')) :
    ∃ A B C, L = A ++ .write i c b :: (B ++ .recv j c' b' :: C) := by
  obtain ⟨l1, l2, l3, h⟩ := h
  obtain ⟨A, l, L2, rfl, _, hl, h2⟩ := visible_split h
  obtain ⟨B, l', C, rfl, _, hl', _⟩ := visible_split h2
  have e1 : l = .write i c b := by cases l <;> simp [visible] at hl <;> (obtain ⟨rfl, rfl, rfl⟩ := hl; rfl)
  have e2 : l' = .recv j c' b' := by cases l' <;> simp [visible] at hl' <;> (obtain ⟨rfl, rfl, rfl⟩ := hl'; rfl)
  subst e1 e2
  exact ⟨A, B, C, rfl⟩

theorem encode_gaveUp {b} (h : (newResponseWithError deadlineExceeded).encode = .ok b) : Denotes b gaveUp := by
  obtain ⟨b', h1, h2⟩ := encode_denotes (newResponseWithError deadlineExceeded) gaveUp (by decide +kernel)
  rw [h] at h1
  cases h1
  exact h2

theorem execs_append (a b : List Label) : execs (a ++ b) = execs a ++ execs b := List.filterMap_append ..

/-- C43. Whatever the schedule, what the clients see is explained by executing the requests one at a time, in an order
that respects real time; this serial execution ends in the store the server is in. -/
theorem C43_linearizable {ext rng L σ} (h : Run ext 1 rng L σ) :
    Linearizable (fun tr => Trace ext (Store.init rng) tr σ.store) Decodes (visible L) := by
  obtain ⟨ops, h1, h2, h3⟩ := h.serial
  obtain ⟨h4, h5⟩ := h2.trace (typed_init rng)
  have hnd : (ops.map (·.1)).Nodup := by
    have := h.execs_nodup
    rw [← h1, List.map_map] at this
    exact this
  have mem : ∀ {p : List (Nat × List Bytes × Response)} {o : Op}, o ∈ answered p ↔ ∃ r, (o.id, o.req, r) ∈ p ∧ r.reply = some o.reply := by
    intro p o
    simp only [answered, List.mem_filterMap, Option.map_eq_some_iff]
    constructor
    · rintro ⟨⟨i, req, r⟩, hm, m, hr, rfl⟩; exact ⟨r, hm, hr⟩
    · rintro ⟨r, hm, hr⟩; exact ⟨_, hm, o.reply, hr, rfl⟩
  refine ⟨answered ops, h4, ?_, ?_, ?_, ?_⟩
  · have hsub : ((answered ops).map (·.id)).Sublist (ops.map (·.1)) := by
      clear h1 h2 h3 h4 h5 hnd mem
      induction ops with
      | nil => exact .slnil
      | cons o ops ih =>
        rw [show o :: ops = [o] ++ ops from rfl, answered_append, List.map_append, List.map_append]
        refine List.Sublist.append ?_ ih
        obtain ⟨i, req, r⟩ := o
        cases hr : r.reply <;> simp [answered, hr]
    exact hsub.nodup hnd
  · intro o ho
    obtain ⟨r, hr, _⟩ := mem.mp ho
    obtain ⟨c, f, rec, rest, a1, a2, a3, a4⟩ := h3 _ hr
    exact ⟨c, f, mem_visible_call.mpr a1, rec, rest, a2, a4⟩
  · intro i c b hret
    rw [mem_visible_ret] at hret
    obtain ⟨⟨f, a1⟩, rsp, a2, a3, a4⟩ := h.inv.written i c b hret
    refine ⟨⟨f, mem_visible_call.mpr a1⟩, ?_⟩
    rcases a4 with ⟨_, rfl⟩ | ⟨_, _, w, a5⟩
    · exact .inl (encode_gaveUp a2)
    · have : (i, rsp) ∈ execs L := mem_execs.mpr ⟨w, a5⟩
      rw [← h1] at this
      obtain ⟨⟨i', req, r⟩, hm, he⟩ := List.mem_map.mp this
      simp only [Prod.mk.injEq] at he
      obtain ⟨rfl, rfl⟩ := he
      cases hr : r.reply with
      | none =>
        have := h5 _ hm hr
        rw [a2] at this
        cases this
      | some m =>
        refine .inr ⟨⟨i', req, m⟩, mem.mpr ⟨r, hm, hr⟩, rfl, ?_⟩
        obtain ⟨b', e1, e2⟩ := encode_denotes r m hr
        rw [a2] at e1
        cases e1
        exact e2
  · intro o ho o' ho' c b c' b' hng hb
    obtain ⟨A, B, C, rfl⟩ := before_visible hb
    obtain ⟨r, hr, _⟩ := mem.mp ho
    obtain ⟨r', hr', _⟩ := mem.mp ho'
    -- the first was executed before its reply
    obtain ⟨σ1, σ2, g1, g2, _⟩ := h.at
    have hex : ∃ w rsp, .exec w o.id rsp ∈ A := by
      generalize o.id = i at g2 ⊢
      cases g2 with
      | write i c rsp b k1 k2 k3 =>
        have hk := g1.inv.handlers i
        rw [k1] at hk
        rcases hk.2.1 with ⟨_, rfl⟩ | ⟨_, _, w, hw⟩
        · exact absurd (encode_gaveUp k2) hng
        · exact ⟨w, rsp, hw⟩
    -- the second was not
    have hsplit : A ++ .write o.id c b :: (B ++ .recv o'.id c' b' :: C) = (A ++ .write o.id c b :: B) ++ .recv o'.id c' b' :: C := by simp
    rw [hsplit] at h h1
    have hno := h.recv_first
    rw [execs_append] at h1
    obtain ⟨p, q, rfl, hp, hq⟩ := List.map_eq_append_iff.mp h1
    have hop : (o.id, o.req, r) ∈ p := by
      rcases List.mem_append.mp hr with hh | hh
      · exact hh
      · exfalso
        obtain ⟨w, rsp, hw⟩ := hex
        have : (o.id, rsp) ∈ execs (A ++ .write o.id c b :: B) := mem_execs.mpr ⟨w, by simp [hw]⟩
        rw [← hp] at this
        obtain ⟨⟨i', q1, q2⟩, hm, he⟩ := List.mem_map.mp this
        simp only [Prod.mk.injEq] at he
        rw [List.map_append, List.nodup_append] at hnd
        exact hnd.2.2 _ (List.mem_map.mpr ⟨_, hm, rfl⟩) _ (List.mem_map.mpr ⟨_, hh, rfl⟩) he.1
    have hoq : (o'.id, o'.req, r') ∈ q := by
      rcases List.mem_append.mp hr' with hh | hh
      · exfalso
        have : (o'.id, r') ∈ execs (A ++ .write o.id c b :: B) := by
          rw [← hp]; exact List.mem_map.mpr ⟨_, hh, rfl⟩
        obtain ⟨w, hw⟩ := mem_execs.mp this
        exact hno _ hw rfl
      · exact hh
    refine Before.of_split (answered_append p q) ?_ ?_
    · exact mem.mpr ⟨r, hop, by assumption⟩
    · exact mem.mpr ⟨r', hoq, by assumption⟩

/-- a run of the server stays within the stores of `Reachable`, whatever the schedule -/
theorem C43_store_reachable {ext rng L σ} (h : Run ext 1 rng L σ) : Reachable ext σ.store := by
  obtain ⟨ops, hs, _⟩ := C43_linearizable h
  exact ⟨rng, _, hs⟩

/-- `INCR x` as a frame -/
def incrX : Bytes := b! "*2\r\n$4\r\nINCR\r\n$1\r\nx\r\n"

/-- Case: two clients send `INCR x` at the same time; the requests overlap; one is answered 1, the other 2. -/
example : (trySchedule ext0 it0 1 rng0
    [.recv 0 0 incrX, .recv 1 1 incrX, .handle 0, .handle 1, .handle 1, .work 0, .handle 0, .work 0, .work 0, .work 0, .work 0,
     .handle 1, .work 0, .work 0, .work 0, .handle 0, .handle 0, .handle 1]).map (·.2.out)
    = some [(0, b! ":2\r\n"), (1, b! ":1\r\n")] := by decide +kernel

/-- The claim rests on there being one worker: with two, both clients may be answered 1 (the second `INCR` is lost). -/
example : (trySchedule ext0 it0 2 rng0
    [.recv 0 0 incrX, .recv 1 1 incrX, .handle 0, .handle 1, .handle 1, .work 0, .handle 0, .work 1, .work 0, .work 1, .work 0, .work 1,
     .work 0, .work 1, .handle 0, .handle 0, .handle 1, .handle 1]).map (·.2.out)
    = some [(0, b! ":1\r\n"), (1, b! ":1\r\n")] := by decide +kernel

/-! ## C44 -/

/-- C44: in every schedule (with any number of workers) a request is executed at most once and answered at most once. -/
theorem C44_at_most_once {ext n rng L σ} (h : Run ext n rng L σ) :
    (∀ A B v i r, L = A ++ .exec v i r :: B → ∀ w r', .exec w i r' ∉ A ∧ .exec w i r' ∉ B) ∧
    (∀ A B i c b, L = A ++ .write i c b :: B → ∀ c' b', .write i c' b' ∉ A ∧ .write i c' b' ∉ B) := by
  have key : ∀ A B v i r, L = A ++ .exec v i r :: B → ∀ w r', .exec w i r' ∉ A := by
    rintro A B v i r rfl w r' hm
    obtain ⟨σ1, σ2, g1, g2, g3⟩ := h.at
    have := g3.execs_nodup
    rw [execs_append, List.map_append, List.nodup_append] at this
    exact this.2.2 i (List.mem_map.mpr ⟨(i, r'), mem_execs.mpr ⟨w, hm⟩, rfl⟩) i (by simp [execs]) rfl
  have key2 : ∀ A B i c b, L = A ++ .write i c b :: B → ∀ c' b', .write i c' b' ∉ A := by
    rintro A B i c b rfl c' b' hm
    obtain ⟨σ1, σ2, g1, g2, _⟩ := h.at
    have := g1.ended (l := .write i c' b') hm rfl rfl
    have := g2.of_ended this rfl
    simp [Label.byWorker] at this
  refine ⟨?_, ?_⟩
  · intro A B v i r hL w r'
    refine ⟨key A B v i r hL w r', ?_⟩
    intro hm
    obtain ⟨B1, B2, rfl⟩ := List.append_of_mem hm
    exact key (A ++ .exec v i r :: B1) B2 w i r' (by rw [hL]; simp) v r (by simp)
  · intro A B i c b hL c' b'
    refine ⟨key2 A B i c b hL c' b', ?_⟩
    intro hm
    obtain ⟨B1, B2, rfl⟩ := List.append_of_mem hm
    exact key2 (A ++ .write i c b :: B1) B2 i c' b' (by rw [hL]; simp) c b (by simp)

/-- C44: a reply goes to the connection its request came from; it is the wire form of what executing that request
returned, before; or it says that the server gave up. -/
theorem C44_own_reply {ext n rng L σ} (h : Run ext n rng L σ) {A B i c b} (hL : L = A ++ .write i c b :: B) :
    (∃ f, .recv i c f ∈ A) ∧
    ((.timeout i ∈ A ∧ Denotes b gaveUp) ∨ (.timeout i ∉ L ∧ ∃ w rsp, .exec w i rsp ∈ A ∧ rsp.encode = .ok b)) := by
  subst hL
  obtain ⟨σ1, σ2, g1, g2, g3⟩ := h.at
  cases g2 with
  | write i c rsp b k1 k2 k3 =>
    have hk := g1.inv.handlers i
    rw [k1] at hk
    obtain ⟨hk1, hk2, _⟩ := hk
    refine ⟨hk1, ?_⟩
    rcases hk2 with ⟨t1, rfl⟩ | ⟨t1, t2, w, t3⟩
    · exact .inl ⟨t1, encode_gaveUp k2⟩
    · refine .inr ⟨?_, w, rsp, t3, k2⟩
      intro hm
      rcases List.mem_append.mp hm with hm | hm
      · exact t2 hm
      · rcases List.mem_cons.mp hm with hm | hm
        · cases hm
        · have := h.after_end (l := .write i c b) rfl rfl (.timeout i) hm rfl
          cases this

/-- C44: what is executed for a frame is the request in that frame. -/
theorem C44_own_request {ext rng L σ} (h : Run ext 1 rng L σ) {A B w i rsp} (hL : L = A ++ .exec w i rsp :: B) :
    ∃ c f req it s s', .recv i c f ∈ A ∧ Decodes f req ∧ runRequest ext it s req = .ok (s', some rsp) ∧ Reachable ext s := by
  subst hL
  obtain ⟨σ1, σ2, g1, g2, g3⟩ := h.at
  generalize hl : Label.exec w i rsp = l at g2
  cases g2 with
  | exec w e snap s' it rsp k0 k1 k2 =>
    cases hl
    obtain ⟨⟨_, c, f, rec, rest, a1, a2, a3, a4⟩, _⟩ := g1.inv.pend _ e (by rw [k1]; rfl)
    have hsnap := g1.snapshot.2 _ e snap k1
    subst hsnap
    exact ⟨c, f, rec.elements, it, σ1.store, s', a1, ⟨rec, rest, a2, rfl⟩, run_of_execute a4 k2, C43_store_reachable g1⟩
  | _ => cases hl

/-- C44: a request answered with a timeout may take effect later: `INCR x` is answered "context deadline exceeded", a
later `GET x` finds 1. -/
theorem C44_timeout_takes_effect :
    (trySchedule ext0 it0 1 rng0
      [.recv 0 0 incrX, .handle 0, .handle 0, .timeout 0, .handle 0, .work 0, .work 0, .work 0, .work 0,
       .recv 1 0 (b! "*2\r\n$3\r\nGET\r\n$1\r\nx\r\n"), .handle 1, .handle 1, .work 0, .work 0, .work 0, .work 0, .handle 1, .handle 1]).map (·.2.out)
    = some [(0, b! "-context deadline exceeded\r\n"), (0, b! "$1\r\n1\r\n")] := by decide +kernel

end Godis.Event
