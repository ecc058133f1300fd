import Verif.Proofs.Coord
import Verif.Props.Concurrency
import Verif.Props.Reference
import Verif.Proofs.LogText
/-!
# Clients that coordinate through the server: C73

What programs build on a Redis server: unique numbers from INCR, one winner among SADDs of the same member, a work queue from
RPUSH and LPOP.  The theorems are about what all clients together see at their sockets (Spec/Coord.lean), for every schedule of
the server and any number of connections, pipelined or not; other keys may be used in any way.
-/
namespace Godis.Event
open Resp (Reply Denotes)
open Linear (Before Op gaveUp)
open StrSpec (lower isError)
open ListSpec (Plain OnlyUses items pushed popped pushedBy poppedBy)
open KeySpec (keyArgs readOnly)
open CoordSpec

theorem denotes_unique {b : Bytes} {m m' : Reply} (h : Denotes b m) (h' : Denotes b m') : m = m' := by
  obtain ⟨f, hf⟩ := h
  obtain ⟨g, hg⟩ := h'
  have h1 := hf (max f g) (by omega) []
  have h2 := hg (max f g) (by omega) []
  rw [h1] at h2
  cases h2; rfl

/-- a request number stands for one request -/
theorem sent_unique {ext n rng L σ} (h : Run ext n rng L σ) {i req req'} (h1 : Sent Decodes (visible L) i req)
    (h2 : Sent Decodes (visible L) i req') : req = req' := by
  obtain ⟨c, b, a1, r, x, a2, a3⟩ := h1
  obtain ⟨c', b', b1, r', x', b2, b3⟩ := h2
  rw [mem_visible_call] at a1 b1
  obtain ⟨rfl, rfl⟩ := h.recv_unique a1 b1
  rw [a2] at b2
  cases b2
  rw [← a3, ← b3]

/-- the request and its reply -/
def pair (o : Op) : List Bytes × Reply := (o.req, o.reply)

/-- one serial execution explains what the clients saw -/
structure Explains (ext : Ext) (rng : Rng) (L : List Label) (s : Store) (ops : List Op) : Prop where
  trace : Trace ext (Store.init rng) (ops.map pair) s
  nodup : (ops.map (·.id)).Nodup
  sent : ∀ o ∈ ops, Sent Decodes (visible L) o.id o.req
  got : ∀ i m, Got (visible L) i m → ∃ o ∈ ops, o.id = i ∧ o.reply = m
  order : ∀ o ∈ ops, ∀ o' ∈ ops, Answered (visible L) o.id o'.id → Before ops o o'
  done : ∀ i j, Answered (visible L) i j → ∃ o ∈ ops, o.id = i

theorem explained {ext rng L σ} (h : Run ext 1 rng L σ) : ∃ ops, Explains ext rng L σ.store ops := by
  obtain ⟨ops, h1, h2, h3, h4, h5⟩ := C43_linearizable h
  refine ⟨ops, h1, h2, h3, ?_, ?_, ?_⟩
  · rintro i m ⟨c, b, a1, a2, a3⟩
    rcases (h4 i c b a1).2 with h | ⟨o, o1, o2, o3⟩
    · exact absurd (denotes_unique a2 h) a3
    · exact ⟨o, o1, o2, denotes_unique o3 a2⟩
  · rintro o ho o' ho' ⟨c, b, c', b', a1, a2⟩
    exact h5 o ho o' ho' c b c' b' a2 a1
  · rintro i j ⟨c, b, c', b', ⟨l1, l2, l3, a1⟩, a2⟩
    rcases (h4 i c b (by rw [a1]; simp)).2 with h | ⟨o, o1, o2, o3⟩
    · exact absurd h a2
    · exact ⟨o, o1, o2⟩

namespace Explains
variable {ext : Ext} {rng : Rng} {L : List Label} {s : Store} {ops : List Op} {k : Bytes} {cmds : List Bytes}

theorem same (h : Explains ext rng L s ops) {o o' : Op} (ho : o ∈ ops) (ho' : o' ∈ ops) (e : o.id = o'.id) : o = o' :=
  List.inj_on_of_nodup_map h.nodup ho ho' e

theorem plain (h : Explains ext rng L s ops) (hr : Reserved Decodes (visible L) k cmds) : ∀ p ∈ ops.map pair, Plain p.1 := by
  intro p hp
  obtain ⟨o, ho, rfl⟩ := List.mem_map.mp hp
  exact (hr _ _ (h.sent o ho)).1

theorem uses (h : Explains ext rng L s ops) (hr : Reserved Decodes (visible L) k cmds) : OnlyUses k cmds (ops.map pair) := by
  intro p hp
  obtain ⟨o, ho, rfl⟩ := List.mem_map.mp hp
  exact (hr _ _ (h.sent o ho)).2

theorem length_le (h : Explains ext rng L s ops) : ops.length ≤ (visible L).length := by
  have hsub : (ops.map (·.id)).Subperm ((visible L).map fun e => match e with | .call i _ _ => i | .ret i _ _ => i) := by
    refine List.subperm_of_subset h.nodup fun i hi => ?_
    obtain ⟨o, ho, rfl⟩ := List.mem_map.mp hi
    obtain ⟨c, b, hm, _⟩ := h.sent o ho
    exact List.mem_map.mpr ⟨_, hm, rfl⟩
  have := hsub.length_le
  simpa using this

theorem _root_.Godis.Event.before_ne {A B : List Op} {o o' : Op} (e : ops = A ++ o :: B) (ho' : o' ∈ ops) (hne : o.id ≠ o'.id) :
    o' ∈ A ∨ o' ∈ B := by
  rw [e] at ho'
  simp only [List.mem_append, List.mem_cons] at ho'
  rcases ho' with h | rfl | h
  · exact .inl h
  · exact absurd rfl hne
  · exact .inr h

end Explains

/-! ## unique numbers -/

theorem incrs_lt {k : Bytes} {A B : List Op} {o : Op} (h : o ∈ B) (hi : On (b! "incr") k o.req) :
    incrs k (A.map pair) < incrs k ((A ++ B).map pair) := by
  have : 0 < incrs k (B.map pair) := by
    unfold incrs
    rw [List.countP_pos_iff]
    exact ⟨pair o, List.mem_map.mpr ⟨o, h, rfl⟩, decide_eq_true hi⟩
  have e : incrs k ((A ++ B).map pair) = incrs k (A.map pair) + incrs k (B.map pair) := by
    simp [incrs, List.countP_append]
  omega

/-- **C73 (unique numbers).**  If all clients use `k` only with INCR and reads, the replies to two different INCRs are two
different positive integers; and an INCR that is sent after another one was answered gets a larger one. -/
theorem C73_unique_numbers {ext rng L σ k} (h : Run ext 1 rng L σ) (hr : Reserved Decodes (visible L) k [b! "incr"])
    (hn : (visible L).length < 2 ^ 63) {i j ri rj mi mj} (hij : i ≠ j)
    (si : Sent Decodes (visible L) i ri) (oi : On (b! "incr") k ri) (gi : Got (visible L) i mi)
    (sj : Sent Decodes (visible L) j rj) (oj : On (b! "incr") k rj) (gj : Got (visible L) j mj) :
    ∃ a b : Nat, mi = .int a ∧ mj = .int b ∧ 0 < a ∧ 0 < b ∧ a ≠ b ∧ (Answered (visible L) i j → a < b) := by
  obtain ⟨ops, he⟩ := explained h
  obtain ⟨p, hp, hpi, rfl⟩ := he.got _ _ gi
  obtain ⟨q, hq, hqj, rfl⟩ := he.got _ _ gj
  have op : On (b! "incr") k p.req := by subst hpi; rw [← sent_unique h si (he.sent p hp)]; exact oi
  have oq : On (b! "incr") k q.req := by subst hqj; rw [← sent_unique h sj (he.sent q hq)]; exact oj
  have hlen : (ops.map pair).length < 2 ^ 63 := by
    have := he.length_le
    simp only [List.length_map]; omega
  have key := (incr_count he.trace (he.plain hr) (he.uses hr) hlen).2
  have hreply : ∀ {A o B}, ops = A ++ o :: B → On (b! "incr") k o.req → o.reply = .int ((incrs k (A.map pair) + 1 : Nat) : Int) := by
    intro A o B e ho
    have := key (A.map pair) o.req o.reply (B.map pair) (by rw [e]; simp [pair]) ho
    rw [this]; push_cast; rfl
  have hne : p.id ≠ q.id := by rw [hpi, hqj]; exact hij
  obtain ⟨A, B, e⟩ := List.mem_iff_append.mp hp
  rcases before_ne e hq hne with hqA | hqB
  · -- q first
    obtain ⟨A1, A2, rfl⟩ := List.mem_iff_append.mp hqA
    have e' : ops = A1 ++ q :: (A2 ++ p :: B) := by rw [e]; simp
    refine ⟨_, _, hreply e op, hreply e' oq, by omega, by omega, ?_, ?_⟩
    · have := incrs_lt (k := k) (A := A1) (B := q :: A2) (o := q) (by simp) oq
      omega
    · intro hb
      have hb := he.order p hp q hq (by rw [hpi, hqj]; exact hb)
      exfalso
      have hnd : ops.Nodup := List.Nodup.of_map _ he.nodup
      exact before_asymm hnd hb ⟨A1, A2, B, e'⟩
  · obtain ⟨B1, B2, rfl⟩ := List.mem_iff_append.mp hqB
    have e' : ops = (A ++ p :: B1) ++ q :: B2 := by rw [e]; simp
    have := incrs_lt (k := k) (A := A) (B := p :: B1) (o := p) (by simp) op
    exact ⟨_, _, hreply e op, hreply e' oq, by omega, by omega, by omega, fun _ => by omega⟩

/-! ## one winner -/

theorem offered_mem {k x : Bytes} {A : List Op} : x ∈ offered k (A.map pair) ↔
    ∃ o ∈ A, ∃ name xs, o.req = name :: k :: xs ∧ lower name = b! "sadd" ∧ x ∈ xs := by
  unfold offered
  rw [List.mem_toFinset, List.mem_flatMap]
  constructor
  · rintro ⟨p, hp, hx⟩
    obtain ⟨o, ho, rfl⟩ := List.mem_map.mp hp
    split at hx
    · next hi =>
      obtain ⟨name, xs, h1, h2⟩ := hi
      refine ⟨o, ho, name, xs, h1, h2, ?_⟩
      simp only [pair] at h1
      rw [show (pair o).1 = o.req from rfl, h1] at hx
      exact hx
    · cases hx
  · rintro ⟨o, ho, name, xs, h1, h2, h3⟩
    refine ⟨pair o, List.mem_map.mpr ⟨o, ho, rfl⟩, ?_⟩
    rw [if_pos ⟨name, xs, h1, h2⟩, show (pair o).1 = o.req from rfl, h1]
    exact h3

/-- **C73 (one winner).**  If all clients use `k` only with SADD and reads, of all requests `SADD k x` that are answered at most
one is answered 1, all others are answered 0; and whoever is answered 0 was beaten: another SADD naming `x` was sent, and not
only after the answer. -/
theorem C73_one_winner {ext rng L σ k x} (h : Run ext 1 rng L σ) (hr : Reserved Decodes (visible L) k [b! "sadd"])
    {i name mi} (si : Sent Decodes (visible L) i [name, k, x]) (hname : lower name = b! "sadd") (gi : Got (visible L) i mi) :
    (mi = .int 1 ∧ ∀ j name' mj, Sent Decodes (visible L) j [name', k, x] → lower name' = b! "sadd" → Got (visible L) j mj →
        j ≠ i → mj = .int 0) ∨
    (mi = .int 0 ∧ ∃ j name' xs, j ≠ i ∧ Sent Decodes (visible L) j (name' :: k :: xs) ∧ lower name' = b! "sadd" ∧ x ∈ xs ∧
        ¬ Answered (visible L) i j) := by
  obtain ⟨ops, he⟩ := explained h
  have hnd : ops.Nodup := List.Nodup.of_map _ he.nodup
  have hreply : ∀ {A o B name}, ops = A ++ o :: B → o.req = [name, k, x] → lower name = b! "sadd" →
      o.reply = .int (if x ∈ offered k (A.map pair) then 0 else 1) := by
    intro A o B name e ho hn
    have e' : ops.map pair = A.map pair ++ (o.req, o.reply) :: B.map pair := by rw [e]; simp [pair]
    have := sadd_reply (e' ▸ he.trace) (e' ▸ he.plain hr) (e' ▸ he.uses hr) ho hn
    rw [this]
    split
    · next hx => rw [show [x].toFinset \ offered k (A.map pair) = ∅ by
        ext y; simp only [List.toFinset_cons, List.toFinset_nil, Finset.mem_sdiff, Finset.mem_insert, Finset.notMem_empty, or_false, iff_false]
        rintro ⟨rfl, hy⟩; exact hy hx]; rfl
    · next hx => rw [show [x].toFinset \ offered k (A.map pair) = {x} by
        ext y; simp only [List.toFinset_cons, List.toFinset_nil, Finset.mem_sdiff, Finset.mem_insert, Finset.notMem_empty, or_false, Finset.mem_singleton]
        exact ⟨fun h => h.1, fun h => ⟨h, h ▸ hx⟩⟩]; rfl
  obtain ⟨p, hp, rfl, rfl⟩ := he.got _ _ gi
  have rp : p.req = [name, k, x] := (sent_unique h si (he.sent p hp)).symm
  obtain ⟨A, B, e⟩ := List.mem_iff_append.mp hp
  have rep := hreply e rp hname
  by_cases hx : x ∈ offered k (A.map pair)
  · rw [if_pos hx] at rep
    refine .inr ⟨rep, ?_⟩
    obtain ⟨o, ho, name', xs, h1, h2, h3⟩ := offered_mem.mp hx
    have hoo : o ∈ ops := by rw [e]; simp [ho]
    obtain ⟨A1, A2, rfl⟩ := List.mem_iff_append.mp ho
    have hb : Before ops o p := ⟨A1, A2, B, by rw [e]; simp⟩
    refine ⟨o.id, name', xs, fun hid => ?_, h1 ▸ he.sent o hoo, h2, h3, fun hans => ?_⟩
    · obtain rfl := he.same hoo hp hid
      exact before_asymm hnd hb hb
    · exact before_asymm hnd hb (he.order p hp o hoo hans)
  · rw [if_neg hx] at rep
    refine .inl ⟨rep, ?_⟩
    rintro j name' mj sj hn' gj hj
    obtain ⟨q, hq, rfl, rfl⟩ := he.got _ _ gj
    have rq : q.req = [name', k, x] := (sent_unique h sj (he.sent q hq)).symm
    rcases before_ne e hq (fun h => hj h.symm) with hqA | hqB
    · exact absurd (offered_mem.mpr ⟨q, hqA, name', [x], rq, hn', by simp⟩) hx
    · obtain ⟨B1, B2, rfl⟩ := List.mem_iff_append.mp hqB
      have e' : ops = (A ++ p :: B1) ++ q :: B2 := by rw [e]; simp
      have := hreply e' rq hn'
      rwa [if_pos (offered_mem.mpr ⟨p, by simp, name, [x], rp, hname, by simp⟩)] at this

/-! ## a work queue -/

/-- what the executed request pushed / popped -/
def pushes (k : Bytes) (o : Op) : List Bytes := pushedBy [b! "rpush"] k (pair o)
def pops (k : Bytes) (o : Op) : List Bytes := poppedBy [b! "lpop"] k (pair o)

theorem pushed_eq (k : Bytes) (ops : List Op) : pushed [b! "rpush"] k (ops.map pair) = ops.flatMap (pushes k) := by
  unfold pushed; rw [List.flatMap_map]; rfl
theorem popped_eq (k : Bytes) (ops : List Op) : popped [b! "lpop"] k (ops.map pair) = ops.flatMap (pops k) := by
  unfold popped; rw [List.flatMap_map]; rfl

theorem pops_on {k : Bytes} {o : Op} (h : On (b! "lpop") k o.req) : pops k o = items o.reply := by
  obtain ⟨name, args, h1, h2⟩ := h
  unfold pops pair
  rw [h1]
  show (if lower name ∈ [b! "lpop"] ∧ k = k then items o.reply else []) = _
  rw [if_pos ⟨by rw [h2]; simp, rfl⟩]

theorem mem_pops {k x : Bytes} {o : Op} (h : x ∈ pops k o) : On (b! "lpop") k o.req ∧ x ∈ items o.reply := by
  unfold pops pair at h
  match hq : o.req, h with
  | [], h => cases h
  | [_], h => cases h
  | name :: key :: args, h =>
    replace h : x ∈ (if lower name ∈ [b! "lpop"] ∧ key = k then items o.reply else []) := h
    split at h
    · next hc => exact ⟨⟨name, args, by rw [hc.2], by simpa using hc.1⟩, h⟩
    · cases h

theorem mem_pushes {k x : Bytes} {o : Op} (h : x ∈ pushes k o) :
    ∃ name, o.req = name :: k :: pushes k o ∧ lower name = b! "rpush" := by
  unfold pushes pair at *
  match hq : o.req, h with
  | [], h => cases h
  | [_], h => cases h
  | name :: key :: vs, h =>
    replace h : x ∈ (if lower name ∈ [b! "rpush"] ∧ key = k ∧ isError o.reply = false then vs else []) := h
    split at h
    · next hc =>
      refine ⟨name, ?_, by simpa using hc.1⟩
      show name :: key :: vs = name :: k :: (if lower name ∈ [b! "rpush"] ∧ key = k ∧ isError o.reply = false then vs else [])
      rw [if_pos hc, hc.2.1]
    · cases h

namespace Explains
variable {ext : Ext} {rng : Rng} {L : List Label} {s : Store} {ops : List Op} {k : Bytes} {ps : List (Nat × List Bytes)}

theorem queue (h : Explains ext rng L s ops) (hr : Reserved Decodes (visible L) k [b! "rpush", b! "lpop"]) :
    ∃ rest, Shows ext s k rest ∧ ops.flatMap (pushes k) = ops.flatMap (pops k) ++ rest := by
  obtain ⟨rest, h1, h2⟩ := C21_fifo h.trace (h.plain hr) (h.uses hr)
  rw [pushed_eq, popped_eq] at h2
  exact ⟨rest, h1, h2⟩

theorem push_mem (h : Explains ext rng L s ops) (hps : AllPushes Decodes (visible L) k ps) {o : Op} (ho : o ∈ ops) {x : Bytes}
    (hx : x ∈ pushes k o) : (o.id, pushes k o) ∈ ps := by
  obtain ⟨name, h1, h2⟩ := mem_pushes hx
  exact (hps.2 _ _).mpr ⟨name, h1 ▸ h.sent o ho, h2⟩

/-- no more is pushed than was sent -/
theorem pushed_le (h : Explains ext rng L s ops) (hps : AllPushes Decodes (visible L) k ps) :
    (ops.flatMap (pushes k)).Subperm (ps.flatMap (·.2)) := by
  have e : ops.flatMap (pushes k) = ((ops.filter fun o => decide (pushes k o ≠ [])).map fun o => (o.id, pushes k o)).flatMap (·.2) := by
    rw [List.flatMap_map]
    clear h hps
    induction ops with
    | nil => rfl
    | cons o ops ih =>
      rw [List.filter_cons]
      split
      · simp [ih]
      · next hc =>
        have : pushes k o = [] := by simpa using hc
        simp [ih, this]
  rw [e]
  refine Subperm.flatMap _ (List.subperm_of_subset ?_ ?_)
  · refine List.Nodup.of_map Prod.fst ?_
    rw [List.map_map]
    exact ((List.filter_sublist).map _).nodup h.nodup
  · intro p hp
    obtain ⟨o, ho, rfl⟩ := List.mem_map.mp hp
    rw [List.mem_filter] at ho
    obtain ⟨x, hx⟩ := List.exists_mem_of_ne_nil _ (by simpa using ho.2)
    exact h.push_mem hps ho.1 hx

end Explains

/-- **C73 (queue, delivered at most once).**  If all clients use `k` only with RPUSH, LPOP and reads: everything that LPOPs
delivered, to all consumers together, with multiplicity, is among what was sent with RPUSH.  (So an item that was sent once is
delivered to at most one consumer, once.) -/
theorem C73_queue_once {ext rng L σ k ps} (h : Run ext 1 rng L σ) (hr : Reserved Decodes (visible L) k [b! "rpush", b! "lpop"])
    (hps : AllPushes Decodes (visible L) k ps) {rs : List (Nat × Reply)} (hnd : (rs.map (·.1)).Nodup)
    (hrs : ∀ p ∈ rs, Got (visible L) p.1 p.2 ∧ ∃ req, Sent Decodes (visible L) p.1 req ∧ On (b! "lpop") k req) :
    (rs.flatMap fun p => items p.2).Subperm (ps.flatMap (·.2)) := by
  obtain ⟨ops, he⟩ := explained h
  obtain ⟨rest, _, e⟩ := he.queue hr
  refine List.Subperm.trans ?_ (he.pushed_le hps)
  rw [e]
  refine List.Subperm.trans ?_ (List.sublist_append_left _ _).subperm
  -- the replies are replies of executed LPOPs
  have h1 : rs.Subperm ((ops.filter fun o => decide (On (b! "lpop") k o.req)).map fun o => (o.id, o.reply)) := by
    refine List.subperm_of_subset (List.Nodup.of_map _ hnd) fun p hp => ?_
    obtain ⟨g, req, sq, oq⟩ := hrs p hp
    obtain ⟨o, ho, h1, h2⟩ := he.got _ _ g
    refine List.mem_map.mpr ⟨o, List.mem_filter.mpr ⟨ho, ?_⟩, by rw [h1, h2]⟩
    rw [← h1] at sq
    rw [sent_unique h (he.sent o ho) sq]
    exact decide_eq_true oq
  refine (Subperm.flatMap _ h1).trans ?_
  rw [List.flatMap_map]
  have : ∀ l : List Op, ((l.filter fun o => decide (On (b! "lpop") k o.req)).flatMap fun o => items o.reply).Sublist (l.flatMap (pops k)) := by
    intro l
    induction l with
    | nil => exact .refl _
    | cons o l ih =>
      rw [List.filter_cons]
      split
      · next hc =>
        simp only [List.flatMap_cons]
        rw [pops_on (of_decide_eq_true hc)]
        exact (List.Sublist.refl _).append ih
      · simp only [List.flatMap_cons]
        exact ih.trans (List.sublist_append_right _ _)
  exact (this ops).subperm

/-- **C73 (queue, first in first out).**  If moreover all items sent are different: if the RPUSH of `x` was answered before the
RPUSH of `y` was sent, then `y` is not delivered before `x`: neither by an LPOP answered before the LPOP that delivers `x` was
sent, nor earlier in the same reply. -/
theorem C73_queue_fifo {ext rng L σ k ps} (h : Run ext 1 rng L σ) (hr : Reserved Decodes (visible L) k [b! "rpush", b! "lpop"])
    (hps : AllPushes Decodes (visible L) k ps) (hdiff : (ps.flatMap (·.2)).Nodup)
    {j j' vs vs' x y} (hj : (j, vs) ∈ ps) (hx : x ∈ vs) (hj' : (j', vs') ∈ ps) (hy : y ∈ vs') (hjj : Answered (visible L) j j')
    {i i' r r' m m'} (si : Sent Decodes (visible L) i r) (oi : On (b! "lpop") k r) (gi : Got (visible L) i m) (hm : y ∈ items m)
    (si' : Sent Decodes (visible L) i' r') (oi' : On (b! "lpop") k r') (gi' : Got (visible L) i' m') (hm' : x ∈ items m') :
    ¬ Answered (visible L) i i' ∧ (i = i' → ¬ Before (items m) y x) := by
  obtain ⟨ops, he⟩ := explained h
  obtain ⟨rest, _, e⟩ := he.queue hr
  obtain ⟨p, hp, rfl, rfl⟩ := he.got _ _ gi
  obtain ⟨q, hq, rfl, rfl⟩ := he.got _ _ gi'
  have op : y ∈ pops k p := by rw [pops_on (by rw [← sent_unique h si (he.sent p hp)]; exact oi)]; exact hm
  have oq : x ∈ pops k q := by rw [pops_on (by rw [← sent_unique h si' (he.sent q hq)]; exact oi')]; exact hm'
  -- what was popped was pushed, by the requests in question
  have owner : ∀ {z : Bytes} {o : Op} {n us}, o ∈ ops → z ∈ pops k o → (n, us) ∈ ps → z ∈ us → ∃ o' ∈ ops, o'.id = n ∧ z ∈ pushes k o' := by
    intro z o n us ho hz hn hzu
    have : z ∈ ops.flatMap (pushes k) := by rw [e]; exact List.mem_append_left _ (List.mem_flatMap.mpr ⟨o, ho, hz⟩)
    obtain ⟨o', ho', hz'⟩ := List.mem_flatMap.mp this
    have hin := he.push_mem hps ho' hz'
    refine ⟨o', ho', ?_, hz'⟩
    by_contra hne
    obtain ⟨l1, l2, hl⟩ := List.mem_iff_append.mp hin
    rw [hl] at hdiff hn
    simp only [List.flatMap_append, List.flatMap_cons] at hdiff
    rw [List.nodup_append] at hdiff
    obtain ⟨_, hd1, hd2⟩ := hdiff
    rw [List.nodup_append] at hd1
    simp only [List.mem_append, List.mem_cons] at hn
    rcases hn with hn | hn | hn
    · exact hd2 z (List.mem_flatMap.mpr ⟨_, hn, hzu⟩) z (List.mem_append_left _ hz') rfl
    · cases hn; exact hne rfl
    · exact hd1.2.2 z hz' z (List.mem_flatMap.mpr ⟨_, hn, hzu⟩) rfl
  obtain ⟨a, ha, rfl, hxa⟩ := owner hq oq hj hx
  obtain ⟨b, hb, rfl, hyb⟩ := owner hp op hj' hy
  have hpush : Before (ops.flatMap (pushes k)) x y := before_flatMap (he.order a ha b hb hjj) hxa hyb
  obtain ⟨l, hl1, hl2⟩ := he.pushed_le hps
  have hnd : (ops.flatMap (pushes k)).Nodup := hl1.nodup_iff.mp (hl2.nodup hdiff)
  have contra : ¬ Before (ops.flatMap (pops k)) y x := fun hb => by
    have := before_append (l' := rest) hb
    rw [← e] at this
    exact before_asymm hnd hpush this
  refine ⟨fun hans => contra (before_flatMap (he.order p hp q hq hans) op oq), fun hi hbf => contra ?_⟩
  obtain rfl := he.same hp hq hi
  refine before_within hp ?_
  rw [pops_on (by rw [← sent_unique h si (he.sent p hp)]; exact oi)]
  exact hbf

/-- **C73 (queue, nothing lost by the server).**  An item whose RPUSH was answered is in the list, or was delivered, or was taken
by an LPOP that was sent and has no answer (or was answered that the server gave up, see `C73_timeout_violated`). -/
theorem C73_queue_kept {ext rng L σ k} (h : Run ext 1 rng L σ) (hr : Reserved Decodes (visible L) k [b! "rpush", b! "lpop"])
    {j name vs m x} (sj : Sent Decodes (visible L) j (name :: k :: vs)) (hn : lower name = b! "rpush") (gj : Got (visible L) j m)
    (hm : isError m = false) (hx : x ∈ vs) :
    (∃ rest, Shows ext σ.store k rest ∧ x ∈ rest) ∨
    ∃ i req, Sent Decodes (visible L) i req ∧ On (b! "lpop") k req ∧
      ((∃ m, Got (visible L) i m ∧ x ∈ items m) ∨ ¬ ∃ m, Got (visible L) i m) := by
  obtain ⟨ops, he⟩ := explained h
  obtain ⟨rest, hs, e⟩ := he.queue hr
  obtain ⟨p, hp, rfl, rfl⟩ := he.got _ _ gj
  have rp := sent_unique h (he.sent p hp) sj
  have hpx : x ∈ pushes k p := by
    unfold pushes pair
    rw [rp]
    show x ∈ (if lower name ∈ [b! "rpush"] ∧ k = k ∧ isError p.reply = false then vs else [])
    rw [if_pos ⟨by rw [hn]; simp, rfl, hm⟩]; exact hx
  have : x ∈ ops.flatMap (pops k) ++ rest := by rw [← e]; exact List.mem_flatMap.mpr ⟨p, hp, hpx⟩
  rcases List.mem_append.mp this with h1 | h1
  · obtain ⟨o, ho, hxo⟩ := List.mem_flatMap.mp h1
    obtain ⟨on, hxi⟩ := mem_pops hxo
    refine .inr ⟨o.id, o.req, he.sent o ho, on, ?_⟩
    by_cases hg : ∃ m, Got (visible L) o.id m
    · obtain ⟨m, hg⟩ := hg
      obtain ⟨o', ho', h1, h2⟩ := he.got _ _ hg
      obtain rfl := he.same ho ho' h1.symm
      exact .inl ⟨m, hg, h2 ▸ hxi⟩
    · exact .inr hg
  · exact .inl ⟨rest, hs, h1⟩

/-! ## what fails -/

/-- C73 fails for locks: `SET lock v NX` ignores `NX`, so two clients both "acquire" the lock. -/
theorem C73_lock_violated :
    replies [[b! "set", b! "lock", b! "a", b! "NX"], [b! "set", b! "lock", b! "b", b! "NX"], [b! "get", b! "lock"]] =
      some [.simple (b! "OK"), .simple (b! "OK"), .bulk (some (b! "b"))] := by decide +kernel

def rpushQ : Bytes := b! "*3\r\n$5\r\nRPUSH\r\n$1\r\nq\r\n$1\r\na\r\n"
def lpopQ : Bytes := b! "*2\r\n$4\r\nLPOP\r\n$1\r\nq\r\n"

/-- C73 fails for queues when the server gives up: the RPUSH of an item is answered, the only LPOP that could have delivered
it is answered "context deadline exceeded", and the queue is empty. -/
theorem C73_timeout_violated :
    (trySchedule ext0 it0 1 rng0
      [.recv 0 0 rpushQ, .handle 0, .handle 0, .work 0, .work 0, .work 0, .work 0, .handle 0, .handle 0,
       .recv 1 1 lpopQ, .handle 1, .handle 1, .timeout 1, .handle 1, .work 0, .work 0, .work 0, .work 0,
       .recv 2 1 lpopQ, .handle 2, .handle 2, .work 0, .work 0, .work 0, .work 0, .handle 2, .handle 2]).map (·.2.out)
    = some [(0, b! ":1\r\n"), (1, b! "-context deadline exceeded\r\n"), (1, b! "$-1\r\n")] := by decide +kernel

/-! ## the hypotheses are met -/

/-- what the bytes stand for -/
theorem decodes_det {b : Bytes} {req req' : List Bytes} (h : Decodes b req) (h' : Decodes b req') : req = req' := by
  obtain ⟨r, x, h1, h2⟩ := h
  obtain ⟨r', x', h1', h2'⟩ := h'
  rw [h1] at h1'
  cases h1'
  rw [← h2, ← h2']

theorem decodes_of {b : Bytes} {req : List Bytes} (h : Resp.IsRequest b req) (hn : req.length < 2 ^ 63)
    (hl : ∀ a ∈ req, a.length + 2 ≤ 2 ^ 48) : Decodes b req := by
  have := (decodes_request (rest := []) (req' := req) h hn hl).mpr rfl
  rwa [List.append_nil] at this

theorem incrX_request : Decodes incrX [b! "INCR", b! "x"] :=
  decodes_of ⟨b! "2", _, by decide, (.cons (d := b! "4") (by decide) (.cons (d := b! "1") (by decide) .nil)), by decide⟩ (by decide) (by decide)
theorem decodes_rpushQ : Decodes rpushQ [b! "RPUSH", b! "q", b! "a"] :=
  decodes_of ⟨b! "3", _, by decide, (.cons (d := b! "5") (by decide) (.cons (d := b! "1") (by decide) (.cons (d := b! "1") (by decide) .nil))), by decide⟩ (by decide) (by decide)
theorem decodes_lpopQ : Decodes lpopQ [b! "LPOP", b! "q"] :=
  decodes_of ⟨b! "2", _, by decide, (.cons (d := b! "4") (by decide) (.cons (d := b! "1") (by decide) .nil)), by decide⟩ (by decide) (by decide)
def saddS : Bytes := b! "*3\r\n$4\r\nSADD\r\n$1\r\ns\r\n$1\r\nm\r\n"
theorem decodes_saddS : Decodes saddS [b! "SADD", b! "s", b! "m"] :=
  decodes_of ⟨b! "3", _, by decide, (.cons (d := b! "4") (by decide) (.cons (d := b! "1") (by decide) (.cons (d := b! "1") (by decide) .nil))), by decide⟩ (by decide) (by decide)

/-- overlapping requests of two clients -/
def overlap (f : Bytes) : List Act :=
  [.recv 0 0 f, .recv 1 1 f, .handle 0, .handle 1, .handle 1, .work 0, .handle 0, .work 0, .work 0, .work 0, .work 0,
    .handle 1, .work 0, .work 0, .work 0, .handle 0, .handle 0, .handle 1]

/-- Case of C73_unique_numbers: two clients' INCRs overlap; the one sent first gets 2, the other 1. -/
example : ∃ L σ, Run ext0 1 rng0 L σ ∧ Reserved Decodes (visible L) (b! "x") [b! "incr"] ∧ (visible L).length < 2 ^ 63 ∧
    Got (visible L) 0 (.int 2) ∧ Got (visible L) 1 (.int 1) ∧
    Sent Decodes (visible L) 0 [b! "INCR", b! "x"] ∧ Sent Decodes (visible L) 1 [b! "INCR", b! "x"] := by
  have hd : (trySchedule ext0 it0 1 rng0 (overlap incrX)).map (fun p => visible p.1) =
      some [.call 0 0 incrX, .call 1 1 incrX, .ret 0 0 (b! ":2\r\n"), .ret 1 1 (b! ":1\r\n")] := by decide +kernel
  obtain ⟨r, hr, hv⟩ := Option.map_eq_some_iff.mp hd
  refine ⟨r.1, r.2, try_run hr, ?_, ?_, ?_, ?_, ?_, ?_⟩
  · rintro i req ⟨c, b, h1, h2⟩
    rw [hv] at h1
    obtain rfl : b = incrX := by simp at h1; rcases h1 with ⟨_, _, h⟩ | ⟨_, _, h⟩ <;> exact h
    obtain rfl := decodes_det incrX_request h2
    exact ⟨by unfold Plain StrSpec.Ascii; decide, fun _ => by decide⟩
  · rw [hv]; decide
  · rw [hv]; exact ⟨0, b! ":2\r\n", by simp, ⟨1, fun f hf rest => by obtain ⟨f, rfl⟩ : ∃ g, f = g + 1 := ⟨f - 1, by omega⟩; rfl⟩, nofun⟩
  · rw [hv]; exact ⟨1, b! ":1\r\n", by simp, ⟨1, fun f hf rest => by obtain ⟨f, rfl⟩ : ∃ g, f = g + 1 := ⟨f - 1, by omega⟩; rfl⟩, nofun⟩
  · rw [hv]; exact ⟨0, incrX, by simp, incrX_request⟩
  · rw [hv]; exact ⟨1, incrX, by simp, incrX_request⟩

/-- Case of C73_one_winner: two clients' `SADD s m` overlap; the one sent first loses. -/
example : ∃ L σ, Run ext0 1 rng0 L σ ∧ Reserved Decodes (visible L) (b! "s") [b! "sadd"] ∧
    Got (visible L) 0 (.int 0) ∧ Got (visible L) 1 (.int 1) ∧
    Sent Decodes (visible L) 0 [b! "SADD", b! "s", b! "m"] ∧ Sent Decodes (visible L) 1 [b! "SADD", b! "s", b! "m"] := by
  have hd : (trySchedule ext0 it0 1 rng0 (overlap saddS)).map (fun p => visible p.1) =
      some [.call 0 0 saddS, .call 1 1 saddS, .ret 0 0 (b! ":0\r\n"), .ret 1 1 (b! ":1\r\n")] := by decide +kernel
  obtain ⟨r, hr, hv⟩ := Option.map_eq_some_iff.mp hd
  refine ⟨r.1, r.2, try_run hr, ?_, ?_, ?_, ?_, ?_⟩
  · rintro i req ⟨c, b, h1, h2⟩
    rw [hv] at h1
    obtain rfl : b = saddS := by simp at h1; rcases h1 with ⟨_, _, h⟩ | ⟨_, _, h⟩ <;> exact h
    obtain rfl := decodes_det decodes_saddS h2
    exact ⟨by unfold Plain StrSpec.Ascii; decide, fun _ => by decide⟩
  · rw [hv]; exact ⟨0, b! ":0\r\n", by simp, ⟨1, fun f hf rest => by obtain ⟨f, rfl⟩ : ∃ g, f = g + 1 := ⟨f - 1, by omega⟩; rfl⟩, nofun⟩
  · rw [hv]; exact ⟨1, b! ":1\r\n", by simp, ⟨1, fun f hf rest => by obtain ⟨f, rfl⟩ : ∃ g, f = g + 1 := ⟨f - 1, by omega⟩; rfl⟩, nofun⟩
  · rw [hv]; exact ⟨0, saddS, by simp, decodes_saddS⟩
  · rw [hv]; exact ⟨1, saddS, by simp, decodes_saddS⟩

def rpushQb : Bytes := b! "*3\r\n$5\r\nRPUSH\r\n$1\r\nq\r\n$1\r\nb\r\n"
theorem decodes_rpushQb : Decodes rpushQb [b! "RPUSH", b! "q", b! "b"] :=
  decodes_of ⟨b! "3", _, by decide, (.cons (d := b! "5") (by decide) (.cons (d := b! "1") (by decide) (.cons (d := b! "1") (by decide) .nil))), by decide⟩ (by decide) (by decide)

/-- one request from arrival to reply -/
def whole (i c : Nat) (f : Bytes) : List Act :=
  [.recv i c f, .handle i, .handle i, .work 0, .work 0, .work 0, .work 0, .handle i, .handle i]

/-- Case of the queue theorems: a producer sends `a`, then `b`; two consumers. -/
example : ∃ L σ, Run ext0 1 rng0 L σ ∧ Reserved Decodes (visible L) (b! "q") [b! "rpush", b! "lpop"] ∧
    AllPushes Decodes (visible L) (b! "q") [(0, [b! "a"]), (1, [b! "b"])] ∧
    ([(0, [b! "a"]), (1, [b! "b"])].flatMap fun p : Nat × List Bytes => p.2).Nodup ∧
    Answered (visible L) 0 1 ∧ Got (visible L) 0 (.int 1) ∧
    Got (visible L) 2 (Resp.bulks [b! "a"]) ∧ Got (visible L) 3 (Resp.bulks [b! "b"]) ∧
    Sent Decodes (visible L) 2 [b! "LPOP", b! "q"] ∧ Sent Decodes (visible L) 3 [b! "LPOP", b! "q"] := by
  have hd : (trySchedule ext0 it0 1 rng0 (whole 0 0 rpushQ ++ whole 1 0 rpushQb ++ whole 2 1 lpopQ ++ whole 3 2 lpopQ)).map (fun p => visible p.1) =
      some [.call 0 0 rpushQ, .ret 0 0 (b! ":1\r\n"), .call 1 0 rpushQb, .ret 1 0 (b! ":2\r\n"),
        .call 2 1 lpopQ, .ret 2 1 (b! "*1\r\n$1\r\na\r\n"), .call 3 2 lpopQ, .ret 3 2 (b! "*1\r\n$1\r\nb\r\n")] := by decide +kernel
  obtain ⟨r, hr, hv⟩ := Option.map_eq_some_iff.mp hd
  have hsent : ∀ i req, Sent Decodes (visible r.1) i req →
      (i = 0 ∧ req = [b! "RPUSH", b! "q", b! "a"]) ∨ (i = 1 ∧ req = [b! "RPUSH", b! "q", b! "b"]) ∨
      ((i = 2 ∨ i = 3) ∧ req = [b! "LPOP", b! "q"]) := by
    rintro i req ⟨c, b, h1, h2⟩
    rw [hv] at h1
    simp only [List.mem_cons, Linear.Ev.call.injEq, reduceCtorEq, List.not_mem_nil, or_false, false_or] at h1
    rcases h1 with ⟨rfl, _, rfl⟩ | ⟨rfl, _, rfl⟩ | ⟨rfl, _, rfl⟩ | ⟨rfl, _, rfl⟩
    · exact .inl ⟨rfl, decodes_det h2 decodes_rpushQ⟩
    · exact .inr (.inl ⟨rfl, decodes_det h2 decodes_rpushQb⟩)
    · exact .inr (.inr ⟨.inl rfl, decodes_det h2 decodes_lpopQ⟩)
    · exact .inr (.inr ⟨.inr rfl, decodes_det h2 decodes_lpopQ⟩)
  have s0 : Sent Decodes (visible r.1) 0 [b! "RPUSH", b! "q", b! "a"] := ⟨0, rpushQ, by rw [hv]; simp, decodes_rpushQ⟩
  have s1 : Sent Decodes (visible r.1) 1 [b! "RPUSH", b! "q", b! "b"] := ⟨0, rpushQb, by rw [hv]; simp, decodes_rpushQb⟩
  have d1 : ∀ {b : Bytes} {m : Reply}, (∀ f rest, Resp.parse (f + 1) (b ++ rest) = some (m, rest)) → Denotes b m := fun h =>
    ⟨1, fun f hf rest => by obtain ⟨f, rfl⟩ : ∃ g, f = g + 1 := ⟨f - 1, by omega⟩; exact h f rest⟩
  have d3 : ∀ z : UInt8, z ∈ b! "ab" → Denotes (b! "*1\r\n$1\r\n" ++ [z, 13, 10]) (Resp.bulks [[z]]) := by
    intro z _
    exact isRequest_denotes ⟨b! "1", _, by rfl, .cons (d := b! "1") (a := [z]) (by rfl) .nil, by rfl⟩
  refine ⟨r.1, r.2, try_run hr, ?_, ⟨by decide, fun i vs => ⟨?_, ?_⟩⟩, by decide, ?_, ?_, ?_, ?_, ?_, ?_⟩
  · intro i req hs
    rcases hsent i req hs with ⟨_, rfl⟩ | ⟨_, rfl⟩ | ⟨_, rfl⟩ <;>
      exact ⟨by unfold Plain StrSpec.Ascii; decide, fun _ => by decide⟩
  · intro h
    simp only [List.mem_cons, Prod.mk.injEq, List.not_mem_nil, or_false] at h
    rcases h with ⟨rfl, rfl⟩ | ⟨rfl, rfl⟩
    · exact ⟨_, s0, by decide⟩
    · exact ⟨_, s1, by decide⟩
  · rintro ⟨name, hs, hn⟩
    rcases hsent _ _ hs with ⟨rfl, h⟩ | ⟨rfl, h⟩ | ⟨_, h⟩
    · cases h; simp
    · cases h; simp
    · cases h; exact absurd hn (by decide)
  · exact ⟨0, b! ":1\r\n", 0, rpushQb, by rw [hv]; exact ⟨[_], [], _, rfl⟩, fun h => by
      have := denotes_unique h (d1 (m := .int 1) fun f rest => rfl)
      cases this⟩
  · rw [hv]; exact ⟨0, b! ":1\r\n", by simp, d1 fun f rest => rfl, nofun⟩
  · rw [hv]; exact ⟨1, _, by simp, d3 97 (by decide), nofun⟩
  · rw [hv]; exact ⟨2, _, by simp, d3 98 (by decide), nofun⟩
  · rw [hv]; exact ⟨1, lpopQ, by simp, decodes_lpopQ⟩
  · rw [hv]; exact ⟨2, lpopQ, by simp, decodes_lpopQ⟩

end Godis.Event

namespace Godis.V1
open Event (Decodes visible)
open CoordSpec
open Resp (Reply)
open StrSpec (lower)
open ListSpec (items)

/-! ## the v1 server -/

/-- C73, v1 server. -/
theorem C73_v1_unique_numbers {ext rng L v k} (h : VRun ext rng L v) (hr : Reserved Decodes (visible (sysLabels L)) k [b! "incr"])
    (hn : (visible (sysLabels L)).length < 2 ^ 63) {i j ri rj mi mj} (hij : i ≠ j)
    (si : Sent Decodes (visible (sysLabels L)) i ri) (oi : On (b! "incr") k ri) (gi : Got (visible (sysLabels L)) i mi)
    (sj : Sent Decodes (visible (sysLabels L)) j rj) (oj : On (b! "incr") k rj) (gj : Got (visible (sysLabels L)) j mj) :
    ∃ a b : Nat, mi = .int a ∧ mj = .int b ∧ 0 < a ∧ 0 < b ∧ a ≠ b ∧ (Answered (visible (sysLabels L)) i j → a < b) :=
  Event.C73_unique_numbers h.run hr hn hij si oi gi sj oj gj

/-- C73, v1 server. -/
theorem C73_v1_one_winner {ext rng L v k x} (h : VRun ext rng L v) (hr : Reserved Decodes (visible (sysLabels L)) k [b! "sadd"])
    {i name mi} (si : Sent Decodes (visible (sysLabels L)) i [name, k, x]) (hname : lower name = b! "sadd")
    (gi : Got (visible (sysLabels L)) i mi) :
    (mi = .int 1 ∧ ∀ j name' mj, Sent Decodes (visible (sysLabels L)) j [name', k, x] → lower name' = b! "sadd" →
        Got (visible (sysLabels L)) j mj → j ≠ i → mj = .int 0) ∨
    (mi = .int 0 ∧ ∃ j name' xs, j ≠ i ∧ Sent Decodes (visible (sysLabels L)) j (name' :: k :: xs) ∧ lower name' = b! "sadd" ∧
        x ∈ xs ∧ ¬ Answered (visible (sysLabels L)) i j) :=
  Event.C73_one_winner h.run hr si hname gi

/-- C73, v1 server. -/
theorem C73_v1_queue_once {ext rng L v k ps} (h : VRun ext rng L v)
    (hr : Reserved Decodes (visible (sysLabels L)) k [b! "rpush", b! "lpop"])
    (hps : AllPushes Decodes (visible (sysLabels L)) k ps) {rs : List (Nat × Reply)} (hnd : (rs.map (·.1)).Nodup)
    (hrs : ∀ p ∈ rs, Got (visible (sysLabels L)) p.1 p.2 ∧ ∃ req, Sent Decodes (visible (sysLabels L)) p.1 req ∧ On (b! "lpop") k req) :
    (rs.flatMap fun p => items p.2).Subperm (ps.flatMap (·.2)) :=
  Event.C73_queue_once h.run hr hps hnd hrs

end Godis.V1
