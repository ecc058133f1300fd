import Verif.Proofs.Iso5
import Verif.Props.Play
import Verif.Props.Concurrency
/-!
# C68: clients that use different keys do not notice each other

A history lists who sent each request, the request and its reply.  `KeySpec.named` gives the keys of a request;
`KeySpec.looksAt` adds the key that LINDEX looks at by mistake.  KEYS, which is about all keys, is left out.
-/
namespace Godis
open Resp (Reply)
open StrSpec (lower Ascii)

/-- A request with an ASCII name, not KEYS. -/
def NotKeys (req : List Bytes) : Prop :=
  (∀ name ∈ req.head?, Ascii name) ∧ ∀ name ∈ req.head?, lower name ≠ b! "keys"

theorem NotKeys.head {req} (h : NotKeys req) : (lowered req).head? ≠ some (b! "keys") := by
  cases req with
  | nil => simp [lowered]
  | cons a l => simp only [lowered, List.head?_cons, ne_eq, Option.some.injEq]; exact h.2 a (by simp)

theorem named_looksAt {req k} (h : k ∈ KeySpec.named (lowered req)) : k ∈ KeySpec.looksAt (lowered req) := by
  cases req with
  | nil => exact h
  | cons a l =>
    simp only [lowered, KeySpec.looksAt, KeySpec.named] at h ⊢
    split
    · next e =>
      rw [e] at h
      have : k ∈ l.take 1 := h
      exact (List.take_sublist_take_left (l := l) (by omega)).subset this
    · exact h

/-- C68.  In every history, take the clients for which `mine` holds.  If the keys their requests look at are named by no
request of the other clients, then their requests, alone on a new server, can get exactly the replies they got.
`_partial` because of LINDEX, which looks at a key it does not name (`C68_lindex_violated`). -/
theorem C68_alone_partial {ι : Type} {ext rng s} {hist : List (ι × List Bytes × Reply)} (mine : ι → Bool)
    (h : Trace ext (Store.init rng) (hist.map (·.2)) s)
    (hname : ∀ p ∈ hist, ∀ name ∈ p.2.1.head?, Ascii name)
    (hkeys : ∀ p ∈ hist, mine p.1 = true → NotKeys p.2.1)
    (hdiff : ∀ p ∈ hist, ∀ q ∈ hist, mine p.1 = true → mine q.1 = false →
      ∀ k ∈ KeySpec.looksAt (lowered p.2.1), k ∉ KeySpec.named (lowered q.2.1)) :
    ∃ rng' s', Trace ext (Store.init rng') ((hist.filter (fun p => mine p.1)).map (·.2)) s' := by
  obtain ⟨rng', t, _, h1, _, _⟩ := alone (K := fun k => ∃ p ∈ hist, mine p.1 = true ∧ k ∈ KeySpec.looksAt (lowered p.2.1)) mine h hname
    (fun p hp hm => ⟨(hkeys p hp hm).head, fun k hk => ⟨p, hp, hm, hk⟩⟩)
    (fun q hq hm k hk ⟨p, hp, hm', hk'⟩ => hdiff p hp q hq hm' hm k hk' hk) rng
  exact ⟨rng', t, h1⟩

/-- What the keys hold is the same too: after the history, a key that the requests of my clients look at holds the value it has
after these requests alone. -/
theorem C68_same_values_partial {ι : Type} {ext rng s} {hist : List (ι × List Bytes × Reply)} (mine : ι → Bool)
    (h : Trace ext (Store.init rng) (hist.map (·.2)) s)
    (hname : ∀ p ∈ hist, ∀ name ∈ p.2.1.head?, Ascii name)
    (hkeys : ∀ p ∈ hist, mine p.1 = true → NotKeys p.2.1)
    (hdiff : ∀ p ∈ hist, ∀ q ∈ hist, mine p.1 = true → mine q.1 = false →
      ∀ k ∈ KeySpec.looksAt (lowered p.2.1), k ∉ KeySpec.named (lowered q.2.1)) :
    ∃ rng' s', Trace ext (Store.init rng') ((hist.filter (fun p => mine p.1)).map (·.2)) s' ∧
      ∀ p ∈ hist, mine p.1 = true → ∀ k ∈ KeySpec.looksAt (lowered p.2.1), s.valueAt k = s'.valueAt k := by
  obtain ⟨rng', t, B, h1, h2, _⟩ := alone (K := fun k => ∃ p ∈ hist, mine p.1 = true ∧ k ∈ KeySpec.looksAt (lowered p.2.1)) mine h hname
    (fun p hp hm => ⟨(hkeys p hp hm).head, fun k hk => ⟨p, hp, hm, hk⟩⟩)
    (fun q hq hm k hk ⟨p, hp, hm', hk'⟩ => hdiff p hp q hq hm' hm k hk' hk) rng
  refine ⟨rng', t, h1, fun p hp hm k hk => ?_⟩
  have := h2.keys ⟨p, hp, hm, hk⟩
  unfold Store.valueAt
  revert this
  generalize s.keys.get k = i
  generalize t.keys.get k = j
  rintro (_ | _ | hb)
  · rfl
  · rfl
  · obtain ⟨o, h3, h4⟩ := h2.heap hb
    simp only [h3, h4]

/-- C68, both ways.  When two groups of clients use different keys, the histories of the server are exactly the interleavings of
a history of the one group alone and a history of the other group alone. -/
theorem C68_interleavings_partial {ext} (hist : List (Bool × List Bytes × Reply))
    (hkeys : ∀ p ∈ hist, NotKeys p.2.1)
    (hdiff : ∀ p ∈ hist, ∀ q ∈ hist, p.1 ≠ q.1 → ∀ k ∈ KeySpec.looksAt (lowered p.2.1), k ∉ KeySpec.looksAt (lowered q.2.1)) :
    (∃ rng s, Trace ext (Store.init rng) (hist.map (·.2)) s) ↔
      (∃ rng s, Trace ext (Store.init rng) ((hist.filter (fun p => p.1)).map (·.2)) s) ∧
      (∃ rng s, Trace ext (Store.init rng) ((hist.filter (fun p => !p.1)).map (·.2)) s) := by
  constructor
  · rintro ⟨rng, s, h⟩
    refine ⟨?_, ?_⟩
    · refine C68_alone_partial (fun b => b) h (fun p hp => (hkeys p hp).1) (fun p hp _ => hkeys p hp) ?_
      intro p hp q hq h1 h2 k hk hk'
      exact hdiff p hp q hq (by rw [h1, h2]; decide) k hk (named_looksAt hk')
    · refine C68_alone_partial (fun b => !b) h (fun p hp => (hkeys p hp).1) (fun p hp _ => hkeys p hp) ?_
      intro p hp q hq h1 h2 k hk hk'
      refine hdiff p hp q hq (fun e => ?_) k hk (named_looksAt hk')
      rw [e, h2] at h1; cases h1
  · rintro ⟨⟨r1, t, h1⟩, ⟨r2, u, h2⟩⟩
    obtain ⟨rng, s, _, _, h, _⟩ := together (K := fun k => ∃ p ∈ hist, p.1 = true ∧ k ∈ KeySpec.looksAt (lowered p.2.1)) (fun b => b) hist
      (fun p hp => (hkeys p hp).1) (fun p hp => (hkeys p hp).head) (by
        intro p hp k hk
        have hk : k ∈ KeySpec.looksAt (lowered p.2.1) := hk.elim id named_looksAt
        constructor
        · rintro ⟨q, hq, hb, hk'⟩
          by_contra hne
          exact hdiff q hq p hp (fun e => hne (e ▸ hb)) k hk' hk
        · exact fun hb => ⟨p, hp, hb, hk⟩) h1 h2 r1
    exact ⟨rng, s, h⟩

/-- LINDEX looks at a key it does not name: `LINDEX l 0` of one client returns what another client pushed to the key `0`; alone it
gets a null. -/
theorem C68_lindex_violated :
    (∃ s, Trace ext0 (Store.init rng0) [([b! "rpush", b! "0", b! "secret"], .int 1), ([b! "lindex", b! "l", b! "0"], .bulk (b! "secret"))] s) ∧
    ¬ ∃ rng' s', Trace ext0 (Store.init rng') [([b! "lindex", b! "l", b! "0"], .bulk (b! "secret"))] s' := by
  constructor
  · have : (play ext0 it0 (Store.init rng0) [[b! "rpush", b! "0", b! "secret"], [b! "lindex", b! "l", b! "0"]]).map (·.1) =
        some [([b! "rpush", b! "0", b! "secret"], .int 1), ([b! "lindex", b! "l", b! "0"], .bulk (b! "secret"))] := by decide +kernel
    obtain ⟨⟨tr, s⟩, h1, h2⟩ := Option.map_eq_some_iff.mp this
    simp only at h2
    exact ⟨s, h2 ▸ play_trace h1⟩
  · rintro ⟨rng', s', h⟩
    obtain ⟨s, it, h1, rsp, h2, h3⟩ := Trace.last (tr := []) h
    generalize hx : ([] : List (List Bytes × Reply)) = x at h1
    cases h1 with
    | snoc => simp at hx
    | nil =>
      have e : runRequest ext0 it (Store.init rng') [b! "lindex", b! "l", b! "0"] =
        .ok (Store.init rng', some (newResponseWithNilBulk)) := rfl
      rw [e] at h2
      cases h2
      revert h3; decide

namespace Event
open Linear (Linearizable Before Op)

theorem before_filter {α : Type} {l : List α} {f : α → Bool} {a b : α} (h : Before l a b) (ha : f a = true) (hb : f b = true) :
    Before (l.filter f) a b := by
  obtain ⟨l1, l2, l3, rfl⟩ := h
  refine ⟨l1.filter f, l2.filter f, l3.filter f, ?_⟩
  simp [List.filter_append, ha, hb]

theorem before_of_filter {α : Type} {l : List α} {f : α → Bool} {a b : α} (h : Before (l.filter f) a b) : Before l a b := by
  obtain ⟨l1, l2, l3, e⟩ := h
  obtain ⟨m1, m2, rfl, e1, e2⟩ := List.filter_eq_append_iff.mp e
  obtain ⟨m3, m4, rfl, e3, e4, e5⟩ := List.filter_eq_cons_iff.mp e2
  obtain ⟨m5, m6, rfl, e6, e7⟩ := List.filter_eq_append_iff.mp e5
  obtain ⟨m7, m8, rfl, e8, e9, e10⟩ := List.filter_eq_cons_iff.mp e7
  exact ⟨m1 ++ m3, m5 ++ m7, m8, by simp⟩

/-- the connection of a visible event -/
def connOf : Linear.Ev → Nat
  | .call _ c _ => c
  | .ret _ c _ => c

/-- C68 for the whole server.  In every schedule of the server, take some of the connections.  If the keys their requests look
at are named by no request of the other connections, then what is seen on these connections is explained, in the sense of
`Linearizable`, by a server of their own that executes their requests only, one at a time. -/
theorem C68_schedules_partial {ext rng L σ} (h : Run ext 1 rng L σ) (mine : Nat → Bool)
    (hname : ∀ i c f req, .call i c f ∈ visible L → Decodes f req → ∀ name ∈ req.head?, Ascii name)
    (hkeys : ∀ i c f req, .call i c f ∈ visible L → Decodes f req → mine c = true → NotKeys req)
    (hdiff : ∀ i c f req i' c' f' req', .call i c f ∈ visible L → .call i' c' f' ∈ visible L → Decodes f req → Decodes f' req' →
      mine c = true → mine c' = false → ∀ k ∈ KeySpec.looksAt (lowered req), k ∉ KeySpec.named (lowered req')) :
    Linearizable (fun tr => ∃ rng' s', Trace ext (Store.init rng') tr s') Decodes ((visible L).filter (fun e => mine (connOf e))) := by
  classical
  obtain ⟨ops, h1, h2, h3, h4, h5⟩ := C43_linearizable h
  let own : Op → Bool := fun o => decide (∃ c f, .call o.id c f ∈ visible L ∧ mine c = true)
  have ownC : ∀ {o c f}, .call o.id c f ∈ visible L → own o = mine c := by
    intro o c f hc
    by_cases hm : mine c = true
    · rw [hm]; exact decide_eq_true ⟨c, f, hc, hm⟩
    · rw [Bool.not_eq_true] at hm
      rw [hm]
      refine decide_eq_false ?_
      rintro ⟨c', f', hc', hm'⟩
      obtain ⟨rfl, _⟩ := h.recv_unique (mem_visible_call.mp hc) (mem_visible_call.mp hc')
      rw [hm] at hm'; cases hm'
  have memF : ∀ {e}, e ∈ (visible L).filter (fun e => mine (connOf e)) ↔ e ∈ visible L ∧ mine (connOf e) = true := by
    intro e; rw [List.mem_filter]
  refine ⟨ops.filter own, ?_, ?_, ?_, ?_, ?_⟩
  · have := C68_alone_partial (ι := Bool) (hist := ops.map fun o => (own o, o.req, o.reply)) (fun b => b) (ext := ext) (rng := rng) (s := σ.store)
      (by rw [List.map_map]; exact h1) ?_ ?_ ?_
    · obtain ⟨rng', s', ht⟩ := this
      refine ⟨rng', s', ?_⟩
      have e : ((ops.map fun o => (own o, o.req, o.reply)).filter (fun p => p.1)).map (·.2) = (ops.filter own).map fun o => (o.req, o.reply) := by
        rw [List.filter_map, List.map_map]; rfl
      rw [← e]; exact ht
    · rintro p hp
      obtain ⟨o, ho, rfl⟩ := List.mem_map.mp hp
      obtain ⟨c, f, hc, hd⟩ := h3 o ho
      exact hname _ _ _ _ hc hd
    · rintro p hp hm
      obtain ⟨o, ho, rfl⟩ := List.mem_map.mp hp
      obtain ⟨c, f, hc, hd⟩ := h3 o ho
      exact hkeys _ _ _ _ hc hd (by rw [← ownC hc]; exact hm)
    · rintro p hp q hq hm hm'
      obtain ⟨o, ho, rfl⟩ := List.mem_map.mp hp
      obtain ⟨o', ho', rfl⟩ := List.mem_map.mp hq
      obtain ⟨c, f, hc, hd⟩ := h3 o ho
      obtain ⟨c', f', hc', hd'⟩ := h3 o' ho'
      exact hdiff _ _ _ _ _ _ _ _ hc hc' hd hd' (by rw [← ownC hc]; exact hm) (by rw [← ownC hc']; exact hm')
  · exact (List.filter_sublist.map _).nodup h2
  · intro o ho
    obtain ⟨ho, hm⟩ := List.mem_filter.mp ho
    obtain ⟨c, f, hc, hd⟩ := h3 o ho
    exact ⟨c, f, memF.mpr ⟨hc, by rw [← hm]; exact (ownC hc).symm⟩, hd⟩
  · intro i c b hr
    obtain ⟨hr, hm⟩ := memF.mp hr
    obtain ⟨⟨b', hc⟩, hd⟩ := h4 i c b hr
    refine ⟨⟨b', memF.mpr ⟨hc, hm⟩⟩, ?_⟩
    rcases hd with hd | ⟨o, ho, rfl, hd⟩
    · exact .inl hd
    · exact .inr ⟨o, List.mem_filter.mpr ⟨ho, by rw [ownC hc]; exact hm⟩, rfl, hd⟩
  · intro o ho o' ho' c b c' b' hb hbef
    obtain ⟨ho, hm⟩ := List.mem_filter.mp ho
    obtain ⟨ho', hm'⟩ := List.mem_filter.mp ho'
    exact before_filter (h5 o ho o' ho' c b c' b' hb (before_of_filter hbef)) hm hm'

end Event

/-! ## The hypotheses are met -/

/-- Two clients: one with the keys `a`, `z` and `s`, the other with `b` and `t`. -/
def twoClients : List (Bool × List Bytes) :=
  [(true, [b! "SET", b! "a", b! "1"]), (false, [b! "zadd", b! "t", b! "3", b! "x"]), (true, [b! "zadd", b! "z", b! "2", b! "x"]),
   (false, [b! "incr", b! "b"]), (true, [b! "sadd", b! "s", b! "m"]), (false, [b! "del", b! "t"]), (true, [b! "sunionstore", b! "u", b! "s"]),
   (true, [b! "zrange", b! "z", b! "0", b! "-1", b! "withscores"]), (false, [b! "zcard", b! "t"]), (true, [b! "incr", b! "a"])]

theorem twoClients_apart : (∀ p ∈ twoClients, NotKeys p.2) ∧ ∀ p ∈ twoClients, ∀ q ∈ twoClients, p.1 ≠ q.1 →
    ∀ k ∈ KeySpec.looksAt (lowered p.2), k ∉ KeySpec.looksAt (lowered q.2) := by
  unfold NotKeys Ascii; decide +kernel

/-- The history of the two clients exists, with these replies. -/
example : ∃ (s : Store) (hist : List (Bool × List Bytes × Reply)), hist.map (fun p => (p.1, p.2.1)) = twoClients ∧
    Trace ext0 (Store.init rng0) (hist.map (·.2)) s ∧
    (hist.filter (fun p => p.1)).map (·.2.2) = [.simple (b! "OK"), .int 1, .int 1, .int 1, Resp.bulks [b! "x", b! "2"], .int 2] ∧
    (hist.filter (fun p => !p.1)).map (·.2.2) = [.int 1, .int 1, .int 1, .int 0] := by
  have hp : (play ext0 it0 (Store.init rng0) (twoClients.map (·.2))).map (fun p => p.1.map (·.2)) = some
      [.simple (b! "OK"), .int 1, .int 1, .int 1, .int 1, .int 1, .int 1, Resp.bulks [b! "x", b! "2"], .int 0, .int 2] := by decide +kernel
  obtain ⟨⟨tr, s⟩, h1, h2⟩ := Option.map_eq_some_iff.mp hp
  have h3 := play_fst h1
  refine ⟨s, (twoClients.map (·.1)).zip tr, ?_, ?_, ?_, ?_⟩
  all_goals
    simp only at h2
    have htr : tr = (twoClients.map (·.2)).zip [.simple (b! "OK"), .int 1, .int 1, .int 1, .int 1, .int 1, .int 1,
        Resp.bulks [b! "x", b! "2"], .int 0, .int 2] := by
      rw [← h2, ← h3]
      clear * -
      induction tr with
      | nil => rfl
      | cons a l ih => simp only [List.map_cons, List.zip_cons_cons]; rw [← ih]
    first
    | (rw [htr]; decide +kernel)
    | (have : ((twoClients.map (·.1)).zip tr).map (·.2) = tr := by rw [htr]; rfl
       rw [this]; exact play_trace h1)

end Godis
