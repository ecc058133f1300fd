import Verif.Props.ZSets2
import Verif.Props.Crash
import Verif.Proofs.Same
/-!
# C42 for all commands: what depends on the random heights of skip-list nodes

Two servers get the same requests and iterate over Go maps in the same orders; only the random heights differ.
-/
namespace Godis
open Resp (Reply bulks)
open ZSpec (commands after)
open StrSpec (lower Ascii)

/-- The answered requests, in order, with the order of map iteration during each of them. -/
inductive TraceIn (ext : Ext) (s0 : Store) : List Iter → List (List Bytes × Reply) → Store → Prop
  | nil : TraceIn ext s0 [] [] s0
  | snoc {its tr s it req m s'} : TraceIn ext s0 its tr s → Answers ext it s req m s' → TraceIn ext s0 (its ++ [it]) (tr ++ [(req, m)]) s'

theorem TraceIn.trace {ext s0 its tr s} (h : TraceIn ext s0 its tr s) : Trace ext s0 tr s := by
  induction h with
  | nil => exact .nil
  | snoc _ ha ih => exact .snoc ih ha

variable {ext : Ext} {rng rng' : Rng} {its : List Iter} {tr tr' : List (List Bytes × Reply)} {s s' : Store}

theorem isZ_iff (c : Cmd) : Same.isZ c = true ↔ c.name ∈ commands := by cases c <;> decide +kernel

/-- one request on two stores that differ only inside sorted sets -/
theorem same_request (h : Same s s') {it req} (hn : lower (req.headD []) ∉ commands) (hN : Named req) :
    Same.G Same.R (runRequest ext it s req) (runRequest ext it s' req) := by
  unfold runRequest
  rcases req with _ | ⟨name, args⟩
  · exact .ok ⟨h, rfl⟩
  have hl : toLower ext.lowerUni name = lower name := lower_eq (hN name rfl)
  simp only [newCommand, hl, execute]
  cases hc : lookupCmd (lower name) with
  | none => exact .ok ⟨h, rfl⟩
  | some c =>
    have hz : Same.isZ c = false := by
      cases hz : Same.isZ c with
      | false => rfl
      | true => exact absurd (lookup_name hc ▸ (isZ_iff c).mp hz) hn
    refine Same.G.bind (R := Same.R) (Same.G.bind (Q := Same.R) (h.fn_same ext it c hz args) ?_) ?_
    · rintro ⟨a, b⟩ ⟨a', b'⟩ ⟨h1, h2⟩; cases h2; exact .ok ⟨h1, rfl⟩
    · rintro ⟨a, b⟩ ⟨a', b'⟩ ⟨h1, h2⟩; cases h2; exact .ok ⟨h1, rfl⟩

theorem same_zrequest (h : Same s s') (ht : Typed s) (ht' : Typed s') {it it' req m m' s1 s1'} (hn : lower (req.headD []) ∈ commands)
    (hN : Named req) (ha : Answers ext it s req m s1) (ha' : Answers ext it' s' req m' s1') : Same s1 s1' := by
  obtain ⟨r, h1, -⟩ := ha
  obtain ⟨r', h1', -⟩ := ha'
  unfold runRequest at h1 h1'
  rcases req with _ | ⟨name, args⟩
  · exact absurd hn (by decide)
  have hl : toLower ext.lowerUni name = lower name := lower_eq (hN name rfl)
  simp only [newCommand, hl] at h1 h1'
  obtain ⟨⟨a, b⟩, g1, g2⟩ := bind_ok h1
  obtain ⟨⟨a', b'⟩, g1', g2'⟩ := bind_ok h1'
  cases g2; cases g2'
  unfold execute at g1 g1'
  cases hc : lookupCmd (lower name) with
  | none => rw [hc] at g1 g1'; cases g1; cases g1'; exact h
  | some c =>
    rw [hc] at g1 g1'
    obtain ⟨⟨p, q⟩, k1, k2⟩ := bind_ok g1
    obtain ⟨⟨p', q'⟩, k1', k2'⟩ := bind_ok g1'
    cases k2; cases k2'
    exact h.z_same c ((isZ_iff c).mpr (lookup_name hc ▸ hn)) ht ht' k1 k1'

/-- The two requests are the same, and so are the replies unless it is a sorted-set command. -/
def AgreeOff (p q : List Bytes × Reply) : Prop := p.1 = q.1 ∧ (lower (p.1.headD []) ∉ commands → p.2 = q.2)

theorem traceIn_same (h : TraceIn ext (Store.init rng) its tr s) (h' : TraceIn ext (Store.init rng') its tr' s')
    (hreq : tr.map (·.1) = tr'.map (·.1)) (hN : ∀ p ∈ tr, Named p.1) : Same s s' ∧ List.Forall₂ AgreeOff tr tr' := by
  induction h generalizing tr' s' with
  | nil =>
    cases tr' with
    | cons => cases hreq
    | nil =>
      generalize hi : ([] : List Iter) = its at h'
      generalize htr : ([] : List (List Bytes × Reply)) = tr at h'
      cases h' with
      | nil => exact ⟨⟨rfl, .nil⟩, .nil⟩
      | snoc => simp at htr
  | @snoc its tr s it req m s1 hp ha ih =>
    generalize hi : its ++ [it] = its' at h'
    cases h' with
    | nil => simp at hi
    | @snoc its2 tr2 s2 it2 req2 m2 s3 hp2 ha2 =>
      obtain ⟨e1, e2⟩ := List.append_inj' hi rfl
      cases e2; subst e1
      simp only [List.map_append, List.map_cons, List.map_nil] at hreq
      obtain ⟨e3, e4⟩ := List.append_inj' hreq rfl
      cases e4
      obtain ⟨i1, i2⟩ := ih hp2 e3 (fun p hp => hN p (by simp [hp]))
      have hNr : Named req := hN (req, m) (by simp)
      by_cases hz : lower (req.headD []) ∈ commands
      · refine ⟨same_zrequest i1 (hp.trace.typed (typed_init _)) (hp2.trace.typed (typed_init _)) hz hNr ha ha2, ?_⟩
        exact List.rel_append i2 (.cons ⟨rfl, fun h => absurd hz h⟩ .nil)
      · obtain ⟨r, g1, g2⟩ := ha
        obtain ⟨r', g1', g2'⟩ := ha2
        have hG := same_request (ext := ext) (it := it) i1 hz hNr
        rw [g1, g1'] at hG
        cases hG with
        | ok hR =>
          obtain ⟨k1, k2⟩ := hR
          have k2 : r = r' := Option.some.inj k2
          subst k2
          rw [g2] at g2'
          exact ⟨k1, List.rel_append i2 (.cons ⟨rfl, fun _ => Option.some.inj g2'⟩ .nil)⟩

/-- C42, all commands that are not sorted-set commands: whatever sorted-set requests were served in between (including those
whose effects the heights decide), the replies of all other commands do not depend on the heights. -/
theorem C42_other_replies (h : TraceIn ext (Store.init rng) its tr s) (h' : TraceIn ext (Store.init rng') its tr' s')
    (hreq : tr.map (·.1) = tr'.map (·.1)) (hN : ∀ p ∈ tr, Named p.1) : List.Forall₂ AgreeOff tr tr' :=
  (traceIn_same h h' hreq hN).2

/-- C42: and neither does whether they crash the server. -/
theorem C42_other_crashes (h : TraceIn ext (Store.init rng) its tr s) (h' : TraceIn ext (Store.init rng') its tr' s')
    (hreq : tr.map (·.1) = tr'.map (·.1)) (hN : ∀ p ∈ tr, Named p.1) {it : Iter} {req : List Bytes}
    (hn : lower (req.headD []) ∉ commands) (hNr : Named req) : Crashes ext it s req ↔ Crashes ext it s' req := by
  have hG := same_request (ext := ext) (it := it) (traceIn_same h h' hreq hN).1 hn hNr
  unfold Crashes
  generalize runRequest ext it s req = x at hG
  generalize runRequest ext it s' req = y at hG
  cases hG with
  | ok => exact ⟨fun ⟨_, h⟩ => by (cases h), fun ⟨_, h⟩ => by (cases h)⟩
  | error => exact Iff.rfl

/-- C42 for histories that mix all commands: if the sorted-set requests keep away from what the defects expose, all replies
of the two servers are equal. -/
theorem C42_mixed_partial (h : TraceIn ext (Store.init rng) its tr s) (h' : TraceIn ext (Store.init rng') its tr' s')
    (hreq : tr.map (·.1) = tr'.map (·.1)) (hN : ∀ p ∈ tr, Named p.1) (hw : ZSpec.words tr < 2 ^ 61)
    (hs : ∀ tr1 p tr2, tr = tr1 ++ p :: tr2 → lower (p.1.headD []) ∈ commands → Settled (numOf ext) (after (numOf ext) tr1) p.1 p.2) :
    tr = tr' := by
  have hoff := (traceIn_same h h' hreq hN).2
  have hN' : ∀ p ∈ tr', Named p.1 := fun p hp => by
    have : p.1 ∈ tr.map (·.1) := hreq ▸ List.mem_map_of_mem hp
    obtain ⟨q, hq, e⟩ := List.mem_map.mp this
    exact e ▸ hN q hq
  have hw' : ZSpec.words tr' < 2 ^ 61 := by
    have : ∀ t : List (List Bytes × Reply), ZSpec.words t = ((t.map (·.1)).map List.length).sum := by
      intro t; simp [ZSpec.words, List.map_map, Function.comp_def]
    rw [this] at hw ⊢
    rwa [← hreq]
  have H : History ext tr s := ⟨⟨_, h.trace⟩, hN, hw⟩
  have H' : History ext tr' s' := ⟨⟨_, h'.trace⟩, hN', hw'⟩
  clear h h' hN hw hN' hw'
  induction tr using List.reverseRecOn generalizing tr' s s' with
  | nil => cases tr' with
    | nil => rfl
    | cons => cases hreq
  | append_singleton tr p ih =>
    induction tr' using List.reverseRecOn with
    | nil => simp at hreq
    | append_singleton tr' p' _ =>
      simp only [List.map_append, List.map_cons, List.map_nil] at hreq
      obtain ⟨e1, e2⟩ := List.append_inj' hreq rfl
      have hlen : tr.length = tr'.length := by simpa using congrArg List.length e1
      obtain ⟨o1, o2⟩ : List.Forall₂ AgreeOff tr tr' ∧ AgreeOff p p' := by
        rw [List.forall₂_iff_get] at hoff
        obtain ⟨l1, l2⟩ := hoff
        constructor
        · rw [List.forall₂_iff_get]
          refine ⟨hlen, fun i h1 h2 => ?_⟩
          have := l2 i (by simp; omega) (by simp; omega)
          simpa [List.get_eq_getElem, List.getElem_append_left h1, List.getElem_append_left h2] using this
        · have := l2 tr.length (by simp) (by simp; omega)
          simpa [List.get_eq_getElem, hlen] using this
      obtain ⟨req, m⟩ := p
      obtain ⟨req', m'⟩ := p'
      cases e2
      obtain ⟨s1, it1, g1, a1⟩ := H.last
      obtain ⟨s2, it2, g2, a2⟩ := H'.last
      have := ih e1 (fun tr1 p tr2 he => hs tr1 p (tr2 ++ [(req, m)]) (by rw [he]; simp)) o1 g1 g2
      subst this
      by_cases hz : lower (req.headD []) ∈ commands
      · have hset : Settled (numOf ext) (after (numOf ext) tr) req m := hs tr (req, m) [] (by simp) hz
        rcases req with _ | ⟨name, args⟩
        · exact absurd hz (by decide)
        rw [settled_unique hset (H.fits hset.command) (H'.fits hset.command)]
      · have e : m = m' := o2.2 hz
        rw [e]

/-! ## cases -/

theorem TraceIn.cons {s0 it req m s1} (ha : Answers ext it s0 req m s1) (h : TraceIn ext s1 its tr s) :
    TraceIn ext s0 (it :: its) ((req, m) :: tr) s := by
  induction h with
  | nil => exact .snoc .nil ha
  | snoc _ hb ih => exact .snoc ih hb

theorem play_traceIn {it} : ∀ {reqs s tr s'}, play ext it s reqs = some (tr, s') → TraceIn ext s (List.replicate reqs.length it) tr s'
  | [], s, tr, s', h => by cases h; exact .nil
  | req :: rest, s, tr, s', h => by
    unfold play at h
    split at h
    · next s1 rsp hr =>
      split at h
      · next m hm =>
        split at h
        · next tr1 s2 hp =>
          cases h
          exact .cons ⟨rsp, hr, hm⟩ (play_traceIn hp)
        · cases h
      · cases h
    · cases h

/-- Case: the heights decide what ZRANGE replies; the replies of KEYS, TYPE and LRANGE around it are the same. -/
def heightsDemo : List (List Bytes) :=
  [[b! "rpush", b! "l", b! "x", b! "y"], [b! "zadd", b! "z", b! "1", b! "a", b! "2", b! "b", b! "3", b! "c", b! "4", b! "d"],
   [b! "zrem", b! "z", b! "c"], [b! "keys", b! "*"], [b! "zrange", b! "z", b! "0", b! "-1"], [b! "type", b! "z"],
   [b! "lrange", b! "l", b! "0", b! "-1"]]

example : ∃ its tr tr' s s', TraceIn ext0 (Store.init rng0) its tr s ∧ TraceIn ext0 (Store.init (fun i => [0, 1, 1].getD i 0)) its tr' s' ∧
    tr.map (·.1) = tr'.map (·.1) ∧ (∀ p ∈ tr, Named p.1) ∧ tr ≠ tr' := by
  have hp : (play ext0 it0 (Store.init rng0) heightsDemo).isSome := by decide +kernel
  have hp' : (play ext0 it0 (Store.init (fun i => [0, 1, 1].getD i 0)) heightsDemo).isSome := by decide +kernel
  have hne : (play ext0 it0 (Store.init rng0) heightsDemo).map (·.1) ≠ (play ext0 it0 (Store.init (fun i => [0, 1, 1].getD i 0)) heightsDemo).map (·.1) := by
    decide +kernel
  obtain ⟨⟨tr, s⟩, h⟩ := Option.isSome_iff_exists.mp hp
  obtain ⟨⟨tr', s'⟩, h'⟩ := Option.isSome_iff_exists.mp hp'
  refine ⟨_, tr, tr', s, s', play_traceIn h, play_traceIn h', (play_fst h).trans (play_fst h').symm, ?_, ?_⟩
  · intro p hp
    have : p.1 ∈ heightsDemo := play_fst h ▸ List.mem_map_of_mem hp
    revert this
    have : ∀ q ∈ heightsDemo, Named q := by decide +kernel
    exact this _
  · rw [h, h'] at hne
    intro e; exact hne (by simp [e])

end Godis
