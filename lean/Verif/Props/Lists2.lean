import Verif.Proofs.Lists4
import Verif.Props.Lists
/-!
# C21–C24: queue and stack order, LRANGE, LREM, LINDEX, LSET, LINSERT

"The list at `k` is `l`" is said through the API: LRANGE `k` 0 -1 replies `l`.
-/
namespace Godis
open Resp (Reply bulks)
open ListSpec
open StrSpec (int64 lower isError Ascii)
open KeySpec (keyArgs readOnly)

/-- LRANGE 0 -1 shows the sequence `l` -/
def Shows (ext : Ext) (s : Store) (k : Bytes) (l : List Bytes) : Prop :=
  Reads ext s [b! "lrange", k, b! "0", b! "-1"] (bulks l)

/-- play a history, with the facts needed below -/
theorem demo {reqs : List (List Bytes)} (hp : (play ext0 it0 (Store.init rng0) reqs).isSome) :
    ∃ s, Trace ext0 (Store.init rng0) (reqs.zip ((replies reqs).getD [])) s := by
  obtain ⟨⟨tr, s⟩, h⟩ := Option.isSome_iff_exists.mp hp
  have htr : tr = reqs.zip ((replies reqs).getD []) := by
    have h2 : replies reqs = some (tr.map (·.2)) := by unfold replies; rw [h]; rfl
    rw [h2, ← play_fst h]; simp [List.zip_map', List.map_id'']
  exact ⟨s, htr ▸ play_trace h⟩

/-! ## C21 -/

/-- C21, queue.  In every history that uses `k` only with RPUSH and LPOP (and commands that only read), what was pushed
is, in order, what was popped followed by what is still in the list: first in, first out, nothing lost or duplicated. -/
theorem C21_fifo {ext rng tr s k} (h : Trace ext (Store.init rng) tr s) (hp : ∀ p ∈ tr, Plain p.1)
    (hu : OnlyUses k [b! "rpush", b! "lpop"] tr) :
    ∃ rest, Shows ext s k rest ∧ pushed [b! "rpush"] k tr = popped [b! "lpop"] k tr ++ rest := by
  obtain ⟨h1, h2⟩ := fifo_trace h hp hu
  exact ⟨_, reads_full (h.lmatch hp k) h1.ne_lost h1.ne_other, h2⟩

/-- C21, nothing lost or duplicated.  In every history that uses `k` only with LPUSH, RPUSH, LPOP and RPOP (and commands
that only read), the elements pushed are, as a multiset, the elements popped and the elements still in the list. -/
theorem C21_conservation {ext rng tr s k} (h : Trace ext (Store.init rng) tr s) (hp : ∀ p ∈ tr, Plain p.1)
    (hu : OnlyUses k [b! "lpush", b! "rpush", b! "lpop", b! "rpop"] tr) :
    ∃ rest, Shows ext s k rest ∧
      (pushed [b! "lpush", b! "rpush"] k tr).Perm (popped [b! "lpop", b! "rpop"] k tr ++ rest) := by
  obtain ⟨h1, h2⟩ := deque_trace h hp hu
  exact ⟨_, reads_full (h.lmatch hp k) h1.ne_lost h1.ne_other, h2⟩

/-- C21, stack.  In every history that uses `k` only with LPUSH, RPUSH, LPOP and RPOP: if the list is `l`, RPUSH pushes
`xs`, any requests that do not name `k` follow, and then RPOP pops as many, the reply is `xs` in reverse order and the
list is `l` again. -/
theorem C21_lifo {ext rng tr s1 s2 s3 s4 k} (h : Trace ext (Store.init rng) tr s1)
    (hu : OnlyUses k [b! "lpush", b! "rpush", b! "lpop", b! "rpop"] tr) {l : List Bytes} (hl : Shows ext s1 k l)
    {xs : List Bytes} (hx : xs ≠ []) {it1 m1} (h1 : Answers ext it1 s1 (b! "rpush" :: k :: xs) m1 s2)
    {mid} (h2 : Trace ext s2 mid s3) (hmid : ∀ p ∈ mid, k ∉ keyArgs (lower (p.1.headD [])) p.1.tail)
    {n : Bytes} (hn : int64 n = some (xs.length : Int)) {it2 m2} (h3 : Answers ext it2 s3 [b! "rpop", k, n] m2 s4)
    (hp : ∀ p ∈ tr ++ mid, Plain p.1) :
    m1 = .int (l.length + xs.length) ∧ m2 = bulks xs.reverse ∧ Shows ext s4 k l := by
  have hpt : ∀ p ∈ tr, Plain p.1 := fun p hq => hp p (List.mem_append_left _ hq)
  obtain ⟨hseq, _⟩ := deque_trace h hpt hu
  have hv := h.lmatch hpt k
  obtain ⟨_, hel⟩ := full_of_reads hv hseq.ne_lost hl
  have hpr : Plain (b! "rpush" :: k :: xs) := by
    refine ⟨?_, fun h => absurd (show lower (b! "rpush") = b! "linsert" from h) (by decide)⟩
    intro n hn
    simp only [List.head?_cons, Option.mem_def, Option.some.injEq] at hn
    subst hn; unfold Ascii; decide
  have hpr2 : Plain [b! "rpop", k, n] := by
    refine ⟨?_, fun h => absurd (show lower (b! "rpop") = b! "linsert" from h) (by decide)⟩
    intro n hn
    simp only [List.head?_cons, Option.mem_def, Option.some.injEq] at hn
    subst hn; unfold Ascii; decide
  have hr1 : reply (after k tr) (b! "rpush") xs = some (.int ((elems (after k tr)).length + xs.length)) := by
    rw [reply_rpush, if_neg hseq.ne_lost, if_neg hx, if_neg hseq.ne_other]
  have e1 : m1 = _ := list_reply hv hpr hr1 h1
  subst e1
  have ht2 := (h.snoc h1)
  have ht3 := ht2.append h2
  have hp3 : ∀ p ∈ tr ++ [(b! "rpush" :: k :: xs, Reply.int ((elems (after k tr)).length + xs.length))] ++ mid, Plain p.1 := by
    intro p hq
    simp only [List.mem_append, List.mem_singleton] at hq
    rcases hq with (hq | rfl) | hq
    · exact hpt p hq
    · exact hpr
    · exact hp p (List.mem_append_right _ hq)
  have hstep : after k (tr ++ [(b! "rpush" :: k :: xs, Reply.int ((elems (after k tr)).length + xs.length))]) = .list (l ++ xs) := by
    rw [after_snoc]
    have : step k (after k tr) (b! "rpush") (k :: xs) (.int ((elems (after k tr)).length + xs.length))
        = lnext (after k tr) (b! "rpush") xs (.int ((elems (after k tr)).length + xs.length)) := step_list (by decide)
    refine this.trans ?_
    rw [lnext_int]
    rcases hseq with e | ⟨l', e⟩
    · rw [e] at hel ⊢; have : l = [] := hel.symm; subst this; rfl
    · rw [e] at hel ⊢; have : l' = l := hel; subst this; rfl
  have hmidv : ∀ {v : LView}, afterFrom k v mid = v := by
    intro v
    clear ht3 h2 hp3 hp
    unfold afterFrom
    induction mid generalizing v with
    | nil => rfl
    | cons p mid ih =>
      rw [List.foldl_cons, step_unnamed (hmid p (by simp))]
      exact ih (fun q hq => hmid q (by simp [hq]))
  have hv3 := ht3.lmatch hp3 k
  have hv3' : LMatch s3 k (.list (l ++ xs)) := by
    have : after k (tr ++ [(b! "rpush" :: k :: xs, Reply.int ((elems (after k tr)).length + xs.length))] ++ mid) = .list (l ++ xs) := by
      rw [← hstep]
      unfold after afterFrom
      rw [List.foldl_append]
      exact hmidv
    rwa [this] at hv3
  have hpc : ListSpec.popCount [n] = some xs.length := by
    have : 0 < xs.length := List.length_pos_iff.mpr hx
    simp only [ListSpec.popCount, hn]
    rw [if_pos (by omega)]
    simp
  have hr2 : reply (.list (l ++ xs)) (b! "rpop") [n] = some (bulks xs.reverse) := by
    rw [reply_rpop, if_neg (by simp), hpc]
    simp only [elems, reduceCtorEq, if_false]
    rw [List.reverse_append, ← List.length_reverse, List.take_left]
  obtain ⟨s4', ha⟩ := list_answers (ext := ext) (it := it2) hv3' hpr2 hr2
  obtain ⟨e2, e3⟩ := ha.unique h3
  subst e2; subst e3
  refine ⟨by rw [hel], rfl, ?_⟩
  have ht4 := ht3.snoc h3
  have hp4 : ∀ p ∈ tr ++ [(b! "rpush" :: k :: xs, Reply.int ((elems (after k tr)).length + xs.length))] ++ mid ++ [([b! "rpop", k, n], bulks xs.reverse)], Plain p.1 := by
    intro p hq
    rw [List.mem_append, List.mem_singleton] at hq
    rcases hq with hq | rfl
    · exact hp3 p hq
    · exact hpr2
  have hv4 := ht4.lmatch hp4 k
  have e4 : after k (tr ++ [(b! "rpush" :: k :: xs, Reply.int ((elems (after k tr)).length + xs.length))] ++ mid ++ [([b! "rpop", k, n], bulks xs.reverse)]) = .list l := by
    rw [after_snoc]
    have : after k (tr ++ [(b! "rpush" :: k :: xs, Reply.int ((elems (after k tr)).length + xs.length))] ++ mid) = .list (l ++ xs) := by
      rw [← hstep]
      unfold after afterFrom
      rw [List.foldl_append]
      exact hmidv
    rw [this]
    have : step k (.list (l ++ xs)) (b! "rpop") [k, n] (bulks xs.reverse) = lnext (.list (l ++ xs)) (b! "rpop") [n] (bulks xs.reverse) :=
      step_list (by decide)
    refine this.trans ?_
    rw [lnext_bulks, next_rpop, hpc]
    simp
  rw [e4] at hv4
  exact reads_full hv4 (by simp) (by simp)

/-- Case: a queue history with pushes and pops and another key in between. -/
def queueDemo : List (List Bytes) :=
  [[b! "RPUSH", b! "q", b! "a", b! "b"], [b! "lpop", b! "q"], [b! "set", b! "x", b! "1"], [b! "rpush", b! "q", b! "c", b! "d"],
   [b! "lpop", b! "q", b! "2"], [b! "llen", b! "q"]]

example : (play ext0 it0 (Store.init rng0) queueDemo).isSome ∧
    (∀ p ∈ queueDemo.zip ((replies queueDemo).getD []), Plain p.1) ∧
    OnlyUses (b! "q") [b! "rpush", b! "lpop"] (queueDemo.zip ((replies queueDemo).getD [])) ∧
    pushed [b! "rpush"] (b! "q") (queueDemo.zip ((replies queueDemo).getD [])) = [b! "a", b! "b", b! "c", b! "d"] ∧
    popped [b! "lpop"] (b! "q") (queueDemo.zip ((replies queueDemo).getD [])) = [b! "a", b! "b", b! "c"] := by
  refine ⟨by decide +kernel, ?_, ?_, by decide +kernel, by decide +kernel⟩
  · unfold Plain Ascii; decide +kernel
  · unfold OnlyUses; decide +kernel

/-- Case for the stack law: `a` is in the list, `b`, `c` are pushed and popped, with a SET in between. -/
example : replies [[b! "lpush", b! "q", b! "a"], [b! "rpush", b! "q", b! "b", b! "c"], [b! "set", b! "x", b! "1"], [b! "rpop", b! "q", b! "2"],
      [b! "lrange", b! "q", b! "0", b! "-1"]]
    = some [.int 1, .int 3, .simple (b! "OK"), bulks [b! "c", b! "b"], bulks [b! "a"]] := by decide +kernel

/-! ## C22 -/

/-- C22.  After any history (in which the list did not become unusable), if the list is `l` then LRANGE with any start
and stop replies exactly the elements at the positions from start to stop, and LLEN the number of elements. -/
theorem C22_lrange {ext rng tr s k} (h : Trace ext (Store.init rng) tr s) (hp : ∀ p ∈ tr, Plain p.1)
    (hl : after k tr ≠ .lost) {l : List Bytes} (hs : Shows ext s k l)
    {a b : Bytes} {start stop : Int} (ha : int64 a = some start) (hb : int64 b = some stop) (rest rest' : List Bytes) :
    Reads ext s (b! "lrange" :: k :: a :: b :: rest) (bulks (window l start stop)) ∧
    Reads ext s (b! "llen" :: k :: rest') (.int l.length) := by
  have hv := h.lmatch hp k
  obtain ⟨ho, rfl⟩ := full_of_reads hv hl hs
  refine ⟨list_reads (.inl rfl) hv plain_range ?_, list_reads (.inr rfl) hv ?_ ?_⟩
  · show reply _ (b! "lrange") _ = _
    rw [reply_lrange, if_neg hl]
    simp only [ha, hb, if_neg ho]
  · refine ⟨?_, fun h => absurd (show lower (b! "llen") = b! "linsert" from h) (by decide)⟩
    intro n hn
    simp only [List.head?_cons, Option.mem_def, Option.some.injEq] at hn
    subst hn; unfold Ascii; decide
  · show reply _ (b! "llen") _ = _
    rw [reply_llen, if_neg hl, if_neg ho]

/-- `window` in other words: its elements are those of `l` between the two positions, in the order of `l`. -/
theorem window_getElem (l : List Bytes) (start stop : Int) :
    ∃ ps : List Nat, ps.Pairwise (· < ·) ∧ (∀ p, p ∈ ps ↔ p < l.length ∧ position l start ≤ p ∧ (p : Int) ≤ position l stop) ∧
      window l start stop = ps.filterMap (l[·]?) := by
  refine ⟨(List.range l.length).filter (fun p => decide (position l start ≤ p ∧ (p : Int) ≤ position l stop)), ?_, ?_, ?_⟩
  · exact List.Pairwise.filter _ List.pairwise_lt_range
  · intro p; simp
  · have : l.zipIdx = (List.range l.length).filterMap (fun p => l[p]?.map (·, p)) := by
      apply List.ext_getElem?
      intro i
      by_cases hi : i < l.length
      · have e : (List.range l.length).filterMap (fun p => l[p]?.map (·, p))
            = (List.range l.length).pmap (fun p (hp : p < l.length) => (l[p], p)) (by simp) := by
          have aux : ∀ (r : List Nat) (hr : ∀ p ∈ r, p < l.length),
              r.filterMap (fun p => l[p]?.map (·, p)) = r.pmap (fun p (hp : p < l.length) => (l[p], p)) hr := by
            intro r
            induction r with
            | nil => intro _; rfl
            | cons p r ih =>
              intro hr
              have hp := hr p (by simp)
              rw [List.filterMap_cons, List.pmap_cons, ← ih (fun q hq => hr q (by simp [hq])), List.getElem?_eq_getElem hp]
              rfl
          exact aux _ _
        rw [e]
        simp [List.getElem?_pmap, hi, List.getElem?_zipIdx]
      · have e1 : l.zipIdx[i]? = none := by simp [List.getElem?_eq_none_iff]; omega
        have e2 : ((List.range l.length).filterMap (fun p => l[p]?.map (·, p)))[i]? = none := by
          rw [List.getElem?_eq_none_iff]
          refine (List.length_filterMap_le _ _).trans ?_
          simp; omega
        rw [e1, e2]
    unfold window
    rw [this, List.filter_filterMap, List.map_filterMap, List.filterMap_filter]
    apply List.filterMap_congr
    intro p hp
    cases l[p]? with
    | none => simp
    | some x =>
      by_cases hc : position l start ≤ p ∧ (p : Int) ≤ position l stop <;> simp [hc, Option.filter]

/-- Case: negative and clipped indexes. -/
example : replies [[b! "rpush", b! "l", b! "a", b! "b", b! "c", b! "d"], [b! "lrange", b! "l", b! "-3", b! "100"], [b! "lrange", b! "l", b! "1", b! "2"],
      [b! "lrange", b! "l", b! "3", b! "1"], [b! "lrange", b! "l", b! "-100", b! "0"]]
    = some [.int 4, bulks [b! "b", b! "c", b! "d"], bulks [b! "b", b! "c"], bulks [], bulks [b! "a"]] := by decide +kernel

/-! ## C23 -/

theorem plain_of {name : Bytes} {r : List Bytes} (ha : Ascii name) (hn : lower name ≠ b! "linsert") : Plain (name :: r) := by
  refine ⟨?_, fun h => absurd h hn⟩
  intro n hh
  simp only [List.head?_cons, Option.mem_def, Option.some.injEq] at hh
  subst hh; exact ha

/-- the list is usable in both directions -/
def Usable (v : LView) : Prop := v = .absent ∨ ∃ l, v = .list l

/-- C23, what holds.  If the list is `l`, LREM replies the number of
elements removed and afterwards the list is `remove x n l`, and if that is not empty it is as usable as before (`remove` has an exception for the smallest 64-bit count; `remove_facts` says what it does otherwise).  Missing
from the full claim: that it remains usable if nothing remains (`C23_lrem_violated`). -/
theorem C23_lrem_partial {ext rng tr s k} (h : Trace ext (Store.init rng) tr s) (hp : ∀ p ∈ tr, Plain p.1)
    (hl : after k tr ≠ .lost) {l : List Bytes} (hs : Shows ext s k l)
    {c : Bytes} {n : Int} (hc : int64 c = some n) (x : Bytes) (rest : List Bytes) (it : Iter) :
    ∃ s', (∀ m' s'', Answers ext it s (b! "lrem" :: k :: c :: x :: rest) m' s'' ↔
        m' = .int (l.length - (remove x n l).length) ∧ s'' = s') ∧
      Shows ext s' k (remove x n l) ∧
      (remove x n l ≠ [] → after k (tr ++ [(b! "lrem" :: k :: c :: x :: rest, .int (l.length - (remove x n l).length))])
        = .list (remove x n l)) := by
  have hv := h.lmatch hp k
  obtain ⟨ho, rfl⟩ := full_of_reads hv hl hs
  have hpl : Plain (b! "lrem" :: k :: c :: x :: rest) := plain_of (by unfold Ascii; decide) (by decide)
  have hr : reply (after k tr) (b! "lrem") (c :: x :: rest) = some (.int ((elems (after k tr)).length - (remove x n (elems (after k tr))).length)) := by
    rw [reply_lrem, if_neg hl]
    simp only [hc, if_neg ho]
  obtain ⟨s', hA, hT⟩ := C20_lists_partial h hp hpl hr it
  refine ⟨s', hA, ?_⟩
  have hp' : ∀ p ∈ tr ++ [(b! "lrem" :: k :: c :: x :: rest, Reply.int ((elems (after k tr)).length - (remove x n (elems (after k tr))).length))], Plain p.1 := by
    intro p hq
    rw [List.mem_append, List.mem_singleton] at hq
    rcases hq with hq | rfl
    · exact hp p hq
    · exact hpl
  have hv' := hT.lmatch hp' k
  have hst : after k (tr ++ [(b! "lrem" :: k :: c :: x :: rest, Reply.int ((elems (after k tr)).length - (remove x n (elems (after k tr))).length))])
      = next (after k tr) (b! "lrem") (c :: x :: rest) := by
    rw [after_snoc]
    have : step k (after k tr) (b! "lrem") (k :: c :: x :: rest) (.int ((elems (after k tr)).length - (remove x n (elems (after k tr))).length))
        = lnext (after k tr) (b! "lrem") (c :: x :: rest) (.int ((elems (after k tr)).length - (remove x n (elems (after k tr))).length)) :=
      step_list (by decide)
    exact this
  rw [hst] at hv' ⊢
  have hnil : ∀ n, remove x n [] = [] := by
    intro n; unfold remove; repeat' split
    all_goals first | rfl | skip
    · cases n.toNat <;> rfl
    · unfold removeLast; cases (-n).toNat <;> rfl
  revert hl ho hv' hs
  generalize after k tr = v
  intro hl ho hs hv'
  cases v with
  | lost => exact absurd rfl hl
  | other => exact absurd rfl ho
  | absent =>
    have e : next .absent (b! "lrem") (c :: x :: rest) = .absent := rfl
    rw [e] at hv' ⊢
    have e2 : remove x n (elems .absent) = [] := hnil n
    rw [e2]
    exact ⟨reads_full hv' (by simp) (by simp), fun h => absurd rfl h⟩
  | hollow b =>
    have e : next (.hollow b) (b! "lrem") (c :: x :: rest) = .hollow b := by cases b <;> rfl
    rw [e] at hv' ⊢
    have e2 : remove x n (elems (.hollow b)) = [] := hnil n
    rw [e2]
    exact ⟨reads_full hv' (by simp) (by simp), fun h => absurd rfl h⟩
  | list l =>
    rw [next_lrem l c x rest n hc] at hv' ⊢
    show Shows ext s' k (remove x n l) ∧ (remove x n l ≠ [] → _)
    by_cases hh : l ≠ [] ∧ remove x n l = []
    · rw [if_pos hh] at hv' ⊢
      refine ⟨?_, fun h => absurd hh.2 h⟩
      rw [hh.2]
      exact reads_full hv' (by simp) (by simp)
    · rw [if_neg hh] at hv' ⊢
      exact ⟨reads_full hv' (by simp) (by simp), fun _ => rfl⟩

/-- `remove` keeps every other element, in order, and removes as many as asked (or all there are). -/
theorem remove_facts (x : Bytes) (n : Int) (hn : n ≠ -2 ^ 63) (l : List Bytes) :
    (remove x n l).filter (· ≠ x) = l.filter (· ≠ x) ∧ (remove x n l).Sublist l ∧
    (remove x n l).count x = if n = 0 then 0 else l.count x - n.natAbs := by
  have rf : ∀ (n : Nat) (l : List Bytes), (removeFirst x n l).filter (· ≠ x) = l.filter (· ≠ x) ∧ (removeFirst x n l).Sublist l ∧
      (removeFirst x n l).count x = l.count x - n := by
    intro n l
    induction l generalizing n with
    | nil => cases n <;> exact ⟨rfl, List.Sublist.refl _, by simp [removeFirst]⟩
    | cons y l ih =>
      cases n with
      | zero => exact ⟨rfl, List.Sublist.refl _, by simp [removeFirst]⟩
      | succ n =>
        unfold removeFirst
        split
        · next e =>
          subst e
          obtain ⟨a, b, c⟩ := ih n
          refine ⟨by rw [a]; simp, b.cons _, ?_⟩
          rw [c]; simp
        · next e =>
          obtain ⟨a, b, c⟩ := ih (n + 1)
          refine ⟨by rw [List.filter_cons, List.filter_cons, a], b.cons_cons _, ?_⟩
          rw [List.count_cons_of_ne e, List.count_cons_of_ne e, c]
  unfold remove
  split
  · exact ⟨by simp, List.filter_sublist, by simp [List.count_eq_zero]⟩
  · split
    · obtain ⟨a, b, c⟩ := rf n.toNat l
      exact ⟨a, b, by rw [c]; congr 1; omega⟩
    · obtain ⟨a, b, c⟩ := rf (-n).toNat l.reverse
      refine ⟨?_, ?_, ?_⟩
      · unfold removeLast
        rw [List.filter_reverse, a, List.filter_reverse, List.reverse_reverse]
      · unfold removeLast
        have := b.reverse
        rwa [List.reverse_reverse] at this
      · unfold removeLast
        rw [List.count_reverse, c, List.count_reverse]; congr 1; omega

/-- C23 fails: after an LREM that empties the list, RPUSH reports success but the element cannot be read or popped, and
a further LREM crashes the server.  With the smallest 64-bit integer as count, nothing is removed. -/
theorem C23_lrem_violated :
    replies [[b! "rpush", b! "l", b! "a"], [b! "lrem", b! "l", b! "1", b! "a"], [b! "rpush", b! "l", b! "b"], [b! "llen", b! "l"],
        [b! "lrange", b! "l", b! "0", b! "-1"], [b! "lpop", b! "l"]]
      = some [.int 1, .int 1, .int 1, .int 1, bulks [], bulks []] ∧
    replies [[b! "rpush", b! "l", b! "a"], [b! "lrem", b! "l", b! "1", b! "a"], [b! "rpush", b! "l", b! "b"], [b! "lrem", b! "l", b! "0", b! "b"]]
      = none ∧
    replies [[b! "rpush", b! "l", b! "a"], [b! "lrem", b! "l", b! "-9223372036854775808", b! "a"]] = some [.int 1, .int 0] := by
  decide +kernel

/-- C20 fails after an LREM that empties the list: RPUSH replies 1 and LLEN 1, but LRANGE shows nothing and LPOP finds
nothing. -/
theorem C20_lrem_violated :
    replies [[b! "rpush", b! "l", b! "a"], [b! "lrem", b! "l", b! "1", b! "a"], [b! "rpush", b! "l", b! "b"], [b! "llen", b! "l"],
        [b! "lrange", b! "l", b! "0", b! "-1"], [b! "lpop", b! "l"]]
      = some [.int 1, .int 1, .int 1, .int 1, bulks [], bulks []] := by decide +kernel

/-! ## C24 -/

/-- C24, LSET.  If the list is `l`, LSET replaces exactly the element at the given position and replies OK; if there is
no such position it replies an error and the list stays as it is. -/
theorem C24_lset {ext rng tr s k} (h : Trace ext (Store.init rng) tr s) (hp : ∀ p ∈ tr, Plain p.1)
    (hl : after k tr ≠ .lost) {l : List Bytes} (hs : Shows ext s k l)
    {c : Bytes} {i : Int} (hc : int64 c = some i) (x : Bytes) (rest : List Bytes) (it : Iter) :
    ∃ s', (∀ m' s'', Answers ext it s (b! "lset" :: k :: c :: x :: rest) m' s'' ↔
        m' = (if (assign i x l).isSome then .simple (b! "OK") else .error (b! "redis: not found")) ∧ s'' = s') ∧
      Shows ext s' k ((assign i x l).getD l) := by
  have hv := h.lmatch hp k
  obtain ⟨ho, rfl⟩ := full_of_reads hv hl hs
  have hpl : Plain (b! "lset" :: k :: c :: x :: rest) := plain_of (by unfold Ascii; decide) (by decide)
  have hr : reply (after k tr) (b! "lset") (c :: x :: rest) = some (if (assign i x (elems (after k tr))).isSome then .simple (b! "OK") else errNil) := by
    rw [reply_lset, if_neg hl]
    simp only [hc, if_neg ho]
  obtain ⟨s', hA, hT⟩ := C20_lists_partial h hp hpl hr it
  refine ⟨s', hA, ?_⟩
  have hp' := fun m => show ∀ p ∈ tr ++ [(b! "lset" :: k :: c :: x :: rest, m)], Plain p.1 by
    intro p hq
    rw [List.mem_append, List.mem_singleton] at hq
    rcases hq with hq | rfl
    · exact hp p hq
    · exact hpl
  have hv' := hT.lmatch (hp' _) k
  rw [after_snoc] at hv'
  have hst : ∀ m, step k (after k tr) (b! "lset") (k :: c :: x :: rest) m = lnext (after k tr) (b! "lset") (c :: x :: rest) m :=
    fun m => step_list (by decide)
  have hv'' : LMatch s' k (lnext (after k tr) (b! "lset") (c :: x :: rest) (if (assign i x (elems (after k tr))).isSome then .simple (b! "OK") else errNil)) := by
    rw [← hst]; exact hv'
  clear hv' hA hT hr hst
  revert hl ho hv'' hs
  generalize after k tr = v
  intro hl ho hs hv'
  have hnil : assign i x [] = none := by
    unfold assign
    rw [if_neg]
    simp only [List.length_nil]
    omega
  cases v with
  | lost => exact absurd rfl hl
  | other => exact absurd rfl ho
  | absent =>
    simp only [elems, hnil] at hv' ⊢
    exact reads_full hv' (by simp [lnext, errNil, isError]) (by simp [lnext, errNil, isError])
  | hollow b =>
    simp only [elems, hnil] at hv' ⊢
    exact reads_full (v := .hollow b) hv' (by simp) (by simp)
  | list l =>
    cases ha : assign i x l with
    | none =>
      simp only [elems, ha] at hv' ⊢
      exact reads_full (v := .list l) hv' (by simp) (by simp)
    | some l' =>
      simp only [elems, ha, Option.isSome_some, if_true] at hv' ⊢
      rw [lnext_simple, next_lset, hc] at hv'
      simp only [Option.bind_some, ha, Option.getD_some] at hv' ⊢
      exact reads_full (v := .list l') hv' (by simp) (by simp)

/-- C24, LINSERT.  If the list is `l`, LINSERT puts the new element directly before (after) the first occurrence of the
pivot and replies the new length; if the pivot does not occur it replies an error and the list stays as it is. -/
theorem C24_linsert {ext rng tr s k} (h : Trace ext (Store.init rng) tr s) (hp : ∀ p ∈ tr, Plain p.1)
    (hl : after k tr ≠ .lost) {l : List Bytes} (hs : Shows ext s k l)
    {w : Bytes} (hw : Ascii w) (hw2 : lower w = b! "before" ∨ lower w = b! "after") (p x : Bytes) (rest : List Bytes) (it : Iter) :
    ∃ s', (∀ m' s'', Answers ext it s (b! "linsert" :: k :: w :: p :: x :: rest) m' s'' ↔
        m' = (if p ∈ l then .int (l.length + 1) else .error (b! "redis: not found")) ∧ s'' = s') ∧
      Shows ext s' k ((insertAt (lower w = b! "before") p x l).getD l) := by
  have hin : ∀ (b : Bool) (l : List Bytes), (p ∉ l ∧ insertAt b p x l = none) ∨ (p ∈ l ∧ ∃ l', insertAt b p x l = some l' ∧ l'.length = l.length + 1) := by
    intro b l
    induction l with
    | nil => exact .inl ⟨by simp, rfl⟩
    | cons y l ih =>
      by_cases e : y = p
      · refine .inr ⟨by simp [e], _, by rw [insertAt, if_pos e], ?_⟩
        cases b <;> simp
      · rcases ih with ⟨h1, h2⟩ | ⟨h1, l', h2, h3⟩
        · exact .inl ⟨by simp [h1, Ne.symm e], by rw [insertAt, if_neg e, h2]; rfl⟩
        · exact .inr ⟨by simp [h1], y :: l', by rw [insertAt, if_neg e, h2]; rfl, by simp [h3]⟩
  have hv := h.lmatch hp k
  obtain ⟨ho, rfl⟩ := full_of_reads hv hl hs
  have hpl : Plain (b! "linsert" :: k :: w :: p :: x :: rest) := by
    refine ⟨?_, ?_⟩
    · intro n hn
      simp only [List.head?_cons, Option.mem_def, Option.some.injEq] at hn
      subst hn; unfold Ascii; decide
    · intro _ w' hw'
      simp only [List.getElem?_cons_succ, List.getElem?_cons_zero, Option.mem_def, Option.some.injEq] at hw'
      subst hw'; exact hw
  have hr : reply (after k tr) (b! "linsert") (w :: p :: x :: rest)
      = some (if p ∈ elems (after k tr) then .int ((elems (after k tr)).length + 1) else .error (b! "redis: not found")) := by
    rw [reply_linsert, if_neg hl]
    have hw3 : lower w = s!! "before" ∨ lower w = s!! "after" := hw2
    simp only [if_neg ho]
    rw [if_pos hw3]
    rcases hin (lower w = s!! "before") (elems (after k tr)) with ⟨h1, h2⟩ | ⟨h1, l', h2, h3⟩
    · rw [h2, if_neg h1]; rfl
    · rw [h2, if_pos h1]; simp only [h3]; simp
  obtain ⟨s', hA, hT⟩ := C20_lists_partial h hp hpl hr it
  refine ⟨s', hA, ?_⟩
  have hp' := fun m => show ∀ q ∈ tr ++ [(b! "linsert" :: k :: w :: p :: x :: rest, m)], Plain q.1 by
    intro q hq
    rw [List.mem_append, List.mem_singleton] at hq
    rcases hq with hq | rfl
    · exact hp q hq
    · exact hpl
  have hv' := hT.lmatch (hp' _) k
  rw [after_snoc] at hv'
  have hst : ∀ m, step k (after k tr) (b! "linsert") (k :: w :: p :: x :: rest) m = lnext (after k tr) (b! "linsert") (w :: p :: x :: rest) m :=
    fun m => step_list (by decide)
  have hv'' : LMatch s' k (lnext (after k tr) (b! "linsert") (w :: p :: x :: rest)
      (if p ∈ elems (after k tr) then .int ((elems (after k tr)).length + 1) else .error (b! "redis: not found"))) := by
    rw [← hst]; exact hv'
  clear hv' hA hT hr hst
  revert hl ho hv'' hs
  generalize after k tr = v
  intro hl ho hs hv'
  cases v with
  | lost => exact absurd rfl hl
  | other => exact absurd rfl ho
  | absent => exact reads_full (v := .absent) hv' (by simp) (by simp)
  | hollow b => exact reads_full (v := .hollow b) hv' (by simp) (by simp)
  | list l =>
    show Shows ext s' k ((insertAt (lower w = s!! "before") p x l).getD l)
    rcases hin (lower w = s!! "before") l with ⟨h1, h2⟩ | ⟨h1, l', h2, h3⟩
    · have h1' : p ∉ elems (.list l) := h1
      rw [if_neg h1'] at hv'
      rw [h2]
      exact reads_full (v := .list l) hv' (by simp) (by simp)
    · have h1' : p ∈ elems (.list l) := h1
      rw [if_pos h1', lnext_int, next_linsert, h2] at hv'
      rw [h2]
      exact reads_full (v := .list l') hv' (by simp) (by simp)

/-- `insertAt` in other words. -/
theorem insertAt_facts (before : Bool) (p x : Bytes) (a b : List Bytes) (ha : p ∉ a) :
    insertAt before p x (a ++ p :: b) = some (a ++ (if before then [x, p] else [p, x]) ++ b) := by
  induction a with
  | nil => simp only [List.nil_append, insertAt, if_true]; cases before <;> rfl
  | cons y a ih =>
    have h1 : y ≠ p := fun e => ha (by simp [e])
    have h2 : p ∉ a := fun e => ha (by simp [e])
    simp only [List.cons_append, insertAt]
    rw [if_neg h1, ih h2]; rfl

/-- C24, LINDEX: what the code does.  LINDEX `key` `i` replies the element at index `i` of the list stored under the key
`i` (the text of the index), whatever `key` is. -/
theorem C24_lindex_actual_partial {ext rng tr s} (h : Trace ext (Store.init rng) tr s) (hp : ∀ p ∈ tr, Plain p.1)
    {i : Bytes} {index : Int} (hi : int64 i = some index) (hl : after i tr ≠ .lost) {l : List Bytes} (hs : Shows ext s i l)
    (key : Bytes) (rest : List Bytes) :
    Reads ext s (b! "lindex" :: key :: i :: rest)
      (.bulk (if 0 ≤ position l index then l[(position l index).toNat]? else none)) := by
  have hv := h.lmatch hp i
  obtain ⟨ho, rfl⟩ := full_of_reads hv hl hs
  have := lindex_reads (ext := ext) (key := key) (args := rest) hi hv hl
  rwa [if_neg ho] at this

/-- C24 fails for LINDEX: the list `l` has an element at index 0, the reply is nil; and with a list under the key `0` the
reply comes from that list. -/
theorem C24_lindex_violated :
    replies [[b! "rpush", b! "l", b! "a"], [b! "lindex", b! "l", b! "0"]] = some [.int 1, .bulk none] ∧
    replies [[b! "rpush", b! "l", b! "a"], [b! "rpush", b! "0", b! "z"], [b! "lindex", b! "l", b! "0"]] = some [.int 1, .int 1, .bulk (some (b! "z"))] := by
  decide +kernel

/-- Case: LSET at both ends and outside, LINSERT before and after and with a missing pivot. -/
example : replies [[b! "rpush", b! "l", b! "a", b! "b", b! "c"], [b! "lset", b! "l", b! "-1", b! "z"], [b! "lset", b! "l", b! "3", b! "y"],
      [b! "linsert", b! "l", b! "BEFORE", b! "b", b! "x"], [b! "linsert", b! "l", b! "after", b! "z", b! "w"], [b! "linsert", b! "l", b! "after", b! "q", b! "w"],
      [b! "lrange", b! "l", b! "0", b! "-1"]]
    = some [.int 3, .simple (b! "OK"), .error (b! "redis: not found"), .int 4, .int 5, .error (b! "redis: not found"),
        bulks [b! "a", b! "x", b! "b", b! "z", b! "w"]] := by decide +kernel

end Godis
