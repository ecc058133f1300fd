import Verif.Proofs.Lists3
/-! Pushes and pops along histories. -/
namespace Godis
open Resp (Reply bulks)
open ListSpec
open StrSpec (int64 lower isError Ascii)
open KeySpec (keyArgs readOnly)

variable {s s' : Store} {k : Bytes} {v : LView} {ext : Ext} {it : Iter} {args : List Bytes} {m : Reply}

theorem items_bulks (l : List Bytes) : items (bulks l) = l := by
  induction l with
  | nil => rfl
  | cons x l ih =>
    simp only [items, bulks, List.map_cons, List.filterMap_cons] at ih ⊢
    rw [ih]

theorem window_all (l : List Bytes) : window l 0 (-1) = l := by
  unfold window
  rw [List.filter_eq_self.mpr]
  · exact List.zipIdx_map_fst 0 l
  · rintro ⟨x, i⟩ h
    have := List.snd_lt_of_mem_zipIdx h
    apply decide_eq_true
    simp only [position]
    constructor
    · rw [if_neg (by decide)]; omega
    · rw [if_pos (by decide)]; omega

/-- absent or a sequence -/
def SeqView (v : LView) : Prop := v = .absent ∨ ∃ l, v = .list l

theorem SeqView.ne_lost (h : SeqView v) : v ≠ .lost := by rcases h with rfl | ⟨l, rfl⟩ <;> simp
theorem SeqView.ne_other (h : SeqView v) : v ≠ .other := by rcases h with rfl | ⟨l, rfl⟩ <;> simp

theorem seq_lnext_push {name : Bytes} (hn : name = b! "lpush" ∨ name = b! "rpush") (h : SeqView v) (hr : reply v name args = some m) :
    SeqView (lnext v name args m) ∧
    ((isError m = true ∧ elems (lnext v name args m) = elems v) ∨
     (isError m = false ∧ elems (lnext v name args m) = if name = b! "lpush" then args.reverse ++ elems v else elems v ++ args)) := by
  rcases hn with rfl | rfl
  · rw [reply_lpush, if_neg h.ne_lost] at hr
    cases hr
    split
    · exact ⟨h, .inl ⟨rfl, rfl⟩⟩
    · rw [if_neg h.ne_other, lnext_int]
      rcases h with rfl | ⟨l, rfl⟩
      · exact ⟨.inr ⟨_, rfl⟩, .inr ⟨rfl, by rw [if_pos rfl]; exact (List.append_nil _).symm⟩⟩
      · exact ⟨.inr ⟨_, rfl⟩, .inr ⟨rfl, by rw [if_pos rfl]; rfl⟩⟩
  · rw [reply_rpush, if_neg h.ne_lost] at hr
    cases hr
    split
    · exact ⟨h, .inl ⟨rfl, rfl⟩⟩
    · rw [if_neg h.ne_other, lnext_int]
      rcases h with rfl | ⟨l, rfl⟩
      · exact ⟨.inr ⟨_, rfl⟩, .inr ⟨rfl, by rw [if_neg (by decide)]; rfl⟩⟩
      · exact ⟨.inr ⟨_, rfl⟩, .inr ⟨rfl, by rw [if_neg (by decide)]; rfl⟩⟩

theorem seq_lnext_lpop (h : SeqView v) (hr : reply v (b! "lpop") args = some m) :
    SeqView (lnext v (b! "lpop") args m) ∧
    ∃ n, items m = (elems v).take n ∧ elems (lnext v (b! "lpop") args m) = (elems v).drop n := by
  rw [reply_lpop, if_neg h.ne_lost] at hr
  cases hr
  cases hc : ListSpec.popCount args with
  | none => exact ⟨h, 0, rfl, rfl⟩
  | some n =>
    dsimp only
    rw [if_neg h.ne_other]
    rcases h with rfl | ⟨l, rfl⟩
    · exact ⟨.inl rfl, 0, rfl, rfl⟩
    · by_cases hl : elems (.list l) = []
      · rw [if_pos hl]
        have hl' : l = [] := hl
        subst hl'
        rw [lnext_bulk, next_lpop]
        exact ⟨.inr ⟨_, rfl⟩, 0, rfl, by simp [elems]⟩
      · rw [if_neg hl, lnext_bulks, next_lpop, hc]
        exact ⟨.inr ⟨_, rfl⟩, n, items_bulks _, rfl⟩

theorem seq_lnext_rpop (h : SeqView v) (hr : reply v (b! "rpop") args = some m) :
    SeqView (lnext v (b! "rpop") args m) ∧
    ∃ n, items m = (elems v).reverse.take n ∧ elems (lnext v (b! "rpop") args m) = (elems v).take ((elems v).length - n) := by
  rw [reply_rpop, if_neg h.ne_lost] at hr
  cases hr
  cases hc : ListSpec.popCount args with
  | none => exact ⟨h, 0, rfl, by rw [show lnext v _ args errRange = v from rfl]; simp⟩
  | some n =>
    dsimp only
    rw [if_neg h.ne_other]
    rcases h with rfl | ⟨l, rfl⟩
    · exact ⟨.inl rfl, 0, rfl, rfl⟩
    · simp only [elems, reduceCtorEq, if_false]
      rw [lnext_bulks, next_rpop, hc]
      exact ⟨.inr ⟨_, rfl⟩, n, items_bulks _, rfl⟩

/-- the four kinds of requests in a history that only pushes to and pops from `k` -/
theorem uses_cases {cmds : List Bytes} (hcm : ∀ n ∈ cmds, n ∈ [b! "lpush", b! "rpush", b! "lpop", b! "rpop"])
    {req : List Bytes} (hp : Plain req) (hv : LMatch s k v) (hseq : SeqView v)
    (ha : Answers ext it s req m s')
    (hu : k ∈ keyArgs (lower (req.headD [])) req.tail → lower (req.headD []) ∈ cmds ∨ lower (req.headD []) ∈ readOnly) :
    (step k v (lower (req.headD [])) req.tail m = v ∧ (∀ c, pushedBy (cmds.filter c) k (req, m) = []) ∧ (∀ c, poppedBy (cmds.filter c) k (req, m) = [])) ∨
    (∃ name rest, req = name :: k :: rest ∧ lower name ∈ cmds ∧ reply v (lower name) rest = some m ∧
      step k v (lower (req.headD [])) req.tail m = lnext v (lower name) rest m) := by
  have hdis : ∀ n ∈ [b! "lpush", b! "rpush", b! "lpop", b! "rpop"], n ∉ readOnly := by decide
  have hka : ∀ n ∈ [b! "lpush", b! "rpush", b! "lpop", b! "rpop"], n ∈ listWriters := by decide
  have hka' : ∀ n ∈ [b! "lpush", b! "rpush", b! "lpop", b! "rpop"], ∀ a (r : List Bytes), keyArgs n (a :: r) = [a] := by
    intro n hn a r
    simp only [List.mem_cons, List.not_mem_nil, or_false] at hn
    rcases hn with rfl | rfl | rfl | rfl <;> rfl
  by_cases hmem : lower (req.headD []) ∈ cmds
  · rcases req with _ | ⟨name, _ | ⟨key, rest⟩⟩
    · obtain ⟨n, a, h, _⟩ := ha.cases; cases h
    · refine .inl ⟨?_, fun c => rfl, fun c => rfl⟩
      exact step_unnamed (by
        have := hcm _ hmem
        simp only [List.mem_cons, List.not_mem_nil, or_false] at this
        show k ∉ keyArgs (lower (List.headD [name] [])) []
        rcases this with e | e | e | e <;> (rw [e]; simp [keyArgs, KeySpec.noKeys, KeySpec.allKeys]))
    · by_cases hk : key = k
      · subst hk
        obtain ⟨m', hm'⟩ := reply_some hseq.ne_lost (hka _ (hcm _ hmem)) rest
        have : m = m' := list_reply (ext := ext) (it := it) hv hp hm' ha
        subst this
        exact .inr ⟨name, rest, rfl, hmem, hm', step_list (hka _ (hcm _ hmem))⟩
      · refine .inl ⟨step_unnamed ?_, fun c => ?_, fun c => ?_⟩
        · show k ∉ keyArgs (lower name) (key :: rest)
          rw [hka' (lower name) (hcm _ hmem)]; simpa using Ne.symm hk
        · simp [pushedBy, hk]
        · simp [poppedBy, hk]
  · refine .inl ⟨?_, fun c => ?_, fun c => ?_⟩
    · by_cases hk : k ∈ keyArgs (lower (req.headD [])) req.tail
      · rcases hu hk with h | h
        · exact absurd h hmem
        · exact step_readOnly h
      · exact step_unnamed hk
    · unfold pushedBy
      split
      · next h =>
        cases h
        rw [if_neg]
        rintro ⟨h, _⟩
        exact hmem (List.mem_of_mem_filter h)
      · rfl
    · unfold poppedBy
      split
      · next h =>
        cases h
        rw [if_neg]
        rintro ⟨h, _⟩
        exact hmem (List.mem_of_mem_filter h)
      · rfl

/-- one request of a history that uses `k` only as a queue or deque: what is pushed, popped and left -/
theorem deque_step {cmds : List Bytes} (hcm : ∀ n ∈ cmds, n ∈ [b! "lpush", b! "rpush", b! "lpop", b! "rpop"])
    {req : List Bytes} (hp : Plain req) (hv : LMatch s k v) (hseq : SeqView v)
    (ha : Answers ext it s req m s')
    (hu : k ∈ keyArgs (lower (req.headD [])) req.tail → lower (req.headD []) ∈ cmds ∨ lower (req.headD []) ∈ readOnly)
    {w : LView} (hw : w = step k v (lower (req.headD [])) req.tail m) :
    SeqView w ∧
    ((w = v ∧ (∀ c, pushedBy (cmds.filter c) k (req, m) = []) ∧ (∀ c, poppedBy (cmds.filter c) k (req, m) = [])) ∨
     (∃ name rest, req = name :: k :: rest ∧ lower name ∈ cmds ∧
      ((lower name = b! "lpush" ∧ isError m = false ∧ elems w = rest.reverse ++ elems v) ∨
       (lower name = b! "rpush" ∧ isError m = false ∧ elems w = elems v ++ rest) ∨
       ((lower name = b! "lpush" ∨ lower name = b! "rpush") ∧ isError m = true ∧ elems w = elems v) ∨
       (lower name = b! "lpop" ∧ ∃ n, items m = (elems v).take n ∧ elems w = (elems v).drop n) ∨
       (lower name = b! "rpop" ∧ ∃ n, items m = (elems v).reverse.take n ∧ elems w = (elems v).take ((elems v).length - n))))) := by
  rcases uses_cases hcm hp hv hseq ha hu with ⟨h1, h2, h3⟩ | ⟨name, rest, rfl, hn, hr, h1⟩
  · rw [hw, h1]; exact ⟨hseq, .inl ⟨rfl, h2, h3⟩⟩
  · rw [hw, h1]
    have := hcm _ hn
    simp only [List.mem_cons, List.not_mem_nil, or_false] at this
    rcases this with e | e | e | e
    · obtain ⟨a, b⟩ := seq_lnext_push (.inl e) hseq hr
      refine ⟨a, .inr ⟨name, rest, rfl, hn, ?_⟩⟩
      rcases b with ⟨b, c⟩ | ⟨b, c⟩
      · exact .inr (.inr (.inl ⟨.inl e, b, c⟩))
      · rw [if_pos e] at c; exact .inl ⟨e, b, c⟩
    · obtain ⟨a, b⟩ := seq_lnext_push (.inr e) hseq hr
      refine ⟨a, .inr ⟨name, rest, rfl, hn, ?_⟩⟩
      rcases b with ⟨b, c⟩ | ⟨b, c⟩
      · exact .inr (.inr (.inl ⟨.inr e, b, c⟩))
      · rw [if_neg (by rw [e]; decide)] at c; exact .inr (.inl ⟨e, b, c⟩)
    · rw [e] at hr ⊢
      obtain ⟨a, b⟩ := seq_lnext_lpop hseq hr
      exact ⟨a, .inr ⟨name, rest, rfl, hn, .inr (.inr (.inr (.inl ⟨e, b⟩)))⟩⟩
    · rw [e] at hr ⊢
      obtain ⟨a, b⟩ := seq_lnext_rpop hseq hr
      exact ⟨a, .inr ⟨name, rest, rfl, hn, .inr (.inr (.inr (.inr ⟨e, b⟩)))⟩⟩

theorem pushed_snoc (cmds : List Bytes) (k : Bytes) (tr : List (List Bytes × Reply)) (p) :
    pushed cmds k (tr ++ [p]) = pushed cmds k tr ++ pushedBy cmds k p := by simp [pushed]
theorem popped_snoc (cmds : List Bytes) (k : Bytes) (tr : List (List Bytes × Reply)) (p) :
    popped cmds k (tr ++ [p]) = popped cmds k tr ++ poppedBy cmds k p := by simp [popped]

theorem pushedBy_yes {cmds : List Bytes} {name : Bytes} {rest : List Bytes} (h : lower name ∈ cmds) (he : isError m = false) :
    pushedBy cmds k (name :: k :: rest, m) = rest := by
  simp [pushedBy, h, he]
theorem pushedBy_err {cmds : List Bytes} {name : Bytes} {rest : List Bytes} (he : isError m = true) :
    pushedBy cmds k (name :: k :: rest, m) = [] := by
  simp only [pushedBy]; simp [he]
theorem pushedBy_no {cmds : List Bytes} {name : Bytes} {rest : List Bytes} (h : lower name ∉ cmds) :
    pushedBy cmds k (name :: k :: rest, m) = [] := by
  simp only [pushedBy]; simp [h]
theorem poppedBy_yes {cmds : List Bytes} {name : Bytes} {rest : List Bytes} (h : lower name ∈ cmds) :
    poppedBy cmds k (name :: k :: rest, m) = items m := by
  simp [poppedBy, h]
theorem poppedBy_no {cmds : List Bytes} {name : Bytes} {rest : List Bytes} (h : lower name ∉ cmds) :
    poppedBy cmds k (name :: k :: rest, m) = [] := by
  simp only [poppedBy]; simp [h]

theorem OnlyUses.init {cmds : List Bytes} {tr : List (List Bytes × Reply)} {p} (h : OnlyUses k cmds (tr ++ [p])) :
    OnlyUses k cmds tr := fun q hq => h q (by simp [hq])

theorem fifo_trace {rng tr} (h : Trace ext (Store.init rng) tr s) (hp : ∀ p ∈ tr, Plain p.1)
    (hu : OnlyUses k [b! "rpush", b! "lpop"] tr) :
    SeqView (after k tr) ∧ pushed [b! "rpush"] k tr = popped [b! "lpop"] k tr ++ elems (after k tr) := by
  have aux : ∀ {s0 : Store} {tr : List (List Bytes × Reply)} {s : Store}, Trace ext s0 tr s → s0 = Store.init rng →
      (∀ p ∈ tr, Plain p.1) → OnlyUses k [b! "rpush", b! "lpop"] tr →
      SeqView (after k tr) ∧ pushed [b! "rpush"] k tr = popped [b! "lpop"] k tr ++ elems (after k tr) := by
    intro s0 tr s h
    induction h with
    | nil => intro _ _ _; exact ⟨.inl rfl, rfl⟩
    | snoc htr ha ih =>
      intro e hp hu
      subst e
      have hp' := fun p hq => hp p (List.mem_append_left _ hq)
      obtain ⟨i1, i2⟩ := ih rfl hp' (OnlyUses.init hu)
      obtain ⟨j1, j2⟩ := deque_step (cmds := [b! "rpush", b! "lpop"]) (by decide) (hp _ (List.mem_append_right _ (List.mem_singleton.mpr rfl)))
        (htr.lmatch hp' k) i1 ha (hu _ (List.mem_append_right _ (List.mem_singleton.mpr rfl))) (after_snoc _ _ _)
      refine ⟨j1, ?_⟩
      rw [pushed_snoc, popped_snoc, i2]
      have c1 : [b! "rpush", b! "lpop"].filter (· = b! "rpush") = [b! "rpush"] := by decide
      have c2 : [b! "rpush", b! "lpop"].filter (· = b! "lpop") = [b! "lpop"] := by decide
      rcases j2 with ⟨a, b, c⟩ | ⟨name, rest, rfl, hn, hh⟩
      · have b := b (· = b! "rpush"); have c := c (· = b! "lpop")
        rw [c1] at b; rw [c2] at c
        rw [a, b, c]; simp
      · rcases hh with ⟨e, _⟩ | ⟨e, he, hl⟩ | ⟨e, he, hl⟩ | ⟨e, n, h1, h2⟩ | ⟨e, _⟩
        · rw [e] at hn; exact absurd hn (by decide)
        · rw [pushedBy_yes (by rw [e]; decide) he, poppedBy_no (by rw [e]; decide), hl]; simp
        · rw [pushedBy_err he, hl, poppedBy_no (by rcases e with e | e <;> (rw [e]; decide))]
          simp
        · rw [poppedBy_yes (by rw [e]; decide), pushedBy_no (by rw [e]; decide), h1, h2]
          simp
        · rw [e] at hn; exact absurd hn (by decide)
  exact aux h rfl hp hu

def deque : List Bytes := [b! "lpush", b! "rpush", b! "lpop", b! "rpop"]

theorem deque_trace {rng tr} (h : Trace ext (Store.init rng) tr s) (hp : ∀ p ∈ tr, Plain p.1)
    (hu : OnlyUses k deque tr) :
    SeqView (after k tr) ∧
    (pushed [b! "lpush", b! "rpush"] k tr).Perm (popped [b! "lpop", b! "rpop"] k tr ++ elems (after k tr)) := by
  have aux : ∀ {s0 : Store} {tr : List (List Bytes × Reply)} {s : Store}, Trace ext s0 tr s → s0 = Store.init rng →
      (∀ p ∈ tr, Plain p.1) → OnlyUses k deque tr →
      SeqView (after k tr) ∧ (pushed [b! "lpush", b! "rpush"] k tr).Perm (popped [b! "lpop", b! "rpop"] k tr ++ elems (after k tr)) := by
    intro s0 tr s h
    induction h with
    | nil => intro _ _ _; exact ⟨.inl rfl, .refl _⟩
    | snoc htr ha ih =>
      intro e hp hu
      subst e
      have hp' := fun p hq => hp p (List.mem_append_left _ hq)
      obtain ⟨i1, i2⟩ := ih rfl hp' (OnlyUses.init hu)
      obtain ⟨j1, j2⟩ := deque_step (cmds := deque) (fun _ h => h) (hp _ (List.mem_append_right _ (List.mem_singleton.mpr rfl)))
        (htr.lmatch hp' k) i1 ha (hu _ (List.mem_append_right _ (List.mem_singleton.mpr rfl))) (after_snoc _ _ _)
      refine ⟨j1, ?_⟩
      rw [pushed_snoc, popped_snoc]
      have c1 : deque.filter (fun c => c = b! "lpush" ∨ c = b! "rpush") = [b! "lpush", b! "rpush"] := by decide
      have c2 : deque.filter (fun c => c = b! "lpop" ∨ c = b! "rpop") = [b! "lpop", b! "rpop"] := by decide
      rcases j2 with ⟨a, b, c⟩ | ⟨name, rest, rfl, hn, hh⟩
      · have b := b (fun c => c = b! "lpush" ∨ c = b! "rpush"); have c := c (fun c => c = b! "lpop" ∨ c = b! "rpop")
        rw [c1] at b; rw [c2] at c
        rw [a, b, c, List.append_nil, List.append_nil]; exact i2
      · rcases hh with ⟨e, he, hl⟩ | ⟨e, he, hl⟩ | ⟨e, he, hl⟩ | ⟨e, n, h1, h2⟩ | ⟨e, n, h1, h2⟩
        · rw [pushedBy_yes (by rw [e]; decide) he, poppedBy_no (by rw [e]; decide), hl, List.append_nil]
          refine (i2.append_right rest).trans ?_
          rw [List.append_assoc]
          refine List.Perm.append_left _ ?_
          exact (List.perm_append_comm).trans ((List.reverse_perm rest).symm.append_right _)
        · rw [pushedBy_yes (by rw [e]; decide) he, poppedBy_no (by rw [e]; decide), hl, List.append_nil, ← List.append_assoc]
          exact i2.append_right _
        · rw [pushedBy_err he, hl, poppedBy_no (by rcases e with e | e <;> (rw [e]; decide)), List.append_nil, List.append_nil]
          exact i2
        · rw [poppedBy_yes (by rw [e]; decide), pushedBy_no (by rw [e]; decide), h1, h2, List.append_nil, List.append_assoc,
            List.take_append_drop]
          exact i2
        · rw [poppedBy_yes (by rw [e]; decide), pushedBy_no (by rw [e]; decide), h1, h2, List.append_nil, List.append_assoc]
          refine i2.trans (List.Perm.append_left _ ?_)
          rw [List.take_reverse]
          generalize elems (after k _) = e
          have := List.take_append_drop (e.length - n) e
          conv_lhs => rw [← this]
          exact List.perm_append_comm.trans ((List.reverse_perm _).symm.append_right _)
  exact aux h rfl hp hu

theorem bulks_inj {a b : List Bytes} (h : bulks a = bulks b) : a = b := by
  rw [← items_bulks a, h, items_bulks]

theorem plain_range : Plain (b! "lrange" :: k :: args) := by
  refine ⟨?_, fun h => absurd (show lower (b! "lrange") = b! "linsert" from h) (by decide)⟩
  intro n hn
  simp only [List.head?_cons, Option.mem_def, Option.some.injEq] at hn
  subst hn
  unfold Ascii; decide

/-- what LRANGE 0 -1 says about the view -/
theorem full_of_reads (hv : LMatch s k v) (hl : v ≠ .lost) {l : List Bytes}
    (h : Reads ext s [b! "lrange", k, b! "0", b! "-1"] (bulks l)) : v ≠ .other ∧ elems v = l := by
  have hr : reply v (b! "lrange") [b! "0", b! "-1"] = some (if v = .other then errType else bulks (window (elems v) 0 (-1))) := by
    rw [reply_lrange, if_neg hl]; rfl
  have := list_reply (ext := ext) (it := it0) hv plain_range hr (h it0)
  by_cases ho : v = .other
  · rw [if_pos ho] at this; exact absurd this (by simp [bulks, errType])
  · rw [if_neg ho] at this
    exact ⟨ho, by rw [bulks_inj this, window_all]⟩

theorem reads_full (hv : LMatch s k v) (hl : v ≠ .lost) (ho : v ≠ .other) :
    Reads ext s [b! "lrange", k, b! "0", b! "-1"] (bulks (elems v)) := by
  have hr : reply v (b! "lrange") [b! "0", b! "-1"] = some (if v = .other then errType else bulks (window (elems v) 0 (-1))) := by
    rw [reply_lrange, if_neg hl]; rfl
  rw [if_neg ho, window_all] at hr
  exact list_reads (.inl rfl) hv plain_range hr

/-- what LINDEX does: the key is the index text -/
theorem lindex_reads {key i : Bytes} {index : Int} (hi : int64 i = some index) (hv : LMatch s i v) (hl : v ≠ .lost) :
    Reads ext s (b! "lindex" :: key :: i :: args)
      (if v = .other then errType else .bulk (if 0 ≤ position (elems v) index then (elems v)[(position (elems v) index).toNat]? else none)) := by
  intro it
  rw [int64_eq] at hi
  have hc : lookupCmd (toLower ext.lowerUni (b! "lindex")) = some .lIndex := by rw [lower_eq (by unfold Ascii; decide)]; rfl
  rw [answers_iff hc]
  cases v with
  | lost => exact absurd rfl hl
  | other =>
    obtain ⟨info, hg, hi'⟩ := hv
    exact ⟨_, by simp only [Cmd.fn, cmdLIndex, atoi, hi, Store.lIndex, load_other hg hi', bind, Except.bind, retErr]; rfl, by simp; rfl⟩
  | absent =>
    have he : (if 0 ≤ position (elems .absent) index then (elems .absent)[(position (elems .absent) index).toNat]? else none) = none := by
      simp [elems]
    rw [if_neg (by simp), he]
    exact ⟨_, by simp only [Cmd.fn, cmdLIndex, atoi, hi, Store.lIndex, load_absent hv, bind, Except.bind, retOk]; rfl, by simp⟩
  | hollow b =>
    have he : (if 0 ≤ position (elems (.hollow b)) index then (elems (.hollow b))[(position (elems (.hollow b)) index).toNat]? else none) = none := by
      simp [elems]
    rw [if_neg (by simp), he]
    obtain ⟨o, ⟨r, hg, ho⟩, h0⟩ := hv.hollow
    exact ⟨_, by simp [Cmd.fn, cmdLIndex, atoi, hi, Store.lIndex, load_list hg ho, h0, bind, Except.bind, retOk]; rfl, by simp⟩
  | list l =>
    rw [if_neg (by simp)]
    obtain ⟨o, ⟨r, hg, ho⟩, hI⟩ := hv
    by_cases h0 : o.length = 0
    · have hnil : l = [] := by
        have := hI.length; rw [h0] at this; exact List.length_eq_zero_iff.mp (by omega)
      subst hnil
      exact ⟨_, by simp [Cmd.fn, cmdLIndex, atoi, hi, Store.lIndex, load_list hg ho, h0, bind, Except.bind, retOk]; rfl, by simp [elems]⟩
    · have hx := LObj.lIndex_is hI index
      have heq : elems (.list l) = l := rfl
      rw [heq]
      show ∃ o, cmdLIndex ext it s (key :: i :: args) = .ok (s, o) ∧ _
      generalize hw : (if 0 ≤ position l index then l[(position l index).toNat]? else none) = w at hx
      cases w with
      | none => exact ⟨_, by simp [cmdLIndex, atoi, hi, Store.lIndex, load_list hg ho, h0, hx, bind, Except.bind, retOk]; rfl, by simp⟩
      | some w => exact ⟨_, by simp [cmdLIndex, atoi, hi, Store.lIndex, load_list hg ho, h0, hx, bind, Except.bind, retOk]; rfl, by simp⟩

end Godis
