import Verif.Props.NoTrace
/-!
# C77: requests that undo each other, and requests whose order does not matter
-/
namespace Godis
open Resp (Reply bulks)
open StrSpec (lower isError int64 decimal Wraps)
open RefSpec (SameContents heard World Content)
open RowSpec (Row)
open SetSpec (SVal SView)
open ZSpec (words)

variable {ext : Ext} {rng rng' : Rng} {s s' : Store} {tr : List (List Bytes × Reply)} {k x : Bytes} {m m1 m2 m3 m4 : Reply}

/-- the last reply of a history is one of the reference server -/
theorem fits_last {req : List Bytes} (h : Trace ext (Store.init rng) (tr ++ [(req, m)]) s) (hw : words (tr ++ [(req, m)]) < 2 ^ 60) :
    RefSpec.Fits (libOf ext) (∃ i, 30 < rng i) (contents ext tr) (heard (libOf ext) req) (.reply m) := by
  obtain ⟨s0, it, h0, ha⟩ := h.last
  obtain ⟨o, _, u, f⟩ := C65_outcome h0 it (req := req) (by simpa [ZSpec.words] using hw)
  have : RefSpec.Outcome.reply m = o := u (.reply m) ⟨s, ha⟩
  rw [this]; exact f

theorem holds_list {W : World} {c : Row} (h : W.content k = .list c) : W.holds k = .list c := by
  unfold World.content at h
  cases hh : W.holds k <;> rw [hh] at h <;> cases h
  rfl
theorem holds_text {W : World} {v : Bytes} (h : W.content k = .text v) : W.holds k = .text v := by
  unfold World.content at h
  cases hh : W.holds k <;> rw [hh] at h <;> cases h
  rfl

theorem world_ext {V W : World} (h1 : ∀ k, V.holds k = W.holds k) (h2 : V.sets = W.sets) (h3 : V.next = W.next) : V = W := by
  obtain ⟨a, b, c⟩ := V
  obtain ⟨a', b', c'⟩ := W
  cases funext h1; cases h2; cases h3; rfl

/-- what a list command does to the world -/
theorem world_list_step {L : RefSpec.Lib} {W : World} {n : Bytes} (hn : n ∈ RowSpec.commands) {k : Bytes} {args : List Bytes} {m : Reply} {c c' : Row} (hk : W.holds k = .list c)
    (hs : RowSpec.step k (.row c) n (k :: args) m = .row c') : RefSpec.step L W n (k :: args) m = W.put k (.list c') := by
  have hm : n ≠ s!! "mset" ∧ n ≠ s!! "smove" := (by decide : ∀ n ∈ RowSpec.commands, n ≠ s!! "mset" ∧ n ≠ s!! "smove") n hn
  unfold RefSpec.step
  rw [if_pos hn]
  refine world_ext (fun j => ?_) rfl rfl
  unfold World.put
  dsimp only
  by_cases e : j = k
  · subst e
    rw [if_pos rfl, show (W.holds j).row = .row c by rw [hk]; rfl, hs]
  · rw [if_neg e]
    have : RowSpec.step j (W.holds j).row n (k :: args) m = (W.holds j).row := by
      unfold RowSpec.step
      split
      · rfl
      rw [if_neg hm.1, if_neg hm.2, if_pos (by intro h; exact e (by simpa using h.symm))]
    rw [this]
    cases W.holds j <;> rfl

theorem world_put_put (W : World) (k : Bytes) (a b : RefSpec.Holding) : (W.put k a).put k b = W.put k b := by
  refine world_ext (fun j => ?_) rfl rfl
  simp only [World.put]
  split <;> rfl
theorem world_put_self {W : World} {a : RefSpec.Holding} (h : W.holds k = a) : W.put k a = W := by
  refine world_ext (fun j => ?_) rfl rfl
  simp only [World.put]
  split
  · next e => rw [e, h]
  · rfl

theorem reply_of {o : RefSpec.Outcome} {m m' : Reply} (h : RefSpec.Outcome.reply m = o) (e : o = .reply m') : m = m' := by
  rw [e] at h; cases h; rfl

/-- a list command at the end of a history -/
theorem list_last {req : List Bytes} {n : Bytes} {args : List Bytes} {c c' : Row} {r : Reply} (h : Trace ext (Store.init rng) (tr ++ [(req, m)]) s)
    (hw : words (tr ++ [(req, m)]) < 2 ^ 60) (hh : heard (libOf ext) req = n :: k :: args) (hn : n ∈ RowSpec.commands) (hl : lower n = n)
    (hk : (contents ext tr).holds k = .list c) (hA : ∀ look : Bytes → RowSpec.View, look k = .row c → RowSpec.answer look n (k :: args) = .reply r)
    (hS : RowSpec.step k (.row c) n (k :: args) r = .row c') : m = r ∧ contents ext (tr ++ [(req, m)]) = (contents ext tr).put k (.list c') := by
  have f := fits_last h hw
  rw [hh] at f
  unfold RefSpec.Fits at f
  dsimp only at f
  rw [hl, if_pos hn, hA _ (by rw [hk]; rfl)] at f
  cases f
  refine ⟨rfl, ?_⟩
  rw [contents_snoc, hh]
  dsimp only [List.headD_cons, List.tail_cons]
  rw [hl]
  exact world_list_step hn hk hS

theorem put_holds (W : World) (k : Bytes) (a : RefSpec.Holding) : (W.put k a).holds k = a := by simp [World.put]

theorem split2 {p q : List Bytes × Reply} (h : Trace ext (Store.init rng) (tr ++ [p, q]) s) (hw : words (tr ++ [p, q]) < 2 ^ 60) :
    ∃ t, Trace ext (Store.init rng) (tr ++ [p]) t ∧ words (tr ++ [p]) < 2 ^ 60 ∧ Trace ext (Store.init rng) ((tr ++ [p]) ++ [q]) s ∧
      words ((tr ++ [p]) ++ [q]) < 2 ^ 60 ∧ tr ++ [p, q] = (tr ++ [p]) ++ [q] := by
  have e : tr ++ [p, q] = (tr ++ [p]) ++ [q] := by simp
  rw [e] at h hw
  obtain ⟨t, ht, -⟩ := h.split
  exact ⟨t, ht, lt_of_le_of_lt (by simp [ZSpec.words]) hw, h, hw, e⟩

/-- **C77.**  On a list, LPUSH followed by LPOP gives the item back and leaves everything as it was. -/
theorem C77_lpush_lpop {l : List Bytes} (h : Trace ext (Store.init rng) (tr ++ [([b! "LPUSH", k, x], m1), ([b! "LPOP", k], m2)]) s)
    (hw : words (tr ++ [([b! "LPUSH", k, x], m1), ([b! "LPOP", k], m2)]) < 2 ^ 60) (hk : (contents ext tr).content k = .list (.good l)) :
    m2 = bulks [x] ∧ SameContents (contents ext (tr ++ [([b! "LPUSH", k, x], m1), ([b! "LPOP", k], m2)])) (contents ext tr) := by
  obtain ⟨t, h1, w1, h2, w2, e⟩ := split2 h hw
  have hh := holds_list hk
  obtain ⟨-, c1⟩ := list_last (n := b! "lpush") (args := [x]) (c' := .good (x :: l)) (r := .int (l.length + 1)) h1 w1 rfl (by decide) (by decide) hh
    (fun look hl => by simp [RowSpec.answer, hl, RowSpec.typed, RowSpec.View.list, Row.good])
    (by simp [RowSpec.step, isError, RowSpec.next, Row.good, Row.pushLeft, RowSpec.View.list, StrSpec.counters, ListSpec.stringWriters, ListSpec.otherCreators, StrSpec.setStores, ListSpec.listWriters])
  obtain ⟨e2, c2⟩ := list_last (n := b! "lpop") (args := []) (c := .good (x :: l)) (c' := .good l) (r := bulks [x]) h2 w2 rfl (by decide) (by decide) (by rw [c1]; exact put_holds _ _ _)
    (fun look hl => by
      have h0 : ¬ ((l.length : Int) + 1 = 0) := by omega
      simp [RowSpec.answer, hl, RowSpec.typed, RowSpec.View.list, Row.good, ListSpec.popCount, Row.popped, h0])
    (by
      simp [RowSpec.step, isError, bulks, RowSpec.next, Row.good, Row.popLeft, Row.popped, ListSpec.popCount, StrSpec.counters, ListSpec.stringWriters, ListSpec.otherCreators, StrSpec.setStores, ListSpec.listWriters])
  refine ⟨e2, ?_⟩
  rw [e, c2, c1, world_put_put, world_put_self hh]
  exact .refl _

/-- **C77.**  On a list, RPUSH followed by RPOP gives the item back and leaves everything as it was. -/
theorem C77_rpush_rpop {l : List Bytes} (h : Trace ext (Store.init rng) (tr ++ [([b! "RPUSH", k, x], m1), ([b! "RPOP", k], m2)]) s)
    (hw : words (tr ++ [([b! "RPUSH", k, x], m1), ([b! "RPOP", k], m2)]) < 2 ^ 60) (hk : (contents ext tr).content k = .list (.good l)) :
    m2 = bulks [x] ∧ SameContents (contents ext (tr ++ [([b! "RPUSH", k, x], m1), ([b! "RPOP", k], m2)])) (contents ext tr) := by
  obtain ⟨t, h1, w1, h2, w2, e⟩ := split2 h hw
  have hh := holds_list hk
  obtain ⟨-, c1⟩ := list_last (n := b! "rpush") (args := [x]) (c' := .good (l ++ [x])) (r := .int (l.length + 1)) h1 w1 rfl (by decide) (by decide) hh
    (fun look hl => by simp [RowSpec.answer, hl, RowSpec.typed, RowSpec.View.list, Row.good])
    (by simp [RowSpec.step, isError, RowSpec.next, Row.good, Row.pushRight, Row.mirror, Row.pushLeft, RowSpec.View.list, StrSpec.counters, ListSpec.stringWriters, ListSpec.otherCreators, StrSpec.setStores, ListSpec.listWriters])
  obtain ⟨e2, c2⟩ := list_last (n := b! "rpop") (args := []) (c := .good (l ++ [x])) (c' := .good l) (r := bulks [x]) h2 w2 rfl (by decide) (by decide) (by rw [c1]; exact put_holds _ _ _)
    (fun look hl => by
      simp [RowSpec.answer, hl, RowSpec.typed, RowSpec.View.list, Row.good, Row.mirror, ListSpec.popCount, Row.popped])
    (by
      simp [RowSpec.step, isError, bulks, RowSpec.next, Row.good, Row.popRight, Row.mirror, Row.popLeft, Row.popped, ListSpec.popCount, StrSpec.counters, ListSpec.stringWriters, ListSpec.otherCreators, StrSpec.setStores, ListSpec.listWriters])
  refine ⟨e2, ?_⟩
  rw [e, c2, c1, world_put_put, world_put_self hh]
  exact .refl _

/-! ## counters -/

/-- what a counter request does to a world -/
def counted (W : World) (k : Bytes) (d : Option Int) (V : World) : Prop :=
  match d with
  | none => V = W
  | some d =>
    if (W.holds k).string = .coll then V = W
    else match RefSpec.StrCount (W.holds k).string with
      | none => V = W
      | some n => ∃ i, Wraps i (n + d) ∧ V = W.put k (.text (decimal i))

theorem counter_last {req : List Bytes} {n : Bytes} {rest : List Bytes} (h : Trace ext (Store.init rng) (tr ++ [(req, m)]) s)
    (hw : words (tr ++ [(req, m)]) < 2 ^ 60) (hh : heard (libOf ext) req = n :: k :: rest) (hn : n ∈ StrSpec.counters) :
    counted (contents ext tr) k (StrSpec.delta n (k :: rest)) (contents ext (tr ++ [(req, m)])) := by
  have f := fits_last h hw
  rw [contents_snoc]
  rw [hh] at f ⊢
  unfold RefSpec.Fits at f
  dsimp only [List.headD_cons, List.tail_cons] at f ⊢
  have hl : lower n = n := (by decide : ∀ n ∈ StrSpec.counters, lower n = n) n hn
  have hc := (by decide : ∀ n ∈ StrSpec.counters, n ∉ RowSpec.commands ∧ n ∉ SetSpec.commands ∧ n ∉ ZSpec.commands ∧ n ∉ HashSpec.commands ∧ n ∈ RefSpec.basicCommands ∧
    n ≠ s!! "mset" ∧ n ≠ s!! "ping" ∧ n ≠ s!! "command" ∧ n ≠ s!! "set" ∧ n ≠ s!! "get" ∧ n ≠ s!! "mget" ∧ n ≠ s!! "append" ∧ n ≠ s!! "del") n hn
  obtain ⟨c1, c2, c3, c4, c5, c6, c7, c8, c9, c10, c11, c12, c13⟩ := hc
  rw [hl] at f ⊢
  rw [if_neg c1, if_neg c2, if_neg c3, if_neg c4, if_pos c5] at f
  unfold RefSpec.step
  rw [if_neg c1, if_neg c2, if_neg c3, if_neg c6]
  unfold RefSpec.Basic at f
  rw [if_neg c7, if_neg c8, if_neg c6] at f
  dsimp only at f ⊢
  rw [if_neg c9, if_neg c10, if_neg c11, if_neg c12] at f
  have hC : RefSpec.Counter (((contents ext tr).holds k).string) n (k :: rest) m ∨ (StrSpec.delta n (k :: rest) = none ∧ isError m = true) := by
    split at f
    · obtain ⟨m', e, hC⟩ := f; cases e; exact .inl hC
    · next hne =>
      rw [if_pos (by revert hne hn; revert n; intro n; simp [StrSpec.counters]; tauto)] at f
      split at f
      · next hr =>
        cases f; right
        subst hr
        have : n = s!! "incrby" ∨ n = s!! "decrby" := by revert hne hn; revert n; intro n; simp [StrSpec.counters]; tauto
        rcases this with e | e <;> subst e <;> exact ⟨rfl, rfl⟩
      · obtain ⟨m', e, hC⟩ := f; cases e; exact .inl hC
  unfold counted
  rcases hC with hC | ⟨hd, he⟩
  · unfold RefSpec.Counter at hC
    split at hC
    · subst hC; next e => rw [e]; rfl
    · next d e =>
      rw [e]; dsimp only
      split at hC
      · next e2 => rw [if_pos e2]; subst hC; rfl
      · next e2 =>
        rw [if_neg e2]
        split at hC
        · next e3 => rw [e3]; subst hC; rfl
        · next n' e3 =>
          rw [e3]
          obtain ⟨i, e4, e5⟩ := hC
          refine ⟨i, e5, ?_⟩
          rw [e4]
          rw [if_neg (by simp [isError] : ¬ (isError (Reply.int i) = true))]
          unfold World.write
          rw [if_neg c13, if_neg c9, if_neg c12, if_pos hn]
  · rw [hd, he]; rfl

theorem int64_decimal {i : Int} (h1 : -2 ^ 63 ≤ i) (h2 : i < 2 ^ 63) : int64 (decimal i) = some i := by
  rw [int64_eq, ← formatInt_eq]; exact parseInt_formatInt i h1 h2

theorem wraps_unique {i j a : Int} (h : Wraps i a) (h' : Wraps j a) : i = j := by
  obtain ⟨h1, h2⟩ := h
  obtain ⟨h3, h4⟩ := h'
  omega

/-- `INCR`, `DECR`, `INCRBY`, `DECRBY` on `k` -/
def IsCounter (k : Bytes) (req : List Bytes) : Prop := ∃ n rest, req = n :: k :: rest ∧ n ∈ [b! "INCR", b! "DECR", b! "INCRBY", b! "DECRBY"]

theorem IsCounter.heard {req : List Bytes} (h : IsCounter k req) : ∃ n rest, heard (libOf ext) req = n :: k :: rest ∧ n ∈ StrSpec.counters := by
  obtain ⟨n, rest, rfl, hn⟩ := h
  simp only [List.mem_cons, List.not_mem_nil, or_false] at hn
  rcases hn with rfl | rfl | rfl | rfl
  · exact ⟨b! "incr", rest, rfl, by decide⟩
  · exact ⟨b! "decr", rest, rfl, by decide⟩
  · exact ⟨b! "incrby", rest, rfl, by decide⟩
  · exact ⟨b! "decrby", rest, rfl, by decide⟩

theorem counted_fun {W V V' : World} {d : Option Int} (h : counted W k d V) (h' : counted W k d V') : V = V' := by
  unfold counted at h h'
  split at h
  · rw [h, h']
  · dsimp only at h'
    split at h
    · next e => rw [if_pos e] at h'; rw [h, h']
    · next e =>
      rw [if_neg e] at h'
      split at h
      · next e2 => rw [e2] at h'; rw [h]; exact h'.symm
      · next e2 =>
        rw [e2] at h'
        obtain ⟨i, w, rfl⟩ := h
        obtain ⟨j, w', rfl⟩ := h'
        rw [wraps_unique w w']

theorem counted_swap {W V V' U U' : World} {d d' : Option Int} (h1 : counted W k d V) (h2 : counted V k d' U) (h1' : counted W k d' V') (h2' : counted V' k d U') : U = U' := by
  cases d with
  | none =>
    have e1 : V = W := h1
    have e2 : U' = V' := h2'
    subst e1 e2
    exact counted_fun h2 h1'
  | some a =>
    cases d' with
    | none =>
      have e1 : V' = W := h1'
      have e2 : U = V := h2
      subst e1 e2
      exact counted_fun h1 h2'
    | some b =>
      unfold counted at h1 h1'
      dsimp only at h1 h1'
      by_cases e : (W.holds k).string = .coll
      · rw [if_pos e] at h1 h1'
        subst h1 h1'
        unfold counted at h2 h2'
        dsimp only at h2 h2'
        rw [if_pos e] at h2 h2'
        rw [h2, h2']
      · rw [if_neg e] at h1 h1'
        cases e2 : RefSpec.StrCount (W.holds k).string with
        | none =>
          rw [e2] at h1 h1'
          have e3 : V = W := h1
          have e4 : V' = W := h1'
          subst e3 e4
          unfold counted at h2 h2'
          dsimp only at h2 h2'
          rw [if_neg e, e2] at h2 h2'
          exact h2.trans h2'.symm
        | some n =>
          rw [e2] at h1 h1'
          obtain ⟨i, w1, rfl⟩ := h1
          obtain ⟨j, w2, rfl⟩ := h1'
          unfold counted at h2 h2'
          dsimp only at h2 h2'
          rw [put_holds] at h2 h2'
          simp only [RefSpec.Holding.string, RefSpec.StrCount, reduceCtorEq, if_false] at h2 h2'
          rw [int64_decimal w1.1.1 w1.1.2] at h2
          rw [int64_decimal w2.1.1 w2.1.2] at h2'
          obtain ⟨i', w3, rfl⟩ := h2
          obtain ⟨j', w4, rfl⟩ := h2'
          rw [world_put_put, world_put_put]
          have : i' = j' := by
            obtain ⟨a1, a2⟩ := w1; obtain ⟨b1, b2⟩ := w2; obtain ⟨a3, a4⟩ := w3; obtain ⟨b3, b4⟩ := w4
            omega
          rw [this]

/-- **C77.**  The order of two counter requests on a key does not matter for what is held afterwards, whatever their arguments are. -/
theorem C77_counters_commute {r q : List Bytes} (hr : IsCounter k r) (hq : IsCounter k q) (h : Trace ext (Store.init rng) (tr ++ [(r, m1), (q, m2)]) s)
    (h' : Trace ext (Store.init rng') (tr ++ [(q, m3), (r, m4)]) s') (hw : words (tr ++ [(r, m1), (q, m2)]) < 2 ^ 60) :
    SameContents (contents ext (tr ++ [(r, m1), (q, m2)])) (contents ext (tr ++ [(q, m3), (r, m4)])) := by
  have hw' : words (tr ++ [(q, m3), (r, m4)]) < 2 ^ 60 := by simp [ZSpec.words] at hw ⊢; omega
  obtain ⟨t, h1, w1, h2, w2, e⟩ := split2 h hw
  obtain ⟨t', h1', w1', h2', w2', e'⟩ := split2 h' hw'
  obtain ⟨n, rest, e1, hn⟩ := hr.heard (ext := ext)
  obtain ⟨n', rest', e1', hn'⟩ := hq.heard (ext := ext)
  rw [e, e']
  rw [counted_swap (counter_last h1 w1 e1 hn) (counter_last h2 w2 e1' hn') (counter_last h1' w1' e1' hn') (counter_last h2' w2' e1 hn)]
  exact .refl _

/-- **C77.**  INCRBY followed by DECRBY of the same amount leaves a counter (and everything else) as it was, even if the counter wraps around in between. -/
theorem C77_incrby_decrby {n v : Int} (h : Trace ext (Store.init rng) (tr ++ [([b! "INCRBY", k, x], m1), ([b! "DECRBY", k, x], m2)]) s)
    (hw : words (tr ++ [([b! "INCRBY", k, x], m1), ([b! "DECRBY", k, x], m2)]) < 2 ^ 60) (hk : (contents ext tr).content k = .text (decimal n))
    (hn : -2 ^ 63 ≤ n ∧ n < 2 ^ 63) (hx : int64 x = some v) :
    SameContents (contents ext (tr ++ [([b! "INCRBY", k, x], m1), ([b! "DECRBY", k, x], m2)])) (contents ext tr) := by
  obtain ⟨t, h1, w1, h2, w2, e⟩ := split2 h hw
  have hh := holds_text hk
  have c1 := counter_last (n := b! "incrby") (rest := [x]) (k := k) h1 w1 rfl (by decide)
  have c2 := counter_last (n := b! "decrby") (rest := [x]) (k := k) h2 w2 rfl (by decide)
  rw [show StrSpec.delta (b! "incrby") [k, x] = some v by simp [StrSpec.delta, hx]] at c1
  rw [show StrSpec.delta (b! "decrby") [k, x] = some (-v) by simp [StrSpec.delta, hx]] at c2
  unfold counted at c1
  rw [hh] at c1
  simp only [RefSpec.Holding.string, RefSpec.StrCount, reduceCtorEq, if_false, int64_decimal hn.1 hn.2] at c1
  obtain ⟨i, wi, c1⟩ := c1
  unfold counted at c2
  rw [c1, put_holds] at c2
  simp only [RefSpec.Holding.string, RefSpec.StrCount, reduceCtorEq, if_false, int64_decimal wi.1.1 wi.1.2] at c2
  obtain ⟨j, wj, c2⟩ := c2
  have : j = n := by
    obtain ⟨a1, a2⟩ := wi; obtain ⟨b1, b2⟩ := wj
    omega
  rw [e, c2, world_put_put, this, world_put_self hh]
  exact .refl _

/-! ## sets -/

theorem set_fits_last {req : List Bytes} {n : Bytes} {args : List Bytes} (h : Trace ext (Store.init rng) (tr ++ [(req, m)]) s)
    (hw : words (tr ++ [(req, m)]) < 2 ^ 60) (hh : heard (libOf ext) req = n :: args) (hn : n ∈ SetSpec.commands) :
    SharedSpec.Fits (contents ext tr).shared n args m ∧ contents ext (tr ++ [(req, m)]) = RefSpec.step (libOf ext) (contents ext tr) n args m := by
  have f := fits_last h hw
  rw [contents_snoc]
  rw [hh] at f ⊢
  unfold RefSpec.Fits at f
  dsimp only [List.headD_cons, List.tail_cons] at f ⊢
  have hl : lower n = n := (by decide : ∀ n ∈ SetSpec.commands, lower n = n) n hn
  have hc := (by decide : ∀ n ∈ SetSpec.commands, n ∉ RowSpec.commands) n hn
  rw [hl] at f ⊢
  rw [if_neg hc, if_pos hn] at f
  obtain ⟨m', e, f⟩ := f
  cases e
  exact ⟨f, rfl⟩

/-- a set that is there becomes another -/
def World.become (W : World) (i : Nat) (v : SVal) : World := { W with sets := fun j => if j = i then v else W.sets j }

/-- the sets after a change -/
theorem world_set_change {L : RefSpec.Lib} {W : World} {n : Bytes} {k : Bytes} {xs : List Bytes} {m : Reply} {i : Nat} {v : SVal} (hk : W.holds k = .set i) (hn : n ∈ SetSpec.commands)
    (hS : SharedSpec.step W.shared n (k :: xs) m = W.shared.change k (.here v)) : RefSpec.step L W n (k :: xs) m = World.become W i v := by
  have hc := (by decide : ∀ n ∈ SetSpec.commands, n ∉ RowSpec.commands) n hn
  unfold RefSpec.step
  rw [if_neg hc, if_pos hn, hS]
  have : W.shared.change k (.here v) = { W.shared with sets := fun j => if j = i then v else W.sets j } := by
    unfold SharedSpec.World.change
    rw [show W.shared.names k = .here i by simp [World.shared, hk, RefSpec.Holding.setName]]
    rfl
  rw [this]
  refine world_ext (fun j => ?_) rfl rfl
  show (match (W.holds j).setName with | .absent => RefSpec.Holding.absent | .other => W.holds j | .here i => .set i) = W.holds j
  cases W.holds j <;> rfl

theorem holds_set {W : World} {v : SVal} (h : W.content k = .set v) : ∃ i, W.holds k = .set i ∧ W.sets i = v := by
  unfold World.content at h
  cases hh : W.holds k <;> rw [hh] at h <;> cases h
  exact ⟨_, rfl, rfl⟩

theorem view_set {W : World} {i : Nat} (h : W.holds k = .set i) : W.shared.view k = .here (W.sets i) := by
  simp [SharedSpec.World.view, World.shared, h, RefSpec.Holding.setName]

/-- **C77.**  Adding to a set what is not in it and removing it again leaves everything as it was. -/
theorem C77_sadd_srem {v : SVal} (h : Trace ext (Store.init rng) (tr ++ [([b! "SADD", k, x], m1), ([b! "SREM", k, x], m2)]) s)
    (hw : words (tr ++ [([b! "SADD", k, x], m1), ([b! "SREM", k, x], m2)]) < 2 ^ 60) (hk : (contents ext tr).content k = .set v) (hx : x ∉ v.1) :
    m1 = .int 1 ∧ m2 = .int 1 ∧ SameContents (contents ext (tr ++ [([b! "SADD", k, x], m1), ([b! "SREM", k, x], m2)])) (contents ext tr) := by
  obtain ⟨t, h1, w1, h2, w2, e⟩ := split2 h hw
  obtain ⟨i, hh, hv⟩ := holds_set hk
  obtain ⟨f1, c1⟩ := set_fits_last (n := b! "sadd") (args := [k, x]) h1 w1 rfl (by decide)
  obtain ⟨f2, c2⟩ := set_fits_last (n := b! "srem") (args := [k, x]) h2 w2 rfl (by decide)
  have v1 := view_set hh
  rw [hv] at v1
  obtain ⟨X, g⟩ := v
  have e1 : m1 = .int 1 := by
    simp [SharedSpec.Fits, SetSpec.Fits, StrSpec.setStores, v1, SetSpec.mems] at f1
    rw [f1, Finset.sdiff_eq_self_of_disjoint (by simpa using hx)]; rfl
  subst e1
  rw [world_set_change (v := (X ∪ {x}, g)) hh (by decide) (by
    simp [SharedSpec.step, isError, v1, SetSpec.add])] at c1
  have hh' : (contents ext (tr ++ [([b! "SADD", k, x], .int 1)])).holds k = .set i := by rw [c1]; exact hh
  have v2 : (contents ext (tr ++ [([b! "SADD", k, x], .int 1)])).shared.view k = .here (X ∪ {x}, g) := by
    rw [view_set hh', c1]; simp [World.become]
  have e2 : m2 = .int 1 := by
    simp [SharedSpec.Fits, SetSpec.Fits, StrSpec.setStores, v2, SetSpec.mems] at f2
    rw [f2]
  subst e2
  rw [world_set_change (v := (X, g)) hh' (by decide) (by
    simp [SharedSpec.step, isError, v2, SetSpec.remove]
    congr 3
    ext a; simp
    constructor
    · rintro ⟨h | h, h'⟩
      · exact absurd h h'
      · exact h
    · exact fun h => ⟨.inr h, fun e => hx (e ▸ h)⟩)] at c2
  refine ⟨rfl, rfl, ?_⟩
  rw [e, c2, c1]
  have : World.become (World.become (contents ext tr) i (X ∪ {x}, g)) i (X, g) = contents ext tr := by
    refine world_ext (fun _ => rfl) (funext fun j => ?_) rfl
    simp only [World.become]
    split
    · next e => rw [e, hv]
    · rfl
  rw [this]
  exact .refl _

/-- what an accepted SADD does to a world -/
def added (W : World) (k : Bytes) (xs : List Bytes) : World :=
  match W.holds k with
  | .absent => ⟨fun j => if j = k then .set W.next else W.holds j, fun i => if i = W.next then (xs.toFinset, 0) else W.sets i, W.next + 1⟩
  | .set i => World.become W i ((W.sets i).1 ∪ xs.toFinset, (W.sets i).2)
  | _ => W

theorem sadd_last {y : Bytes} {ys : List Bytes} (h : Trace ext (Store.init rng) (tr ++ [(b! "SADD" :: k :: y :: ys, m)]) s)
    (hw : words (tr ++ [(b! "SADD" :: k :: y :: ys, m)]) < 2 ^ 60) : contents ext (tr ++ [(b! "SADD" :: k :: y :: ys, m)]) = added (contents ext tr) k (y :: ys) := by
  obtain ⟨f, c⟩ := set_fits_last (n := b! "sadd") (args := k :: y :: ys) h hw rfl (by decide)
  rw [c]
  replace f : m = if (contents ext tr).shared.view k = .other then ListSpec.errType else .int ((y :: ys).toFinset \ SetSpec.mems ((contents ext tr).shared.view k)).card := f
  generalize contents ext tr = W at f
  have other : (W.holds k).setName = .other → m = ListSpec.errType := by
    intro e
    have : W.shared.view k = .other := by simp [SharedSpec.World.view, World.shared, e]
    rw [f, if_pos this]
  have fine : (W.holds k).setName ≠ .other → isError m = false := by
    intro e
    have : W.shared.view k ≠ .other := by
      unfold SharedSpec.World.view World.shared
      dsimp only
      cases hx : (W.holds k).setName <;> simp_all
    rw [f, if_neg this]; rfl
  have same : m = ListSpec.errType → RefSpec.step (libOf ext) W (b! "sadd") (k :: y :: ys) m = W := by
    rintro rfl
    refine world_ext (fun j => ?_) rfl rfl
    show (match (W.holds j).setName with | .absent => RefSpec.Holding.absent | .other => W.holds j | .here i => .set i) = W.holds j
    cases W.holds j <;> rfl
  cases hh : W.holds k with
  | text v => rw [same (other (by rw [hh]; rfl))]; simp [added, hh]
  | list v => rw [same (other (by rw [hh]; rfl))]; simp [added, hh]
  | sorted v => rw [same (other (by rw [hh]; rfl))]; simp [added, hh]
  | set i =>
    have hm := fine (by rw [hh]; exact fun h => nomatch h)
    rw [world_set_change (v := ((W.sets i).1 ∪ (y :: ys).toFinset, (W.sets i).2)) hh (by decide) (by
      simp [SharedSpec.step, hm, view_set hh, SetSpec.add])]
    simp [added, hh]
  | absent =>
    have hm := fine (by rw [hh]; exact fun h => nomatch h)
    have hv : W.shared.view k = .absent := by simp [SharedSpec.World.view, World.shared, hh, RefSpec.Holding.setName]
    have : SharedSpec.step W.shared (b! "sadd") (k :: y :: ys) m = W.shared.create k ((y :: ys).toFinset, 0) := by
      have hnm : W.shared.names k = .absent := by simp [World.shared, hh, RefSpec.Holding.setName]
      simp only [SharedSpec.step, hm, hv, SetSpec.add, SharedSpec.World.change, hnm]
      rfl
    unfold RefSpec.step
    rw [if_neg (by decide), if_pos (by decide), this]
    simp only [added, hh]
    refine world_ext (fun j => ?_) rfl rfl
    simp only [SharedSpec.World.create]
    by_cases e : j = k
    · rw [if_pos e, if_pos e]; rfl
    · rw [if_neg e, if_neg e]
      show (match (W.holds j).setName with | .absent => RefSpec.Holding.absent | .other => W.holds j | .here i => .set i) = W.holds j
      cases W.holds j <;> rfl

theorem added_swap (W : World) (k : Bytes) (xs ys : List Bytes) : added (added W k xs) k ys = added (added W k ys) k xs := by
  cases hh : W.holds k with
  | text v => simp [added, hh]
  | list v => simp [added, hh]
  | sorted v => simp [added, hh]
  | set i =>
    simp only [added, hh, World.become]
    refine world_ext (fun _ => rfl) (funext fun j => ?_) rfl
    dsimp only
    split
    · simp only [if_pos, Finset.union_assoc, Finset.union_comm ys.toFinset]
    · rfl
  | absent =>
    simp only [added, hh, World.become, if_pos]
    refine world_ext (fun _ => rfl) (funext fun j => ?_) rfl
    dsimp only
    split
    · simp only [Finset.union_comm ys.toFinset]
    · rfl

/-- **C77.**  The order of two SADD requests on a key does not matter for what is held afterwards. -/
theorem C77_sadd_commute {x' : Bytes} {xs ys : List Bytes} (h : Trace ext (Store.init rng) (tr ++ [(b! "SADD" :: k :: x :: xs, m1), (b! "SADD" :: k :: x' :: ys, m2)]) s)
    (h' : Trace ext (Store.init rng') (tr ++ [(b! "SADD" :: k :: x' :: ys, m3), (b! "SADD" :: k :: x :: xs, m4)]) s')
    (hw : words (tr ++ [(b! "SADD" :: k :: x :: xs, m1), (b! "SADD" :: k :: x' :: ys, m2)]) < 2 ^ 60) :
    SameContents (contents ext (tr ++ [(b! "SADD" :: k :: x :: xs, m1), (b! "SADD" :: k :: x' :: ys, m2)]))
      (contents ext (tr ++ [(b! "SADD" :: k :: x' :: ys, m3), (b! "SADD" :: k :: x :: xs, m4)])) := by
  have hw' : words (tr ++ [(b! "SADD" :: k :: x' :: ys, m3), (b! "SADD" :: k :: x :: xs, m4)]) < 2 ^ 60 := by simp [ZSpec.words] at hw ⊢; omega
  obtain ⟨t, h1, w1, h2, w2, e⟩ := split2 h hw
  obtain ⟨t', h1', w1', h2', w2', e'⟩ := split2 h' hw'
  rw [e, e', sadd_last h2 w2, sadd_last h1 w1, sadd_last h2' w2', sadd_last h1' w1', added_swap]
  exact .refl _

/-! ## cases -/

/-- a history from its requests and replies -/
theorem replies_trace {reqs : List (List Bytes)} {rs : List Reply} (h : replies reqs = some rs) : ∃ s, Trace ext0 (Store.init rng0) (reqs.zip rs) s := by
  unfold replies at h
  cases hp : play ext0 it0 (Store.init rng0) reqs with
  | none => rw [hp] at h; cases h
  | some p =>
    obtain ⟨tr, s⟩ := p
    rw [hp] at h
    simp only [Option.map_some, Option.some.injEq] at h
    refine ⟨s, ?_⟩
    have : reqs.zip rs = tr := by
      rw [← h, ← play_fst hp]
      clear h hp
      induction tr with
      | nil => rfl
      | cons a tr ih => simp [ih]
    rw [this]
    exact play_trace hp

/-- Case: the hypotheses of `C77_lpush_lpop` are met. -/
theorem lpush_lpop_case : (∃ s, Trace ext0 (Store.init rng0) ([([b! "RPUSH", b! "l", b! "a", b! "b"], .int 2), ([b! "SET", b! "x", b! "1"], .simple (b! "OK"))] ++
      [([b! "LPUSH", b! "l", b! "c"], .int 3), ([b! "LPOP", b! "l"], bulks [b! "c"])]) s) ∧
    (contents ext0 [([b! "RPUSH", b! "l", b! "a", b! "b"], .int 2), ([b! "SET", b! "x", b! "1"], .simple (b! "OK"))]).content (b! "l") = .list (.good [b! "a", b! "b"]) :=
  ⟨replies_trace (reqs := [[b! "RPUSH", b! "l", b! "a", b! "b"], [b! "SET", b! "x", b! "1"], [b! "LPUSH", b! "l", b! "c"], [b! "LPOP", b! "l"]])
      (rs := [.int 2, .simple (b! "OK"), .int 3, bulks [b! "c"]]) (by decide +kernel), rfl⟩

/-- Case: `C77_rpush_rpop`. -/
theorem rpush_rpop_case : (∃ s, Trace ext0 (Store.init rng0) ([([b! "RPUSH", b! "l", b! "a", b! "b"], .int 2)] ++
      [([b! "RPUSH", b! "l", b! "c"], .int 3), ([b! "RPOP", b! "l"], bulks [b! "c"])]) s) ∧
    (contents ext0 [([b! "RPUSH", b! "l", b! "a", b! "b"], .int 2)]).content (b! "l") = .list (.good [b! "a", b! "b"]) :=
  ⟨replies_trace (reqs := [[b! "RPUSH", b! "l", b! "a", b! "b"], [b! "RPUSH", b! "l", b! "c"], [b! "RPOP", b! "l"]])
      (rs := [.int 2, .int 3, bulks [b! "c"]]) (by decide +kernel), rfl⟩

/-- Case: `C77_incrby_decrby`; the counter wraps around. -/
theorem incrby_decrby_case : (∃ s, Trace ext0 (Store.init rng0) ([([b! "SET", b! "n", b! "9223372036854775807"], .simple (b! "OK"))] ++
      [([b! "INCRBY", b! "n", b! "5"], .int (-9223372036854775804)), ([b! "DECRBY", b! "n", b! "5"], .int 9223372036854775807)]) s) ∧
    (contents ext0 [([b! "SET", b! "n", b! "9223372036854775807"], .simple (b! "OK"))]).content (b! "n") = .text (decimal 9223372036854775807) ∧
    int64 (b! "5") = some 5 :=
  ⟨replies_trace (reqs := [[b! "SET", b! "n", b! "9223372036854775807"], [b! "INCRBY", b! "n", b! "5"], [b! "DECRBY", b! "n", b! "5"]])
      (rs := [.simple (b! "OK"), .int (-9223372036854775804), .int 9223372036854775807]) (by decide +kernel), by
      have : (b! "9223372036854775807") = decimal 9223372036854775807 := by decide +kernel
      rw [← this]; rfl, by decide +kernel⟩

/-- Case: `C77_counters_commute`. -/
theorem counters_commute_case : (∃ s, Trace ext0 (Store.init rng0) ([([b! "SET", b! "n", b! "4"], .simple (b! "OK"))] ++ [([b! "INCR", b! "n"], .int 5), ([b! "DECRBY", b! "n", b! "7"], .int (-2))]) s) ∧
    (∃ s, Trace ext0 (Store.init rng0) ([([b! "SET", b! "n", b! "4"], .simple (b! "OK"))] ++ [([b! "DECRBY", b! "n", b! "7"], .int (-3)), ([b! "INCR", b! "n"], .int (-2))]) s) ∧
    IsCounter (b! "n") [b! "INCR", b! "n"] ∧ IsCounter (b! "n") [b! "DECRBY", b! "n", b! "7"] :=
  ⟨replies_trace (reqs := [[b! "SET", b! "n", b! "4"], [b! "INCR", b! "n"], [b! "DECRBY", b! "n", b! "7"]]) (rs := [.simple (b! "OK"), .int 5, .int (-2)]) (by decide +kernel),
   replies_trace (reqs := [[b! "SET", b! "n", b! "4"], [b! "DECRBY", b! "n", b! "7"], [b! "INCR", b! "n"]]) (rs := [.simple (b! "OK"), .int (-3), .int (-2)]) (by decide +kernel),
   ⟨_, _, rfl, by decide⟩, ⟨_, _, rfl, by decide⟩⟩

/-- Case: `C77_sadd_srem`. -/
theorem sadd_srem_case : (∃ s, Trace ext0 (Store.init rng0) ([([b! "SADD", b! "s", b! "a", b! "b"], .int 2)] ++ [([b! "SADD", b! "s", b! "c"], .int 1), ([b! "SREM", b! "s", b! "c"], .int 1)]) s) ∧
    ∃ v, (contents ext0 [([b! "SADD", b! "s", b! "a", b! "b"], .int 2)]).content (b! "s") = .set v ∧ b! "c" ∉ v.1 :=
  ⟨replies_trace (reqs := [[b! "SADD", b! "s", b! "a", b! "b"], [b! "SADD", b! "s", b! "c"], [b! "SREM", b! "s", b! "c"]]) (rs := [.int 2, .int 1, .int 1]) (by decide +kernel),
   _, rfl, by decide +kernel⟩

/-- Case: `C77_sadd_commute`. -/
theorem sadd_commute_case : (∃ s, Trace ext0 (Store.init rng0) ([([b! "SET", b! "x", b! "1"], .simple (b! "OK"))] ++ [([b! "SADD", b! "s", b! "a", b! "b"], .int 2), ([b! "SADD", b! "s", b! "b", b! "c"], .int 1)]) s) ∧
    (∃ s, Trace ext0 (Store.init rng0) ([([b! "SET", b! "x", b! "1"], .simple (b! "OK"))] ++ [([b! "SADD", b! "s", b! "b", b! "c"], .int 2), ([b! "SADD", b! "s", b! "a", b! "b"], .int 1)]) s) :=
  ⟨replies_trace (reqs := [[b! "SET", b! "x", b! "1"], [b! "SADD", b! "s", b! "a", b! "b"], [b! "SADD", b! "s", b! "b", b! "c"]]) (rs := [.simple (b! "OK"), .int 2, .int 1]) (by decide +kernel),
   replies_trace (reqs := [[b! "SET", b! "x", b! "1"], [b! "SADD", b! "s", b! "b", b! "c"], [b! "SADD", b! "s", b! "a", b! "b"]]) (rs := [.simple (b! "OK"), .int 2, .int 1]) (by decide +kernel)⟩

/-- Case: the hypotheses of `C75_same_contents` are met by two different histories: the members were added in another order. -/
theorem same_contents_case : ∃ tr tr' s s', tr ≠ tr' ∧ Trace ext0 (Store.init rng0) tr s ∧ Trace ext0 (Store.init rng0) tr' s' ∧ (∀ i, rng0 i ≤ 30) ∧
    SameContents (contents ext0 tr) (contents ext0 tr') ∧ RefSpec.Decided (libOf ext0) (contents ext0 tr) (heard (libOf ext0) [b! "SMEMBERS", b! "s"]) := by
  obtain ⟨⟨s, h⟩, ⟨s', h'⟩⟩ := sadd_commute_case
  exact ⟨_, _, s, s', by decide +kernel, h, h', fun i => by simp [rng0], C77_sadd_commute h h' (by decide +kernel),
    fun e => absurd e (by decide +kernel), fun e => absurd e (by decide +kernel)⟩

/-- C77 fails for keys that are absent at first: pushing and popping leaves an empty list, adding and removing an empty set, and the key can then not be used otherwise. -/
theorem C77_absent_violated :
    replies [[b! "EXISTS", b! "l"], [b! "LPUSH", b! "l", b! "a"], [b! "LPOP", b! "l"], [b! "EXISTS", b! "l"], [b! "SADD", b! "l", b! "x"]] =
      some [.int 0, .int 1, bulks [b! "a"], .int 1, ListSpec.errType] ∧
    replies [[b! "EXISTS", b! "s"], [b! "SADD", b! "s", b! "a"], [b! "SREM", b! "s", b! "a"], [b! "EXISTS", b! "s"], [b! "LPUSH", b! "s", b! "x"]] =
      some [.int 0, .int 1, .int 1, .int 1, ListSpec.errType] := by
  decide +kernel

/-- C77 fails for LREM: if an item is pushed to an empty list and removed with LREM, then what is pushed next cannot be popped at the other end (it can if the item was
popped). -/
theorem C77_lrem_violated :
    replies [[b! "RPUSH", b! "l", b! "a"], [b! "LPOP", b! "l"], [b! "RPUSH", b! "l", b! "b"], [b! "LREM", b! "l", b! "0", b! "b"], [b! "RPUSH", b! "l", b! "c"], [b! "LPOP", b! "l"]] =
      some [.int 1, bulks [b! "a"], .int 1, .int 1, .int 1, bulks []] ∧
    replies [[b! "RPUSH", b! "l", b! "a"], [b! "LPOP", b! "l"], [b! "RPUSH", b! "l", b! "b"], [b! "RPOP", b! "l"], [b! "RPUSH", b! "l", b! "c"], [b! "LPOP", b! "l"]] =
      some [.int 1, bulks [b! "a"], .int 1, bulks [b! "b"], .int 1, bulks [b! "c"]] := by
  decide +kernel

end Godis
