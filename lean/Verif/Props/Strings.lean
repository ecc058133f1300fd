import Verif.Proofs.Strings2
import Verif.Props.Play
/-!
# C08–C11: strings and counters

Statements use `Answers`/`Reads`/`Trace` (Props/Defs.lean) and the history specification Spec/Strings.lean.
-/
namespace Godis
open Resp (Reply bulks)
open StrSpec

/-- C08.  After any history (with ASCII command names) GET replies what the history says the key holds:
`Holds k tr v` is decided by the requests and replies alone, exactly one `v` qualifies, and GET replies that `v` and
nothing else, whatever extra arguments it gets. -/
theorem C08_get_returns_last_write {ext rng tr s} (h : Trace ext (Store.init rng) tr s)
    (hn : ∀ p ∈ tr, ∀ name ∈ p.1.head?, Ascii name) (k : Bytes) :
    ∃ v, (∀ w, Holds k tr w ↔ w = v) ∧
      ∀ it rest m s', Answers ext it s (b! "get" :: k :: rest) m s' ↔ m = getReply v ∧ s' = s :=
  ⟨viewOf s k, fun _ => ⟨fun hw => holds_unique hw (holds_trace h hn k), fun hw => hw ▸ holds_trace h hn k⟩,
    fun _ _ _ _ => get_answers (h.typed (typed_init rng))⟩

/-- C09, what the code does.  A counter command with increment `d` on a key that is absent (counting as 0) or holds an
integer `n` replies the 64-bit integer congruent to `n + d` modulo 2^64, and the key then holds its decimal text, all
other keys hold what they held.  In particular (`Wraps`) if `n + d` fits in 64 bits the reply is `n + d`. -/
theorem C09_counter_partial {ext s} (hs : Reachable ext s) {k : Bytes} {name : Bytes} {rest : List Bytes} {d n : Int}
    (hd : delta (lower name) (k :: rest) = some d)
    (hk : Reads ext s [b! "get", k] (.bulk none) ∧ n = 0 ∨
      ∃ t, Reads ext s [b! "get", k] (.bulk (some t)) ∧ int64 t = some n) (it : Iter) :
    ∃ i s', Wraps i (n + d) ∧ Answers ext it s (name :: k :: rest) (.int i) s' ∧
      Reads ext s' [b! "get", k] (.bulk (some (decimal i))) ∧
      ∀ k' m, k' ≠ k → (Reads ext s' [b! "get", k'] m ↔ Reads ext s [b! "get", k'] m) := by
  have ht := hs.typed
  have hlow : ∀ uni, toLower uni name = lower name := by
    intro uni
    obtain ⟨c, hl, hc⟩ := counter_lookup hd
    apply lower_eq
    refine ascii_of_lower rfl ?_
    unfold delta at hd
    split at hd
    · next h => rw [h]; unfold Ascii; decide
    split at hd
    · next h => rw [h]; unfold Ascii; decide
    split at hd
    · next h => rw [h]; unfold Ascii; decide
    split at hd
    · next h => rw [h]; unfold Ascii; decide
    · cases hd
  have hv : viewOf s k = .absent ∧ n = 0 ∨ ∃ t, viewOf s k = .str t ∧ int64 t = some n := by
    rcases hk with ⟨h, hn⟩ | ⟨t, h, hn⟩
    · have := ((get_answers ht).mp (h it)).1
      cases hv : viewOf s k <;> rw [hv] at this <;> cases this
      exact .inl ⟨rfl, hn⟩
    · have := ((get_answers ht).mp (h it)).1
      cases hv : viewOf s k <;> rw [hv] at this <;> cases this
      exact .inr ⟨t, rfl, hn⟩
  obtain ⟨c, hl, hf⟩ := counter_run (ext := ext) (it := it) (s := s) hd
  have hi : s.incrBy k (wrap64 d) = .ok (s.set k (formatInt (wrap64 (n + d))), wrap64 (n + d), none) := by
    rw [incrBy_run ht]
    rcases hv with ⟨hv, rfl⟩ | ⟨t, hv, hn⟩
    · rw [hv]; simp
    · rw [hv]; simp only [hn]
      have : wrap64 (n + wrap64 d) = wrap64 (n + d) := by unfold wrap64; omega
      rw [this]
  rw [hi] at hf
  have ht' : Typed (s.set k (formatInt (wrap64 (n + d)))) := ht.setKey _ _ _ (.inl ⟨_, rfl⟩)
  refine ⟨wrap64 (n + d), s.set k (formatInt (wrap64 (n + d))), wraps_wrap64 _, ?_, fun it => ?_, fun k' m hk => ?_⟩
  · rw [answers_iff (by rw [hlow]; exact hl)]
    exact ⟨_, hf, rfl⟩
  · rw [get_answers ht', set_view, if_pos rfl, ← formatInt_eq]; exact ⟨rfl, rfl⟩
  · unfold Reads
    simp only [get_answers ht', get_answers ht, set_view, if_neg hk]

/-- C09: a key that holds a string that is not a 64-bit integer, or a collection, is left alone, with an error. -/
theorem C09_refused {ext s} (hs : Reachable ext s) {k : Bytes} {name : Bytes} (rest : List Bytes)
    (hname : lower name ∈ counters) (hr : lower name ∈ [b! "incr", b! "decr"] ∨ rest ≠ [])
    (hk : (∃ t, Reads ext s [b! "get", k] (.bulk (some t)) ∧ int64 t = none) ∨
      (∃ e, Reads ext s [b! "get", k] (.error e)) ∨ delta (lower name) (k :: rest) = none) (it : Iter) :
    ∃ e ∈ [b! "value is not an integer or out of range", b! "key type and command not match"],
      Answers ext it s (name :: k :: rest) (.error e) s := by
  have ht := hs.typed
  have hlow : ∀ uni, toLower uni name = lower name := by
    intro uni
    apply lower_eq
    refine ascii_of_lower rfl ?_
    revert hname; generalize lower name = l; intro hname
    simp only [counters, List.mem_cons, List.not_mem_nil, or_false] at hname
    rcases hname with rfl | rfl | rfl | rfl <;> (unfold Ascii; decide)
  cases hd : delta (lower name) (k :: rest) with
  | none =>
    revert hd hname hr hlow; generalize hl : lower name = l; intro hname hr hlow hd
    simp only [counters, List.mem_cons, List.not_mem_nil, or_false] at hname
    rcases hname with rfl | rfl | rfl | rfl
    · cases hd
    · rcases hr with hr | hr
      · exact absurd hr (by decide)
      · cases rest with
        | nil => exact absurd rfl hr
        | cons a rest =>
          refine ⟨_, by simp only [List.mem_cons]; exact .inl rfl, ?_⟩
          rw [answers_iff (c := .incrBy) (by rw [hlow]; rfl)]
          replace hd : int64 a = none := hd
          rw [int64_eq] at hd
          exact ⟨_, by simp only [Cmd.fn, cmdIncrBy, hd, retErr]; rfl, rfl⟩
    · cases hd
    · rcases hr with hr | hr
      · exact absurd hr (by decide)
      · cases rest with
        | nil => exact absurd rfl hr
        | cons a rest =>
          refine ⟨_, by simp only [List.mem_cons]; exact .inl rfl, ?_⟩
          rw [answers_iff (c := .decrBy) (by rw [hlow]; rfl)]
          replace hd : (int64 a).map (fun d => -d) = none := hd
          rw [int64_eq] at hd
          have hd : parseInt a = none := by
            cases h : parseInt a with
            | none => rfl
            | some => rw [h] at hd; cases hd
          exact ⟨_, by simp only [Cmd.fn, cmdDecrBy, hd, retErr]; rfl, rfl⟩
  | some d =>
    obtain ⟨c, hl, hf⟩ := counter_run (ext := ext) (it := it) (s := s) hd
    rw [incrBy_run ht] at hf
    rcases hk with ⟨t, h, hn⟩ | ⟨e, h⟩ | h
    · have := ((get_answers ht).mp (h it)).1
      cases hv : viewOf s k <;> rw [hv] at this <;> cases this
      rw [hv] at hf; simp only [hn] at hf
      refine ⟨_, by simp only [List.mem_cons]; exact .inl rfl, ?_⟩
      rw [answers_iff (by rw [hlow]; exact hl)]
      exact ⟨_, hf, rfl⟩
    · have := ((get_answers ht).mp (h it)).1
      cases hv : viewOf s k <;> rw [hv] at this <;> cases this
      rw [hv] at hf
      refine ⟨_, by simp only [List.mem_cons]; exact .inr (.inl rfl), ?_⟩
      rw [answers_iff (by rw [hlow]; exact hl)]
      exact ⟨_, hf, rfl⟩
    · rw [hd] at h; cases h

/-- C09 does not hold in full: an increment that overflows is not refused but wraps around. -/
theorem C09_overflow_violated :
    replies [[b! "set", b! "k", b! "9223372036854775807"], [b! "incr", b! "k"], [b! "get", b! "k"]] =
      some [.simple (b! "OK"), .int (-9223372036854775808), .bulk (some (b! "-9223372036854775808"))] := by
  decide +kernel

/-- C10.  Through any history in which only counter commands and reads name `k` (anything may happen to other keys),
what `k` counts as changes by exactly the sum of the increments of the accepted counter commands, modulo 2^64. -/
theorem C10_no_lost_update {ext s tr s'} (hs : Reachable ext s) (h : Trace ext s tr s') {k : Bytes}
    (hascii : ∀ p ∈ tr, ∀ name ∈ p.1.head?, Ascii name)
    (hok : ∀ p ∈ tr, ∀ name args, p.1 = name :: args → k ∈ KeySpec.keyArgs (lower name) args →
      lower name ∈ counters ∨ lower name ∈ KeySpec.readOnly)
    {m0 : Reply} {n0 : Int} (h0 : Reads ext s [b! "get", k] m0) (hn0 : CountsAs m0 n0) :
    ∃ m n, Reads ext s' [b! "get", k] m ∧ CountsAs m n ∧ Wraps n (n0 + (tr.map (contrib k)).sum) := by
  have ht := hs.typed
  have e := ((get_answers ht).mp (h0 it0)).1
  rw [e] at hn0
  refine ⟨getReply (viewOf s' k), wrap64 (n0 + (tr.map (contrib k)).sum), fun it => ?_, ?_, wraps_wrap64 _⟩
  · rw [get_answers (h.typed ht)]; exact ⟨rfl, rfl⟩
  · induction h with
    | nil =>
      have : wrap64 (n0 + (([] : List (List Bytes × Reply)).map (contrib k)).sum) = n0 := by
        simp only [List.map_nil, List.sum_nil, Int.add_zero]
        rcases hn0 with ⟨_, rfl⟩ | ⟨t, _, h⟩
        · rfl
        · rw [int64_eq] at h; exact wrap64_of_range _ (parseInt_range h).1 (parseInt_range h).2
      rw [this]; exact hn0
    | @snoc tr s1 it req m s2 ht1 ha ih =>
      have ih := ih (fun p hp => hascii p (by simp [hp])) (fun p hp => hok p (by simp [hp]))
      have := counter_step (ht1.typed ht) ha (hascii (req, m) (by simp)) (hok (req, m) (by simp)) ih
      have e : wrap64 (wrap64 (n0 + (tr.map (contrib k)).sum) + contrib k (req, m)) =
          wrap64 (n0 + ((tr ++ [(req, m)]).map (contrib k)).sum) := by
        simp only [List.map_append, List.sum_append, List.map_cons, List.map_nil, List.sum_cons, List.sum_nil]
        unfold wrap64; omega
      rw [← e]; exact this

/-- C10.  The order of the increments does not matter: two histories of the same counter whose accepted increments are
the same up to order leave it at the same value. -/
theorem C10_order_independent {ext s1 tr1 s1' s2 tr2 s2'} (hs1 : Reachable ext s1) (hs2 : Reachable ext s2)
    (h1 : Trace ext s1 tr1 s1') (h2 : Trace ext s2 tr2 s2') {k : Bytes}
    (hascii : ∀ p ∈ tr1 ++ tr2, ∀ name ∈ p.1.head?, Ascii name)
    (hok : ∀ p ∈ tr1 ++ tr2, ∀ name args, p.1 = name :: args → k ∈ KeySpec.keyArgs (lower name) args →
      lower name ∈ counters ∨ lower name ∈ KeySpec.readOnly)
    {m0 : Reply} {n0 : Int} (ha : Reads ext s1 [b! "get", k] m0) (hb : Reads ext s2 [b! "get", k] m0)
    (hn0 : CountsAs m0 n0) (hperm : (tr1.map (contrib k)).Perm (tr2.map (contrib k))) :
    ∃ m1 m2 n, Reads ext s1' [b! "get", k] m1 ∧ Reads ext s2' [b! "get", k] m2 ∧ CountsAs m1 n ∧ CountsAs m2 n := by
  obtain ⟨m1, n1, r1, c1, w1⟩ := C10_no_lost_update hs1 h1 (fun p hp => hascii p (by simp [hp]))
    (fun p hp => hok p (by simp [hp])) ha hn0
  obtain ⟨m2, n2, r2, c2, w2⟩ := C10_no_lost_update hs2 h2 (fun p hp => hascii p (by simp [hp]))
    (fun p hp => hok p (by simp [hp])) hb hn0
  rw [wraps_iff] at w1 w2
  have hsum : ∀ {l1 l2 : List Int}, l1.Perm l2 → l1.sum = l2.sum := by
    intro l1 l2 h
    induction h with
    | nil => rfl
    | cons _ _ ih => simp [ih]
    | swap => simp only [List.sum_cons]; omega
    | trans _ _ a b => rw [a, b]
  rw [hsum hperm, ← w2] at w1
  exact ⟨m1, m2, n2, r1, r2, w1 ▸ c1, c2⟩

/-- C11.  APPEND to a key that is absent (empty text) or holds the text `t` makes it hold `t` followed by the argument,
replies the new length in bytes, and leaves all other keys. -/
theorem C11_append {ext s} (hs : Reachable ext s) {k a t : Bytes} (rest : List Bytes)
    (hk : Reads ext s [b! "get", k] (.bulk none) ∧ t = [] ∨ Reads ext s [b! "get", k] (.bulk (some t))) (it : Iter) :
    ∃ s', Answers ext it s (b! "append" :: k :: a :: rest) (.int (t.length + a.length)) s' ∧
      Reads ext s' [b! "get", k] (.bulk (some (t ++ a))) ∧
      ∀ k' m, k' ≠ k → (Reads ext s' [b! "get", k'] m ↔ Reads ext s [b! "get", k'] m) := by
  have ht := hs.typed
  have hr : s.append k a = .ok (s.set k (t ++ a), ((t.length : Int) + a.length), none) := by
    rw [append_run ht]
    rcases hk with ⟨h, rfl⟩ | h
    · have := ((get_answers ht).mp (h it)).1
      cases hv : viewOf s k <;> rw [hv] at this <;> cases this
      simp
    · have := ((get_answers ht).mp (h it)).1
      cases hv : viewOf s k <;> rw [hv] at this <;> cases this
      simp
  have ht' : Typed (s.set k (t ++ a)) := ht.setKey _ _ _ (.inl ⟨_, rfl⟩)
  refine ⟨s.set k (t ++ a), ?_, fun it => ?_, fun k' m hk => ?_⟩
  · rw [answers_iff (c := .stringAppend) rfl]
    refine ⟨.ok (newResponseWithInteger (t.length + a.length)), ?_, rfl⟩
    simp only [Cmd.fn, cmdAppend, hr, bind, Except.bind, intReply, retOk]
  · rw [get_answers ht', set_view, if_pos rfl]; exact ⟨rfl, rfl⟩
  · unfold Reads
    simp only [get_answers ht', get_answers ht, set_view, if_neg hk]

/-- C11: a key that holds a collection is refused and left alone. -/
theorem C11_append_refused {ext s} (hs : Reachable ext s) {k a : Bytes} (rest : List Bytes) {e : Bytes}
    (hk : Reads ext s [b! "get", k] (.error e)) (it : Iter) :
    Answers ext it s (b! "append" :: k :: a :: rest) (.error (b! "key type and command not match")) s := by
  have ht := hs.typed
  have := ((get_answers ht).mp (hk it)).1
  have hr : s.append k a = .ok (s, 0, some .keyAndCommandNotMatch) := by
    rw [append_run ht]
    cases hv : viewOf s k <;> rw [hv] at this <;> cases this
  rw [answers_iff (c := .stringAppend) rfl]
  refine ⟨.error .keyAndCommandNotMatch, ?_, rfl⟩
  simp only [Cmd.fn, cmdAppend, hr, bind, Except.bind, intReply, retErr]

/-! ## The hypotheses are met -/

/-- a history with writes, a counter, a deletion and a collection -/
def strDemo : List (List Bytes) :=
  [[b! "SET", b! "a", b! "1"], [b! "mset", b! "a", b! "2", b! "b", b! "x", b! "a", b! "7"], [b! "Incr", b! "a"],
   [b! "append", b! "b", b! "y"], [b! "lpush", b! "l", b! "e"], [b! "incr", b! "l"], [b! "del", b! "b"],
   [b! "decrby", b! "c", b! "5"], [b! "incrby", b! "c", b! "+3"]]

example : (play ext0 it0 (Store.init rng0) strDemo).isSome := by decide +kernel
example : replies (strDemo ++ [[b! "get", b! "a"], [b! "get", b! "b"], [b! "get", b! "l"], [b! "get", b! "c"]]) =
    some [.simple (b! "OK"), .simple (b! "OK"), .int 8, .int 2, .int 1, .error (b! "key type and command not match"),
      .int 1, .int (-5), .int (-2), .bulk (some (b! "8")), .bulk none, .error (b! "key type and command not match"),
      .bulk (some (b! "-2"))] := by decide +kernel
/-- the history specification is not vacuous: it derives a value for a concrete history -/
example : Holds (b! "a") [([b! "SET", b! "a", b! "7"], .simple (b! "OK")), ([b! "incr", b! "a"], .int 8)]
    (.str (b! "8")) := by
  refine .snoc (tr := [_]) (.snoc (tr := []) .nil (v' := .str (b! "7")) ?_) ?_
  · rw [show lower (b! "SET") = b! "set" from rfl, next_set (notErr_simple _), if_neg (by simp)]
    exact ⟨_, rfl, rfl⟩
  · rw [show lower (b! "incr") = b! "incr" from rfl, next_counter (by decide) (notErr_int _), if_neg (by simp)]
    exact ⟨8, rfl, rfl⟩
example : int64 (b! "-9223372036854775808") = some (-9223372036854775808) := by decide +kernel
example : delta (lower (b! "DECRBY")) [b! "k", b! "+12"] = some (-12) := by decide +kernel
example : Wraps (-2 ^ 63) (2 ^ 63 - 1 + 1) := by unfold Wraps; omega

end Godis
