import Verif.Proofs.Grammar3
import Verif.Props.Protocol
import Verif.Props.Play
/-!
# C63, C64: which byte strings are requests, and requests that arrive in pieces

`Grammar.Understood` and `Grammar.Faults` (`Spec/Grammar.lean`) are written without the model.
-/
namespace Godis
open Resp Grammar

/-! ## C63 -/

/-- C63: a byte string is read as a request with the arguments `as`, the text `t` is recorded for the log and
`rest` is left over, exactly if the grammar says so. -/
theorem C63_read (s : Str) (as : List Str) (t rest : Str) :
    decodeFromReader s = .ok ⟨as, t⟩ rest ↔ Understood s as t rest := reads_iff s as t rest

-- a nested array with a cut bulk string: the missing bytes are zero bytes
example : Understood (b! "*2\r\n*1\r\n+a\r\n$3\r\nb") [b! "a", 98 :: [0, 0]]
    (b! "*2\r\n" ++ (b! "+a\r\n" ++ b! "*1\r\n" ++ (b! "$3\r\nb" ++ [0, 0, 0, 0]))) [] :=
  (C63_read _ _ _ _).mp (by decide +kernel)

/-- the error the decoder returns for a fault -/
def errorOf : Fault → Option DecErr
  | .short => some .eof
  | .unknown => some .unsupported
  | .negative => some .invalidLength
  | .index => none
  | .alloc => none

/-- C63: a byte string is refused exactly if the grammar says so, and for the reason it gives. -/
theorem C63_refused (s : Str) (e : DecErr) :
    (∃ rest, decodeFromReader s = .err e rest) ↔ ∃ f, errorOf f = some e ∧ Faults s f := by
  constructor
  · intro h
    cases e
    · exact ⟨.short, rfl, (faults_iff s _).mp h⟩
    · exact ⟨.unknown, rfl, (faults_iff s _).mp h⟩
    · exact ⟨.negative, rfl, (faults_iff s _).mp h⟩
  · rintro ⟨f, hf, h⟩
    have := (faults_iff s f).mpr h
    cases f <;> simp only [errorOf, Option.some.injEq, reduceCtorEq] at hf
    · subst hf; exact this
    · subst hf; exact this
    · subst hf; exact this

-- an element of no known kind inside an array
example : Faults (b! "*2\r\n$1\r\na\r\nhello\r\n") .unknown := by
  obtain ⟨f, hf, h⟩ := (C63_refused (b! "*2\r\n$1\r\na\r\nhello\r\n") .unsupported).mp ⟨[], by decide +kernel⟩
  cases f <;> simp [errorOf] at hf
  exact h

/-- C63 (and C04, exactly): reading a byte string ends the process exactly if the reading arrives at a `$` or `*`
header line without carriage return, or at a `$` header that announces more than memory can hold. -/
theorem C63_crash (s : Str) :
    (∃ p, decodeFromReader s = .panic p) ↔ Faults s .index ∨ Faults s .alloc := by
  constructor
  · rintro ⟨p, h⟩
    rcases reads_total s with ⟨as, t, rest, hr⟩ | ⟨f, hf⟩
    · rw [decode_reads hr] at h; cases h
    · have := decode_faults hf
      rw [h] at this
      cases f with
      | short => obtain ⟨_, h⟩ := this; cases h
      | unknown => obtain ⟨_, h⟩ := this; cases h
      | negative => obtain ⟨_, h⟩ := this; cases h
      | index => exact Or.inl hf
      | alloc => exact Or.inr hf
  · rintro (h | h)
    · exact ⟨_, decode_faults h⟩
    · exact ⟨_, decode_faults h⟩

-- the header inside the array is reached, so the missing carriage return matters
example : Faults (b! "*2\r\n$1\r\na\r\n$5\n") .index := by
  rcases (C63_crash (b! "*2\r\n$1\r\na\r\n$5\n")).mp ⟨.indexOutOfRange, by decide +kernel⟩ with h | h
  · exact h
  · exact absurd ((faults_iff _ _).mpr h) (by simp only [Reports]; decide +kernel)

-- it is not reached here
example : ¬ ∃ p, decodeFromReader (b! "*1\r\n$1\r\na\r\n$5\n") = .panic p := by
  rintro ⟨p, h⟩
  have : decodeFromReader (b! "*1\r\n$1\r\na\r\n$5\n") = .ok ⟨[b! "a"], b! "*1\r\n$1\r\na\r\n"⟩ (b! "$5\n") := by
    decide +kernel
  rw [this] at h
  cases h

/-- C63: exactly one of the two: a byte string is read, in one way only, or it is not, for one reason only. -/
theorem C63_one (s : Str) :
    ((∃ as t rest, Understood s as t rest) ↔ ¬ ∃ f, Faults s f) ∧
    (∀ as t rest as' t' rest', Understood s as t rest → Understood s as' t' rest' → as = as' ∧ t = t' ∧ rest = rest') ∧
    (∀ f g, Faults s f → Faults s g → f = g) := by
  refine ⟨⟨?_, fun h => (reads_total s).resolve_right h⟩, ?_, ?_⟩
  · rintro ⟨as, t, rest, hr⟩ ⟨f, hf⟩
    have := decode_faults hf
    rw [decode_reads hr] at this
    exact not_ok_of_reports this
  · intro as t rest as' t' rest' h h'
    have := decode_reads h
    rw [decode_reads h'] at this
    simp only [DRes.ok.injEq, Receive.mk.injEq] at this
    exact ⟨this.1.1.symm, this.1.2.symm, this.2.symm⟩
  · intro f g hf hg
    exact (decode_faults hf).unique (decode_faults hg)

/-- C63: every request of the protocol is one of the grammar (so the grammar is not empty). -/
theorem C63_protocol (s : Str) (args : List Str) (h : IsRequest s args) (rest : Str)
    (hn : args.length < 2 ^ 63) (hlen : ∀ a ∈ args, a.length + 2 ≤ 2 ^ 48) : Understood (s ++ rest) args s rest :=
  (C63_read _ _ _ _).mp (decode_request s args h rest hn hlen)

/-! ## C64 -/

/-- C64: bytes that arrive behind a request do not change how it is read, provided at least one byte is known to
follow it. -/
theorem C64_more_text (s : Str) (as : List Str) (t rest : Str) (h : decodeFromReader s = .ok ⟨as, t⟩ rest)
    (hr : rest ≠ []) (more : Str) : decodeFromReader (s ++ more) = .ok ⟨as, t⟩ (rest ++ more) :=
  (C63_read _ _ _ _).mpr (reads_more ((C63_read _ _ _ _).mp h) hr more)

/-- C64: if a request of which the end is missing reaches the server, and the part missing contains the whole of
its last argument (with the line end behind it), nothing is executed and nothing is answered. -/
theorem C64_early_cut (ext : Ext) (it : Iter) (st : Store) (s : Str) (args : List Str) (h : IsRequest s args)
    (hn : args.length < 2 ^ 63) (hlen : ∀ a ∈ args, a.length + 2 ≤ 2 ^ 48) (p q : Str) (e : p ++ q = s)
    (hq : q ≠ []) (hlast : ∀ a, args.getLast? = some a → a.length + 2 ≤ q.length) :
    reactFrame ext it st p = .ok (st, .silent) := by
  obtain ⟨rest, h⟩ := decode_faults (faults_cut h hn hlen p q e hq hlast)
  unfold reactFrame
  rw [h]

/-- C64: if less is missing, the request is executed with zero bytes in place of the missing ones: exactly as if
the client had sent that request. -/
theorem C64_late_cut (ext : Ext) (it : Iter) (st : Store) (s : Str) (args : List Str) (a : Str)
    (h : IsRequest s (args ++ [a])) (hn : (args ++ [a]).length < 2 ^ 63)
    (hlen : ∀ x ∈ args ++ [a], x.length + 2 ≤ 2 ^ 48) (p q : Str) (e : p ++ q = s) (hq : q.length < a.length + 2)
    (s' : Str) (h' : IsRequest s' (args ++ [a.take (a.length + 2 - q.length) ++ List.replicate (q.length - 2) 0])) :
    reactFrame ext it st p = reactFrame ext it st s' := by
  have h1 := decode_reads (reads_cut h hn hlen p q e hq)
  have hl : (a.take (a.length + 2 - q.length) ++ List.replicate (q.length - 2) (0 : UInt8)).length = a.length := by
    simp only [List.length_append, List.length_take, List.length_replicate]; omega
  have h2 := decode_request s' _ h' [] (by simpa using hn) (by
    intro x hx
    rcases List.mem_append.mp hx with hx | hx
    · exact hlen x (by simp [hx])
    · simp only [List.mem_singleton] at hx
      rw [hx, hl]
      exact hlen a (by simp))
  rw [List.append_nil] at h2
  have e3 : ((a ++ [13, 10]).take (a.length + 2 - q.length) ++ List.replicate q.length (0 : UInt8)).take a.length
      = a.take (a.length + 2 - q.length) ++ List.replicate (q.length - 2) 0 := by
    rw [List.take_append, List.take_take, List.take_append, List.take_replicate, List.length_take]
    rcases Nat.lt_or_ge q.length 2 with hq2 | hq2
    · have m1 : min a.length (a.length + 2 - q.length) = a.length := by omega
      rw [m1]
      simp only [List.take_length, Nat.sub_self, List.take_zero, List.append_nil]
      rw [List.take_of_length_le (by omega)]
      have : q.length - 2 = 0 := by omega
      rw [this]
      simp; omega
    · have m1 : min a.length (a.length + 2 - q.length) = a.length + 2 - q.length := by omega
      rw [m1, show a.length + 2 - q.length - a.length = 0 by omega]
      simp only [List.take_zero, List.append_nil]
      congr 2
      simp; omega
  unfold reactFrame
  rw [h1, h2]
  simp only [handleRequest, e3]

/-- A request text exists for all arguments: the hypothesis `h'` of `C64_late_cut` can always be met. -/
theorem C64_text_exists (args : List Str) : ∃ s, IsRequest s args := by
  have hb : ∃ b, IsBulks b args := by
    induction args with
    | nil => exact ⟨_, .nil⟩
    | cons a as ih =>
      obtain ⟨b, hb⟩ := ih
      exact ⟨_, .cons (dec_formatNat a.length) hb⟩
  obtain ⟨b, hb⟩ := hb
  exact ⟨_, _, b, dec_formatNat args.length, hb, rfl⟩

-- `SET k hello` cut in front of `hello`
example (ext : Ext) (it : Iter) (st : Store) :
    reactFrame ext it st (b! "*3\r\n$3\r\nset\r\n$1\r\nk\r\n$5\r\n") = .ok (st, .silent) :=
  C64_early_cut ext it st (b! "*3\r\n$3\r\nset\r\n$1\r\nk\r\n$5\r\nhello\r\n") [b! "set", b! "k", b! "hello"]
    ⟨b! "3", _, by decide, .cons (d := b! "3") (by decide) (.cons (d := b! "1") (by decide)
      (.cons (d := b! "5") (by decide) .nil)), by decide⟩
    (by decide) (by decide) _ (b! "hello\r\n") (by decide) (by decide) (by simp)

-- `SET k hello` cut behind `he` is `SET k he\0\0\0`
example (ext : Ext) (it : Iter) (st : Store) :
    reactFrame ext it st (b! "*3\r\n$3\r\nset\r\n$1\r\nk\r\n$5\r\nhe")
      = reactFrame ext it st (b! "*3\r\n$3\r\nset\r\n$1\r\nk\r\n$5\r\nhe" ++ [0, 0, 0, 13, 10]) :=
  C64_late_cut ext it st (b! "*3\r\n$3\r\nset\r\n$1\r\nk\r\n$5\r\nhello\r\n") [b! "set", b! "k"] (b! "hello")
    ⟨b! "3", _, by decide, .cons (d := b! "3") (by decide) (.cons (d := b! "1") (by decide)
      (.cons (d := b! "5") (by decide) .nil)), by decide⟩
    (by decide) (by decide) _ (b! "llo\r\n") (by decide) (by decide) _
    ⟨b! "3", _, by decide, .cons (d := b! "3") (by decide) (.cons (d := b! "1") (by decide)
      (.cons (d := b! "5") (by decide) .nil)), by decide⟩

/-- C64 fails: a request cut inside its last argument is executed, answered with OK, and stores a value the client
never sent. -/
theorem C64_wrong_value_violated (ext : Ext) (it : Iter) (rng : Rng) :
    let p := b! "*3\r\n$3\r\nset\r\n$1\r\nk\r\n$5\r\nhe"
    let q := b! "llo\r\n"
    IsRequest (p ++ q) [b! "set", b! "k", b! "hello"] ∧
    ∃ s, reactFrame ext it (Store.init rng) p = .ok (s, .reply (b! "+OK\r\n")) ∧
      reactFrame ext it s q = .ok (s, .silent) ∧
      reactFrame ext it s (b! "*2\r\n$3\r\nget\r\n$1\r\nk\r\n")
        = .ok (s, .reply (b! "$5\r\nhe" ++ [0, 0, 0] ++ b! "\r\n")) := by
  refine ⟨⟨b! "3", _, by decide, .cons (d := b! "3") (by decide) (.cons (d := b! "1") (by decide)
      (.cons (d := b! "5") (by decide) .nil)), by decide⟩, ?_⟩
  exact ⟨_, rfl, rfl, rfl⟩

/-- C64 fails: if a request is cut in front of its last argument, that argument - a value the client wanted to
store - is executed as a request itself, for every argument that has the form of a request. -/
theorem C64_value_executed_violated (args : List Str) (u : Str) (inner : List Str) (hu : IsRequest u inner)
    (hn : args.length + 1 < 2 ^ 63) (hlen : ∀ a ∈ args ++ [u], a.length + 2 ≤ 2 ^ 48)
    (hn' : inner.length < 2 ^ 63) (hlen' : ∀ a ∈ inner, a.length + 2 ≤ 2 ^ 48) :
    ∃ p q, IsRequest (p ++ q) (args ++ [u]) ∧ ∀ (ext : Ext) (it : Iter) (st : Store),
      reactFrame ext it st p = .ok (st, .silent) ∧ reactFrame ext it st q = reactFrame ext it st u := by
  obtain ⟨s, hs⟩ := C64_text_exists (args ++ [u])
  have hs' := hs
  obtain ⟨d, b, hd, hb, rfl⟩ := hs'
  obtain ⟨b', d', hb', hd', rfl⟩ := isBulks_snoc hb
  refine ⟨42 :: d ++ [13, 10] ++ b' ++ (36 :: d' ++ [13, 10]), u ++ [13, 10], by simpa using hs, ?_⟩
  intro ext it st
  refine ⟨?_, C06_first_request_partial ext it st u inner hu _ hn' hlen'⟩
  exact C64_early_cut ext it st _ _ hs (by simpa using hn) hlen _ (u ++ [13, 10]) (by simp) (by simp)
    (by simp)

-- the value `*1\r\n$4\r\nping\r\n`
example : IsRequest (b! "*1\r\n$4\r\nping\r\n") [b! "ping"] :=
  ⟨b! "1", _, by decide, .cons (d := b! "4") (by decide) .nil, by decide⟩

/-- C64, what holds: a request that arrives whole, as one frame, is executed as it stands, whatever follows it. -/
theorem C64_whole_partial (ext : Ext) (it : Iter) (st : Store) (s : Str) (args : List Str) (h : IsRequest s args)
    (hn : args.length < 2 ^ 63) (hlen : ∀ a ∈ args, a.length + 2 ≤ 2 ^ 48) (rest : Str) :
    ∃ t, reactFrame ext it st (s ++ rest) = (do
      let (st, b) ← handleRequest ext it st ⟨args, t⟩
      if b = [] then .ok (st, .silent) else .ok (st, .reply b)) := by
  refine ⟨s, ?_⟩
  unfold reactFrame
  rw [decode_request s args h rest hn hlen]

end Godis
