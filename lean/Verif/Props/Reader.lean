import Verif.Proofs.Reader2
import Verif.Props.Grammar
/-!
# C64 for the v1 server: requests that arrive in pieces over a connection

Model: `Model/Reader.lean`.  `Resp.RequestUnits` (`Spec/Units.lean`) splits a request into its header lines and data.
-/
namespace Godis
open Resp Grammar

/-- One call of the decoder after the other reads the argument lists `reqs`, each with its text. -/
inductive ReadsAll : Rd → List (List Str × Str) → Rd → Prop
  | nil (rd : Rd) : ReadsAll rd [] rd
  | cons {rd rd' rd'' : Rd} {as : List Str} {t : Str} {reqs : List (List Str × Str)} :
      rdDecode rd = .ok ⟨as, t⟩ rd' → ReadsAll rd' reqs rd'' → ReadsAll rd ((as, t) :: reqs) rd''

/-- C64 (v1), what holds: if no segment is longer than the buffer and no segment ends inside a header line or inside
data, every request is read as it was sent.  `reqs` lists for each request its units and its arguments; `segs` is
any grouping of all these units into segments. -/
theorem C64_v1_whole_units_partial (reqs : List (List Str × List Str))
    (hu : ∀ x ∈ reqs, RequestUnits x.1 x.2 ∧ x.2.length < 2 ^ 63 ∧ ∀ a ∈ x.2, a.length + 2 ≤ 2 ^ 48)
    (groups : List (List Str)) (hg : groups.flatten = (reqs.map Prod.fst).flatten)
    (hs : ∀ g ∈ groups, g.flatten.length ≤ 4096) :
    ∃ rd', ReadsAll ⟨[], groups.map List.flatten⟩ (reqs.map fun x => (x.2, x.1.flatten)) rd' := by
  have key : ∀ (reqs : List (List Str × List Str)),
      (∀ x ∈ reqs, RequestUnits x.1 x.2 ∧ x.2.length < 2 ^ 63 ∧ ∀ a ∈ x.2, a.length + 2 ≤ 2 ^ 48) →
      ∀ (g : List Str) (gs : List (List Str)), g ++ gs.flatten = (reqs.map Prod.fst).flatten →
      (∀ x ∈ gs, x.flatten.length ≤ bufSize) →
      ∃ rd', ReadsAll ⟨g.flatten, gs.map List.flatten⟩ (reqs.map fun x => (x.2, x.1.flatten)) rd' := by
    intro reqs
    induction reqs with
    | nil => intro _ g gs _ _; exact ⟨_, .nil _⟩
    | cons x xs ih =>
      intro hu g gs e hs
      obtain ⟨h1, h2, h3⟩ := hu x (by simp)
      obtain ⟨g', gs', e', hs', hd⟩ := rdDecode_units h1 h2 h3 (xs.map Prod.fst).flatten g gs (by simpa using e) hs
      obtain ⟨rd', hr⟩ := ih (fun y hy => hu y (by simp [hy])) g' gs' e' hs'
      exact ⟨rd', .cons hd hr⟩
  have := key reqs hu [] groups (by simpa using hg) hs
  simpa using this

-- `PING` and `GET k` in two segments, the first of which ends in the middle of the second request
example : ∃ rd', ReadsAll ⟨[], [b! "*1\r\n$4\r\nping\r\n*2\r\n$3\r\n", b! "get\r\n$1\r\nk\r\n"]⟩
    [([b! "ping"], b! "*1\r\n$4\r\nping\r\n"), ([b! "get", b! "k"], b! "*2\r\n$3\r\nget\r\n$1\r\nk\r\n")] rd' :=
  C64_v1_whole_units_partial
    [([b! "*1\r\n", b! "$4\r\n", b! "ping\r\n"], [b! "ping"]),
      ([b! "*2\r\n", b! "$3\r\n", b! "get\r\n", b! "$1\r\n", b! "k\r\n"], [b! "get", b! "k"])]
    (by
      intro x hx
      simp only [List.mem_cons, List.not_mem_nil, or_false] at hx
      rcases hx with rfl | rfl
      · exact ⟨⟨b! "1", _, by decide, .cons (d := b! "4") (a := b! "ping") (by decide) .nil, rfl⟩, by decide, by decide⟩
      · exact ⟨⟨b! "2", _, by decide, .cons (d := b! "3") (a := b! "get") (by decide)
          (.cons (d := b! "1") (a := b! "k") (by decide) .nil), rfl⟩, by decide, by decide⟩)
    [[b! "*1\r\n", b! "$4\r\n", b! "ping\r\n", b! "*2\r\n", b! "$3\r\n"], [b! "get\r\n", b! "$1\r\n", b! "k\r\n"]]
    (by decide) (by decide)

/-- C64 (v1), what holds: header lines may be cut anywhere, and segments may be longer than the buffer; as long as no data
is cut, by the end of a segment or by the end of the buffer, every request is read as it was sent. -/
theorem C64_v1_uncut_partial (reqs : List (List Part × List Str))
    (hu : ∀ x ∈ reqs, RequestParts x.1 x.2 ∧ x.2.length < 2 ^ 63 ∧ ∀ a ∈ x.2, a.length + 2 ≤ 2 ^ 48)
    (pieces : List (Str × Bool)) (hp : Uncut 4096 (reqs.map Prod.fst).flatten pieces) :
    ∃ rd', ReadsAll ⟨[], segments pieces⟩ (reqs.map fun x => (x.2, Part.all x.1)) rd' := by
  have key : ∀ (reqs : List (List Part × List Str)),
      (∀ x ∈ reqs, RequestParts x.1 x.2 ∧ x.2.length < 2 ^ 63 ∧ ∀ a ∈ x.2, a.length + 2 ≤ 2 ^ 48) →
      ∀ buf ps, Ahead buf (reqs.map Prod.fst).flatten ps →
      ∃ rd', ReadsAll ⟨buf, segments ps⟩ (reqs.map fun x => (x.2, Part.all x.1)) rd' := by
    intro reqs
    induction reqs with
    | nil => intro _ _ _ _; exact ⟨_, .nil _⟩
    | cons x xs ih =>
      intro hu buf ps h
      obtain ⟨h1, h2, h3⟩ := hu x (by simp)
      obtain ⟨b', p', h4, h5⟩ := rdDecode_parts h1 h2 h3 (by simpa using h)
      obtain ⟨rd', hr⟩ := ih (fun y hy => hu y (by simp [hy])) b' p' h4
      exact ⟨rd', .cons h5 hr⟩
  exact key reqs hu [] pieces (uncut_ahead hp)

/-- two pieces -/
theorem uncut_two {size : Nat} {us d r : List Part} {p1 p2 q : Str} {b1 b2 : Bool} (h1 : p1 ≠ []) (h2 : p2 ≠ []) (h3 : p1 ++ p2 = Part.all us)
    (h4 : us = d ++ r) (h5 : p1 = Part.all d ++ q) (h6 : q = [] ∨ ∃ l more, r = .line l :: more ∧ q <+: l ∧ q ≠ l)
    (h7 : p1.length ≤ size) (h8 : b1 = false → p1.length = size) (h9 : q.length + p2.length ≤ size)
    (h10 : b2 = false → q.length + p2.length = size) : Uncut size us [(p1, b1), (p2, b2)] := by
  refine ⟨by simp [h1, h2], by simpa using h3, ?_⟩
  intro before p after e
  rcases before with _ | ⟨x, _ | ⟨y, z⟩⟩
  · simp only [List.nil_append, List.cons.injEq] at e
    obtain ⟨rfl, _⟩ := e
    exact ⟨[], [], us, rfl, rfl, .inl rfl, by simpa using h7, by simpa using h8⟩
  · simp only [List.cons_append, List.nil_append, List.cons.injEq] at e
    obtain ⟨rfl, rfl, _⟩ := e
    exact ⟨d, q, r, h4, by simpa using h5, h6, h9, h10⟩
  · simp at e

-- `PING` in two segments, the first of which ends in the middle of a header line
example : ∃ rd', ReadsAll ⟨[], [b! "*1\r\n$", b! "4\r\nping\r\n"]⟩ [([b! "ping"], b! "*1\r\n$4\r\nping\r\n")] rd' :=
  C64_v1_uncut_partial [([.line (b! "*1\r\n"), .line (b! "$4\r\n"), .data (b! "ping\r\n")], [b! "ping"])]
    (by
      intro x hx
      simp only [List.mem_cons, List.not_mem_nil, or_false] at hx
      subst hx
      exact ⟨⟨b! "1", _, by decide, .cons (d := b! "4") (a := b! "ping") (by decide) .nil, rfl⟩, by decide, by decide⟩)
    [(b! "*1\r\n$", true), (b! "4\r\nping\r\n", true)]
    (uncut_two (d := [.line (b! "*1\r\n")]) (r := [.line (b! "$4\r\n"), .data (b! "ping\r\n")]) (q := b! "$") (by decide) (by decide)
      rfl rfl rfl (.inr ⟨_, _, rfl, by decide, by decide⟩) (by decide) (by decide) (by decide) (by decide))

-- one segment that is longer than the buffer: `SET k v` with a value that ends where the buffer ends, then `PING`
example (v : Str) (hv : v.length = 4067) :
    ∃ rd', ReadsAll ⟨[], [b! "*3\r\n$3\r\nset\r\n$1\r\nk\r\n$4067\r\n" ++ v ++ [13, 10] ++ b! "*1\r\n$4\r\nping\r\n"]⟩
      [([b! "set", b! "k", v], b! "*3\r\n$3\r\nset\r\n$1\r\nk\r\n$4067\r\n" ++ v ++ [13, 10]), ([b! "ping"], b! "*1\r\n$4\r\nping\r\n")] rd' := by
  have := C64_v1_uncut_partial
    [([.line (b! "*3\r\n"), .line (b! "$3\r\n"), .data (b! "set\r\n"), .line (b! "$1\r\n"), .data (b! "k\r\n"), .line (b! "$4067\r\n"), .data (v ++ [13, 10])],
        [b! "set", b! "k", v]),
      ([.line (b! "*1\r\n"), .line (b! "$4\r\n"), .data (b! "ping\r\n")], [b! "ping"])]
    (by
      intro x hx
      simp only [List.mem_cons, List.not_mem_nil, or_false] at hx
      rcases hx with rfl | rfl
      · refine ⟨⟨b! "3", _, rfl, .cons (d := b! "3") (a := b! "set") (by decide) (.cons (d := b! "1") (a := b! "k") (by decide)
          (.cons (d := b! "4067") (by rw [hv]; decide) .nil)), rfl⟩, show 3 < 2 ^ 63 by decide, ?_⟩
        intro x hx
        simp only [List.mem_cons, List.not_mem_nil, or_false] at hx
        rcases hx with rfl | rfl | rfl
        · decide
        · decide
        · rw [hv]; decide
      · exact ⟨⟨b! "1", _, by decide, .cons (d := b! "4") (a := b! "ping") (by decide) .nil, rfl⟩, by decide, by decide⟩)
    [(b! "*3\r\n$3\r\nset\r\n$1\r\nk\r\n$4067\r\n" ++ v ++ [13, 10], false), (b! "*1\r\n$4\r\nping\r\n", true)]
    (uncut_two (d := [.line (b! "*3\r\n"), .line (b! "$3\r\n"), .data (b! "set\r\n"), .line (b! "$1\r\n"), .data (b! "k\r\n"), .line (b! "$4067\r\n"), .data (v ++ [13, 10])])
      (r := [.line (b! "*1\r\n"), .line (b! "$4\r\n"), .data (b! "ping\r\n")]) (q := []) (by simp) (by decide)
      (by simp [Part.all, Part.bytes]) rfl (by simp [Part.all, Part.bytes]) (.inl rfl) (by simp [hv]) (by simp [hv]) (by decide) (by decide))
  simpa [Part.all, Part.bytes, segments] using this

/-- C64 (v1): a request of at most 4096 bytes that arrives as one segment is read as it was sent. -/
theorem C64_v1_one_segment (s : Str) (args : List Str) (h : IsRequest s args) (hn : args.length < 2 ^ 63)
    (hlen : ∀ a ∈ args, a.length + 2 ≤ 2 ^ 48) (hs : s.length ≤ 4096) :
    ∃ rd', rdDecode ⟨[], [s]⟩ = .ok ⟨args, s⟩ rd' := by
  obtain ⟨us, hu, rfl⟩ := request_units h
  obtain ⟨g', gs', _, _, hd⟩ := rdDecode_units hu hn hlen [] [] [us] (by simp) (by simpa [bufSize] using hs)
  exact ⟨_, by simpa using hd⟩

example : IsRequest (b! "*1\r\n$4\r\nping\r\n") [b! "ping"] :=
  ⟨b! "1", _, by decide, .cons (d := b! "4") (by decide) .nil, by decide⟩

/-- C64 (v1) fails for every request that is longer than the buffer, although it arrives in one piece: of the last
argument only what fits into the buffer is read; the rest of the argument is replaced by zero bytes, and what
was sent of it is taken for the next request. -/
theorem C64_v1_large_violated (s : Str) (args : List Str) (a : Str) (h : IsRequest s (args ++ [a]))
    (hn : (args ++ [a]).length < 2 ^ 63) (hlen : ∀ x ∈ args ++ [a], x.length + 2 ≤ 2 ^ 48)
    (hhead : s.length - (a.length + 2) < 4096) (hbig : 4096 < s.length) :
    ∃ t, rdDecode ⟨[], [s]⟩ = .ok ⟨args ++ [a.take (4096 - (s.length - (a.length + 2)))
      ++ List.replicate (a.length - (4096 - (s.length - (a.length + 2)))) 0], t⟩ ⟨[], [s.drop 4096]⟩ :=
  rdDecode_large h hn hlen hhead hbig

-- `SET k v` with a value of 5000 bytes: 4069 bytes of `v` are read, the other 931 are zero bytes
example (v : Str) (hv : v.length = 5000) :
    ∃ t rd', rdDecode ⟨[], [b! "*3\r\n$3\r\nset\r\n$1\r\nk\r\n$5000\r\n" ++ v ++ [13, 10]]⟩
      = .ok ⟨[b! "set", b! "k"] ++ [v.take 4069 ++ List.replicate 931 0], t⟩ rd' := by
  have hl : (b! "*3\r\n$3\r\nset\r\n$1\r\nk\r\n$5000\r\n" ++ v ++ [13, 10]).length = 5029 := by
    rw [List.length_append, List.length_append, hv]; rfl
  obtain ⟨t, ht⟩ := C64_v1_large_violated (b! "*3\r\n$3\r\nset\r\n$1\r\nk\r\n$5000\r\n" ++ v ++ [13, 10])
    [b! "set", b! "k"] v
    ⟨b! "3", _, rfl, .cons (d := b! "3") (by decide) (.cons (d := b! "1") (by decide)
      (.cons (d := b! "5000") (by rw [hv]; decide) .nil)), by simp⟩
    (show 3 < 2 ^ 63 by decide) (by
      intro x hx
      simp only [List.cons_append, List.nil_append, List.mem_cons, List.not_mem_nil, or_false] at hx
      rcases hx with rfl | rfl | rfl
      · decide
      · decide
      · rw [hv]; decide)
    (by rw [hl, hv]; decide) (by rw [hl]; decide)
  rw [hl, hv] at ht
  exact ⟨t, _, ht⟩

/-- C64 (v1) fails: a request cut inside its last argument by the network is read with zero bytes in place of the
bytes that arrive later, and these are taken for the next request. -/
theorem C64_v1_cut_violated :
    let rd : Rd := ⟨[], [b! "*3\r\n$3\r\nset\r\n$1\r\nk\r\n$5\r\nhe", b! "llo\r\n"]⟩
    ∃ t rd', rdDecode rd = .ok ⟨[b! "set", b! "k", b! "he" ++ [0, 0, 0]], t⟩ rd' ∧
      rdDecode rd' = .err .unsupported ⟨[], []⟩ := by
  refine ⟨b! "*3\r\n$3\r\nset\r\n$1\r\nk\r\n$5\r\nhe" ++ [0, 0, 0, 0, 0], ⟨[], [b! "llo\r\n"]⟩, ?_, ?_⟩
  · decide +kernel
  · decide +kernel

/-- C64 (v1) fails: a value is executed as a request if the network cuts the stream at the right place. -/
theorem C64_v1_value_executed_violated :
    let rd : Rd := ⟨[], [b! "*3\r\n$3\r\nset\r\n$1\r\nk\r\n$15\r\nx", b! "*1\r\n$4\r\nping\r\n\r\n"]⟩
    ∃ t rd' rd'', rdDecode rd = .ok ⟨[b! "set", b! "k", 120 :: List.replicate 14 0], t⟩ rd' ∧
      rdDecode rd' = .ok ⟨[b! "ping"], b! "*1\r\n$4\r\nping\r\n"⟩ rd'' := by
  refine ⟨b! "*3\r\n$3\r\nset\r\n$1\r\nk\r\n$15\r\nx" ++ List.replicate 16 0,
    ⟨[], [b! "*1\r\n$4\r\nping\r\n\r\n"]⟩, ⟨b! "\r\n", []⟩, ?_, ?_⟩
  · decide +kernel
  · decide +kernel

end Godis
