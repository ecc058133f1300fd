import Verif.Proofs.Reader
/-! The decoder over a connection: header lines that arrive in pieces, segments longer than the buffer. -/
namespace Godis
open Resp Grammar

/-- the bytes of pieces -/
def flat (ps : List (Bytes × Bool)) : Bytes := (ps.map Prod.fst).flatten

@[simp] theorem flat_nil : flat [] = [] := rfl
@[simp] theorem flat_cons (p : Bytes × Bool) (ps : List (Bytes × Bool)) : flat (p :: ps) = p.1 ++ flat ps := by simp [flat]

/-- the parts `us` are still to be read; `buf` is buffered, `ps` is still to come -/
structure Ahead (buf : Bytes) (us : List Part) (ps : List (Bytes × Bool)) : Prop where
  nonempty : ∀ p ∈ ps, p.1 ≠ []
  stream : buf ++ flat ps = Part.all us
  cuts : ∀ before p after, ps = before ++ p :: after → ∃ done part rest, us = done ++ rest ∧
    buf ++ flat before = Part.all done ++ part ∧
    (part = [] ∨ ∃ l more, rest = .line l :: more ∧ part <+: l ∧ part ≠ l) ∧
    part.length + p.1.length ≤ bufSize ∧ (p.2 = false → part.length + p.1.length = bufSize)

theorem uncut_ahead {us ps} (h : Uncut 4096 us ps) : Ahead [] us ps :=
  ⟨h.nonempty, by simpa [flat] using h.stream, fun b p a e => by
    obtain ⟨d, q, r, h1, h2, h3, h4, h5⟩ := h.cuts b p a e
    exact ⟨d, q, r, h1, by simpa [flat] using h2, h3, h4, h5⟩⟩

theorem Part.all_cons (u : Part) (us : List Part) : Part.all (u :: us) = u.bytes ++ Part.all us := by simp [Part.all]

theorem segments_nil {ps : List (Bytes × Bool)} (h : segments ps = []) : ps = [] := by
  cases ps with
  | nil => rfl
  | cons p ps =>
    obtain ⟨p, b⟩ := p
    cases b <;> simp only [segments] at h
    · split at h <;> cases h
    · cases h

theorem segments_flat : ∀ ps : List (Bytes × Bool), (segments ps).flatten = flat ps
  | [] => rfl
  | (p, true) :: ps => by simp [segments, segments_flat ps]
  | (p, false) :: ps => by
    have := segments_flat ps
    simp only [segments]
    split
    · next h => rw [h] at this; simp at this; simp [this]
    · next h => rw [h] at this; simp at this; simp [this]

theorem segments_ne : ∀ {ps : List (Bytes × Bool)}, (∀ p ∈ ps, p.1 ≠ []) → ∀ s ∈ segments ps, s ≠ []
  | [], _, s, hs => by cases hs
  | (p, true) :: ps, h, s, hs => by
    simp only [segments, List.mem_cons] at hs
    rcases hs with rfl | hs
    · exact h (_, true) (by simp)
    · exact segments_ne (fun q hq => h q (by simp [hq])) s hs
  | (p, false) :: ps, h, s, hs => by
    have hp : p ≠ [] := h (_, false) (by simp)
    have ih := segments_ne (ps := ps) (fun q hq => h q (by simp [hq]))
    simp only [segments] at hs
    split at hs
    · simp only [List.mem_singleton] at hs; subst hs; exact hp
    · next s' ss e =>
      rw [e] at ih
      simp only [List.mem_cons] at hs
      rcases hs with rfl | hs
      · simp [hp]
      · exact ih s (by simp [hs])

/-- a read from the connection gets the next piece -/
theorem connRead_piece {p : Bytes} {b : Bool} {ps : List (Bytes × Bool)} (hne : ∀ q ∈ (p, b) :: ps, q.1 ≠ []) {room : Nat}
    (h1 : p.length ≤ room) (h2 : b = false → p.length = room) :
    connRead room (segments ((p, b) :: ps)) = some (p, segments ps) := by
  have hp : p ≠ [] := hne (p, b) (by simp)
  cases b with
  | true => simp [segments, connRead, hp, h1]
  | false =>
    have hr := h2 rfl
    simp only [segments]
    cases hs : segments ps with
    | nil => simp [connRead, hp, h1]
    | cons s ss =>
      have hs' : s ≠ [] := segments_ne (ps := ps) (fun q hq => hne q (by simp [hq])) s (by rw [hs]; simp)
      have : 0 < s.length := List.length_pos_iff.mpr hs'
      simp only [connRead]
      rw [if_neg (by simp [hp]), if_neg (by simp; omega)]
      rw [← hr]; simp

theorem Ahead.push {buf us p b ps} (h : Ahead buf us ((p, b) :: ps)) : Ahead (buf ++ p) us ps :=
  ⟨fun q hq => h.nonempty q (by simp [hq]), by simpa using h.stream, fun bef q aft e => by
    obtain ⟨d, x, r, h1, h2, h3⟩ := h.cuts ((p, b) :: bef) q aft (by simp [e])
    exact ⟨d, x, r, h1, by simpa using h2, h3⟩⟩

/-- what is buffered of a part is consumed -/
theorem Ahead.pop {u : Part} (hu : u.bytes ≠ []) {buf us ps} (h : Ahead (u.bytes ++ buf) (u :: us) ps) : Ahead buf us ps := by
  refine ⟨h.nonempty, ?_, ?_⟩
  · have := h.stream
    rw [Part.all_cons, List.append_assoc] at this
    exact List.append_cancel_left this
  · intro bef q aft e
    obtain ⟨d, x, r, h1, h2, h3, h4⟩ := h.cuts bef q aft e
    rw [List.append_assoc] at h2
    cases d with
    | nil =>
      simp only [List.nil_append] at h1
      subst h1
      simp only [Part.all, List.map_nil, List.flatten_nil, List.nil_append] at h2
      rcases h3 with rfl | ⟨l, more, h5, h6⟩
      · simp [hu] at h2
      · cases h5
        have := h6.1.length_le
        rw [← h2] at this
        simp only [Part.bytes, List.length_append] at this
        have hl : buf ++ flat bef = [] := List.length_eq_zero_iff.mp (by simp only [List.length_append]; omega)
        exact absurd (by rw [← h2, hl]; simp [Part.bytes]) h6.2
    | cons v d =>
      simp only [List.cons_append, List.cons.injEq] at h1
      obtain ⟨rfl, rfl⟩ := h1
      rw [Part.all_cons, List.append_assoc] at h2
      exact ⟨d, x, r, rfl, List.append_cancel_left h2, h3, h4⟩

theorem prefix_or {a b c d : Bytes} (h : a ++ b = c ++ d) : (∃ x, a = c ++ x ∧ d = x ++ b) ∨ (∃ x, x ≠ [] ∧ c = a ++ x ∧ b = x ++ d) := by
  rcases List.append_eq_append_iff.mp h with ⟨x, h1, h2⟩ | ⟨x, h1, h2⟩
  · by_cases hx : x = []
    · subst hx; exact .inl ⟨[], by simpa using h1.symm, by simpa using h2.symm⟩
    · exact .inr ⟨x, hx, h1, h2⟩
  · exact .inl ⟨x, h1, h2⟩

/-- if the next part is not complete in the buffer, more is to come, and only a header line may have begun -/
theorem Ahead.short {buf x} {u : Part} {us ps} (h : Ahead buf (u :: us) ps) (hx : x ≠ []) (e : u.bytes = buf ++ x) :
    ∃ p b ps', ps = (p, b) :: ps' ∧ p ≠ [] ∧ (buf = [] ∨ ∃ l, u = .line l) ∧ buf.length + p.length ≤ bufSize ∧
      (b = false → buf.length + p.length = bufSize) := by
  cases ps with
  | nil =>
    have := h.stream
    rw [Part.all_cons, e] at this
    have h1 := congrArg List.length this
    have h2 := List.length_pos_iff.mpr hx
    simp only [flat_nil, List.append_nil, List.length_append] at h1
    omega
  | cons p ps =>
    obtain ⟨p, b⟩ := p
    obtain ⟨d, y, r, h1, h2, h3, h4, h5⟩ := h.cuts [] (p, b) ps rfl
    have hd : d = [] := by
      cases d with
      | nil => rfl
      | cons v d =>
        simp only [List.cons_append, List.cons.injEq] at h1
        obtain ⟨rfl, _⟩ := h1
        rw [Part.all_cons, e] at h2
        have h1 := congrArg List.length h2
        have h2 := List.length_pos_iff.mpr hx
        simp only [flat_nil, List.append_nil, List.length_append] at h1
        omega
    subst hd
    have hy : y = buf := by simpa [Part.all] using h2.symm
    subst hy
    refine ⟨p, b, ps, rfl, h.nonempty (p, b) (by simp), ?_, h4, h5⟩
    rcases h3 with h3 | ⟨l, more, h3, _⟩
    · exact .inl h3
    · simp only [List.nil_append] at h1
      rw [h3] at h1
      cases h1
      exact .inr ⟨l, rfl⟩

theorem bufReadBytes_part {l : Bytes} (hl : Line l) {us : List Part} : ∀ (fuel : Nat) (ps : List (Bytes × Bool)) (buf : Bytes),
    Ahead buf (.line l :: us) ps → ps.length < fuel →
    ∃ buf' ps', Ahead buf' us ps' ∧ bufReadBytes fuel [] ⟨buf, segments ps⟩ = .ok l ⟨buf', segments ps'⟩
  | 0, _, _, _, hf => by omega
  | fuel + 1, ps, buf, h, hf => by
    have hne : l ≠ [] := by obtain ⟨b, rfl, _⟩ := hl; simp
    have hs := h.stream
    rw [Part.all_cons] at hs
    rcases prefix_or hs with ⟨x, rfl, _⟩ | ⟨x, hx, e, _⟩
    · refine ⟨x, ps, h.pop (u := .line l) hne, ?_⟩
      rw [bufReadBytes]
      simp only [Part.bytes, readLine_line hl, List.nil_append]
    · obtain ⟨p, b, ps', rfl, hp, _, h4, h5⟩ := h.short hx e
      have h10 : 10 ∉ buf := by
        obtain ⟨c, rfl, hc⟩ := hl
        simp only [Part.bytes] at e
        rcases prefix_or e with ⟨y, rfl, h7⟩ | ⟨y, hy, rfl, h7⟩
        · rw [List.mem_append, not_or] at hc; exact hc.1
        · have h8 := congrArg List.length h7
          have h9 := List.length_pos_iff.mpr hx
          have h11 := List.length_pos_iff.mpr hy
          simp only [List.length_append, List.length_singleton] at h8
          omega
      have hpl := List.length_pos_iff.mpr hp
      have hc := connRead_piece (room := bufSize - buf.length) h.nonempty (by omega) (fun hb => by have := h5 hb; omega)
      obtain ⟨buf', ps2, h6, h7⟩ := bufReadBytes_part hl fuel ps' (buf ++ p) h.push (by simp at hf; omega)
      refine ⟨buf', ps2, h6, ?_⟩
      rw [bufReadBytes]
      cases hr : readLine buf with
      | ok a b => 
        obtain ⟨rfl, hla⟩ := readLine_ok hr
        obtain ⟨c, rfl, _⟩ := hla
        simp at h10
      | panic p => exact absurd hr readLine_not_panic
      | err _ _ =>
        simp only
        rw [if_neg (by omega), hc]
        exact h7

theorem pieces_length : ∀ {ps : List (Bytes × Bool)}, (∀ p ∈ ps, p.1 ≠ []) → ps.length ≤ (flat ps).length
  | [], _ => by simp
  | p :: ps, h => by
    have := pieces_length (ps := ps) (fun q hq => h q (by simp [hq]))
    have := List.length_pos_iff.mpr (h p (by simp))
    simp at *
    omega

theorem readBytes_part {l : Bytes} (hl : Line l) {us : List Part} {ps buf} (h : Ahead buf (.line l :: us) ps) :
    ∃ buf' ps', Ahead buf' us ps' ∧ Rd.readBytes ⟨buf, segments ps⟩ = .ok l ⟨buf', segments ps'⟩ := by
  refine bufReadBytes_part hl _ ps buf h ?_
  have := pieces_length h.nonempty
  simp only [Rd.size, segments_flat]
  omega

theorem read_part {a : Bytes} (ha : a ≠ []) {us : List Part} {ps buf} (h : Ahead buf (.data a :: us) ps) :
    ∃ buf' ps', Ahead buf' us ps' ∧ Rd.read ⟨buf, segments ps⟩ a.length = some (a, ⟨buf', segments ps'⟩) := by
  have hs := h.stream
  rw [Part.all_cons] at hs
  have buffered : ∀ {x ps}, Ahead (a ++ x) (.data a :: us) ps →
      ∃ buf' ps', Ahead buf' us ps' ∧ Rd.read ⟨a ++ x, segments ps⟩ a.length = some (a, ⟨buf', segments ps'⟩) :=
    fun {x ps} h => ⟨x, ps, h.pop (u := .data a) ha, read_buffered ha _⟩
  rcases prefix_or hs with ⟨x, rfl, _⟩ | ⟨x, hx, e, _⟩
  · exact buffered h
  · obtain ⟨p, b, ps', rfl, hp, h3, h4, h5⟩ := h.short hx e
    have hb : buf = [] := by
      rcases h3 with h3 | ⟨l, h3⟩
      · exact h3
      · cases h3
    subst hb
    simp only [List.length_nil, Nat.zero_add] at h4 h5
    have h' := h.push
    simp only [List.nil_append] at h'
    have hs' := h'.stream
    rw [Part.all_cons] at hs'
    rcases prefix_or hs' with ⟨y, rfl, _⟩ | ⟨y, hy, e', _⟩
    · refine ⟨y, ps', h'.pop (u := .data a) ha, ?_⟩
      simp only [Part.bytes, List.length_append] at h4 h5
      unfold Rd.read
      simp only [if_true]
      by_cases hbs : bufSize ≤ a.length
      · have hy : y = [] := List.length_eq_zero_iff.mp (by omega)
        subst hy
        rw [if_pos hbs, connRead_piece h.nonempty (by simp [Part.bytes]) (by simp [Part.bytes])]
        simp [Part.bytes]
      · rw [if_neg hbs, connRead_piece h.nonempty (by simpa [Part.bytes] using h4) (by simpa [Part.bytes] using h5)]
        simp [Part.bytes]
    · -- the piece ends inside the data
      obtain ⟨q, c, ps2, rfl, hq, h6, _⟩ := h'.short hy e'
      rcases h6 with h6 | ⟨l, h6⟩
      · exact absurd h6 hp
      · cases h6

theorem rdArray_parts {us : List Part} {as : List Bytes} (hb : BulkParts us as)
    (hlen : ∀ a ∈ as, a.length + 2 ≤ 2 ^ 48) (more : List Part) (fuel : Nat) (hf : as.length < fuel)
    (r : Receive) {buf ps} (h : Ahead buf (us ++ more) ps) :
    ∃ buf' ps', Ahead buf' more ps' ∧
      rdArray fuel r ⟨buf, segments ps⟩ as.length = .ok ⟨r.elements ++ as, r.orgStr ++ Part.all us⟩ ⟨buf', segments ps'⟩ := by
  induction hb generalizing fuel r buf ps with
  | nil =>
    obtain ⟨f, rfl⟩ : ∃ f, fuel = f + 1 := ⟨fuel - 1, by omega⟩
    exact ⟨buf, ps, h, by simp [rdArray, Part.all]⟩
  | @cons d a us as hd _ ih =>
    obtain ⟨f, rfl⟩ : ∃ f, fuel = f + 1 := ⟨fuel - 1, by omega⟩
    have ha : a.length + 2 ≤ 2 ^ 48 := hlen a (by simp)
    obtain ⟨b1, p1, h1, r1⟩ := readBytes_part (line_dec (t := 36) (by decide) hd) h
    obtain ⟨b2, p2, h2, r2⟩ := read_part (by simp) h1
    obtain ⟨b3, p3, h3, r3⟩ := ih (fun x hx => hlen x (by simp [hx])) f (by simp at hf; omega)
      ⟨r.elements ++ [a], r.orgStr ++ (36 :: d ++ [13, 10]) ++ (a ++ [13, 10])⟩ h2
    refine ⟨b3, p3, h3, ?_⟩
    rw [rdArray_bulk hd ha r1 r2 f r (by simp)]
    have : ((a :: as).length : Int) - 1 = as.length := by simp
    rw [this, r3]
    simp [Part.all, Part.bytes]

theorem parts_length {us : List Part} {as : List Bytes} (h : BulkParts us as) : as.length ≤ (Part.all us).length := by
  induction h with
  | nil => simp
  | cons _ _ ih => simp only [Part.all_cons, List.length_append, Part.bytes, List.length_cons]; omega

theorem rdDecode_parts {us : List Part} {as : List Bytes} (h : RequestParts us as) (hn : as.length < 2 ^ 63)
    (hlen : ∀ a ∈ as, a.length + 2 ≤ 2 ^ 48) {more : List Part} {buf ps} (e : Ahead buf (us ++ more) ps) :
    ∃ buf' ps', Ahead buf' more ps' ∧ rdDecode ⟨buf, segments ps⟩ = .ok ⟨as, Part.all us⟩ ⟨buf', segments ps'⟩ := by
  obtain ⟨d, us', hd, hb, rfl⟩ := h
  obtain ⟨b1, p1, h1, r1⟩ := readBytes_part (line_dec (t := 42) (by decide) hd) e
  obtain ⟨b2, p2, h2, r2⟩ := rdArray_parts hb hlen more (Rd.size ⟨b1, segments p1⟩ + 1) (by
      have h3 := parts_length hb
      have h4 := congrArg List.length (show b1 ++ flat p1 = Part.all (us' ++ more) from h1.stream)
      rw [show Part.all (us' ++ more) = Part.all us' ++ Part.all more by simp [Part.all]] at h4
      simp only [List.length_append] at h4
      simp only [Rd.size, segments_flat]
      omega) ⟨[], 42 :: d ++ [13, 10]⟩ h1
  refine ⟨b2, p2, h2, ?_⟩
  unfold rdDecode
  rw [r1]
  simp only
  rw [dsl_header ⟨[], []⟩ 42 (Or.inr rfl) d as.length hd hn]
  simp only [List.nil_append, show ¬ ((42 : UInt8) = 36) by decide, if_false, if_true]
  rw [r2]
  simp [Part.all, Part.bytes]

end Godis
