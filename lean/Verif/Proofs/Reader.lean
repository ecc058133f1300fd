import Verif.Model.Reader
import Verif.Spec.Units
import Verif.Proofs.Grammar3
/-! Facts about the decoder over a connection. -/
namespace Godis
open Resp Grammar

/-! ## the connection -/

theorem connRead_none {room : Nat} {segs : List Bytes} : connRead room segs = none ↔ segs.flatten = [] := by
  induction segs with
  | nil => simp [connRead]
  | cons s ss ih =>
    unfold connRead
    by_cases hs : s = []
    · simp [hs, ih]
    · rw [if_neg hs]
      split <;> simp [hs]

theorem connRead_some {room : Nat} {segs segs' : List Bytes} {got : Bytes} (hr : 0 < room)
    (h : connRead room segs = some (got, segs')) :
    got ≠ [] ∧ got.length ≤ room ∧ got ++ segs'.flatten = segs.flatten := by
  induction segs with
  | nil => simp [connRead] at h
  | cons s ss ih =>
    unfold connRead at h
    by_cases hs : s = []
    · rw [if_pos hs] at h
      simpa [hs] using ih h
    · rw [if_neg hs] at h
      split at h
      · simp only [Option.some.injEq, Prod.mk.injEq] at h
        obtain ⟨rfl, rfl⟩ := h
        exact ⟨hs, by assumption, by simp⟩
      · simp only [Option.some.injEq, Prod.mk.injEq] at h
        obtain ⟨rfl, rfl⟩ := h
        refine ⟨?_, by simp only [List.length_take]; omega, by simp [← List.append_assoc]⟩
        intro h0
        rw [List.take_eq_nil_iff] at h0
        rcases h0 with h0 | h0
        · omega
        · exact hs h0

theorem readLine_skip {a s : Bytes} (ha : 10 ∉ a) : readLine (a ++ s) = match readLine s with
    | .ok l r => .ok (a ++ l) r
    | .err e r => .err e r
    | .panic p => .panic p := by
  induction a with
  | nil => simp only [List.nil_append]; cases readLine s <;> rfl
  | cons c cs ih =>
    simp only [List.mem_cons, not_or] at ha
    rw [List.cons_append, readLine, if_neg (fun e => ha.1 e.symm), ih ha.2]
    cases readLine s <;> rfl

theorem readLine_more {a s l r : Bytes} (h : readLine a = .ok l r) : readLine (a ++ s) = .ok l (r ++ s) := by
  obtain ⟨e, hl⟩ := readLine_ok h
  subst e
  rw [List.append_assoc]
  exact readLine_line hl _

/-- `ReadBytes('\n')` finds the line that the stream has, however it arrives. -/
theorem bufReadBytes_spec (fuel : Nat) : ∀ (acc : Bytes) (rd : Rd),
    2 * rd.segs.flatten.length + (if bufSize ≤ rd.buf.length then 1 else 0) < fuel →
    match readLine (rd.buf ++ rd.segs.flatten) with
    | .ok l r => ∃ rd', bufReadBytes fuel acc rd = .ok (acc ++ l) rd' ∧ rd'.buf ++ rd'.segs.flatten = r
    | .err _ _ => bufReadBytes fuel acc rd = .err .eof ⟨[], []⟩
    | .panic _ => False := by
  induction fuel with
  | zero => intro acc rd h; omega
  | succ fuel ih =>
    intro acc rd hf
    unfold bufReadBytes
    cases hl : readLine rd.buf with
    | ok l r =>
      rw [readLine_more hl]
      exact ⟨_, rfl, rfl⟩
    | panic p => exact absurd hl readLine_not_panic
    | err e r =>
      have h10 := (readLine_err hl).1
      simp only
      by_cases hb : bufSize ≤ rd.buf.length
      · rw [if_pos hb] at hf ⊢
        have := ih (acc ++ rd.buf) ⟨[], rd.segs⟩ (by
          simp only [List.length_nil, show ¬ (bufSize ≤ 0) by decide, if_false]
          omega)
        rw [readLine_skip h10]
        simp only [List.nil_append] at this
        cases hr : readLine rd.segs.flatten with
        | ok l' r' =>
          rw [hr] at this
          simpa using this
        | err e' r' => rw [hr] at this; exact this
        | panic p => exact absurd hr readLine_not_panic
      · rw [if_neg hb] at hf ⊢
        cases hc : connRead (bufSize - rd.buf.length) rd.segs with
        | none =>
          rw [connRead_none.mp hc, List.append_nil, hl]
        | some x =>
          obtain ⟨got, segs'⟩ := x
          obtain ⟨hg, _, e⟩ := connRead_some (by omega) hc
          have hlen : 0 < got.length := List.length_pos_iff.mpr hg
          have el : rd.segs.flatten.length = got.length + segs'.flatten.length := by rw [← e]; simp
          have := ih acc ⟨rd.buf ++ got, segs'⟩ (by
            simp only
            split <;> omega)
          rw [← e, ← List.append_assoc]
          exact this

theorem readBytes_spec (rd : Rd) :
    match readLine (rd.buf ++ rd.segs.flatten) with
    | .ok l r => ∃ rd', rd.readBytes = .ok l rd' ∧ rd'.buf ++ rd'.segs.flatten = r
    | .err _ _ => rd.readBytes = .err .eof ⟨[], []⟩
    | .panic _ => False := by
  have := bufReadBytes_spec (2 * rd.size + 2) [] rd (by unfold Rd.size; split <;> omega)
  exact this

/-- a line at the front of the buffer -/
theorem readBytes_buffered {l w : Bytes} (h : Line l) (segs : List Bytes) :
    Rd.readBytes ⟨l ++ w, segs⟩ = .ok l ⟨w, segs⟩ := by
  unfold Rd.readBytes
  rw [bufReadBytes, readLine_line h]
  simp

/-- data at the front of the buffer -/
theorem read_buffered {a w : Bytes} (ha : a ≠ []) (segs : List Bytes) :
    Rd.read ⟨a ++ w, segs⟩ a.length = some (a, ⟨w, segs⟩) := by
  unfold Rd.read
  rw [if_neg (by simp [ha])]
  simp

/-! ## units -/

/-- The next unit is at the front of the buffer, or the buffer is empty and the next segment that is not empty
begins with it. -/
theorem next_unit (u : Bytes) (us : List Bytes) (g : List Bytes) (gs : List (List Bytes))
    (h : g ++ gs.flatten = u :: us) (hs : ∀ x ∈ gs, x.flatten.length ≤ bufSize) :
    (∃ g', g = u :: g' ∧ g' ++ gs.flatten = us) ∨
    (g = [] ∧ ∃ (g' : List Bytes) (gs' : List (List Bytes)), g' ++ gs'.flatten = us ∧ (∀ x ∈ gs', x.flatten.length ≤ bufSize) ∧
      (u ++ g'.flatten).length ≤ bufSize ∧
      ∀ room, u ≠ [] → connRead room (gs.map List.flatten) =
        connRead room ((u ++ g'.flatten) :: gs'.map List.flatten)) := by
  cases g with
  | cons v g' =>
    simp only [List.cons_append, List.cons.injEq] at h
    exact Or.inl ⟨g', by rw [h.1], h.2⟩
  | nil =>
    refine Or.inr ⟨rfl, ?_⟩
    simp only [List.nil_append] at h
    induction gs with
    | nil => simp at h
    | cons x xs ih =>
      cases x with
      | nil =>
        obtain ⟨g', gs', h1, h2, h3, h4⟩ := ih (fun x hx => hs x (by simp [hx])) (by simpa using h)
        refine ⟨g', gs', h1, h2, h3, fun room hu => ?_⟩
        rw [← h4 room hu]
        simp [connRead]
      | cons v g' =>
        simp only [List.flatten_cons, List.cons_append, List.cons.injEq] at h
        obtain ⟨rfl, h⟩ := h
        refine ⟨g', xs, h, fun x hx => hs x (by simp [hx]), ?_, fun room _ => by simp⟩
        have := hs (v :: g') (by simp)
        simpa using this

theorem readBytes_unit {u : Bytes} (hu : Line u) {us : List Bytes} {g : List Bytes} {gs : List (List Bytes)}
    (h : g ++ gs.flatten = u :: us) (hs : ∀ x ∈ gs, x.flatten.length ≤ bufSize) :
    ∃ (g' : List Bytes) (gs' : List (List Bytes)), g' ++ gs'.flatten = us ∧ (∀ x ∈ gs', x.flatten.length ≤ bufSize) ∧
      Rd.readBytes ⟨g.flatten, gs.map List.flatten⟩ = .ok u ⟨g'.flatten, gs'.map List.flatten⟩ := by
  have hne : u ≠ [] := by
    obtain ⟨b, rfl, _⟩ := hu; simp
  rcases next_unit u us g gs h hs with ⟨g', rfl, h'⟩ | ⟨rfl, g', gs', h1, h2, h3, h4⟩
  · exact ⟨g', gs, h', hs, by rw [List.flatten_cons]; exact readBytes_buffered hu _⟩
  · refine ⟨g', gs', h1, h2, ?_⟩
    unfold Rd.readBytes
    rw [bufReadBytes]
    simp only [List.flatten_nil, readLine, List.length_nil, Nat.sub_zero]
    rw [if_neg (by decide), h4 _ hne]
    have hc : connRead bufSize ((u ++ g'.flatten) :: gs'.map List.flatten)
        = some (u ++ g'.flatten, gs'.map List.flatten) := by
      unfold connRead
      rw [if_neg (by simp [hne]), if_pos h3]
    rw [hc]
    simp only
    rw [bufReadBytes]
    simp only [List.nil_append, readLine_line hu]

theorem read_unit {u : Bytes} (hne : u ≠ []) {us : List Bytes} {g : List Bytes} {gs : List (List Bytes)}
    (h : g ++ gs.flatten = u :: us) (hs : ∀ x ∈ gs, x.flatten.length ≤ bufSize) :
    ∃ (g' : List Bytes) (gs' : List (List Bytes)), g' ++ gs'.flatten = us ∧ (∀ x ∈ gs', x.flatten.length ≤ bufSize) ∧
      Rd.read ⟨g.flatten, gs.map List.flatten⟩ u.length = some (u, ⟨g'.flatten, gs'.map List.flatten⟩) := by
  rcases next_unit u us g gs h hs with ⟨g', rfl, h'⟩ | ⟨rfl, g', gs', h1, h2, h3, h4⟩
  · exact ⟨g', gs, h', hs, by rw [List.flatten_cons]; exact read_buffered hne _⟩
  · refine ⟨g', gs', h1, h2, ?_⟩
    have hc : ∀ room, bufSize ≤ room → connRead room (gs.map List.flatten)
        = some (u ++ g'.flatten, gs'.map List.flatten) := by
      intro room hr
      rw [h4 room hne]
      unfold connRead
      rw [if_neg (by simp [hne]), if_pos (by omega)]
    unfold Rd.read
    simp only [List.flatten_nil, if_true]
    by_cases hb : bufSize ≤ u.length
    · rw [if_pos hb, hc _ hb]
      have : g'.flatten = [] := List.length_eq_zero_iff.mp (by simp only [List.length_append] at h3; omega)
      rw [this]
      simp
    · rw [if_neg hb, hc _ (Nat.le_refl _)]
      simp

theorem rdBulk_unit {a : Bytes} (ha : a.length + 2 ≤ 2 ^ 48) {rd rd' : Rd} {u : Bytes} (hu : u = a ++ [13, 10])
    (h : rd.read u.length = some (u, rd')) (r : Receive) :
    rdBulkStrings r rd (a.length : Int) = .ok ⟨r.elements ++ [a], r.orgStr ++ u⟩ rd' := by
  unfold rdBulkStrings
  have hw : wrap64 ((a.length : Int) + 2) = a.length + 2 := wrap64_of_range _ (by omega) (by omega)
  have hl : u.length = a.length + 2 := by rw [hu]; simp
  rw [if_neg (by omega), hw, if_neg (by unfold maxAlloc; omega)]
  simp only [Int.toNat_natCast]
  rw [← hl, h]
  simp [Receive.append, hu]

theorem line_dec {t : UInt8} (ht : t ≠ 10) {d : Str} {n : Nat} (h : dec d = some n) :
    Line (t :: d ++ [13, 10]) := by
  refine ⟨t :: d ++ [13], by simp, ?_⟩
  simp only [List.cons_append, List.mem_cons, List.mem_append, List.not_mem_nil, or_false, not_or]
  exact ⟨fun e => ht e.symm, dec_noLF h, by decide⟩

theorem rdArray_step {d : Bytes} {k : Nat} (hd : dec d = some k) (hk : k < 2 ^ 63) {rd rd1 rd2 : Rd} {r r2 : Receive}
    (h1 : rd.readBytes = .ok (36 :: d ++ [13, 10]) rd1)
    (h2 : rdBulkStrings ⟨r.elements, r.orgStr ++ (36 :: d ++ [13, 10])⟩ rd1 (k : Int) = .ok r2 rd2)
    (fuel : Nat) {n : Int} (hn : 0 < n) :
    rdArray (fuel + 1) r rd n = rdArray fuel r2 rd2 (n - 1) := by
  rw [rdArray, if_neg (by omega), h1]
  have h36 : ¬ (List.headD (36 :: d ++ [13, 10]) (0 : UInt8) = 42) := by simp
  simp only [if_neg h36]
  rw [dsl_header r 36 (Or.inl rfl) d k hd hk]
  simp only [if_true]
  rw [h2]

/-- one bulk string of an array, its header and data being read as they were sent -/
theorem rdArray_bulk {d a : Bytes} (hd : dec d = some a.length) (ha : a.length + 2 ≤ 2 ^ 48) {rd rd1 rd2 : Rd}
    (h1 : rd.readBytes = .ok (36 :: d ++ [13, 10]) rd1)
    (h2 : rd1.read (a ++ [13, 10]).length = some (a ++ [13, 10], rd2)) (fuel : Nat) (r : Receive) {n : Int} (hn : 0 < n) :
    rdArray (fuel + 1) r rd n
      = rdArray fuel ⟨r.elements ++ [a], r.orgStr ++ (36 :: d ++ [13, 10]) ++ (a ++ [13, 10])⟩ rd2 (n - 1) := by
  rw [rdArray, if_neg (by omega), h1]
  have h36 : ¬ (List.headD (36 :: d ++ [13, 10]) (0 : UInt8) = 42) := by simp
  simp only [if_neg h36]
  rw [dsl_header r 36 (Or.inl rfl) d a.length hd (by omega)]
  simp only [if_true]
  rw [rdBulk_unit ha rfl h2]

/-- The bulk strings of a request, arriving in segments that contain whole units. -/
theorem rdArray_units {us : List Bytes} {as : List Bytes} (hb : BulkUnits us as)
    (hlen : ∀ a ∈ as, a.length + 2 ≤ 2 ^ 48) (more : List Bytes) (fuel : Nat) (hf : as.length < fuel)
    (r : Receive) (g : List Bytes) (gs : List (List Bytes)) (h : g ++ gs.flatten = us ++ more)
    (hs : ∀ x ∈ gs, x.flatten.length ≤ bufSize) :
    ∃ (g' : List Bytes) (gs' : List (List Bytes)), g' ++ gs'.flatten = more ∧ (∀ x ∈ gs', x.flatten.length ≤ bufSize) ∧
      rdArray fuel r ⟨g.flatten, gs.map List.flatten⟩ as.length
        = .ok ⟨r.elements ++ as, r.orgStr ++ us.flatten⟩ ⟨g'.flatten, gs'.map List.flatten⟩ := by
  induction hb generalizing fuel r g gs with
  | nil =>
    obtain ⟨f, rfl⟩ : ∃ f, fuel = f + 1 := ⟨fuel - 1, by omega⟩
    exact ⟨g, gs, h, hs, by simp [rdArray]⟩
  | @cons d a us as hd _ ih =>
    obtain ⟨f, rfl⟩ : ∃ f, fuel = f + 1 := ⟨fuel - 1, by omega⟩
    have ha : a.length + 2 ≤ 2 ^ 48 := hlen a (by simp)
    obtain ⟨g1, gs1, e1, hs1, r1⟩ := readBytes_unit (line_dec (t := 36) (by decide) hd) h hs
    obtain ⟨g2, gs2, e2, hs2, r2⟩ := read_unit (by simp) e1 hs1
    obtain ⟨g3, gs3, e3, hs3, r3⟩ := ih (fun x hx => hlen x (by simp [hx])) f (by simp at hf; omega)
      ⟨r.elements ++ [a], r.orgStr ++ (36 :: d ++ [13, 10]) ++ (a ++ [13, 10])⟩ g2 gs2 e2 hs2
    refine ⟨g3, gs3, e3, hs3, ?_⟩
    rw [rdArray_bulk hd ha r1 r2 f r (by simp)]
    have : ((a :: as).length : Int) - 1 = as.length := by simp
    rw [this, r3]
    simp

theorem units_length {us as : List Bytes} (h : BulkUnits us as) : as.length ≤ us.flatten.length := by
  induction h with
  | nil => simp
  | cons _ _ ih => simp only [List.flatten_cons, List.length_append, List.length_cons]; omega

theorem rdDecode_units {us as : List Bytes} (h : RequestUnits us as) (hn : as.length < 2 ^ 63)
    (hlen : ∀ a ∈ as, a.length + 2 ≤ 2 ^ 48) (more : List Bytes) (g : List Bytes) (gs : List (List Bytes))
    (e : g ++ gs.flatten = us ++ more) (hs : ∀ x ∈ gs, x.flatten.length ≤ bufSize) :
    ∃ (g' : List Bytes) (gs' : List (List Bytes)), g' ++ gs'.flatten = more ∧ (∀ x ∈ gs', x.flatten.length ≤ bufSize) ∧
      rdDecode ⟨g.flatten, gs.map List.flatten⟩ = .ok ⟨as, us.flatten⟩ ⟨g'.flatten, gs'.map List.flatten⟩ := by
  obtain ⟨d, us', hd, hb, rfl⟩ := h
  obtain ⟨g1, gs1, e1, hs1, r1⟩ := readBytes_unit (line_dec (t := 42) (by decide) hd) e hs
  have hfl : ∀ l : List (List Bytes), (l.map List.flatten).flatten = l.flatten.flatten := by
    intro l
    induction l with
    | nil => rfl
    | cons x xs ih => simp [ih]
  obtain ⟨g2, gs2, e2, hs2, r2⟩ := rdArray_units hb hlen more
    (Rd.size ⟨g1.flatten, gs1.map List.flatten⟩ + 1) (by
      have h1 := units_length hb
      have h2 : (g1 ++ gs1.flatten).flatten.length = (us' ++ more).flatten.length := by rw [e1]; rfl
      simp only [List.flatten_append, List.length_append] at h2
      unfold Rd.size
      simp only [hfl]
      omega) ⟨[], 42 :: d ++ [13, 10]⟩ g1 gs1 e1 hs1
  refine ⟨g2, gs2, e2, hs2, ?_⟩
  unfold rdDecode
  rw [r1]
  simp only
  rw [dsl_header _ 42 (Or.inr rfl) d _ hd hn]
  simp only [if_neg (show ¬ ((42 : UInt8) = 36) by decide), if_true, List.nil_append]
  rw [r2]
  simp

/-- the units of a request are its text -/
theorem units_bulks {us as : List Bytes} (h : BulkUnits us as) : IsBulks us.flatten as := by
  induction h with
  | nil => exact .nil
  | cons hd _ ih => simpa using IsBulks.cons hd ih

theorem bulks_units {b : Bytes} {as : List Bytes} (h : IsBulks b as) : ∃ us, BulkUnits us as ∧ us.flatten = b := by
  induction h with
  | nil => exact ⟨[], .nil, rfl⟩
  | cons hd _ ih =>
    obtain ⟨us, hu, e⟩ := ih
    exact ⟨_, .cons hd hu, by simp [e]⟩

theorem units_request {us as : List Bytes} (h : RequestUnits us as) : IsRequest us.flatten as := by
  obtain ⟨d, us', hd, hb, rfl⟩ := h
  exact ⟨d, us'.flatten, hd, units_bulks hb, by simp⟩

theorem request_units {s : Bytes} {as : List Bytes} (h : IsRequest s as) : ∃ us, RequestUnits us as ∧ us.flatten = s := by
  obtain ⟨d, b, hd, hb, rfl⟩ := h
  obtain ⟨us, hu, rfl⟩ := bulks_units hb
  exact ⟨_, ⟨d, us, hd, hu, rfl⟩, by simp⟩

/-! ## requests larger than the buffer -/

theorem rdArray_buffered {b : Bytes} {as : List Bytes} (h : IsBulks b as) (hlen : ∀ a ∈ as, a.length + 2 ≤ 2 ^ 48)
    (w : Bytes) (segs : List Bytes) (fuel : Nat) (r : Receive) (k : Int) (hk : 0 < k) :
    rdArray (as.length + fuel) r ⟨b ++ w, segs⟩ (as.length + k)
      = rdArray fuel ⟨r.elements ++ as, r.orgStr ++ b⟩ ⟨w, segs⟩ k := by
  induction h generalizing r with
  | nil => simp
  | @cons d a b as hd _ ih =>
    have ha : a.length + 2 ≤ 2 ^ 48 := hlen a (by simp)
    have e : (a :: as).length + fuel = (as.length + fuel) + 1 := by simp; omega
    have h1 := readBytes_buffered (line_dec (t := 36) (by decide) hd) (w := a ++ [13, 10] ++ (b ++ w)) (segs := segs)
    have h2 := read_buffered (a := a ++ [13, 10]) (by simp) segs (w := b ++ w)
    have e2 : 36 :: d ++ [13, 10] ++ a ++ [13, 10] ++ b ++ w
        = 36 :: d ++ [13, 10] ++ (a ++ [13, 10] ++ (b ++ w)) := by simp
    rw [e, e2, rdArray_bulk hd ha h1 h2 _ r (by simp; omega)]
    have : ((a :: as).length : Int) + k - 1 = as.length + k := by simp; omega
    rw [this, ih (fun x hx => hlen x (by simp [hx]))]
    simp

theorem rdBulk_short {k : Nat} (hk : k + 2 ≤ 2 ^ 48) {rd rd' : Rd} {w : Bytes}
    (h : rd.read (k + 2) = some (w, rd')) (r : Receive) :
    rdBulkStrings r rd (k : Int) = .ok (r.append ((w ++ List.replicate (k + 2 - w.length) 0).take k)
      (w ++ List.replicate (k + 2 - w.length) 0)) rd' := by
  unfold rdBulkStrings
  have hwr : wrap64 ((k : Int) + 2) = k + 2 := wrap64_of_range _ (by omega) (by omega)
  rw [if_neg (by omega), hwr, if_neg (by unfold maxAlloc; omega)]
  simp only [Int.toNat_natCast]
  rw [h]

theorem rdDecode_large {s : Bytes} {args : List Bytes} {a : Bytes} (h : IsRequest s (args ++ [a]))
    (hn : (args ++ [a]).length < 2 ^ 63) (hlen : ∀ x ∈ args ++ [a], x.length + 2 ≤ 2 ^ 48)
    (hhead : s.length - (a.length + 2) < bufSize) (hbig : bufSize < s.length) :
    ∃ t, rdDecode ⟨[], [s]⟩ = .ok ⟨args ++ [a.take (bufSize - (s.length - (a.length + 2)))
      ++ List.replicate (a.length - (bufSize - (s.length - (a.length + 2)))) 0], t⟩ ⟨[], [s.drop bufSize]⟩ := by
  obtain ⟨d, b, hd, hb, rfl⟩ := h
  have ha : a.length + 2 ≤ 2 ^ 48 := hlen a (by simp)
  obtain ⟨b', d', hb', hd', rfl⟩ := isBulks_snoc hb
  generalize hs : 42 :: d ++ [13, 10] ++ (b' ++ (36 :: d' ++ [13, 10] ++ a ++ [13, 10])) = s at hhead hbig ⊢
  have es : s = (42 :: d ++ [13, 10] ++ b' ++ (36 :: d' ++ [13, 10])) ++ (a ++ [13, 10]) := by rw [← hs]; simp
  generalize hh : 42 :: d ++ [13, 10] ++ b' ++ (36 :: d' ++ [13, 10]) = head at es
  have hl : s.length = head.length + (a.length + 2) := by rw [es]; simp
  have hk : s.length - (a.length + 2) = head.length := by omega
  rw [hk] at hhead ⊢
  generalize hm : bufSize - head.length = m
  have hm0 : 0 < m := by omega
  have hm1 : m < a.length + 2 := by omega
  have etake : s.take bufSize = head ++ (a ++ [13, 10]).take m := by
    rw [es, List.take_append, List.take_of_length_le (by omega), hm]
  have hw : (a ++ [13, 10]).take m ≠ [] := by
    intro h0
    rw [List.take_eq_nil_iff] at h0
    rcases h0 with h0 | h0
    · omega
    · simp at h0
  generalize hwd : (a ++ [13, 10]).take m = w at etake hw
  have hwl : w.length = m := by rw [← hwd]; simp; omega
  -- the first header
  have hfirst : Rd.readBytes ⟨[], [s]⟩ = .ok (42 :: d ++ [13, 10])
      ⟨b' ++ (36 :: d' ++ [13, 10] ++ w), [s.drop bufSize]⟩ := by
    unfold Rd.readBytes
    rw [bufReadBytes]
    simp only [readLine, List.length_nil, Nat.sub_zero]
    rw [if_neg (by decide)]
    have hs0 : s ≠ [] := by intro h0; rw [h0] at hbig; simp at hbig
    have hc : connRead bufSize [s] = some (s.take bufSize, [s.drop bufSize]) := by
      unfold connRead
      rw [if_neg hs0, if_neg (by omega)]
    rw [hc]
    simp only
    have hsz : 2 * Rd.size ⟨[], [s]⟩ + 1 = (2 * Rd.size ⟨[], [s]⟩) + 1 := rfl
    rw [hsz, bufReadBytes]
    simp only [List.nil_append]
    have e1 : s.take bufSize = (42 :: d ++ [13, 10]) ++ (b' ++ (36 :: d' ++ [13, 10] ++ w)) := by
      rw [etake, ← hh]; simp
    rw [e1, readLine_line (line_dec (t := 42) (by decide) hd)]
  unfold rdDecode
  rw [hfirst]
  simp only
  rw [dsl_header _ 42 (Or.inr rfl) d _ hd hn]
  simp only [if_neg (show ¬ ((42 : UInt8) = 36) by decide), if_true, List.nil_append]
  have hal : ((args ++ [a]).length : Int) = args.length + 1 := by simp
  have hfuel : ∃ f, Rd.size ⟨b' ++ (36 :: d' ++ [13, 10] ++ w), [s.drop bufSize]⟩ + 1 = args.length + (f + 2) := by
    have := isBulks_length hb'
    unfold Rd.size
    refine ⟨(b' ++ (36 :: d' ++ [13, 10] ++ w)).length + [s.drop bufSize].flatten.length + 1 - args.length - 2, ?_⟩
    simp
    omega
  obtain ⟨f, hf⟩ := hfuel
  rw [hf, hal, rdArray_buffered hb' (fun x hx => hlen x (by simp [hx])) _ _ _ _ 1 (by omega)]
  generalize [s.drop bufSize] = segs at *
  -- the data
  have hread : Rd.read ⟨w, segs⟩ (a.length + 2) = some (w, ⟨[], segs⟩) := by
    unfold Rd.read
    rw [if_neg hw]
    simp only [List.take_of_length_le (show w.length ≤ a.length + 2 by omega),
      List.drop_of_length_le (show w.length ≤ a.length + 2 by omega)]
  have hbulk := rdBulk_short ha hread
  have hline := readBytes_buffered (line_dec (t := 36) (by decide) hd') (w := w) segs
  rw [rdArray_step hd' (by omega) hline (hbulk _) (f + 1) (by omega), rdArray, if_pos (by omega)]
  have earg : (w ++ List.replicate (a.length + 2 - w.length) 0).take a.length
      = a.take m ++ List.replicate (a.length - m) 0 := by
    rw [List.take_append, List.take_replicate, hwl, ← hwd, List.take_take, List.take_append]
    have : min a.length m - a.length = 0 := by omega
    rw [this, List.take_zero, List.append_nil]
    have hmin : a.take (min a.length m) = a.take m := by
      rcases Nat.le_total a.length m with h | h
      · rw [Nat.min_eq_left h, List.take_of_length_le h, List.take_length]
      · rw [Nat.min_eq_right h]
    rw [hmin]
    congr 2
    omega
  rw [earg]
  exact ⟨_, rfl⟩

end Godis
