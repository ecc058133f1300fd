import Verif.Props.LifeV1
/-!
# The v1 server: what happens when a peer closes its connection (C47, on the whole server)
-/
namespace Godis.V1
open Godis.Event (upd upd_apply upd_same)
open Resp (Denotes)

/-- the reader has met an error, in what it is doing or before -/
def Met (x : Conn) : Prop :=
  (∃ last, x.reader = .hasError last) ∨ x.reader = .returning ∨ x.reader = .closedReceive ∨ x.reader = .gone ∨ 0 < x.errors ∨
    x.errorClosed = true ∨ x.receiveClosed = true

/-- the goroutine of the connection has left its loop -/
def Left (x : Conn) : Prop := x.loop = .leaving ∨ x.loop = .closed ∨ x.loop = .gone

/-- nothing is left to read, and the reader holds no request -/
def Empty (x : Conn) : Prop := x.input = ⟨[], []⟩ ∧ heldRequest x.reader = []

/-- what the reader has done about an error it has met before -/
def Told (x : Conn) : Prop := 0 < x.errors ∨ x.errorClosed = true ∨ x.receiveClosed = true

theorem Told.met {x : Conn} (h : Told x) : Met x := .inr (.inr (.inr (.inr h)))

theorem Met.told {x : Conn} (h : Met x) (hr : x.reader = .loop ∨ ∃ b r, x.reader = .hasRequest b r) : Told x := by
  rcases h with ⟨_, h⟩ | h | h | h | h
  · rw [h] at hr; simp at hr
  · rw [h] at hr; simp at hr
  · rw [h] at hr; simp at hr
  · rw [h] at hr; simp at hr
  · exact h

/-- a connection is accepted once -/
theorem accept_unique {ext rng L v} (h : VRun ext rng L v) {c s s'} (h1 : .accept c s ∈ L) (h2 : .accept c s' ∈ L) : s = s' := by
  induction h with
  | nil => simp at h1
  | @snoc L w l w' h hc hc' hs ih =>
    rcases List.mem_append.mp h1 with h1' | h1
    · rcases List.mem_append.mp h2 with h2 | h2
      · exact ih h1' h2
      · rw [List.mem_singleton] at h2
        subst h2
        cases hs with
        | accept c' b g1 g2 g3 => exact absurd h1' (((finds h c).1 g3).2 s)
    · rw [List.mem_singleton] at h1
      subst h1
      rcases List.mem_append.mp h2 with h2 | h2
      · cases hs with
        | accept c' b g1 g2 g3 => exact absurd h2 (((finds h c).1 g3).2 s')
      · rw [List.mem_singleton] at h2
        cases h2; rfl

theorem decode_empty : rdDecode ⟨[], []⟩ = .err .eof ⟨[], []⟩ := rfl

/-- If all requests are uncut, the decoder fails only at the end. -/
theorem Finds.ends {segs rs rd reqs e rest} (h : Finds (fresh segs) rs rd) (hs : Sends segs reqs) (hd : rdDecode rd = .err e rest) :
    rest = ⟨[], []⟩ := by
  obtain ⟨parts, ps, k1, k2, rfl⟩ := hs
  obtain ⟨r1, r2, parts', ps', buf', _, _, h4, h5, rfl⟩ := h.sends k1 (uncut_ahead k2) rfl
  cases h4 with
  | nil =>
    have hst := h5.stream
    simp only [List.flatten_nil, Resp.Part.all, List.map_nil, List.append_eq_nil_iff] at hst
    rcases readBytes_cases ⟨buf', Resp.segments ps'⟩ with hr | ⟨l, rd2, hr, e1, hl⟩
    · unfold rdDecode at hd
      rw [hr] at hd
      cases hd
      rfl
    · exfalso
      simp only [Rd.ahead, segments_flat, hst, List.append_nil] at e1
      obtain ⟨b, rfl, _⟩ := hl
      simp at e1
  | @cons us req parts'' reqs'' h6 h7 =>
    obtain ⟨buf2, ps2, h8, h9⟩ := rdDecode_parts h6.1 h6.2.2.1 h6.2.2.2 (more := parts''.flatten) (by simpa using h5)
    rw [h9] at hd
    cases hd

/-- If all requests are uncut and nothing is left to read, all were found. -/
theorem Finds.all {segs rs reqs} (h : Finds (fresh segs) rs ⟨[], []⟩) (hs : Sends segs reqs) : rs.map (·.elements) = reqs := by
  obtain ⟨parts, ps, k1, k2, rfl⟩ := hs
  obtain ⟨r1, r2, parts', ps', buf', rfl, e2, h4, h5, h6⟩ := h.sends k1 (uncut_ahead k2) rfl
  cases h4 with
  | nil => simp [e2]
  | @cons us req parts'' reqs'' h6' h7 =>
    obtain ⟨buf2, ps2, h8, h9⟩ := rdDecode_parts h6'.1 h6'.2.2.1 h6'.2.2.2 (more := parts''.flatten) (by simpa using h5)
    rw [← h6] at h9
    cases h9

/-- once the reader has met an error, or the loop has ended for no other reason, everything was read -/
theorem all_read {ext rng L v} (h : VRun ext rng L v) {c segs reqs} (hs : Sends segs reqs) (ha : ∀ s, .accept c s ∈ L → s = segs) :
    (¬ Left (v.conn c) → Met (v.conn c) → Empty (v.conn c)) ∧
    (Left (v.conn c) → .writeFailed c ∉ L → .stopReturned ∉ L → Empty (v.conn c)) ∧
    (v.cancelled = true → .stopReturned ∈ L) := by
  induction h with
  | nil => simp [Srv.init, Conn.none, Met, Left]
  | @snoc L w l w' h hc hc' hstep ih =>
    obtain ⟨i1, i2, i3⟩ := ih (fun s hs => ha s (List.mem_append_left _ hs))
    have hf := (finds h c)
    have same : w'.conn c = w.conn c → (w'.cancelled = true → w.cancelled = true ∨ l = .stopReturned) →
        (¬ Left (w'.conn c) → Met (w'.conn c) → Empty (w'.conn c)) ∧
        (Left (w'.conn c) → .writeFailed c ∉ L ++ [l] → .stopReturned ∉ L ++ [l] → Empty (w'.conn c)) ∧
        (w'.cancelled = true → .stopReturned ∈ L ++ [l]) := fun e hcan => by
      rw [e]
      refine ⟨i1, fun g1 g2 g3 => i2 g1 (fun hm => g2 (List.mem_append_left _ hm)) (fun hm => g3 (List.mem_append_left _ hm)), fun g => ?_⟩
      rcases hcan g with g | rfl
      · exact List.mem_append_left _ (i3 g)
      · simp
    have i2' : Left (w.conn c) → .writeFailed c ∉ L ++ [l] → .stopReturned ∉ L ++ [l] → Empty (w.conn c) :=
      fun g1 g2 g3 => i2 g1 (fun hm => g2 (List.mem_append_left _ hm)) (fun hm => g3 (List.mem_append_left _ hm))
    have other : ∀ c' x, w'.conn = upd w.conn c' x → c ≠ c' → w'.conn c = w.conn c := fun c' x e hne => by
      rw [e, upd_apply, if_neg hne]
    cases hstep with
    | accept c' b h1 h2 h3 =>
      by_cases hcc : c = c'
      · subst hcc
        refine ⟨?_, ?_, fun g => List.mem_append_left _ (i3 g)⟩
        · intro _ hm; simp [Met, Conn.new] at hm
        · intro hl; simp [Left, Conn.new] at hl
      · exact same (other _ _ rfl hcc) .inl
    | decode c' b r rest h1 h2 h3 h4 =>
      by_cases hcc : c = c'
      · subst hcc
        have no : ¬ Empty (w.conn c) := fun he => by rw [he.1, decode_empty] at h3; cases h3
        simp only [upd_same]
        exact ⟨fun hl hm => absurd (i1 hl (Told.met (hm.told (.inr ⟨_, _, rfl⟩)))) no, fun hl g2 g3 => absurd (i2' hl g2 g3) no,
          fun g => List.mem_append_left _ (i3 g)⟩
      · exact same (other _ _ rfl hcc) .inl
    | malformed c' e rest last h1 h2 h3 h4 =>
      by_cases hcc : c = c'
      · subst hcc
        have hacc : ∃ s, .accept c s ∈ L := by
          have := (conns h).absent c
          by_contra hno
          exact h1 (this.mpr (by rw [mem_accepted]; exact hno))
        obtain ⟨s, hacc⟩ := hacc
        obtain rfl := ha s (List.mem_append_left _ hacc)
        have he : rest = ⟨[], []⟩ := (hf.2 s hacc).ends hs h3
        have : Empty { w.conn c with input := rest, reader := .hasError last } := ⟨he, rfl⟩
        simp only [upd_same]
        exact ⟨fun _ _ => this, fun _ _ _ => this, fun g => List.mem_append_left _ (i3 g)⟩
      · exact same (other _ _ rfl hcc) .inl
    | readClosed c' h1 h2 =>
      by_cases hcc : c = c'
      · subst hcc
        have hl : Left (w.conn c) := .inr h1
        simp only [upd_same]
        refine ⟨fun g => absurd hl g, fun _ g2 g3 => ⟨(i2' hl g2 g3).1, rfl⟩,
          fun g => List.mem_append_left _ (i3 g)⟩
      · exact same (other _ _ rfl hcc) .inl
    | request c' b r h1 h2 =>
      by_cases hcc : c = c'
      · subst hcc
        have no : ¬ Empty (w.conn c) := fun he => by have := he.2; rw [h1] at this; cases this
        simp only [upd_same]
        exact ⟨fun hl hm => absurd (i1 hl (Told.met (hm.told (.inl rfl)))) no, fun hl g2 g3 => absurd (i2' hl g2 g3) no,
          fun g => List.mem_append_left _ (i3 g)⟩
      · exact same (other _ _ rfl hcc) .inl
    | error c' last h1 h2 =>
      by_cases hcc : c = c'
      · subst hcc
        simp only [upd_same]
        have hh : Empty (w.conn c) → Empty { w.conn c with reader := if last then .returning else .loop, errors := (w.conn c).errors + 1 } :=
          fun he => ⟨he.1, by cases last <;> rfl⟩
        exact ⟨fun hl _ => hh (i1 hl (.inl ⟨last, h1⟩)), fun hl g2 g3 => hh (i2' hl g2 g3), fun g => List.mem_append_left _ (i3 g)⟩
      · exact same (other _ _ rfl hcc) .inl
    | closeReceive c' h1 =>
      by_cases hcc : c = c'
      · subst hcc
        simp only [upd_same]
        exact ⟨fun hl _ => ⟨(i1 hl (.inr (.inl h1))).1, rfl⟩, fun hl g2 g3 => ⟨(i2' hl g2 g3).1, rfl⟩, fun g => List.mem_append_left _ (i3 g)⟩
      · exact same (other _ _ rfl hcc) .inl
    | closeError c' h1 =>
      by_cases hcc : c = c'
      · subst hcc
        simp only [upd_same]
        exact ⟨fun hl _ => ⟨(i1 hl (.inr (.inr (.inl h1)))).1, rfl⟩, fun hl g2 g3 => ⟨(i2' hl g2 g3).1, rfl⟩, fun g => List.mem_append_left _ (i3 g)⟩
      · exact same (other _ _ rfl hcc) .inl
    | quit c' h1 h2 =>
      by_cases hcc : c = c'
      · subst hcc
        refine ⟨fun hl => absurd (by simp [Left]) hl, fun _ _ g3 => absurd (List.mem_append_left _ (i3 h2)) g3, fun g => List.mem_append_left _ (i3 g)⟩
      · exact same (other _ _ rfl hcc) .inl
    | gotError c' h1 h2 =>
      by_cases hcc : c = c'
      · subst hcc
        have he : Empty (w.conn c) := i1 (by simp [Left, h1]) (Told.met (h2.elim .inl fun g => .inr (.inl g)))
        refine ⟨fun hl => absurd (by simp [Left]) hl, fun _ _ _ => by simpa [Empty] using he, fun g => List.mem_append_left _ (i3 g)⟩
      · exact same (other _ _ rfl hcc) .inl
    | handle c' i b r rest h1 h2 h3 =>
      by_cases hcc : c = c'
      · subst hcc
        simp only [upd_same]
        refine ⟨fun _ hm => i1 (by simp [Left, h1]) hm, fun hl => absurd hl (by simp [Left]), fun g => List.mem_append_left _ (i3 g)⟩
      · exact same (other _ _ rfl hcc) .inl
    | next c' i h1 h2 =>
      by_cases hcc : c = c'
      · subst hcc
        simp only [upd_same]
        refine ⟨fun _ hm => i1 (by simp [Left, h1]) hm, fun hl => absurd hl (by simp [Left]), fun g => List.mem_append_left _ (i3 g)⟩
      · exact same (other _ _ rfl hcc) .inl
    | writeFailed c' i c'' rsp b h1 h2 h3 h4 =>
      by_cases hcc : c = c'
      · subst hcc
        refine ⟨fun hl => absurd (by simp [Left]) hl, fun _ g2 => absurd (by simp) g2, fun g => List.mem_append_left _ (i3 g)⟩
      · exact same (other _ _ rfl hcc) .inl
    | closeConn c' h1 =>
      by_cases hcc : c = c'
      · subst hcc
        refine ⟨fun hl => absurd (by simp [Left]) hl, fun _ g2 g3 => ?_, fun g => List.mem_append_left _ (i3 g)⟩
        simpa [Empty] using i2' (.inl h1) g2 g3
      · exact same (other _ _ rfl hcc) .inl
    | gone c' h1 h2 =>
      by_cases hcc : c = c'
      · subst hcc
        refine ⟨fun hl => absurd (by simp [Left]) hl, fun _ g2 g3 => ?_, fun g => List.mem_append_left _ (i3 g)⟩
        simpa [Empty] using i2' (.inr (.inl h1)) g2 g3
      · exact same (other _ _ rfl hcc) .inl
    | cancel h1 h2 h3 => exact same rfl (fun _ => .inr rfl)
    | _ => exact same rfl .inl

/-- the loop of a connection has left if its end is in the history -/
theorem left_of_leave {ext rng L v} (h : VRun ext rng L v) {c} (hl : .leave c ∈ L) : Left (v.conn c) := by
  induction h with
  | nil => simp at hl
  | @snoc L w l w' h hc hc' hs ih =>
    have keep : ∀ x, w'.conn = x → (∀ j, Left (w.conn j) → Left (x j)) → (.leave c ∈ L → Left (w'.conn c)) := fun x e hx hm => by
      rw [e]; exact hx c (ih hm)
    rcases List.mem_append.mp hl with hl | hl
    · have hi := ih hl
      cases hs with
      | accept c' _ _ _ h1 | decode c' _ _ _ _ h1 | malformed c' _ _ _ _ h1 | readClosed c' _ h1 | request c' _ _ h1 | error c' _ h1 | closeReceive c' h1 | closeError c' h1 =>
        simp only [upd_apply]
        split
        · next e => subst e; first | exact hi | (unfold Left at hi; rw [h1] at hi; simp at hi)
        · exact hi
      | quit c' h1 | gotError c' h1 | handle c' _ _ _ _ h1 | next c' _ h1 | writeFailed c' _ _ _ _ h1 =>
        simp only [upd_apply]
        split
        · next e => subst e; unfold Left at hi; rw [h1] at hi; simp at hi
        · exact hi
      | closeConn c' | gone c' =>
        simp only [upd_apply]
        split
        · simp [Left]
        · exact hi
      | _ => exact hi
    · rw [List.mem_singleton] at hl
      subst hl
      cases hs <;> simp [Left]

/-- C47, what holds on the whole server: a peer sends requests (no data of which is cut, C64) and closes its connection.  If
no reply could not be written and the server was not stopped, then when the loop of the connection ends, all requests were
taken, in order, or all but the last. -/
theorem C47_v1_lost_at_most_one_partial {ext rng L v} (h : VRun ext rng L v) {c segs reqs} (ha : .accept c segs ∈ L) (hs : Sends segs reqs)
    (hw : .writeFailed c ∉ L) (hst : .stopReturned ∉ L) (hl : .leave c ∈ L) :
    ∃ lost, (taken L c).map (·.elements) ++ lost = reqs ∧ lost.length ≤ 1 := by
  obtain ⟨h1, h2⟩ := (all_read h hs (fun s hs => accept_unique h hs ha)).2.1 (left_of_leave h hl) hw hst
  have hf := (finds h c).2 segs ha
  rw [h1, h2, List.append_nil] at hf
  have := hf.all hs
  refine ⟨((v.conn c).receive.map (·.2)).map (·.elements), by rw [← this, List.map_append], ?_⟩
  have := receive_length h c
  simpa using this

/-- C47, what holds on the whole server: when the loop of a connection ends the process because it takes a nil request, and its
peer sent requests of which no data is cut, all of them were taken. -/
theorem C47_v1_crash_only_at_end_partial {ext rng L v} (h : VRun ext rng (L ++ [.panic .nilRequest]) v) :
    ∃ c segs, .accept c segs ∈ L ∧ ∀ reqs, Sends segs reqs → (taken L c).map (·.elements) = reqs := by
  generalize hL : L ++ [.panic .nilRequest] = L' at h
  cases h with
  | nil => simp at hL
  | @snoc L0 w l w' h hc hc' hstep =>
    obtain ⟨rfl, hl⟩ := List.append_inj' hL rfl
    simp only [List.cons.injEq, and_true] at hl
    subst hl
    cases hstep with
    | handleNil c h1 h2 h3 =>
      have hacc : ∃ s, .accept c s ∈ L := by
        have := (conns h).absent c
        by_contra hno
        have := this.mpr (by rw [mem_accepted]; exact hno)
        rw [h1] at this; cases this
      obtain ⟨segs, ha⟩ := hacc
      refine ⟨c, segs, ha, fun reqs hs => ?_⟩
      obtain ⟨g1, g2⟩ := (all_read (c := c) h hs (fun s hs => accept_unique h hs ha)).1 (by simp [Left, h1]) (.inr (.inr (.inr (.inr (.inr (.inr h3))))))
      have hf := (finds h c).2 segs ha
      rw [g1, g2, h2] at hf
      simpa using hf.all hs

/-- C47 fails: at any time while the server serves, a peer can connect, send one request, whole and in one segment, and close
its side; then the loop of the connection may end without taking the request. -/
theorem C47_v1_lost_violated {ext rng L v} (h : VRun ext rng L v) (hc : v.crashed = false) (hc' : v.sys.crashed = false)
    (hs : .serving ∈ L) (hns : .stopCalled ∉ L) {c : Nat} (hn : ∀ b, .accept c b ∉ L) {seg r}
    (hd : rdDecode (fresh [seg]) = .ok r ⟨[], []⟩) :
    ∃ L' v', VRun ext rng (L ++ L') v' ∧ L' = [.accept c [seg], .reader c, .reader c, .reader c, .reader c, .leave c, .closeConn c, .gone c] ∧
      taken (L ++ L') c = [] := by
  obtain ⟨g1, g2⟩ := serving_accepting h hs hns
  have g3 : (v.conn c).loop = .absent := ((conns h).absent c).mpr (by rw [mem_accepted]; rintro ⟨b, hb⟩; exact hn b hb)
  obtain ⟨b, hb⟩ : ∃ b, decodeFromReader b = .ok r [] := by
    have := rdDecode_fair (fresh [seg])
    rw [hd] at this
    exact this.2.2
  have h1 := VSteps.snoc h hc' hc (.accept v c [seg] g1 g2 g3)
  have h2 := VSteps.snoc h1 hc' hc (.decode _ c b r ⟨[], []⟩ (by simp [Conn.new]) (by simp [Conn.new]) (by simpa [Conn.new, fresh] using hd) hb)
  have h3 := VSteps.snoc h2 hc' hc (.request _ c b r (by simp) (by simp [Conn.new]))
  have h4 := VSteps.snoc h3 hc' hc (.malformed _ c .eof ⟨[], []⟩ true (by simp [Conn.new]) (by simp) (by simp [decode_empty]) (by simp))
  have h5 := VSteps.snoc h4 hc' hc (.error _ c true (by simp) (by simp [Conn.new]))
  have h6 := VSteps.snoc h5 hc' hc (.gotError _ c (by simp [Conn.new]) (by simp))
  have h7 := VSteps.snoc h6 hc' hc (.closeConn _ c (by simp))
  have h8 := VSteps.snoc h7 hc' hc (.gone _ c (by simp) (by simp))
  refine ⟨_, _, by simpa using h8, rfl, ?_⟩
  rw [taken_append, ((finds h c).1 g3).1]
  rfl

example : rdDecode (fresh [b! "*1\r\n$4\r\nPING\r\n"]) = .ok ⟨[b! "PING"], b! "*1\r\n$4\r\nPING\r\n"⟩ ⟨[], []⟩ := by decide +kernel

end Godis.V1
