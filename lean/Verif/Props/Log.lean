import Verif.Props.Shutdown
/-!
# The command log: C49
-/
namespace Godis.Event
open Resp (Reply Denotes IsRequest)

/-- Executing the texts of a log one after the other, each as the bytes of one frame, on a server without other
clients. -/
inductive Replay (ext : Ext) (s0 : Store) : List Bytes → Store → Prop
  | nil : Replay ext s0 [] s0
  | snoc {ts s t it req s' r} : Replay ext s0 ts s → Decodes t req → runRequest ext it s req = .ok (s', r) →
      Replay ext s0 (ts ++ [t]) s'

/-- C49, first half, for every schedule and every number of workers: a command takes effect (or crashes the server)
only after the request it came from was written to the log. For a frame that begins with a well-formed request the text
in the log is that request, byte for byte. -/
theorem C49_logged_first {ext n rng L σ} (h : Run ext n rng L σ) {A B l i} (hL : L = A ++ l :: B)
    (hl : (∃ w rsp, l = .exec w i rsp) ∨ ∃ w p, l = .crash w i p) :
    ∃ c f t, .recv i c f ∈ A ∧ .log i t ∈ A ∧ t ∈ σ.log ∧
      ∀ s req rest, f = s ++ rest → IsRequest s req → req.length < 2 ^ 63 → (∀ a ∈ req, a.length + 2 ≤ 2 ^ 48) → t = s := by
  subst hL
  obtain ⟨σ1, σ2, g1, g2, g3⟩ := h.at
  have hgood : ∃ e : Ev, e.id = i ∧ Good ext A e := by
    cases g2 with
    | exec w e snap s' it rsp k0 k1 k2 =>
      refine ⟨e, ?_, (g1.inv.pend w e (by rw [k1]; rfl)).1⟩
      rcases hl with ⟨_, _, hl⟩ | ⟨_, _, hl⟩ <;> cases hl
      rfl
    | crash w e snap it p k0 k1 k2 =>
      refine ⟨e, ?_, (g1.inv.pend w e (by rw [k1]; rfl)).1⟩
      rcases hl with ⟨_, _, hl⟩ | ⟨_, _, hl⟩ <;> cases hl
      rfl
    | _ => rcases hl with ⟨_, _, hl⟩ | ⟨_, _, hl⟩ <;> cases hl
  obtain ⟨e, rfl, _, c, f, rec, rest, a1, a2, a3, a4⟩ := hgood
  refine ⟨c, f, rec.orgStr, a1, a3, ?_, ?_⟩
  · rw [h.log_eq]
    exact List.mem_map.mpr ⟨(e.id, rec.orgStr), mem_logs.mpr (List.mem_append_left _ a3), rfl⟩
  · rintro s req rest' rfl hreq hn hlen
    rw [decode_request s req hreq rest' hn hlen] at a2
    cases a2
    rfl

/-- All frames are well-formed requests (with at least a command name). -/
def WellFormed (L : List Label) : Prop :=
  ∀ i c f, .recv i c f ∈ L → ∃ req, IsRequest f req ∧ req ≠ [] ∧ req.length < 2 ^ 63 ∧ ∀ a ∈ req, a.length + 2 ≤ 2 ^ 48

/-- No frame arrives before all earlier ones were executed. -/
def Separate (L : List Label) : Prop :=
  ∀ A j c f B, L = A ++ .recv j c f :: B → ∀ i c' f', .recv i c' f' ∈ A → ∃ w rsp, .exec w i rsp ∈ A

theorem Separate.prefix {L l} (h : Separate (L ++ [l])) : Separate L := by
  rintro A j c f B rfl
  exact h A j c f (B ++ [l]) (by simp)

theorem Run.logged_recv {ext n rng L σ} (h : Run ext n rng L σ) {i t} (hm : .log i t ∈ L) : ∃ c f, .recv i c f ∈ L := by
  obtain ⟨c, f, _, _, h1, _⟩ := h.log_text i t hm
  exact ⟨c, f, h1⟩

/-- of two received frames one was received first -/
theorem two_recv {L : List Label} {i j c c' f f'} (h1 : .recv i c f ∈ L) (h2 : .recv j c' f' ∈ L) (hne : i ≠ j) :
    (∃ A B, L = A ++ .recv j c' f' :: B ∧ .recv i c f ∈ A) ∨ (∃ A B, L = A ++ .recv i c f :: B ∧ .recv j c' f' ∈ A) := by
  obtain ⟨A, B, rfl⟩ := List.append_of_mem h1
  rcases List.mem_append.mp h2 with h2 | h2
  · exact .inr ⟨A, B, rfl, h2⟩
  · rcases List.mem_cons.mp h2 with h2 | h2
    · cases h2; exact absurd rfl hne
    · obtain ⟨B1, B2, rfl⟩ := List.append_of_mem h2
      exact .inl ⟨A ++ .recv i c f :: B1, B2, by simp, by simp⟩

/-- without overlap, the log has the executed requests in order, and possibly one more at the end -/
theorem Run.log_order {ext n rng L σ} (h : Run ext n rng L σ) (hsep : Separate L) :
    ∃ t, (logs L).map (·.1) = (execs L).map (·.1) ++ t ∧ t.length ≤ 1 := by
  induction h with
  | nil => exact ⟨[], rfl, by simp⟩
  | @snoc L σ l σ' hr hc hs ih =>
    obtain ⟨t, h1, h2⟩ := ih hsep.prefix
    have hnd := hr.logs_nodup
    rw [logs_snoc, execs_snoc]
    cases hs with
    | log i c f rec rest k1 k2 =>
      have hk := hr.inv.handlers i
      rw [k1] at hk
      have ht : t = [] := by
        cases t with
        | nil => rfl
        | cons k t =>
          exfalso
          have hkl : k ∈ (logs L).map (·.1) := by rw [h1]; simp
          obtain ⟨⟨k', tx⟩, hm, hkk⟩ := List.mem_map.mp hkl
          simp only at hkk
          subst hkk
          rw [mem_logs] at hm
          have hki : k' ≠ i := by
            rintro rfl
            have := hk.2 _ hm rfl
            cases this
          have hnex : ∀ w r, .exec w k' r ∉ L := by
            intro w r hx
            rw [h1, List.nodup_append] at hnd
            exact hnd.2.2 k' (List.mem_map.mpr ⟨(k', r), mem_execs.mpr ⟨w, hx⟩, rfl⟩) k' (by simp) rfl
          obtain ⟨c', f', hrk⟩ := hr.logged_recv hm
          rcases two_recv hrk hk.1 hki with ⟨A, B, rfl, hA⟩ | ⟨A, B, rfl, hA⟩
          · obtain ⟨w, r, hx⟩ := hsep.prefix A i c f B rfl _ _ _ hA
            exact hnex w r (List.mem_append_left _ hx)
          · obtain ⟨w, r, hx⟩ := hsep.prefix A k' c' f' B rfl _ _ _ hA
            have := hk.2 _ (List.mem_append_left _ hx) rfl
            cases this
      subst ht
      refine ⟨[i], ?_, by simp⟩
      rw [List.append_nil] at h1
      simp [h1]
    | exec w e snap s' it rsp k0 k1 k2 =>
      obtain ⟨⟨_, c, f, rec, rest, a1, a2, a3, a4⟩, _, a5, _⟩ := hr.inv.pend w e (by rw [k1]; rfl)
      have : e.id ∈ (logs L).map (·.1) := List.mem_map.mpr ⟨(e.id, rec.orgStr), mem_logs.mpr a3, rfl⟩
      rw [h1] at this
      rcases List.mem_append.mp this with hx | hx
      · exfalso
        obtain ⟨⟨i, r⟩, hm, hi⟩ := List.mem_map.mp hx
        obtain ⟨v, hv⟩ := mem_execs.mp hm
        simp only at hi
        subst hi
        exact a5 v r hv
      · refine ⟨[], ?_, by simp⟩
        have ht : t = [e.id] := by
          cases t with
          | nil => cases hx
          | cons a t =>
            have : t = [] := by simpa using h2
            subst this
            rw [List.mem_singleton] at hx
            rw [hx]
        rw [ht] at h1
        simp [h1]
    | _ => exact ⟨t, by simpa using h1, h2⟩

/-- C49, second half, for requests that do not overlap: at every moment (whenever the server stops or crashes),
replaying the log, up to at most its last entry, reproduces the store. -/
theorem C49_replay_partial {ext rng L σ} (h : Run ext 1 rng L σ) (hwf : WellFormed L) (hsep : Separate L) :
    ∃ ts last, σ.log = ts ++ last ∧ last.length ≤ 1 ∧ Replay ext (Store.init rng) ts σ.store ∧
      ((∀ i c f, .recv i c f ∈ L → ∃ w rsp, .exec w i rsp ∈ L) → last = []) := by
  obtain ⟨ops, h1, h2, h3⟩ := h.serial
  obtain ⟨t, h4, h5⟩ := h.log_order hsep
  have hlog := h.log_eq
  -- the log up to the last entry
  obtain ⟨p, q, hpq, hp, hq⟩ := List.map_eq_append_iff.mp h4
  refine ⟨p.map (·.2), q.map (·.2), by rw [hlog, hpq, List.map_append], ?_, ?_, ?_⟩
  · rw [List.length_map, ← List.length_map (f := (·.1)) (as := q), hq]; exact h5
  · have hids : p.map (·.1) = ops.map (·.1) := by
      rw [hp, ← h1, List.map_map]; rfl
    have hmem : ∀ x ∈ p, .log x.1 x.2 ∈ L := by
      intro x hx
      apply mem_logs.mp
      rw [hpq]; exact List.mem_append_left _ hx
    clear hp hq h1 h4 hpq hlog
    generalize σ.store = fin at h2 ⊢
    induction h2 generalizing p with
    | nil =>
      simp only [List.map_nil, List.map_eq_nil_iff] at hids
      subst hids
      exact .nil
    | @snoc ops s it i req rsp s' hser hr ih =>
      rw [List.map_append] at hids
      obtain ⟨p1, p2, rfl, e1, e2⟩ := List.map_eq_append_iff.mp hids
      obtain ⟨⟨i', tx⟩, p3, rfl, e3, e4⟩ := List.map_eq_cons_iff.mp e2
      simp only [List.map_nil, List.map_eq_nil_iff] at e4
      simp only at e3
      subst e3 e4
      rw [List.map_append]
      have ih' := ih (fun o ho => h3 o (List.mem_append_left _ ho)) p1 e1 (fun x hx => hmem x (List.mem_append_left _ hx))
      refine .snoc ih' ?_ hr
      obtain ⟨c, f, rec, rest, b1, b2, b3, b4⟩ := h3 (i', req, rsp) (by simp)
      have b5 := hmem (i', tx) (by simp)
      have htx : tx = rec.orgStr := by
        have n1 := h.logs_nodup
        have := List.inj_on_of_nodup_map n1 (mem_logs.mpr b5) (mem_logs.mpr b3) rfl
        exact (Prod.mk.inj this).2
      obtain ⟨req', w1, w2, w3, w4⟩ := hwf _ _ _ b1
      have hd := decode_request f req' w1 [] w3 w4
      rw [List.append_nil] at hd
      rw [hd] at b2
      cases b2
      simp only at b4 htx
      subst b4 htx
      exact ⟨_, _, hd, rfl⟩
  · intro hall
    cases q with
    | nil => rfl
    | cons x q =>
      exfalso
      have hx : .log x.1 x.2 ∈ L := mem_logs.mp (by rw [hpq]; simp)
      obtain ⟨c, f, hrecv⟩ := h.logged_recv hx
      obtain ⟨w, rsp, hex⟩ := hall _ _ _ hrecv
      have nd := h.logs_nodup
      rw [hpq, List.map_append, hp, List.nodup_append] at nd
      exact nd.2.2 x.1 (List.mem_map.mpr ⟨(x.1, rsp), mem_execs.mpr ⟨w, hex⟩, rfl⟩) x.1 (by simp) rfl

theorem isRequest_setX5 : IsRequest setX5 [b! "SET", b! "x", b! "5"] :=
  ⟨b! "3", _, by decide, .cons (d := b! "3") (by decide) (.cons (d := b! "1") (by decide) (.cons (d := b! "1") (by decide) .nil)), by decide⟩

theorem isRequest_incrX : IsRequest incrX [b! "INCR", b! "x"] :=
  ⟨b! "2", _, by decide, .cons (d := b! "4") (by decide) (.cons (d := b! "1") (by decide) .nil), by decide⟩

/-- Case: two requests that do not overlap, and a third one that is not yet executed. -/
example : (∃ σ, Run ext0 1 rng0
    [.recv 0 0 setX5, .log 0 setX5, .enqueue 0, .take 0 0, .start 0 0, .exec 0 0 (newResponseWithSimpleString respOK),
     .recv 1 1 incrX, .log 1 incrX] σ) ∧
    WellFormed [.recv 0 0 setX5, .log 0 setX5, .enqueue 0, .take 0 0, .start 0 0, .exec 0 0 (newResponseWithSimpleString respOK),
     .recv 1 1 incrX, .log 1 incrX] ∧
    Separate [.recv 0 0 setX5, .log 0 setX5, .enqueue 0, .take 0 0, .start 0 0, .exec 0 0 (newResponseWithSimpleString respOK),
     .recv 1 1 incrX, .log 1 incrX] := by
  refine ⟨try_labels (it := it0) (as := [.recv 0 0 setX5, .handle 0, .handle 0, .work 0, .work 0, .work 0, .recv 1 1 incrX, .handle 1]) rfl, ?_, ?_⟩
  · intro i c f h
    simp only [List.mem_cons, List.not_mem_nil, or_false, reduceCtorEq, false_or, Label.recv.injEq] at h
    rcases h with ⟨_, _, rfl⟩ | ⟨_, _, rfl⟩
    · exact ⟨_, isRequest_setX5, by simp, by decide, by decide⟩
    · exact ⟨_, isRequest_incrX, by simp, by decide, by decide⟩
  · intro A j c f B h i c' f' hm
    match A, h with
    | [], h => cases hm
    | [_], h => simp at h
    | [_, _], h => simp at h
    | [_, _, _], h => simp at h
    | [_, _, _, _], h => simp at h
    | [_, _, _, _, _], h => simp at h
    | [_, _, _, _, _, _], h =>
      simp only [List.cons_append, List.nil_append, List.cons.injEq] at h
      obtain ⟨rfl, rfl, rfl, rfl, rfl, rfl, _⟩ := h
      simp only [List.mem_cons, List.not_mem_nil, or_false, reduceCtorEq, Label.recv.injEq] at hm
      obtain ⟨rfl, _⟩ := hm
      exact ⟨0, _, by simp; rfl⟩
    | [_, _, _, _, _, _, _], h => simp at h
    | _ :: _ :: _ :: _ :: _ :: _ :: _ :: _ :: A, h => simp at h

/-- what a log of two entries replays to -/
theorem replay_two {ext s0 t1 t2 s} (h : Replay ext s0 [t1, t2] s) : ∃ it1 req1 s1 r1 it2 req2 r2,
    Decodes t1 req1 ∧ runRequest ext it1 s0 req1 = .ok (s1, r1) ∧ Decodes t2 req2 ∧ runRequest ext it2 s1 req2 = .ok (s, r2) := by
  generalize hts : [t1, t2] = ts at h
  cases h with
  | nil => cases hts
  | @snoc ts' s' t it req s'' r h1 h2 h3 =>
    obtain ⟨a1, a2⟩ := List.append_inj' (s₁ := [t1]) (t₁ := [t2]) hts rfl
    cases a2
    generalize hts' : ts' = ts'' at h1
    rw [hts'] at a1
    cases h1 with
    | nil => cases a1
    | @snoc ts0 s0' t0 it0 req0 s0'' r0 g1 g2 g3 =>
      obtain ⟨b1, b2⟩ := List.append_inj' (s₁ := []) (t₁ := [t1]) a1 rfl
      cases b2
      cases b1
      generalize hnil : ([] : List Bytes) = e at g1
      cases g1 with
      | nil => exact ⟨_, _, _, _, _, _, _, g2, g3, h2, h3⟩
      | snoc => simp at hnil

/-- `SET x 6` as a frame -/
def setX6 : Bytes := b! "*3\r\n$3\r\nSET\r\n$1\r\nx\r\n$1\r\n6\r\n"

theorem isRequest_setX6 : IsRequest setX6 [b! "SET", b! "x", b! "6"] :=
  ⟨b! "3", _, by decide, .cons (d := b! "3") (by decide) (.cons (d := b! "1") (by decide) (.cons (d := b! "1") (by decide) .nil)), by decide⟩

/-- C49 fails when requests overlap: the log says `SET x 5`, `SET x 6`; executed were `SET x 6`, `SET x 5`. The store has
x = 5, but replaying the log always gives x = 6. -/
theorem C49_order_violated : ∃ L σ, Run ext0 1 rng0 L σ ∧ σ.log = [setX5, setX6] ∧
    σ.store.valueAt (b! "x") = some (.text (b! "5")) ∧
    ∀ s, Replay ext0 (Store.init rng0) σ.log s → s.valueAt (b! "x") = some (.text (b! "6")) := by
  have hp : (trySchedule ext0 it0 1 rng0 [.recv 0 0 setX5, .recv 1 1 setX6, .handle 0, .handle 1, .handle 1, .work 0, .work 0, .work 0, .work 0,
    .handle 0, .work 0, .work 0, .work 0]).isSome := by decide +kernel
  obtain ⟨⟨L, σ⟩, h⟩ := Option.isSome_iff_exists.mp hp
  refine ⟨L, σ, try_run h, ?_, ?_, ?_⟩
  · cases h; rfl
  · cases h; rfl
  · have hlog : σ.log = [setX5, setX6] := by cases h; rfl
    rw [hlog]
    intro s hs
    obtain ⟨it1, req1, s1, r1, it2, req2, r2, d1, e1, d2, e2⟩ := replay_two hs
    have q1 := (decodes_request (rest := []) isRequest_setX5 (by decide) (by decide)).mp (by rw [List.append_nil]; exact d1)
    have q2 := (decodes_request (rest := []) isRequest_setX6 (by decide) (by decide)).mp (by rw [List.append_nil]; exact d2)
    rw [q1] at e1
    rw [q2] at e2
    have key : ∀ it1 it2, (match runRequest ext0 it1 (Store.init rng0) [b! "SET", b! "x", b! "5"] with
        | .ok p => (match runRequest ext0 it2 p.1 [b! "SET", b! "x", b! "6"] with
          | .ok p => p.1.valueAt (b! "x")
          | .error _ => none)
        | .error _ => none) = some (.text (b! "6")) := fun _ _ => rfl
    have := key it1 it2
    rw [e1] at this
    simp only at this
    rw [e2] at this
    exact this

end Godis.Event
