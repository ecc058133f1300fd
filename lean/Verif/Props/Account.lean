import Verif.Props.Together
import Verif.Props.Snapshots
import Verif.Props.Timed
import Verif.Spec.Account
/-!
# Nothing is lost while the load is bounded: C87
-/
namespace Godis.Event
open Resp (Reply Denotes)
open Linear (Before Op gaveUp)
open StrSpec (lower isError Ascii)
open ListSpec (items)
open CoordSpec

section
variable {ext : Ext} {n : Nat} {rng : Rng} {L : List Label} {σ : Sys} {i c : Nat} {f : Bytes} {req : List Bytes}

/-- the handling of a request that was received has ended: the request was answered with a result -/
theorem ended_got (h : Run ext 1 rng L σ) (hst : .stop ∉ L) (hto : .timeout i ∉ L) (hr : .recv i c f ∈ L) (hd : Decodes f req)
    (hne : req ≠ []) (ha : Ascii (req.headD [])) (hm : lower (req.headD []) ≠ b! "mget") {l : Label} (hl : l ∈ L) (hi : l.about = some i)
    (he : l.ends = true) (hp : .quiet i ∈ L → ∃ text, .log i text ∈ L) : ∃ m, Got (visible L) i m := by
  obtain ⟨A, B, rfl⟩ := List.mem_iff_append.mp hl
  obtain ⟨σ1, σ2, g1, g2, g3⟩ := h.at
  have hrA : .recv i c f ∈ A := by
    rcases List.mem_append.mp hr with hr | hr
    · exact hr
    · rcases List.mem_cons.mp hr with rfl | hr
      · cases he
      · have := h.after_end hi he _ hr rfl
        cases this
  have hstA : .stop ∉ A := fun hs => hst (List.mem_append_left _ hs)
  have frame : ∀ {c' f'}, .recv i c' f' ∈ A → f' = f := fun h' =>
    (h.recv_unique (List.mem_append_left _ h') (List.mem_append_left _ hrA)).2
  obtain ⟨rec, rest, hdec, rfl⟩ := hd
  have hk := g1.inv.handlers i
  -- the response comes from the execution
  have fine : ∀ {w rsp}, .exec w i rsp ∈ A → ∃ b m, rsp.encode = .ok b ∧ Denotes b m ∧ m ≠ gaveUp := by
    intro w rsp hx
    obtain ⟨A1, A2, rfl⟩ := List.mem_iff_append.mp hx
    obtain ⟨c', f', req', it, s, s', h1, ⟨rec', rest', h2, rfl⟩, h3, h4⟩ := C44_own_request g1 rfl
    obtain rfl := frame (List.mem_append_left _ h1)
    rw [hdec] at h2
    cases h2
    rcases run_cases (ext := ext) (it := it) h4.typed rec.elements with ⟨p, h5⟩ | ⟨h5, _⟩ | ⟨⟨h5, _⟩, _⟩ | ⟨_, m, s1, rsp', h5, h6⟩
    · rw [h3] at h5; cases h5
    · exact absurd h5 hne
    · rw [lower_eq ha] at h5; exact absurd h5 hm
    · obtain ⟨b, h7, h8⟩ := encode_denotes rsp' m h6
      rw [h3] at h5
      cases h5
      exact ⟨b, m, h7, h8, fun e => real_reply h4 h3 h7 (e ▸ h8)⟩
  have replying : ∀ {c' rsp}, σ1.handler i = .replying c' rsp → ∃ b m, rsp.encode = .ok b ∧ Denotes b m ∧ m ≠ gaveUp := by
    intro c' rsp hh
    rw [hh] at hk
    rcases hk.2.1 with ⟨h1, _⟩ | ⟨_, _, w, h1⟩
    · exact absurd (List.mem_append_left _ h1) hto
    · exact fine h1
  have nolog : ∀ {c' f'}, σ1.handler i = .submitted c' f' → ¬ .quiet i ∈ A ++ l :: B ∨ l ≠ .quiet i := by
    intro c' f' hh
    by_contra hcon
    rw [not_or, not_not, not_not] at hcon
    obtain ⟨hq, rfl⟩ := hcon
    rw [hh] at hk
    obtain ⟨text, ht⟩ := hp hq
    rcases List.mem_append.mp ht with ht | ht
    · have := hk.2 _ ht rfl; cases this
    · rcases List.mem_cons.mp ht with ht | ht
      · cases ht
      · have := h.after_end (l := .quiet i) rfl rfl _ ht rfl
        cases this
  cases g2 with
  | drop i' c' f' k => cases hi; rcases nolog k with h1 | h1 <;> simp at h1
  | badFrame i' c' f' e r k _ => cases hi; rcases nolog k with h1 | h1 <;> simp at h1
  | decodePanic i' c' f' p k k2 =>
    cases hi
    rw [k] at hk
    rw [frame hk.1, hdec] at k2
    cases k2
  | noCommand i' c' rec' k k2 =>
    cases hi
    rw [k] at hk
    obtain ⟨f', r', h1, h2⟩ := hk.1
    rw [frame h1, hdec] at h2
    cases h2
    cases he' : rec.elements with
    | nil => exact absurd he' hne
    | cons a as => rw [he'] at k2; cases k2
  | sendClosed i' c' rec' nm args k k2 k3 =>
    rw [not_closed g1 hstA] at k3
    cases k3
  | write i' c' rsp b k k2 k3 =>
    cases hi
    obtain ⟨b', m, h1, h2, h3⟩ := replying k
    rw [k2] at h1
    cases h1
    exact ⟨m, c', b, mem_visible_ret.mpr hl, h2, h3⟩
  | writeNothing i' c' rsp k k2 =>
    cases hi
    obtain ⟨b', m, h1, h2, _⟩ := replying k
    rw [k2] at h1
    cases h1
    exact absurd rfl (Godis.denotes_ne h2)
  | encodePanic i' c' rsp p k k2 =>
    cases hi
    obtain ⟨b', m, h1, _, _⟩ := replying k
    rw [k2] at h1
    cases h1
  | _ => cases he

/-- **C87 (every request is answered).**  Let the load be bounded as in C79.  Then every request (but MGET, see C50) that arrived `W`
before the end of the observation has been answered with its result, unless a command has crashed the process or the goroutine pool
has turned the request away. -/
theorem C87_answered {δ T M W : Nat} {L : List (Nat × Label)} (h : Run ext 1 rng (untimed L) σ) (hc : Clocked L) (hst : .stop ∉ untimed L)
    (hT : ∀ p ∈ L, p.1 ≤ T) (hp : Prompt ext 1 rng δ T L) (hl : Load M W L) (hW : (10 * M + 2) * δ ≤ W) (hd : W < 10 * 10 ^ 9)
    (hcr : ∀ w j p, .crash w j p ∉ untimed L) {t : Nat} (hr : (t, .recv i c f) ∈ L) (ht : t + W < T) (hq : .quiet i ∈ untimed L → ∃ text, .log i text ∈ untimed L)
    (hreq : Decodes f req) (hne : req ≠ []) (ha : Ascii (req.headD [])) (hm : lower (req.headD []) ≠ b! "mget") :
    ∃ m, Got (visible (untimed L)) i m := by
  obtain ⟨h1, h2⟩ := C79_in_time (by omega) h hc hst hT hp hl hW hd
  rcases h2 t i c f hr ht with ⟨w, j, p, h3⟩ | ⟨t', l, h3, h4, h5, _⟩
  · exact absurd h3 (hcr w j p)
  · exact ended_got h hst (h1 i) (mem_untimed.mpr ⟨_, hr⟩) hreq hne ha hm (mem_untimed.mpr ⟨_, h3⟩) h4 h5 hq

end

/-! ## the queue -/

/-- a request that was answered before another was sent has got its reply -/
theorem answered_got {ext rng L σ i j} (h : Run ext 1 rng L σ) (ha : Answered (visible L) i j) : ∃ m, Got (visible L) i m := by
  obtain ⟨ops, h1, h2, h3, h4, h5⟩ := C43_linearizable h
  obtain ⟨c, b, c', b', ⟨l1, l2, l3, a1⟩, a2⟩ := ha
  have hm : Linear.Ev.ret i c b ∈ visible L := by rw [a1]; simp
  rcases (h4 i c b hm).2 with h | ⟨o, o1, o2, o3⟩
  · exact absurd h a2
  · exact ⟨o.reply, c, b, hm, o3, fun e => a2 (e ▸ o3)⟩

theorem perm_flatMap {α β : Type} {l l' : List α} (h : l.Perm l') (f : α → List β) : (l.flatMap f).Perm (l'.flatMap f) := h.flatMap_right f

/-- what the executed requests that satisfy `q` contribute -/
theorem flatMap_filter {α β γ : Type} (q : α → Bool) (f : α → List γ) (g : α → β) (v : β → List γ) (l : List α)
    (h1 : ∀ a ∈ l, q a = true → f a = v (g a)) (h2 : ∀ a ∈ l, q a = false → f a = []) :
    l.flatMap f = ((l.filter q).map g).flatMap v := by
  induction l with
  | nil => rfl
  | cons a l ih =>
    have ih := ih (fun a ha => h1 a (List.mem_cons_of_mem _ ha)) (fun a ha => h2 a (List.mem_cons_of_mem _ ha))
    cases hq : q a with
    | true => simp [hq, ih, h1 a (List.mem_cons_self ..) hq]
    | false => simp [hq, ih, h2 a (List.mem_cons_self ..) hq]

section
variable {ext : Ext} {rng : Rng} {L : List Label} {s : Store} {ops A B : List Op} {k : Bytes} {ps : List (Nat × List Bytes)}
  {rs : List (Nat × Reply)}

/-- an RPUSH of something to a key that is used as a queue is not refused -/
theorem rpush_kept (he : Explains ext rng L s ops) (hr : Reserved Decodes (visible L) k [b! "rpush", b! "lpop"]) {o : Op} (ho : o ∈ ops)
    {name : Bytes} {vs : List Bytes} (hq : o.req = name :: k :: vs) (hn : lower name = b! "rpush") : pushes k o = vs := by
  by_cases hvs : vs = []
  · subst hvs
    unfold pushes pair
    rw [hq]
    show (if lower name ∈ [b! "rpush"] ∧ k = k ∧ isError o.reply = false then [] else []) = []
    split <;> rfl
  refine pushes_rpush hq hn ?_
  obtain ⟨A, B, e⟩ := List.mem_iff_append.mp ho
  have ht := he.trace
  have e' : ops.map pair = A.map pair ++ (o.req, o.reply) :: B.map pair := by rw [e]; simp [pair]
  rw [e'] at ht
  obtain ⟨s1, it, s2, h1, ha, _⟩ := ht.mid
  have hp : ∀ p ∈ A.map pair, ListSpec.Plain p.1 := fun p hq => he.plain hr p (by rw [e']; simp [hq])
  have hu : ListSpec.OnlyUses k [b! "rpush", b! "lpop"] (A.map pair) := fun p hq => he.uses hr p (by rw [e']; simp [hq])
  obtain ⟨hv, _⟩ := fifo_trace h1 hp hu
  have hm := h1.lmatch hp k
  have hpl : ListSpec.Plain o.req := he.plain hr (pair o) (List.mem_map.mpr ⟨o, ho, rfl⟩)
  rw [hq] at ha hpl
  have : o.reply = .int ((ListSpec.elems (ListSpec.after k (A.map pair))).length + vs.length) := by
    refine list_reply hm hpl ?_ ha
    rw [hn, reply_rpush, if_neg hv.ne_lost, if_neg hvs, if_neg hv.ne_other]
  rw [this]
  rfl

/-- the accounts after the executed requests `A`, which include all that change the queue -/
theorem account_at (h : Run ext 1 rng L σ) (he : Explains ext rng L s ops) (hr : Reserved Decodes (visible L) k [b! "rpush", b! "lpop"])
    (hps : AllPushes Decodes (visible L) k ps) (hrs : AllPops Decodes (visible L) k rs) (hall : AllAnswered Decodes (visible L) k)
    (e : ops = A ++ B) (hA : ∀ o ∈ ops, QueueOp k o.req → o ∈ A) {s1} (h1 : Trace ext (Store.init rng) (A.map pair) s1) :
    SeqView (ListSpec.after k (A.map pair)) ∧ LMatch s1 k (ListSpec.after k (A.map pair)) ∧
    Accounted ps rs (ListSpec.elems (ListSpec.after k (A.map pair))) := by
  have hsub : ∀ {o}, o ∈ A → o ∈ ops := fun ho => by rw [e]; exact List.mem_append_left _ ho
  have hp : ∀ p ∈ A.map pair, ListSpec.Plain p.1 := fun p hq => he.plain hr p (by rw [e, List.map_append]; exact List.mem_append_left _ hq)
  have hu : ListSpec.OnlyUses k [b! "rpush", b! "lpop"] (A.map pair) :=
    fun p hq => he.uses hr p (by rw [e, List.map_append]; exact List.mem_append_left _ hq)
  obtain ⟨hv, hf⟩ := fifo_trace h1 hp hu
  refine ⟨hv, h1.lmatch hp k, ?_⟩
  rw [pushed_eq, popped_eq] at hf
  have hnd : (A.map (·.id)).Nodup := by
    have := he.nodup
    rw [e, List.map_append] at this
    exact (List.nodup_append.mp this).1
  have e1 : A.flatMap (pushes k) = ((A.filter fun o => decide (On (b! "rpush") k o.req)).map fun o => (o.id, o.req.drop 2)).flatMap (·.2) := by
    refine flatMap_filter _ _ _ _ _ (fun o ho hq => ?_) fun o ho hq => ?_
    · obtain ⟨name, vs, h2, h3⟩ := of_decide_eq_true hq
      rw [rpush_kept he hr (hsub ho) h2 h3, h2]
      rfl
    · by_contra hne
      obtain ⟨x, hx⟩ := List.exists_mem_of_ne_nil _ hne
      obtain ⟨name, h2, h3⟩ := mem_pushes hx
      exact of_decide_eq_false hq ⟨name, _, h2, h3⟩
  have e2 : A.flatMap (pops k) = ((A.filter fun o => decide (On (b! "lpop") k o.req)).map fun o => (o.id, o.reply)).flatMap (fun r => items r.2) := by
    refine flatMap_filter _ _ _ _ _ (fun o ho hq => pops_on (of_decide_eq_true hq)) fun o ho hq => ?_
    by_contra hne
    obtain ⟨x, hx⟩ := List.exists_mem_of_ne_nil _ hne
    exact of_decide_eq_false hq (mem_pops hx).1
  have nd : ∀ {β : Type} (q : Op → Bool) (g : Op → β), ((A.filter q).map fun o => (o.id, g o)).Nodup := by
    intro β q g
    refine List.Nodup.of_map Prod.fst ?_
    rw [List.map_map]
    exact ((List.filter_sublist).map _).nodup hnd
  have p1 : ((A.filter fun o => decide (On (b! "rpush") k o.req)).map fun o => (o.id, o.req.drop 2)).Perm ps := by
    refine (List.perm_ext_iff_of_nodup (nd _ _) (List.Nodup.of_map _ hps.1)).mpr ?_
    rintro ⟨i, vs⟩
    rw [hps.2]
    constructor
    · intro hm
      obtain ⟨o, ho, h2⟩ := List.mem_map.mp hm
      obtain ⟨h3, h4⟩ := List.mem_filter.mp ho
      obtain ⟨name, ws, h5, h6⟩ := of_decide_eq_true h4
      cases h2
      exact ⟨name, by have := he.sent o (hsub h3); rw [h5] at this ⊢; exact this, h6⟩
    · rintro ⟨name, h2, h3⟩
      have hq : QueueOp k (name :: k :: vs) := .inl ⟨name, vs, rfl, h3⟩
      obtain ⟨m, hg⟩ := hall i _ h2 hq
      obtain ⟨o, ho, rfl, _⟩ := he.got _ _ hg
      have h4 := sent_unique h (he.sent o ho) h2
      refine List.mem_map.mpr ⟨o, List.mem_filter.mpr ⟨hA o ho (h4 ▸ hq), decide_eq_true ⟨name, vs, h4, h3⟩⟩, ?_⟩
      rw [h4]
      rfl
  have p2 : ((A.filter fun o => decide (On (b! "lpop") k o.req)).map fun o => (o.id, o.reply)).Perm rs := by
    refine (List.perm_ext_iff_of_nodup (nd _ _) (List.Nodup.of_map _ hrs.1)).mpr ?_
    rintro ⟨i, m⟩
    rw [hrs.2]
    constructor
    · intro hm
      obtain ⟨o, ho, h2⟩ := List.mem_map.mp hm
      obtain ⟨h3, h4⟩ := List.mem_filter.mp ho
      have h5 := of_decide_eq_true h4
      cases h2
      have hs := he.sent o (hsub h3)
      refine ⟨?_, _, hs, h5⟩
      obtain ⟨m, hg⟩ := hall _ _ hs (.inr h5)
      obtain ⟨o', ho', h6, rfl⟩ := he.got _ _ hg
      rw [he.same ho' (hsub h3) h6] at hg
      exact hg
    · rintro ⟨hg, req, hs, hon⟩
      obtain ⟨o, ho, rfl, rfl⟩ := he.got _ _ hg
      have h4 := sent_unique h (he.sent o ho) hs
      exact List.mem_map.mpr ⟨o, List.mem_filter.mpr ⟨hA o ho (h4 ▸ .inr hon), decide_eq_true (h4 ▸ hon)⟩, rfl⟩
  unfold Accounted
  have q1 := perm_flatMap p1 (fun p : Nat × List Bytes => p.2)
  have q2 := perm_flatMap p2 (fun r : Nat × Reply => items r.2)
  rw [← e1] at q1
  rw [← e2] at q2
  rw [hf] at q1
  exact (q2.symm.append_right _).trans q1

end

section
variable {ext : Ext} {rng : Rng} {L : List Label} {σ : Sys} {k : Bytes} {ps : List (Nat × List Bytes)} {rs : List (Nat × Reply)}

/-- **C87 (nothing is lost).**  All clients use `k` only with RPUSH, LPOP and reads.  Whenever every RPUSH and LPOP of `k` that was sent
has its answer, what was delivered together with what is in the list is exactly what was sent, with multiplicity. -/
theorem C87_accounted (h : Run ext 1 rng L σ) (hr : Reserved Decodes (visible L) k [b! "rpush", b! "lpop"])
    (hps : AllPushes Decodes (visible L) k ps) (hrs : AllPops Decodes (visible L) k rs) (hall : AllAnswered Decodes (visible L) k) :
    ∃ rest, Shows ext σ.store k rest ∧ Accounted ps rs rest := by
  obtain ⟨ops, he⟩ := explained h
  obtain ⟨h1, h2, h3⟩ := account_at h he hr hps hrs hall (B := []) (by simp) (fun o ho _ => ho) he.trace
  exact ⟨_, reads_full h2 h1.ne_lost h1.ne_other, h3⟩

/-- **C87 (a client can check it).**  A client that sends LRANGE or LLEN after all of them were answered hears of exactly what was sent
and not delivered. -/
theorem C87_seen (h : Run ext 1 rng L σ) (hr : Reserved Decodes (visible L) k [b! "rpush", b! "lpop"])
    (hps : AllPushes Decodes (visible L) k ps) (hrs : AllPops Decodes (visible L) k rs) {g req m} (sg : Sent Decodes (visible L) g req)
    (gg : Got (visible L) g m) (hall : ∀ i req, Sent Decodes (visible L) i req → QueueOp k req → Answered (visible L) i g) :
    ∃ rest, Accounted ps rs rest ∧ HearsList k rest req m := by
  obtain ⟨ops, he⟩ := explained h
  obtain ⟨o, ho, rfl, rfl⟩ := he.got _ _ gg
  obtain ⟨A, B, e⟩ := List.mem_iff_append.mp ho
  have hq := sent_unique h (he.sent o ho) sg
  subst hq
  have hnd : ops.Nodup := List.Nodup.of_map _ he.nodup
  have ht := he.trace
  have e' : ops.map pair = A.map pair ++ (o.req, o.reply) :: B.map pair := by rw [e]; simp [pair]
  rw [e'] at ht
  obtain ⟨s1, it, s2, h1, ha, _⟩ := ht.mid
  obtain ⟨hv, hm, hacc⟩ := account_at h he hr hps hrs (fun i req hs hq => answered_got h (hall i req hs hq)) e
    (fun p hp hq => mem_of_before hnd e (he.order p hp o ho (hall _ _ (he.sent p hp) hq))) h1
  have hpl : ListSpec.Plain o.req := he.plain hr (pair o) (List.mem_map.mpr ⟨o, ho, rfl⟩)
  refine ⟨_, hacc, ?_, ?_⟩
  · rintro name a b rest i j hq hn hi hj
    rw [hq] at ha hpl
    refine list_reply hm hpl ?_ ha
    rw [hn, reply_lrange, if_neg hv.ne_lost]
    simp only [hi, hj, if_neg hv.ne_other]
  · rintro ⟨name, args, hq, hn⟩
    rw [hq] at ha hpl
    refine list_reply hm hpl ?_ ha
    rw [hn, reply_llen, if_neg hv.ne_lost, if_neg hv.ne_other]

/-- **C87 (bounded load).**  Let the load be bounded as in C79, let no command crash the process, and let every RPUSH and LPOP of `k`
have arrived `W` before the end of the observation and not have been turned away by the goroutine pool.  Then nothing is lost. -/
theorem C87_in_time {δ T M W : Nat} {L : List (Nat × Label)} (h : Run ext 1 rng (untimed L) σ) (hc : Clocked L) (hst : .stop ∉ untimed L)
    (hT : ∀ p ∈ L, p.1 ≤ T) (hp : Prompt ext 1 rng δ T L) (hl : Load M W L) (hW : (10 * M + 2) * δ ≤ W) (hd : W < 10 * 10 ^ 9)
    (hcr : ∀ w j p, .crash w j p ∉ untimed L)
    (hin : ∀ t i c f req, (t, .recv i c f) ∈ L → Decodes f req → QueueOp k req →
      t + W < T ∧ (.quiet i ∈ untimed L → ∃ text, .log i text ∈ untimed L))
    (hr : Reserved Decodes (visible (untimed L)) k [b! "rpush", b! "lpop"])
    (hps : AllPushes Decodes (visible (untimed L)) k ps) (hrs : AllPops Decodes (visible (untimed L)) k rs) :
    ∃ rest, Shows ext σ.store k rest ∧ Accounted ps rs rest := by
  refine C87_accounted h hr hps hrs fun i req hs hq => ?_
  obtain ⟨hpl, _⟩ := hr i req hs
  obtain ⟨c, f, h1, h2⟩ := hs
  obtain ⟨t, h3⟩ := mem_untimed.mp (mem_visible_call.mp h1)
  obtain ⟨h4, h5⟩ := hin t i c f req h3 h2 hq
  obtain ⟨name, args, rfl, hn⟩ : ∃ name args, req = name :: k :: args ∧ (lower name = b! "rpush" ∨ lower name = b! "lpop") := by
    rcases hq with ⟨name, args, h6, h7⟩ | ⟨name, args, h6, h7⟩
    · exact ⟨name, args, h6, .inl h7⟩
    · exact ⟨name, args, h6, .inr h7⟩
  exact C87_answered h hc hst hT hp hl hW hd hcr h3 h4 h5 h2 (by simp) (hpl.1 name rfl)
    (by rcases hn with hn | hn <;> rw [List.headD_cons, hn] <;> decide)

end

set_option linter.unusedSimpArgs false
/-! ## the hypotheses are met -/

/-- the actions for one request, served at once -/
def oneReq (i c : Nat) (f : Bytes) (rsp : Response) (b : Bytes) : List Label :=
  [.recv i c f, .log i f, .enqueue i, .take 0 i, .start 0 i, .exec 0 i rsp, .publish 0 i, .result i, .write i c b]

/-- a server with one worker that has served every request rests -/
theorem served_rest {ext rng P j c b} (hst : .stop ∉ P) (hend : ∀ i c f, .recv i c f ∈ P → i ≠ j → ∃ l ∈ P, l.about = some i ∧ l.ends = true)
    (htake : ∀ i c f, .recv i c f ∈ P → ∃ w, .take w i ∈ P) :
    ¬ CanMove ext 1 rng (((P ++ [.publish 0 j]) ++ [.result j]) ++ [.write j c b]) := by
  refine cannot_move (by simpa using hst) fun σ h => ?_
  have hrecv : ∀ {i c' f}, Label.recv i c' f ∈ ((P ++ [Label.publish 0 j]) ++ [.result j]) ++ [.write j c b] → .recv i c' f ∈ P := by
    intro i c' f hm; simpa using hm
  refine ⟨fun i c' f hm => ?_, ?_, fun w => ?_⟩
  · by_cases hij : i = j
    · subst hij
      exact h.ended (l := .write i c b) (by simp) rfl rfl
    · obtain ⟨l, h1, h2, h3⟩ := hend i c' f (hrecv hm) hij
      exact h.ended (by simp [h1]) h2 h3
  · cases hc : σ.chan with
    | nil => rfl
    | cons e rest =>
      obtain ⟨⟨_, c', f, _, _, hm, _⟩, _, h2⟩ := h.inv.chanGood e (by rw [hc]; simp)
      obtain ⟨w, hw⟩ := htake _ _ _ (hrecv hm)
      have := h2 (.take w e.id) (by simp [hw]) rfl
      cases this
  · by_cases hw : 1 ≤ w
    · exact h.workers.1 w hw
    · obtain rfl : w = 0 := by omega
      obtain ⟨σ1, h1, _, s1⟩ := h.snoc_inv
      obtain ⟨σ2, h2, _, s2⟩ := h1.snoc_inv
      obtain ⟨σ3, h3, _, s3⟩ := h2.snoc_inv
      have : σ2.worker 0 = .idle := by
        generalize hl : Label.publish 0 j = l at s3
        cases s3 with
        | publish w e rsp k0 k1 =>
          simp only [Label.publish.injEq] at hl
          obtain ⟨rfl, _⟩ := hl
          simp
        | _ => cases hl
      cases s1
      cases s2
      exact this

def bulkArr (v : Bytes) : Response := bulkStrings true [v]
def req0 : List Label := oneReq 0 0 rpushQ (newResponseWithInteger 1) (b! ":1\r\n")
def req1 : List Label := oneReq 1 0 rpushQb (newResponseWithInteger 2) (b! ":2\r\n")
def req2 : List Label := oneReq 2 1 lpopQ (bulkArr (b! "a")) (b! "*1\r\n$1\r\na\r\n")
def req3 : List Label := oneReq 3 2 lrangeAll (bulkArr (b! "b")) (b! "*1\r\n$1\r\nb\r\n")

/-- four requests, one every 100 microseconds, each served with one action every microsecond -/
def calm : List (Nat × Label) := every 1000 0 req0 ++ every 1000 100000 req1 ++ every 1000 200000 req2 ++ every 1000 300000 req3

theorem calm_untimed : untimed calm = req0 ++ req1 ++ req2 ++ req3 := by
  simp only [calm, untimed_append, untimed_every]

theorem calm_run : ∃ σ, Run ext0 1 rng0 (untimed calm) σ := by
  rw [calm_untimed]
  exact try_labels (it := it0) (as := whole 0 0 rpushQ ++ whole 1 0 rpushQb ++ whole 2 1 lpopQ ++ whole 3 2 lrangeAll) (by decide +kernel)

theorem calm_rest : ∀ k ∈ [0, 9, 18, 27, 36], ¬ CanMove ext0 1 rng0 (untimed (calm.take k)) := by
  intro k hk
  simp only [List.mem_cons, List.not_mem_nil, or_false] at hk
  rcases hk with rfl | rfl | rfl | rfl | rfl
  · exact init_rest
  · have e : untimed (calm.take 9) = ((req0.take 6 ++ [.publish 0 0]) ++ [.result 0]) ++ [.write 0 0 (b! ":1\r\n")] := by decide +kernel
    rw [e]
    exact served_rest (by decide +kernel)
      (by intro i c f hm hij; simp [req0, req1, req2, req3, oneReq, Label.about, Label.ends] at hm ⊢; omega)
      (by intro i c f hm; refine ⟨0, ?_⟩; simp [req0, req1, req2, req3, oneReq] at hm ⊢; omega)
  · have e : untimed (calm.take 18) = (((req0 ++ req1.take 6) ++ [.publish 0 1]) ++ [.result 1]) ++ [.write 1 0 (b! ":2\r\n")] := by decide +kernel
    rw [e]
    exact served_rest (by decide +kernel)
      (by intro i c f hm hij; simp [req0, req1, req2, req3, oneReq, Label.about, Label.ends] at hm ⊢; omega)
      (by intro i c f hm; refine ⟨0, ?_⟩; simp [req0, req1, req2, req3, oneReq] at hm ⊢; omega)
  · have e : untimed (calm.take 27) = (((req0 ++ req1 ++ req2.take 6) ++ [.publish 0 2]) ++ [.result 2]) ++ [.write 2 1 (b! "*1\r\n$1\r\na\r\n")] := by
      decide +kernel
    rw [e]
    exact served_rest (by decide +kernel)
      (by intro i c f hm hij; simp [req0, req1, req2, req3, oneReq, Label.about, Label.ends] at hm ⊢; omega)
      (by intro i c f hm; refine ⟨0, ?_⟩; simp [req0, req1, req2, req3, oneReq] at hm ⊢; omega)
  · have e : untimed (calm.take 36) = (((req0 ++ req1 ++ req2 ++ req3.take 6) ++ [.publish 0 3]) ++ [.result 3]) ++ [.write 3 2 (b! "*1\r\n$1\r\nb\r\n")] := by
      decide +kernel
    rw [e]
    exact served_rest (by decide +kernel)
      (by intro i c f hm hij; simp [req0, req1, req2, req3, oneReq, Label.about, Label.ends] at hm ⊢; omega)
      (by intro i c f hm; refine ⟨0, ?_⟩; simp [req0, req1, req2, req3, oneReq] at hm ⊢; omega)

/-- Case of the theorems: `a` and `b` are sent, `a` is delivered, a third client sees that `b` is left; the load is bounded. -/
example : ∃ σ, Run ext0 1 rng0 (untimed calm) σ ∧ Clocked calm ∧ .stop ∉ untimed calm ∧ (∀ p ∈ calm, p.1 ≤ 400000) ∧
    Prompt ext0 1 rng0 1000 400000 calm ∧ Load 1 12000 calm ∧ (∀ w j p, .crash w j p ∉ untimed calm) ∧
    (∀ t i c f, (t, .recv i c f) ∈ calm → t + 12000 < 400000 ∧ .quiet i ∉ untimed calm) ∧
    Reserved Decodes (visible (untimed calm)) (b! "q") [b! "rpush", b! "lpop"] ∧
    AllPushes Decodes (visible (untimed calm)) (b! "q") [(0, [b! "a"]), (1, [b! "b"])] ∧
    AllPops Decodes (visible (untimed calm)) (b! "q") [(2, Resp.bulks [b! "a"])] ∧
    Sent Decodes (visible (untimed calm)) 3 [b! "lrange", b! "q", b! "0", b! "-1"] ∧
    Got (visible (untimed calm)) 3 (Resp.bulks [b! "b"]) ∧
    (∀ i req, Sent Decodes (visible (untimed calm)) i req → QueueOp (b! "q") req → Answered (visible (untimed calm)) i 3) ∧
    Accounted [(0, [b! "a"]), (1, [b! "b"])] [(2, Resp.bulks [b! "a"])] [b! "b"] := by
  obtain ⟨σ, h⟩ := calm_run
  have hv : visible (untimed calm) = [.call 0 0 rpushQ, .ret 0 0 (b! ":1\r\n"), .call 1 0 rpushQb, .ret 1 0 (b! ":2\r\n"),
      .call 2 1 lpopQ, .ret 2 1 (b! "*1\r\n$1\r\na\r\n"), .call 3 2 lrangeAll, .ret 3 2 (b! "*1\r\n$1\r\nb\r\n")] := by
    rw [calm_untimed]; rfl
  have hsent : ∀ i req, Sent Decodes (visible (untimed calm)) i req →
      (i = 0 ∧ req = [b! "RPUSH", b! "q", b! "a"]) ∨ (i = 1 ∧ req = [b! "RPUSH", b! "q", b! "b"]) ∨
      (i = 2 ∧ req = [b! "LPOP", b! "q"]) ∨ (i = 3 ∧ req = [b! "lrange", b! "q", b! "0", b! "-1"]) := by
    rintro i req ⟨c, b, h1, h2⟩
    rw [hv] at h1
    simp only [List.mem_cons, Linear.Ev.call.injEq, reduceCtorEq, List.not_mem_nil, or_false, false_or] at h1
    rcases h1 with ⟨rfl, _, rfl⟩ | ⟨rfl, _, rfl⟩ | ⟨rfl, _, rfl⟩ | ⟨rfl, _, rfl⟩
    · exact .inl ⟨rfl, decodes_det h2 decodes_rpushQ⟩
    · exact .inr (.inl ⟨rfl, decodes_det h2 decodes_rpushQb⟩)
    · exact .inr (.inr (.inl ⟨rfl, decodes_det h2 decodes_lpopQ⟩))
    · exact .inr (.inr (.inr ⟨rfl, decodes_det h2 lrangeAll_request⟩))
  have s0 : Sent Decodes (visible (untimed calm)) 0 [b! "RPUSH", b! "q", b! "a"] := ⟨0, rpushQ, by rw [hv]; simp, decodes_rpushQ⟩
  have s1 : Sent Decodes (visible (untimed calm)) 1 [b! "RPUSH", b! "q", b! "b"] := ⟨0, rpushQb, by rw [hv]; simp, decodes_rpushQb⟩
  have s2 : Sent Decodes (visible (untimed calm)) 2 [b! "LPOP", b! "q"] := ⟨1, lpopQ, by rw [hv]; simp, decodes_lpopQ⟩
  have s3 : Sent Decodes (visible (untimed calm)) 3 [b! "lrange", b! "q", b! "0", b! "-1"] := ⟨2, lrangeAll, by rw [hv]; simp, lrangeAll_request⟩
  have dint : ∀ {b : Bytes} {n : Int}, (∀ f rest, Resp.parse (f + 1) (b ++ rest) = some (.int n, rest)) → Denotes b (.int n) := fun h =>
    ⟨1, fun f hf rest => by obtain ⟨f, rfl⟩ : ∃ g, f = g + 1 := ⟨f - 1, by omega⟩; exact h f rest⟩
  have d3 : ∀ z : UInt8, Denotes (b! "*1\r\n$1\r\n" ++ [z, 13, 10]) (Resp.bulks [[z]]) := fun z =>
    isRequest_denotes ⟨b! "1", _, by rfl, .cons (d := b! "1") (a := [z]) (by rfl) .nil, by rfl⟩
  have dz0 : Denotes (b! ":1\r\n") (.int 1) := dint fun f rest => rfl
  have dz1 : Denotes (b! ":2\r\n") (.int 2) := dint fun f rest => rfl
  have g2 : Got (visible (untimed calm)) 2 (Resp.bulks [b! "a"]) := by rw [hv]; exact ⟨1, _, by simp, d3 97, nofun⟩
  refine ⟨σ, h, ⟨by decide +kernel, ?_⟩, by decide +kernel, by decide +kernel, Steady.prompt (R := [0, 9, 18, 27, 36]) (by decide +kernel) calm_rest,
    ?_, ?_, ?_, ?_, ⟨by decide, fun i vs => ⟨?_, ?_⟩⟩, ⟨by decide, fun i m => ⟨?_, ?_⟩⟩, s3, ?_, ?_, ?_⟩
  · intro t i hm; simp [calm, every, req0, req1, req2, req3, oneReq] at hm
  · intro t
    simp only [calm, req0, req1, req2, req3, every, oneReq, List.cons_append, List.nil_append, List.countP_cons, List.countP_nil, Label.isRecv,
      Bool.false_and, Bool.true_and, Bool.and_eq_true, decide_eq_true_eq]
    simp
    split <;> split <;> split <;> split <;> omega
  · intro w j p hm; rw [calm_untimed] at hm; simp [req0, req1, req2, req3, oneReq] at hm
  · intro t i c f hm
    refine ⟨?_, fun hq => ?_⟩
    · simp [calm, every, req0, req1, req2, req3, oneReq] at hm; omega
    · rw [calm_untimed] at hq; simp [req0, req1, req2, req3, oneReq] at hq
  · intro i req hs
    rcases hsent i req hs with ⟨_, rfl⟩ | ⟨_, rfl⟩ | ⟨_, rfl⟩ | ⟨_, rfl⟩ <;>
      exact ⟨by unfold ListSpec.Plain StrSpec.Ascii; decide, fun _ => by decide⟩
  · intro hm
    simp only [List.mem_cons, Prod.mk.injEq, List.not_mem_nil, or_false] at hm
    rcases hm with ⟨rfl, rfl⟩ | ⟨rfl, rfl⟩
    · exact ⟨_, s0, by decide⟩
    · exact ⟨_, s1, by decide⟩
  · rintro ⟨name, hs, hn⟩
    rcases hsent _ _ hs with ⟨rfl, e⟩ | ⟨rfl, e⟩ | ⟨_, e⟩ | ⟨_, e⟩
    · cases e; simp
    · cases e; simp
    · cases e; exact absurd hn (by decide)
    · cases e; exact absurd hn (by decide)
  · intro hm
    simp only [List.mem_cons, Prod.mk.injEq, List.not_mem_nil, or_false] at hm
    obtain ⟨rfl, rfl⟩ := hm
    exact ⟨g2, _, s2, _, _, rfl, by decide⟩
  · rintro ⟨hg, req, hs, name, args, rfl, hn⟩
    rcases hsent _ _ hs with ⟨_, e⟩ | ⟨_, e⟩ | ⟨rfl, e⟩ | ⟨_, e⟩
    · cases e; exact absurd hn (by decide)
    · cases e; exact absurd hn (by decide)
    · obtain ⟨c, b, h1, h2, _⟩ := hg
      rw [hv] at h1
      simp only [List.mem_cons, Linear.Ev.ret.injEq, reduceCtorEq, List.not_mem_nil, or_false, false_or, OfNat.ofNat_ne_zero, OfNat.ofNat_ne_one,
        false_and, true_and, Nat.reduceEqDiff] at h1
      obtain ⟨_, rfl⟩ := h1
      rw [denotes_unique h2 (d3 97)]
      simp
    · cases e; exact absurd hn (by decide)
  · rw [hv]; exact ⟨2, _, by simp, d3 98, nofun⟩
  · intro i req hs hq
    rcases hsent i req hs with ⟨rfl, rfl⟩ | ⟨rfl, rfl⟩ | ⟨rfl, rfl⟩ | ⟨rfl, rfl⟩
    · exact ⟨0, b! ":1\r\n", 2, lrangeAll, by rw [hv]; exact ⟨[_], [_, _, _, _], _, rfl⟩, fun h => by cases denotes_unique h dz0⟩
    · exact ⟨0, b! ":2\r\n", 2, lrangeAll, by rw [hv]; exact ⟨[_, _, _], [_, _], _, rfl⟩, fun h => by cases denotes_unique h dz1⟩
    · exact ⟨1, _, 2, lrangeAll, by rw [hv]; exact ⟨[_, _, _, _, _], [], _, rfl⟩, fun h => by cases denotes_unique h (d3 97)⟩
    · rcases hq with ⟨name, args, e, hn⟩ | ⟨name, args, e, hn⟩ <;> cases e <;> exact absurd hn (by decide)
  · unfold Accounted; decide

end Godis.Event

namespace Godis.V1
open Resp (Reply)
open Event (Decodes visible)
open CoordSpec

section
variable {ext : Ext} {rng : Rng} {L : List VLabel} {v : Srv} {k : Bytes} {ps : List (Nat × List Bytes)} {rs : List (Nat × Reply)}

/-- C87, v1 server. -/
theorem C87_v1_seen (h : VRun ext rng L v) (hr : Reserved Decodes (visible (sysLabels L)) k [b! "rpush", b! "lpop"])
    (hps : AllPushes Decodes (visible (sysLabels L)) k ps) (hrs : AllPops Decodes (visible (sysLabels L)) k rs) {g req m}
    (sg : Sent Decodes (visible (sysLabels L)) g req) (gg : Got (visible (sysLabels L)) g m)
    (hall : ∀ i req, Sent Decodes (visible (sysLabels L)) i req → QueueOp k req → Answered (visible (sysLabels L)) i g) :
    ∃ rest, Accounted ps rs rest ∧ HearsList k rest req m :=
  Event.C87_seen h.run hr hps hrs sg gg hall

end
end Godis.V1
