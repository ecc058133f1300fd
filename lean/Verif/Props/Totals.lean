import Verif.Props.Account
import Verif.Props.Register
import Verif.Spec.Totals
/-!
# What a counter shows, exactly: C88
-/
namespace Godis
open Resp (Reply)
open StrSpec (lower Ascii isError counters delta contrib CountsAs Wraps)
open CoordSpec (Adds)

theorem wraps_add {n0 S i d : Int} (h : Wraps n0 S) (h' : Wraps i (n0 + d)) : Wraps i (S + d) := by
  obtain ⟨⟨h1, h2⟩, h3⟩ := h
  obtain ⟨⟨h4, h5⟩, h6⟩ := h'
  refine ⟨⟨h4, h5⟩, ?_⟩
  omega

/-- in a history in which `k` is used only with counter commands and reads, what `k` counts as -/
theorem counts {ext rng tr s k} (h : Trace ext (Store.init rng) tr s) (hp : ∀ p ∈ tr, ListSpec.Plain p.1)
    (hu : ListSpec.OnlyUses k counters tr) :
    ∃ m n, Reads ext s [b! "get", k] m ∧ CountsAs m n ∧ Wraps n ((tr.map (contrib k)).sum) := by
  obtain ⟨m, n, h1, h2, h3⟩ := C10_no_lost_update (k := k) ⟨rng, [], .nil⟩ h (fun q hq => (hp q hq).1)
    (fun q hq name args e hk => by
      have := hu q hq
      simp only [e, List.headD_cons, List.tail_cons] at this
      exact this hk)
    (m0 := .bulk none) (n0 := 0) (fun it => by rw [get_answers (typed_init rng)]; exact ⟨rfl, rfl⟩) (.inl ⟨rfl, rfl⟩)
  exact ⟨m, n, h1, h2, by simpa using h3⟩

/-- ... and what a counter command is answered -/
theorem adds_reply {ext rng A s it req m s' k d} (h : Trace ext (Store.init rng) A s) (hp : ∀ p ∈ A, ListSpec.Plain p.1)
    (hu : ListSpec.OnlyUses k counters A) (ha : Answers ext it s req m s') (hd : Adds k req d) :
    ∃ n, m = .int n ∧ Wraps n ((A.map (contrib k)).sum + d) := by
  obtain ⟨m0, n0, h1, h2, h3⟩ := counts h hp hu
  obtain ⟨name, args, rfl, hd⟩ := hd
  obtain ⟨i, s2, g1, g2, _⟩ := C09_counter_partial (n := n0) ⟨rng, A, h⟩ hd (by
    rcases h2 with ⟨rfl, e⟩ | ⟨t, rfl, e⟩
    · exact .inl ⟨h1, e⟩
    · exact .inr ⟨t, h1, e⟩) it
  obtain ⟨hm, _⟩ := g2.unique ha
  exact ⟨i, hm, wraps_add h3 g1⟩

end Godis

namespace Godis.Event
open Resp (Reply Denotes)
open Linear (Before Op gaveUp)
open StrSpec (lower isError Ascii CountsAs Wraps contrib)
open CoordSpec

/-- the executed additions to `k` -/
def additions (k : Bytes) (ops : List Op) : List (Nat × Int) := ops.filterMap fun o => (added k o).map fun d => (o.id, d)

theorem additions_append (k : Bytes) (A B : List Op) : additions k (A ++ B) = additions k A ++ additions k B := by
  simp [additions]

theorem additions_cons {k : Bytes} {o : Op} {B : List Op} {d : Int} (h : added k o = some d) :
    additions k (o :: B) = (o.id, d) :: additions k B := by simp [additions, h]

theorem mem_additions {k : Bytes} {ops : List Op} {i : Nat} {d : Int} :
    (i, d) ∈ additions k ops ↔ ∃ o ∈ ops, o.id = i ∧ added k o = some d := by
  unfold additions
  rw [List.mem_filterMap]
  constructor
  · rintro ⟨o, ho, h⟩
    obtain ⟨d', h1, h2⟩ := Option.map_eq_some_iff.mp h
    cases h2
    exact ⟨o, ho, rfl, h1⟩
  · rintro ⟨o, ho, rfl, h⟩
    exact ⟨o, ho, by rw [h]; rfl⟩

theorem additions_sum (k : Bytes) (ops : List Op) : ((additions k ops).map (·.2)).sum = ((ops.map pair).map (contrib k)).sum := by
  unfold additions
  induction ops with
  | nil => rfl
  | cons o l ih =>
    rw [List.filterMap_cons]
    cases ho : added k o with
    | none => simp [ih, contrib_eq, ho]
    | some d => simp [ih, contrib_eq, ho]

theorem additions_sublist (k : Bytes) (ops : List Op) : ((additions k ops).map (·.1)).Sublist (ops.map (·.id)) := by
  unfold additions
  induction ops with
  | nil => exact .slnil
  | cons o l ih =>
    rw [List.filterMap_cons]
    cases ho : added k o with
    | none => exact ih.cons _
    | some d => exact ih.cons_cons _

section
variable {ext : Ext} {rng : Rng} {L : List Label} {σ : Sys} {s : Store} {k : Bytes} {ops : List Op}

/-- a counter command is not refused -/
theorem adds_done (he : Explains ext rng L s ops) (hr : Reserved Decodes (visible L) k StrSpec.counters) {A B o d} (e : ops = A ++ o :: B)
    (hd : Adds k o.req d) : ∃ n, o.reply = .int n ∧ Wraps n (((additions k A).map (·.2)).sum + d) ∧ added k o = some d := by
  have ht := he.trace
  have e' : ops.map pair = A.map pair ++ (o.req, o.reply) :: B.map pair := by rw [e]; simp [pair]
  have hpl := he.plain hr
  have hus := he.uses hr
  rw [e'] at ht hpl hus
  obtain ⟨s1, it, s2, h1, ha, _⟩ := ht.mid
  obtain ⟨n, g1, g2⟩ := adds_reply h1 (fun p hp => hpl p (by simp [hp])) (fun p hp => hus p (by simp [hp])) ha hd
  rw [additions_sum]
  exact ⟨n, g1, g2, added_iff.mpr ⟨hd, by rw [g1]; rfl⟩⟩

theorem in_line (h : Run ext 1 rng L σ) (he : Explains ext rng L s ops) (hr : Reserved Decodes (visible L) k StrSpec.counters) :
    InLine Decodes (visible L) k (additions k ops) := by
  have hnd : ops.Nodup := List.Nodup.of_map _ he.nodup
  have honce := (additions_sublist k ops).nodup he.nodup
  refine ⟨honce, ?_, ?_, ?_, ?_, ?_⟩
  · intro i d hm
    obtain ⟨o, ho, rfl, h2⟩ := mem_additions.mp hm
    exact ⟨o.req, he.sent o ho, (added_iff.mp h2).1⟩
  · intro i req d m hs hd hg
    obtain ⟨o, ho, rfl, rfl⟩ := he.got _ _ hg
    obtain ⟨A, B, e⟩ := List.mem_iff_append.mp ho
    obtain ⟨n, _, _, h3⟩ := adds_done he hr e (d := d) (by rw [sent_unique h (he.sent o ho) hs]; exact hd)
    exact mem_additions.mpr ⟨o, ho, rfl, h3⟩
  · intro P i d Q m e hg
    obtain ⟨o, ho, rfl, rfl⟩ := he.got _ _ hg
    obtain ⟨A, B, e2⟩ := List.mem_iff_append.mp ho
    have hm : (o.id, d) ∈ additions k ops := by rw [e]; simp
    obtain ⟨o', ho', h1, h2⟩ := mem_additions.mp hm
    obtain rfl := he.same ho' ho h1
    obtain ⟨n, g1, g2, _⟩ := adds_done he hr e2 (added_iff.mp h2).1
    refine ⟨n, g1, ?_⟩
    have e3 : additions k A ++ (o'.id, d) :: additions k B = P ++ (o'.id, d) :: Q := by
      rw [← e, e2, additions_append, additions_cons h2]
    have : additions k A = P := by
      have hnd2 : (additions k ops).Nodup := List.Nodup.of_map _ honce
      rw [e2, additions_append, additions_cons h2] at hnd2
      have hx : (o'.id, d) ∉ additions k A := fun hx => by
        rw [List.nodup_append] at hnd2
        exact hnd2.2.2 _ hx _ (List.mem_cons_self ..) rfl
      have hy : (o'.id, d) ∉ P := fun hy => by
        have hnd3 : (additions k ops).Nodup := List.Nodup.of_map _ honce
        rw [e, List.nodup_append] at hnd3
        exact hnd3.2.2 _ hy _ (List.mem_cons_self ..) rfl
      rcases List.append_eq_append_iff.mp e3 with ⟨t, h4, h5⟩ | ⟨t, h4, h5⟩
      · cases t with
        | nil => simpa using h4.symm
        | cons x t =>
          rw [List.cons_append] at h5
          obtain ⟨rfl, _⟩ := List.cons.inj h5
          exact absurd (by rw [h4]; simp) hy
      · cases t with
        | nil => simpa using h4
        | cons x t =>
          rw [List.cons_append] at h5
          obtain ⟨rfl, _⟩ := List.cons.inj h5
          exact absurd (by rw [h4]; simp) hx
    rw [← this]
    exact g2
  · rintro ⟨i, d⟩ hp ⟨j, d'⟩ hq ha
    obtain ⟨o, ho, rfl, h1⟩ := mem_additions.mp hp
    obtain ⟨o', ho', rfl, h2⟩ := mem_additions.mp hq
    obtain ⟨l1, l2, l3, e⟩ := he.order o ho o' ho' ha
    refine ⟨additions k l1, additions k l2, additions k l3, ?_⟩
    rw [e, additions_append, additions_cons h1, additions_append, additions_cons h2]
  · intro i req m si oi gi
    obtain ⟨p, hp, rfl, rfl⟩ := he.got _ _ gi
    obtain ⟨A, B, e⟩ := List.mem_iff_append.mp hp
    have op : On (b! "get") k p.req := by rw [← sent_unique h si (he.sent p hp)]; exact oi
    have ht := he.trace
    have e' : ops.map pair = A.map pair ++ (p.req, p.reply) :: B.map pair := by rw [e]; simp [pair]
    have hpl := he.plain hr
    have hus := he.uses hr
    rw [e'] at ht hpl hus
    obtain ⟨s1, it, s2, h1, ha, _⟩ := ht.mid
    obtain ⟨m', n, g1, g2, g3⟩ := counts h1 (fun q hq => hpl q (by simp [hq])) (fun q hq => hus q (by simp [hq]))
    have hm : p.reply = m' := by
      obtain ⟨name, rest, hreq, hn⟩ := op
      rw [hreq] at ha
      have hasc : StrSpec.Ascii name := (hpl (p.req, p.reply) (by simp)).1 name (by rw [hreq]; rfl)
      have hlk : lookupCmd (toLower ext.lowerUni name) = some .get := by rw [lower_eq hasc, hn]; rfl
      have ha' : Answers ext it s1 (b! "get" :: k :: rest) p.reply s2 := by
        rw [answers_iff (c := .get) rfl]; exact (answers_iff hlk).mp ha
      rw [((get_answers (h1.typed (typed_init rng))).mp ha').1, ((get_answers (h1.typed (typed_init rng))).mp (g1 it)).1]
    have haddp : added k p = none := by
      cases hx : added k p with
      | none => rfl
      | some d =>
        exfalso
        obtain ⟨n1, r1, h3, h4⟩ := (added_iff.mp hx).1
        obtain ⟨n2, r2, h5, h6⟩ := op
        rw [h5] at h3
        cases h3
        rw [h6] at h4
        cases h4
    refine ⟨additions k A, additions k (p :: B), n, by rw [e, additions_append], hm ▸ g2, by rw [additions_sum]; exact g3, ?_, ?_⟩
    · rintro ⟨j, d⟩ hq hj
      obtain ⟨o, ho, rfl, h2⟩ := mem_additions.mp hq
      exact mem_additions.mpr ⟨o, mem_of_before hnd e (he.order o ho p hp hj), rfl, h2⟩
    · rintro ⟨j, d⟩ hq hj
      obtain ⟨o, ho, rfl, h2⟩ := mem_additions.mp hq
      exact before_asymm hnd (before_of_mem e ho) (he.order p hp o (by rw [e]; simp [ho]) hj)

/-- **C88 (fetch and add).**  There is one order of the increments and decrements that explains every answer to them, every GET, and
what the counter counts as in the end: each answer is the exact sum up to and including the request. -/
theorem C88_in_line (h : Run ext 1 rng L σ) (hr : Reserved Decodes (visible L) k StrSpec.counters) :
    ∃ l m n, InLine Decodes (visible L) k l ∧ Reads ext σ.store [b! "get", k] m ∧ CountsAs m n ∧ Wraps n (l.map (·.2)).sum := by
  obtain ⟨ops, he⟩ := explained h
  obtain ⟨m, n, h1, h2, h3⟩ := counts he.trace (he.plain hr) (he.uses hr)
  exact ⟨_, m, n, in_line h he hr, h1, h2, by rw [additions_sum]; exact h3⟩

theorem perm_sum {l l' : List Int} (h : l.Perm l') : l.sum = l'.sum := by
  induction h with
  | nil => rfl
  | cons a _ ih => simp [ih]
  | swap a b l => simp only [List.sum_cons]; omega
  | trans _ _ h1 h2 => rw [h1, h2]

/-- an order that contains every addition that was sent -/
theorem line_perm {carries : Bytes → List Bytes → Prop} {hist : List Linear.Ev} {l ps : List (Nat × Int)} (hl : InLine carries hist k l)
    (hps : AllAdds carries hist k ps) (hall : ∀ p ∈ ps, p ∈ l) : l.Perm ps := by
  refine (List.perm_ext_iff_of_nodup (List.Nodup.of_map _ hl.once) (List.Nodup.of_map _ hps.1)).mpr fun p => ⟨fun hp => ?_, hall p⟩
  exact (hps.2 p.1 p.2).mpr (hl.sent p.1 p.2 hp)

/-- **C88 (the total).**  If every addition that was sent has its answer, the counter counts as the sum of all of them. -/
theorem C88_total (h : Run ext 1 rng L σ) (hr : Reserved Decodes (visible L) k StrSpec.counters) {ps : List (Nat × Int)}
    (hps : AllAdds Decodes (visible L) k ps) (hall : ∀ i req d, Sent Decodes (visible L) i req → Adds k req d → ∃ m, Got (visible L) i m) :
    ∃ m n, Reads ext σ.store [b! "get", k] m ∧ CountsAs m n ∧ Wraps n (ps.map (·.2)).sum := by
  obtain ⟨l, m, n, h1, h2, h3, h4⟩ := C88_in_line h hr
  refine ⟨m, n, h2, h3, ?_⟩
  have hp := line_perm h1 hps fun p hp => by
    obtain ⟨req, hs, hd⟩ := (hps.2 p.1 p.2).mp hp
    obtain ⟨m, hg⟩ := hall _ _ _ hs hd
    exact h1.got _ _ _ _ hs hd hg
  rw [← perm_sum (hp.map (·.2))]
  exact h4

/-- **C88 (a client can check the total).**  A GET sent after every addition that was sent was answered shows the sum of all of them. -/
theorem C88_total_seen (h : Run ext 1 rng L σ) (hr : Reserved Decodes (visible L) k StrSpec.counters) {ps : List (Nat × Int)}
    (hps : AllAdds Decodes (visible L) k ps) {g req m} (sg : Sent Decodes (visible L) g req) (og : On (b! "get") k req) (gg : Got (visible L) g m)
    (hall : ∀ p ∈ ps, Answered (visible L) p.1 g) : ∃ n, CountsAs m n ∧ Wraps n (ps.map (·.2)).sum := by
  obtain ⟨l, _, _, h1, _⟩ := C88_in_line h hr
  obtain ⟨P, Q, n, e, g1, g2, g3, g4⟩ := h1.read _ _ _ sg og gg
  refine ⟨n, g1, ?_⟩
  have hp := line_perm h1 hps fun p hp => by
    obtain ⟨req, hs, hd⟩ := (hps.2 p.1 p.2).mp hp
    obtain ⟨m, hg⟩ := answered_got h (hall p hp)
    exact h1.got _ _ _ _ hs hd hg
  have hQ : Q = [] := by
    by_contra hne
    obtain ⟨x, hx⟩ := List.exists_mem_of_ne_nil _ hne
    have hxl : x ∈ l := by rw [e]; simp [hx]
    have hxP := g3 x hxl (hall x (hp.mem_iff.mp hxl))
    have hnd : l.Nodup := List.Nodup.of_map _ h1.once
    rw [e, List.nodup_append] at hnd
    exact hnd.2.2 x hxP x hx rfl
  rw [hQ, List.append_nil] at e
  rw [← perm_sum (hp.map (·.2)), e]
  exact g2

/-- **C88 (bounded load).**  Let the load be bounded as in C79, let no command crash the process, and let every addition to `k` have
arrived `W` before the end of the observation and not have been turned away by the goroutine pool.  Then the counter counts as the sum
of all additions that were sent. -/
theorem C88_in_time {δ T M W : Nat} {L : List (Nat × Label)} (h : Run ext 1 rng (untimed L) σ) (hc : Clocked L) (hst : .stop ∉ untimed L)
    (hT : ∀ p ∈ L, p.1 ≤ T) (hp : Prompt ext 1 rng δ T L) (hl : Load M W L) (hW : (10 * M + 2) * δ ≤ W) (hd : W < 10 * 10 ^ 9)
    (hcr : ∀ w j p, .crash w j p ∉ untimed L)
    (hin : ∀ t i c f req d, (t, .recv i c f) ∈ L → Decodes f req → Adds k req d →
      t + W < T ∧ (.quiet i ∈ untimed L → ∃ text, .log i text ∈ untimed L))
    (hr : Reserved Decodes (visible (untimed L)) k StrSpec.counters) {ps : List (Nat × Int)}
    (hps : AllAdds Decodes (visible (untimed L)) k ps) :
    ∃ m n, Reads ext σ.store [b! "get", k] m ∧ CountsAs m n ∧ Wraps n (ps.map (·.2)).sum := by
  refine C88_total h hr hps fun i req d hs hq => ?_
  obtain ⟨hpl, _⟩ := hr i req hs
  obtain ⟨c, f, h1, h2⟩ := hs
  obtain ⟨t, h3⟩ := mem_untimed.mp (mem_visible_call.mp h1)
  obtain ⟨h4, h5⟩ := hin t i c f req d h3 h2 hq
  obtain ⟨name, args, rfl, hn⟩ := hq
  refine C87_answered h hc hst hT hp hl hW hd hcr h3 h4 h5 h2 (by simp) (hpl.1 name rfl) fun e => ?_
  rw [List.headD_cons] at e
  rw [e] at hn
  cases hn

end

/-! ## a sale -/

theorem sum_neg_one {D : List (Nat × Int)} (h : ∀ p ∈ D, p.2 = -1) : (D.map (·.2)).sum = -(D.length : Int) := by
  induction D with
  | nil => rfl
  | cons a D ih =>
    have := ih fun p hp => h p (List.mem_cons_of_mem _ hp)
    have ha := h a (List.mem_cons_self ..)
    simp only [List.map_cons, List.sum_cons, List.length_cons, this, ha]
    omega

section
variable {ext : Ext} {rng : Rng} {L : List Label} {σ : Sys} {k : Bytes} {i0 n : Nat}

/-- the sale in order: `INCRBY k n` comes first, the `t`-th DECR is answered `n - t` -/
theorem sale_line (h : Run ext 1 rng L σ) (hr : Reserved Decodes (visible L) k StrSpec.counters) (hs : Sale Decodes (visible L) k i0 n)
    (hsome : ∃ i req d, Sent Decodes (visible L) i req ∧ Adds k req d ∧ i ≠ i0) (hn : n < 2 ^ 63) (hlen : (visible L).length < 2 ^ 63) :
    ∃ D : List (Nat × Int), InLine Decodes (visible L) k ((i0, (n : Int)) :: D) ∧ (∀ p ∈ D, p.2 = -1) ∧
      ∀ A i B v, D = A ++ (i, -1) :: B → Got (visible L) i (.int v) → v = n - (A.length + 1) := by
  obtain ⟨ops, he⟩ := explained h
  have hl := in_line h he hr
  obtain ⟨req0, s0, a0⟩ := hs.stock
  obtain ⟨i1, req1, d1, s1, a1, hne⟩ := hsome
  obtain ⟨m0, g0⟩ := answered_got h (hs.first i1 req1 d1 s1 a1 hne)
  have hm := hl.got i0 req0 n m0 s0 a0 g0
  have hnd : (additions k ops).Nodup := List.Nodup.of_map _ hl.once
  obtain ⟨P, D, e⟩ := List.mem_iff_append.mp hm
  have hl' := hl
  rw [e] at hl'
  have hnd' := hl'.once
  have hP : P = [] := by
    cases P with
    | nil => rfl
    | cons p P =>
      exfalso
      obtain ⟨req, h1, h2⟩ := hl'.sent p.1 p.2 (by simp)
      have hp : p.1 ≠ i0 := fun e' => by
        simp only [List.map_append, List.map_cons, List.cons_append, List.nodup_cons, List.mem_append, List.mem_cons] at hnd'
        exact hnd'.1 (.inr (.inl e'))
      have hb := hl'.order (i0, (n : Int)) (by simp) p (by simp) (hs.first _ _ _ h1 h2 hp)
      have hn2 : ((p :: P) ++ (i0, (n : Int)) :: D).Nodup := List.Nodup.of_map _ hnd'
      obtain ⟨P1, P2, P3, e2⟩ := hb
      exact before_asymm hn2 ⟨P1, P2, P3, e2⟩ ⟨[], P, D, rfl⟩
  subst hP
  rw [List.nil_append] at hl'
  have hD : ∀ p ∈ D, p.2 = -1 := fun p hp => by
    obtain ⟨req, h1, h2⟩ := hl'.sent p.1 p.2 (by simp [hp])
    refine hs.decr _ _ _ h1 h2 fun e' => ?_
    have := hl'.once
    simp only [List.map_cons, List.nodup_cons] at this
    exact this.1 (e' ▸ List.mem_map.mpr ⟨p, hp, rfl⟩)
  refine ⟨D, hl', hD, fun A i B v eD hg => ?_⟩
  obtain ⟨x, h1, h2⟩ := hl'.told ((i0, (n : Int)) :: A) i (-1) B _ (by rw [eD]; rfl) hg
  cases h1
  have hAl : (A.map (·.2)).sum = -(A.length : Int) := sum_neg_one fun p hp => hD p (by rw [eD]; simp [hp])
  simp only [List.map_cons, List.sum_cons, hAl] at h2
  rw [wraps_iff, wrap64_of_range] at h2
  · omega
  · have : D.length < 2 ^ 63 := by
      have h3 := he.length_le
      have h4 : (additions k ops).length ≤ ops.length := List.length_filterMap_le _ _
      rw [e] at h4
      simp at h4
      omega
    rw [eD] at this
    simp at this
    omega
  · omega

/-- **C88 (nothing is sold twice).**  Different buyers are told different numbers, all below `n`. -/
theorem C88_item (h : Run ext 1 rng L σ) (hr : Reserved Decodes (visible L) k StrSpec.counters) (hs : Sale Decodes (visible L) k i0 n)
    (hn : n < 2 ^ 63) (hlen : (visible L).length < 2 ^ 63) {i j : Nat} {v v' : Int} (hi : Buys Decodes (visible L) k i0 i)
    (hj : Buys Decodes (visible L) k i0 j) (gi : Got (visible L) i (.int v)) (gj : Got (visible L) j (.int v')) (hij : i ≠ j) :
    v < n ∧ v ≠ v' := by
  obtain ⟨hne, ⟨req, d, h1, h2⟩, _⟩ := hi
  obtain ⟨hne', ⟨req', d', h1', h2'⟩, _⟩ := hj
  obtain ⟨D, hl, hD, hv⟩ := sale_line h hr hs ⟨i, req, d, h1, h2, hne⟩ hn hlen
  have inD : ∀ {i req d m}, i ≠ i0 → Sent Decodes (visible L) i req → Adds k req d → Got (visible L) i m → (i, -1) ∈ D := by
    intro i req d m hne h1 h2 h3
    have hm := hl.got i req d _ h1 h2 h3
    rcases List.mem_cons.mp hm with hm | hm
    · cases hm; exact absurd rfl hne
    · have : d = -1 := hD _ hm
      exact this ▸ hm
  have mi := inD hne h1 h2 gi
  have mj := inD hne' h1' h2' gj
  obtain ⟨A, B, e⟩ := List.mem_iff_append.mp mi
  obtain ⟨A', B', e'⟩ := List.mem_iff_append.mp mj
  have e1 := hv A i B v e gi
  have e2 := hv A' j B' v' e' gj
  refine ⟨by omega, fun he => hij ?_⟩
  have hAA : A.length = A'.length := by omega
  rw [e] at e'
  have := List.append_inj e' hAA
  have := this.2
  injection this with h5 h6
  exact congrArg Prod.fst h5

/-- **C88 (nothing is sold twice).**  At most `n` clients buy. -/
theorem C88_sale (h : Run ext 1 rng L σ) (hr : Reserved Decodes (visible L) k StrSpec.counters) (hs : Sale Decodes (visible L) k i0 n)
    (hn : n < 2 ^ 63) (hlen : (visible L).length < 2 ^ 63) {rs : List Nat} (hnd : rs.Nodup)
    (hrs : ∀ i ∈ rs, Buys Decodes (visible L) k i0 i) : rs.length ≤ n := by
  rcases rs with _ | ⟨r, rs⟩
  · simp
  obtain ⟨hne, ⟨req, d, h1, h2⟩, _⟩ := hrs r (List.mem_cons_self ..)
  obtain ⟨D, hl, hD, hv⟩ := sale_line h hr hs ⟨r, req, d, h1, h2, hne⟩ hn hlen
  have hsub : (r :: rs).Subperm ((D.take n).map (·.1)) := by
    refine List.subperm_of_subset hnd fun i hi => ?_
    obtain ⟨hne, ⟨req, d, h1, h2⟩, v, h3, h4⟩ := hrs i hi
    have hm := hl.got i req d _ h1 h2 h3
    have hmD : (i, d) ∈ D := by
      rcases List.mem_cons.mp hm with hm | hm
      · cases hm; exact absurd rfl hne
      · exact hm
    have : d = -1 := hD _ hmD
    subst this
    obtain ⟨A, B, e⟩ := List.mem_iff_append.mp hmD
    have := hv A i B v e h3
    refine List.mem_map.mpr ⟨(i, -1), ?_, rfl⟩
    rw [e, List.take_append]
    have hA : A.length + 1 ≤ n := by omega
    obtain ⟨x, hx⟩ : ∃ x, n - A.length = x + 1 := ⟨n - A.length - 1, by omega⟩
    rw [hx]
    simp
  have := hsub.length_le
  simp only [List.length_map, List.length_take] at this
  exact le_trans this (Nat.min_le_left _ _)

/-- **C88 (the sale ends when the stock is sold).**  If every DECR has its answer, the number of buyers is the smaller one of `n` and
the number of DECRs. -/
theorem C88_sale_exact (h : Run ext 1 rng L σ) (hr : Reserved Decodes (visible L) k StrSpec.counters) (hs : Sale Decodes (visible L) k i0 n)
    (hn : n < 2 ^ 63) (hlen : (visible L).length < 2 ^ 63) {rs ds : List Nat} (hnd : rs.Nodup)
    (hrs : ∀ i, i ∈ rs ↔ Buys Decodes (visible L) k i0 i) (hdd : ds.Nodup)
    (hds : ∀ i, i ∈ ds ↔ i ≠ i0 ∧ ∃ req d, Sent Decodes (visible L) i req ∧ Adds k req d) (hall : ∀ i ∈ ds, ∃ m, Got (visible L) i m) :
    rs.length = min n ds.length := by
  rcases ds with _ | ⟨d0, ds⟩
  · have : rs = [] := by
      by_contra hne
      obtain ⟨x, hx⟩ := List.exists_mem_of_ne_nil _ hne
      obtain ⟨h1, h2, _⟩ := (hrs x).mp hx
      simpa using (hds x).mpr ⟨h1, h2⟩
    simp [this]
  obtain ⟨hne, req, d, h1, h2⟩ := (hds d0).mp (List.mem_cons_self ..)
  obtain ⟨D, hl, hD, hv⟩ := sale_line h hr hs ⟨d0, req, d, h1, h2, hne⟩ hn hlen
  have honce := hl.once
  rw [List.map_cons, List.nodup_cons] at honce
  have inD : ∀ {i}, i ∈ D.map (·.1) ↔ i ∈ d0 :: ds := by
    intro i
    rw [hds]
    constructor
    · intro hi
      obtain ⟨p, hp, rfl⟩ := List.mem_map.mp hi
      obtain ⟨req, h3, h4⟩ := hl.sent p.1 p.2 (by simp [hp])
      exact ⟨fun e => honce.1 (e ▸ hi), req, _, h3, h4⟩
    · rintro ⟨h3, req, d, h4, h5⟩
      obtain ⟨m, hg⟩ := hall i ((hds i).mpr ⟨h3, req, d, h4, h5⟩)
      have := hl.got i req d m h4 h5 hg
      rcases List.mem_cons.mp this with hm | hm
      · cases hm; exact absurd rfl h3
      · exact List.mem_map.mpr ⟨_, hm, rfl⟩
  have hlen1 : D.length = (d0 :: ds).length := by
    have := ((List.perm_ext_iff_of_nodup honce.2 hdd).mpr fun i => inD).length_eq
    simpa using this
  have hperm : rs.Perm ((D.take n).map (·.1)) := by
    refine (List.perm_ext_iff_of_nodup hnd (((List.take_sublist n D).map _).nodup honce.2)).mpr fun i => ?_
    rw [hrs]
    constructor
    · rintro ⟨h3, ⟨req, d, h4, h5⟩, v, hg, hv0⟩
      obtain ⟨p, hp, rfl⟩ := List.mem_map.mp (inD.mpr ((hds i).mpr ⟨h3, req, d, h4, h5⟩))
      have hpd := hD p hp
      obtain ⟨A, B, e⟩ := List.mem_iff_append.mp hp
      have := hv A p.1 B v (by rw [e]; simp [← hpd]) hg
      refine List.mem_map.mpr ⟨p, ?_, rfl⟩
      rw [e, List.take_append]
      obtain ⟨x, hx⟩ : ∃ x, n - A.length = x + 1 := ⟨n - A.length - 1, by omega⟩
      rw [hx]
      simp
    · intro hi
      obtain ⟨p, hp, rfl⟩ := List.mem_map.mp hi
      have hpD := List.mem_of_mem_take hp
      obtain ⟨h3, req, d, h4, h5⟩ := (hds p.1).mp (inD.mp (List.mem_map.mpr ⟨p, hpD, rfl⟩))
      refine ⟨h3, ⟨req, d, h4, h5⟩, ?_⟩
      obtain ⟨m, hg⟩ := hall p.1 (inD.mp (List.mem_map.mpr ⟨p, hpD, rfl⟩))
      obtain ⟨A, B, e⟩ := List.mem_iff_append.mp hp
      have hpd := hD p hpD
      have eD : D = A ++ (p.1, -1) :: (B ++ D.drop n) := by
        conv_lhs => rw [← List.take_append_drop n D, e]
        simp [← hpd]
      obtain ⟨v, rfl, _⟩ := hl.told ((i0, (n : Int)) :: A) p.1 (-1) _ m (by rw [eD]; rfl) hg
      refine ⟨v, hg, ?_⟩
      rw [hv _ _ _ _ eD hg]
      have : (D.take n).length ≤ n := by simp
      rw [e] at this
      simp at this
      omega
  rw [hperm.length_eq, List.length_map, List.length_take, hlen1]

end

/-! ## the hypotheses are met -/

def stockX : Bytes := b! "*3\r\n$6\r\nINCRBY\r\n$1\r\nx\r\n$1\r\n1\r\n"
def decrX : Bytes := b! "*2\r\n$4\r\nDECR\r\n$1\r\nx\r\n"
theorem stockX_request : Decodes stockX [b! "INCRBY", b! "x", b! "1"] :=
  decodes_of ⟨b! "3", _, by decide, (.cons (d := b! "6") (by decide) (.cons (d := b! "1") (by decide) (.cons (d := b! "1") (by decide) .nil))), by decide⟩ (by decide) (by decide)
theorem decrX_request : Decodes decrX [b! "DECR", b! "x"] :=
  decodes_of ⟨b! "2", _, by decide, (.cons (d := b! "4") (by decide) (.cons (d := b! "1") (by decide) .nil)), by decide⟩ (by decide) (by decide)

theorem denotes_int {b : Bytes} {n : Int} (h : ∀ f rest, Resp.parse (f + 1) (b ++ rest) = some (.int n, rest)) : Denotes b (.int n) :=
  ⟨1, fun f hf rest => by obtain ⟨f, rfl⟩ : ∃ g, f = g + 1 := ⟨f - 1, by omega⟩; exact h f rest⟩

/-- the amounts -/
theorem adds_stockX {d : Int} : Adds (b! "x") [b! "INCRBY", b! "x", b! "1"] d ↔ d = 1 := by
  constructor
  · rintro ⟨name, args, e, h⟩
    cases e
    have : StrSpec.delta (lower (b! "INCRBY")) [b! "x", b! "1"] = some 1 := by decide
    rw [this] at h; cases h; rfl
  · rintro rfl; exact ⟨_, _, rfl, by decide⟩
theorem adds_decrX {d : Int} : Adds (b! "x") [b! "DECR", b! "x"] d ↔ d = -1 := by
  constructor
  · rintro ⟨name, args, e, h⟩
    cases e
    have : StrSpec.delta (lower (b! "DECR")) [b! "x"] = some (-1) := by decide
    rw [this] at h; cases h; rfl
  · rintro rfl; exact ⟨_, _, rfl, by decide⟩
theorem adds_incrX {d : Int} : Adds (b! "x") [b! "INCR", b! "x"] d ↔ d = 1 := by
  constructor
  · rintro ⟨name, args, e, h⟩
    cases e
    have : StrSpec.delta (lower (b! "INCR")) [b! "x"] = some 1 := by decide
    rw [this] at h; cases h; rfl
  · rintro rfl; exact ⟨_, _, rfl, by decide⟩
theorem adds_getX {d : Int} : ¬ Adds (b! "x") [b! "GET", b! "x"] d := by
  rintro ⟨name, args, e, h⟩
  cases e
  have : StrSpec.delta (lower (b! "GET")) [b! "x"] = none := by decide
  rw [this] at h; cases h

/-- one item; two clients want it at the same time -/
def sale : List Act := whole 0 0 stockX ++
  [.recv 1 1 decrX, .recv 2 2 decrX, .handle 1, .handle 2, .handle 2, .work 0, .handle 1, .work 0, .work 0, .work 0, .work 0,
    .handle 2, .work 0, .work 0, .work 0, .handle 1, .handle 1, .handle 2] ++ whole 3 0 getX

/-- Case of the theorems: one item is on sale; two clients' DECRs overlap, the second one buys; then a client reads -1. -/
example : ∃ L σ, Run ext0 1 rng0 L σ ∧ Reserved Decodes (visible L) (b! "x") StrSpec.counters ∧ (visible L).length < 2 ^ 63 ∧
    AllAdds Decodes (visible L) (b! "x") [(0, 1), (1, -1), (2, -1)] ∧
    (∀ p ∈ [((0 : Nat), (1 : Int)), (1, -1), (2, -1)], Answered (visible L) p.1 3) ∧
    Sent Decodes (visible L) 3 [b! "GET", b! "x"] ∧ Got (visible L) 3 (.bulk (some (b! "-1"))) ∧
    Sale Decodes (visible L) (b! "x") 0 1 ∧ Got (visible L) 1 (.int (-1)) ∧ Buys Decodes (visible L) (b! "x") 0 2 := by
  have hd : (trySchedule ext0 it0 1 rng0 sale).map (fun p => visible p.1) =
      some [.call 0 0 stockX, .ret 0 0 (b! ":1\r\n"), .call 1 1 decrX, .call 2 2 decrX, .ret 1 1 (b! ":-1\r\n"), .ret 2 2 (b! ":0\r\n"),
        .call 3 0 getX, .ret 3 0 (b! "$2\r\n-1\r\n")] := by decide +kernel
  obtain ⟨r, hr, hv⟩ := Option.map_eq_some_iff.mp hd
  have hsent : ∀ i req, Sent Decodes (visible r.1) i req →
      (i = 0 ∧ req = [b! "INCRBY", b! "x", b! "1"]) ∨ (i = 1 ∧ req = [b! "DECR", b! "x"]) ∨ (i = 2 ∧ req = [b! "DECR", b! "x"]) ∨
      (i = 3 ∧ req = [b! "GET", b! "x"]) := by
    rintro i req ⟨c, b, h1, h2⟩
    rw [hv] at h1
    simp only [List.mem_cons, Linear.Ev.call.injEq, reduceCtorEq, List.not_mem_nil, or_false, false_or] at h1
    rcases h1 with ⟨rfl, _, rfl⟩ | ⟨rfl, _, rfl⟩ | ⟨rfl, _, rfl⟩ | ⟨rfl, _, rfl⟩
    · exact .inl ⟨rfl, decodes_det h2 stockX_request⟩
    · exact .inr (.inl ⟨rfl, decodes_det h2 decrX_request⟩)
    · exact .inr (.inr (.inl ⟨rfl, decodes_det h2 decrX_request⟩))
    · exact .inr (.inr (.inr ⟨rfl, decodes_det h2 getX_request⟩))
  have s0 : Sent Decodes (visible r.1) 0 [b! "INCRBY", b! "x", b! "1"] := ⟨0, _, by rw [hv]; simp, stockX_request⟩
  have s1 : Sent Decodes (visible r.1) 1 [b! "DECR", b! "x"] := ⟨1, _, by rw [hv]; simp, decrX_request⟩
  have s2 : Sent Decodes (visible r.1) 2 [b! "DECR", b! "x"] := ⟨2, _, by rw [hv]; simp, decrX_request⟩
  have d0 : Denotes (b! ":1\r\n") (.int 1) := denotes_int fun f rest => rfl
  have d1 : Denotes (b! ":-1\r\n") (.int (-1)) := denotes_int fun f rest => rfl
  have d2 : Denotes (b! ":0\r\n") (.int 0) := denotes_int fun f rest => rfl
  have ng : ∀ {b : Bytes} {n : Int}, Denotes b (.int n) → ¬ Denotes b Linear.gaveUp := fun h h' => by cases denotes_unique h h'
  have a03 : Answered (visible r.1) 0 3 := ⟨0, b! ":1\r\n", 0, getX, by rw [hv]; exact ⟨[_], [_, _, _, _], _, rfl⟩, ng d0⟩
  have a01 : Answered (visible r.1) 0 1 := ⟨0, b! ":1\r\n", 1, decrX, by rw [hv]; exact ⟨[_], [], _, rfl⟩, ng d0⟩
  have a02 : Answered (visible r.1) 0 2 := ⟨0, b! ":1\r\n", 2, decrX, by rw [hv]; exact ⟨[_], [_], _, rfl⟩, ng d0⟩
  have a13 : Answered (visible r.1) 1 3 := ⟨1, b! ":-1\r\n", 0, getX, by rw [hv]; exact ⟨[_, _, _, _], [_], _, rfl⟩, ng d1⟩
  have a23 : Answered (visible r.1) 2 3 := ⟨2, b! ":0\r\n", 0, getX, by rw [hv]; exact ⟨[_, _, _, _, _], [], _, rfl⟩, ng d2⟩
  have hadd : ∀ i req d, Sent Decodes (visible r.1) i req → Adds (b! "x") req d → (i = 0 ∧ d = 1) ∨ (i = 1 ∧ d = -1) ∨ (i = 2 ∧ d = -1) := by
    intro i req d hs ha
    rcases hsent i req hs with ⟨rfl, rfl⟩ | ⟨rfl, rfl⟩ | ⟨rfl, rfl⟩ | ⟨_, rfl⟩
    · exact .inl ⟨rfl, adds_stockX.mp ha⟩
    · exact .inr (.inl ⟨rfl, adds_decrX.mp ha⟩)
    · exact .inr (.inr ⟨rfl, adds_decrX.mp ha⟩)
    · exact absurd ha adds_getX
  refine ⟨r.1, r.2, try_run hr, ?_, by rw [hv]; decide, ⟨by decide, fun i d => ⟨?_, ?_⟩⟩, ?_, ⟨0, getX, by rw [hv]; simp, getX_request⟩, ?_,
    ⟨⟨_, s0, adds_stockX.mpr rfl⟩, ?_, ?_⟩, ⟨1, _, by rw [hv]; simp, d1, nofun⟩,
    ⟨by decide, ⟨_, _, s2, adds_decrX.mpr rfl⟩, 0, ⟨2, _, by rw [hv]; simp, d2, nofun⟩, by decide⟩⟩
  · intro i req hs
    rcases hsent i req hs with ⟨_, rfl⟩ | ⟨_, rfl⟩ | ⟨_, rfl⟩ | ⟨_, rfl⟩ <;>
      exact ⟨by unfold ListSpec.Plain StrSpec.Ascii; decide, fun _ => by decide⟩
  · intro hm
    simp only [List.mem_cons, Prod.mk.injEq, List.not_mem_nil, or_false] at hm
    rcases hm with ⟨rfl, rfl⟩ | ⟨rfl, rfl⟩ | ⟨rfl, rfl⟩
    · exact ⟨_, s0, adds_stockX.mpr rfl⟩
    · exact ⟨_, s1, adds_decrX.mpr rfl⟩
    · exact ⟨_, s2, adds_decrX.mpr rfl⟩
  · rintro ⟨req, hs, ha⟩
    rcases hadd i req d hs ha with ⟨rfl, rfl⟩ | ⟨rfl, rfl⟩ | ⟨rfl, rfl⟩ <;> simp
  · intro p hp
    simp only [List.mem_cons, List.not_mem_nil, or_false] at hp
    rcases hp with rfl | rfl | rfl
    · exact a03
    · exact a13
    · exact a23
  · rw [hv]
    refine ⟨0, b! "$2\r\n-1\r\n", by simp, ⟨1, fun f hf rest => ?_⟩, nofun⟩
    obtain ⟨f, rfl⟩ : ∃ g, f = g + 1 := ⟨f - 1, by omega⟩
    have e : b! "$2\r\n-1\r\n" ++ rest = 36 :: b! "2" ++ [13, 10] ++ b! "-1" ++ [13, 10] ++ rest := rfl
    rw [e, parse_bulk (by decide) f]
  · intro i req d hs ha hne
    rcases hadd i req d hs ha with ⟨rfl, _⟩ | ⟨rfl, _⟩ | ⟨rfl, _⟩
    · exact absurd rfl hne
    · exact a01
    · exact a02
  · intro i req d hs ha hne
    rcases hadd i req d hs ha with ⟨rfl, _⟩ | ⟨_, h⟩ | ⟨_, h⟩
    · exact absurd rfl hne
    · exact h
    · exact h

set_option linter.unusedSimpArgs false
def cnt0 : List Label := oneReq 0 0 stockX (newResponseWithInteger 1) (b! ":1\r\n")
def cnt1 : List Label := oneReq 1 1 incrX (newResponseWithInteger 2) (b! ":2\r\n")

/-- two requests, one every 100 microseconds, each served with one action every microsecond -/
def twice : List (Nat × Label) := every 1000 0 cnt0 ++ every 1000 100000 cnt1

theorem twice_untimed : untimed twice = cnt0 ++ cnt1 := by simp only [twice, untimed_append, untimed_every]

theorem twice_run : ∃ σ, Run ext0 1 rng0 (untimed twice) σ := by
  rw [twice_untimed]
  exact try_labels (it := it0) (as := whole 0 0 stockX ++ whole 1 1 incrX) (by decide +kernel)

theorem twice_rest : ∀ k ∈ [0, 9, 18], ¬ CanMove ext0 1 rng0 (untimed (twice.take k)) := by
  intro k hk
  simp only [List.mem_cons, List.not_mem_nil, or_false] at hk
  rcases hk with rfl | rfl | rfl
  · exact init_rest
  · have e : untimed (twice.take 9) = ((cnt0.take 6 ++ [.publish 0 0]) ++ [.result 0]) ++ [.write 0 0 (b! ":1\r\n")] := by decide +kernel
    rw [e]
    exact served_rest (by decide +kernel)
      (by intro i c f hm hij; simp [cnt0, cnt1, oneReq, Label.about, Label.ends] at hm ⊢; omega)
      (by intro i c f hm; refine ⟨0, ?_⟩; simp [cnt0, cnt1, oneReq] at hm ⊢; omega)
  · have e : untimed (twice.take 18) = (((cnt0 ++ cnt1.take 6) ++ [.publish 0 1]) ++ [.result 1]) ++ [.write 1 1 (b! ":2\r\n")] := by decide +kernel
    rw [e]
    exact served_rest (by decide +kernel)
      (by intro i c f hm hij; simp [cnt0, cnt1, oneReq, Label.about, Label.ends] at hm ⊢; omega)
      (by intro i c f hm; refine ⟨0, ?_⟩; simp [cnt0, cnt1, oneReq] at hm ⊢; omega)

/-- Case of C88_in_time: two clients add 1 to `x`; the load is bounded. -/
example : ∃ σ, Run ext0 1 rng0 (untimed twice) σ ∧ Clocked twice ∧ .stop ∉ untimed twice ∧ (∀ p ∈ twice, p.1 ≤ 200000) ∧
    Prompt ext0 1 rng0 1000 200000 twice ∧ Load 1 12000 twice ∧ (∀ w j p, .crash w j p ∉ untimed twice) ∧
    (∀ t i c f, (t, .recv i c f) ∈ twice → t + 12000 < 200000 ∧ .quiet i ∉ untimed twice) ∧
    Reserved Decodes (visible (untimed twice)) (b! "x") StrSpec.counters ∧
    AllAdds Decodes (visible (untimed twice)) (b! "x") [(0, 1), (1, 1)] := by
  obtain ⟨σ, h⟩ := twice_run
  have hv : visible (untimed twice) = [.call 0 0 stockX, .ret 0 0 (b! ":1\r\n"), .call 1 1 incrX, .ret 1 1 (b! ":2\r\n")] := by
    rw [twice_untimed]; rfl
  have hsent : ∀ i req, Sent Decodes (visible (untimed twice)) i req →
      (i = 0 ∧ req = [b! "INCRBY", b! "x", b! "1"]) ∨ (i = 1 ∧ req = [b! "INCR", b! "x"]) := by
    rintro i req ⟨c, b, h1, h2⟩
    rw [hv] at h1
    simp only [List.mem_cons, Linear.Ev.call.injEq, reduceCtorEq, List.not_mem_nil, or_false, false_or] at h1
    rcases h1 with ⟨rfl, _, rfl⟩ | ⟨rfl, _, rfl⟩
    · exact .inl ⟨rfl, decodes_det h2 stockX_request⟩
    · exact .inr ⟨rfl, decodes_det h2 incrX_request⟩
  refine ⟨σ, h, ⟨by decide +kernel, ?_⟩, by decide +kernel, by decide +kernel, Steady.prompt (R := [0, 9, 18]) (by decide +kernel) twice_rest,
    ?_, ?_, ?_, ?_, ⟨by decide, fun i d => ⟨?_, ?_⟩⟩⟩
  · intro t i hm; simp [twice, every, cnt0, cnt1, oneReq] at hm
  · intro t
    simp only [twice, cnt0, cnt1, every, oneReq, List.cons_append, List.nil_append, List.countP_cons, List.countP_nil, Label.isRecv,
      Bool.false_and, Bool.true_and, Bool.and_eq_true, decide_eq_true_eq]
    simp
    split <;> split <;> omega
  · intro w j p hm; rw [twice_untimed] at hm; simp [cnt0, cnt1, oneReq] at hm
  · intro t i c f hm
    refine ⟨?_, fun hq => ?_⟩
    · simp [twice, every, cnt0, cnt1, oneReq] at hm; omega
    · rw [twice_untimed] at hq; simp [cnt0, cnt1, oneReq] at hq
  · intro i req hs
    rcases hsent i req hs with ⟨_, rfl⟩ | ⟨_, rfl⟩ <;> exact ⟨by unfold ListSpec.Plain StrSpec.Ascii; decide, fun _ => by decide⟩
  · intro hm
    simp only [List.mem_cons, Prod.mk.injEq, List.not_mem_nil, or_false] at hm
    rcases hm with ⟨rfl, rfl⟩ | ⟨rfl, rfl⟩
    · exact ⟨_, ⟨0, _, by rw [hv]; simp, stockX_request⟩, adds_stockX.mpr rfl⟩
    · exact ⟨_, ⟨1, _, by rw [hv]; simp, incrX_request⟩, adds_incrX.mpr rfl⟩
  · rintro ⟨req, hs, ha⟩
    rcases hsent i req hs with ⟨rfl, rfl⟩ | ⟨rfl, rfl⟩
    · rw [adds_stockX.mp ha]; simp
    · rw [adds_incrX.mp ha]; simp

end Godis.Event

namespace Godis.V1
open Resp (Reply)
open Event (Decodes visible)
open CoordSpec
open StrSpec (CountsAs Wraps)

section
variable {ext : Ext} {rng : Rng} {L : List VLabel} {v : Srv} {k : Bytes}

/-- C88, v1 server. -/
theorem C88_v1_in_line (h : VRun ext rng L v) (hr : Reserved Decodes (visible (sysLabels L)) k StrSpec.counters) :
    ∃ l, InLine Decodes (visible (sysLabels L)) k l := by
  obtain ⟨l, _, _, h1, _⟩ := Event.C88_in_line h.run hr
  exact ⟨l, h1⟩

/-- C88, v1 server. -/
theorem C88_v1_total_seen (h : VRun ext rng L v) (hr : Reserved Decodes (visible (sysLabels L)) k StrSpec.counters) {ps : List (Nat × Int)}
    (hps : AllAdds Decodes (visible (sysLabels L)) k ps) {g req m} (sg : Sent Decodes (visible (sysLabels L)) g req) (og : On (b! "get") k req)
    (gg : Got (visible (sysLabels L)) g m) (hall : ∀ p ∈ ps, Answered (visible (sysLabels L)) p.1 g) :
    ∃ n, CountsAs m n ∧ Wraps n (ps.map (·.2)).sum :=
  Event.C88_total_seen h.run hr hps sg og gg hall

/-- C88, v1 server. -/
theorem C88_v1_sale (h : VRun ext rng L v) (hr : Reserved Decodes (visible (sysLabels L)) k StrSpec.counters) {i0 n : Nat}
    (hs : Sale Decodes (visible (sysLabels L)) k i0 n) (hn : n < 2 ^ 63) (hlen : (visible (sysLabels L)).length < 2 ^ 63) {rs : List Nat}
    (hnd : rs.Nodup) (hrs : ∀ i ∈ rs, Buys Decodes (visible (sysLabels L)) k i0 i) : rs.length ≤ n :=
  Event.C88_sale h.run hr hs hn hlen hnd hrs

/-- C88, v1 server. -/
theorem C88_v1_sale_exact (h : VRun ext rng L v) (hr : Reserved Decodes (visible (sysLabels L)) k StrSpec.counters) {i0 n : Nat}
    (hs : Sale Decodes (visible (sysLabels L)) k i0 n) (hn : n < 2 ^ 63) (hlen : (visible (sysLabels L)).length < 2 ^ 63) {rs ds : List Nat}
    (hnd : rs.Nodup) (hrs : ∀ i, i ∈ rs ↔ Buys Decodes (visible (sysLabels L)) k i0 i) (hdd : ds.Nodup)
    (hds : ∀ i, i ∈ ds ↔ i ≠ i0 ∧ ∃ req d, Sent Decodes (visible (sysLabels L)) i req ∧ Adds k req d)
    (hall : ∀ i ∈ ds, ∃ m, Got (visible (sysLabels L)) i m) : rs.length = min n ds.length :=
  Event.C88_sale_exact h.run hr hs hn hlen hnd hrs hdd hds hall

end
end Godis.V1
