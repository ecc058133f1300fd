import Verif.Props.Totals
import Verif.Props.Snapshots
import Verif.Spec.Causal
/-!
# Word of mouth: C90

Clients learn of each other's requests from answers, from registers and from queues on the server.  Whatever a client can know of has
happened for it.
-/
namespace Godis.Event
open Resp (Reply Denotes)
open Linear (Before Op)
open StrSpec (lower isError CountsAs Wraps)
open ListSpec (Plain OnlyUses items)
open CoordSpec

theorem window_mem {l : List Bytes} {i j : Int} {x : Bytes} (h : x ∈ ListSpec.window l i j) : x ∈ l := by
  unfold ListSpec.window at h
  obtain ⟨q, hq, rfl⟩ := List.mem_map.mp h
  obtain ⟨h1, h2, h3⟩ := List.mem_zipIdx (List.mem_filter.mp hq).1
  rw [h3]; exact List.getElem_mem _

theorem countsAs_unique {m : Reply} {n n' : Int} (h : CountsAs m n) (h' : CountsAs m n') : n = n' := by
  rcases h with ⟨rfl, rfl⟩ | ⟨t, rfl, ht⟩ <;> rcases h' with ⟨h1, h2⟩ | ⟨t', h1, h2⟩
  · exact h2.symm
  · cases h1
  · cases h1
  · cases h1
    rw [ht] at h2
    exact Option.some.inj h2

/-- the increments that a counter shows -/
theorem counted_all {ext rng L s ops c} (he : Explains ext rng L s ops)
    (hr : Reserved Decodes (visible L) c StrSpec.counters) {ps : List Nat} (hl : ps.length < 2 ^ 63)
    (hall : ∀ n r d, Sent Decodes (visible L) n r → Adds c r d → d = 1 ∧ n ∈ ps) {A B : List Op} {p : Op} (e : ops = A ++ p :: B)
    (op : On (b! "get") c p.req) (hc : CountsAs p.reply ps.length) {i : Nat} (hi : i ∈ ps) : ∃ o ∈ A, o.id = i := by
  have e' : ops.map pair = A.map pair ++ (p.req, p.reply) :: B.map pair := by rw [e]; simp [pair]
  have htr := he.trace
  have hpl := he.plain hr
  have hus := he.uses hr
  rw [e'] at htr hpl hus
  obtain ⟨s1, it, s2, h1, ha, _⟩ := htr.mid
  obtain ⟨m', n, g1, g2, g3⟩ := counts h1 (fun q hq => hpl q (by simp [hq])) (fun q hq => hus q (by simp [hq]))
  have hm : p.reply = m' := by
    obtain ⟨name, rest, hreq, hn⟩ := op
    rw [hreq] at ha
    have hasc : StrSpec.Ascii name := (hpl (p.req, p.reply) (by simp)).1 name (by rw [hreq]; rfl)
    have hlk : lookupCmd (toLower ext.lowerUni name) = some .get := by rw [lower_eq hasc, hn]; rfl
    have ha' : Answers ext it s1 (b! "get" :: c :: rest) p.reply s2 := by
      rw [answers_iff (c := .get) rfl]; exact (answers_iff hlk).mp ha
    rw [((get_answers (h1.typed (typed_init rng))).mp ha').1, ((get_answers (h1.typed (typed_init rng))).mp (g1 it)).1]
  rw [hm] at hc
  have hn := countsAs_unique g2 hc
  rw [← additions_sum] at g3
  have one : ∀ q ∈ additions c A, q.2 = 1 ∧ q.1 ∈ ps := by
    rintro ⟨j, d⟩ hq
    obtain ⟨o, ho, rfl, hd⟩ := mem_additions.mp hq
    exact hall _ _ _ (he.sent o (by rw [e]; simp [ho])) (added_iff.mp hd).1
  have hsum : ∀ l : List (Nat × Int), (∀ q ∈ l, q.2 = 1 ∧ q.1 ∈ ps) → (l.map (·.2)).sum = l.length := by
    intro l hq
    induction l with
    | nil => rfl
    | cons q l ih =>
      rw [List.map_cons, List.sum_cons, ih fun z hz => hq z (by simp [hz]), (hq q (by simp)).1, List.length_cons]
      push_cast; omega
  rw [hsum _ one] at g3
  have hnd : ((additions c A).map (·.1)).Nodup := by
    refine (additions_sublist c A).nodup ?_
    have := he.nodup
    rw [e, List.map_append, List.nodup_append] at this
    exact this.1
  have hsp : ((additions c A).map (·.1)).Subperm ps := by
    refine List.subperm_of_subset hnd fun j hj => ?_
    obtain ⟨q, hq, rfl⟩ := List.mem_map.mp hj
    exact (one q hq).2
  have hle := hsp.length_le
  rw [List.length_map] at hle
  have hlen : (additions c A).length = ps.length := by
    obtain ⟨_, h3⟩ := g3
    subst hn
    omega
  have hperm := hsp.perm_of_length_le (by rw [List.length_map]; omega)
  obtain ⟨q, hq, rfl⟩ := List.mem_map.mp (hperm.mem_iff.mpr hi)
  obtain ⟨o, ho, hoi, _⟩ := (mem_additions (i := q.1) (d := q.2)).mp hq
  exact ⟨o, ho, hoi⟩

theorem tells_before {ext rng L σ ops} (h : Run ext 1 rng L σ) (he : Explains ext rng L σ.store ops) {i j}
    (ht : Informs Decodes (visible L) i j) : ∃ o ∈ ops, o.id = i ∧ ∀ o' ∈ ops, o'.id = j → Before ops o o' := by
  have hnd : ops.Nodup := List.Nodup.of_map _ he.nodup
  cases ht with
  | answered ha =>
    obtain ⟨o, ho, rfl⟩ := he.done _ _ ha
    exact ⟨o, ho, rfl, fun o' ho' e => he.order o ho o' ho' (e ▸ ha)⟩
  | @read ri rj f w hr si pi only sj oj gj =>
    obtain ⟨p, hp, rfl, hrep⟩ := he.got _ _ gj
    have op : On (b! "get") f p.req := by rw [← sent_unique h sj (he.sent p hp)]; exact oj
    obtain ⟨A, B, e⟩ := List.mem_iff_append.mp hp
    have hrd := read_last he hr e op
    rw [hrep] at hrd
    injection hrd with hrd
    rcases lastPut_cases f A with ⟨A1, o, A2, rfl, h1, h2⟩ | ⟨h1, _⟩
    · have ho : o ∈ ops := by rw [e]; simp
      rw [← hrd] at h1
      refine ⟨o, ho, only _ _ (he.sent o ho) (putOf_iff.mp h1), fun o' ho' e' => ?_⟩
      obtain rfl := he.same ho' hp e'
      exact before_of_mem e (by simp)
    · rw [h1] at hrd; cases hrd
  | @popped rj q x m hr only sj oj gj hx =>
    obtain ⟨p, hp, rfl, rfl⟩ := he.got _ _ gj
    have op : On (b! "lpop") q p.req := by rw [← sent_unique h sj (he.sent p hp)]; exact oj
    obtain ⟨A, B, e⟩ := List.mem_iff_append.mp hp
    have e' : ops.map pair = (A ++ [p]).map pair ++ B.map pair := by rw [e]; simp
    have htr := he.trace
    have hpl := he.plain hr
    have hus := he.uses hr
    rw [e'] at htr hpl hus
    obtain ⟨s1, h1, _⟩ := htr.split
    have hf := (fifo_trace h1 (fun z hz => hpl z (List.mem_append_left _ hz)) (fun z hz => hus z (List.mem_append_left _ hz))).2
    rw [pushed_eq, popped_eq] at hf
    have hin : x ∈ (A ++ [p]).flatMap (pushes q) := by
      rw [hf]
      refine List.mem_append_left _ (List.mem_flatMap.mpr ⟨p, by simp, ?_⟩)
      rw [pops_on op]; exact hx
    obtain ⟨o, ho, hxo⟩ := List.mem_flatMap.mp hin
    obtain ⟨name, hreq, hn⟩ := mem_pushes hxo
    have hoA : o ∈ A := by
      rcases List.mem_append.mp ho with h1 | h1
      · exact h1
      · obtain rfl := List.mem_singleton.mp h1
        obtain ⟨name', args, e1, e2⟩ := op
        rw [hreq] at e1
        cases e1
        rw [hn] at e2
        cases e2
    have hoo : o ∈ ops := by rw [e]; simp [hoA]
    have sq := he.sent o hoo
    rw [hreq] at sq
    refine ⟨o, hoo, only _ _ _ sq hn hxo, fun o' ho' e'' => ?_⟩
    obtain rfl := he.same ho' hp e''
    exact before_of_mem e hoA
  | @listed name q a b rest x m ia ib hr only sj hn ia' ib' gj hx =>
    obtain ⟨p, hp, rfl, rfl⟩ := he.got _ _ gj
    have rp := sent_unique h (he.sent p hp) sj
    obtain ⟨A, B, e⟩ := List.mem_iff_append.mp hp
    have e' : ops.map pair = A.map pair ++ (p.req, p.reply) :: B.map pair := by rw [e]; simp [pair]
    have hh := (log_hears (e' ▸ he.trace) (e' ▸ he.plain hr) (e' ▸ he.uses hr)).1.1 name a b rest ia ib rp hn ia' ib'
    rw [hh, pushed_eq] at hx
    have hin : x ∈ A.flatMap (pushes q) := by
      rw [items_bulks] at hx
      exact window_mem hx
    obtain ⟨o, hoA, hxo⟩ := List.mem_flatMap.mp hin
    obtain ⟨name', hreq, hn'⟩ := mem_pushes hxo
    have hoo : o ∈ ops := by rw [e]; simp [hoA]
    have sq := he.sent o hoo
    rw [hreq] at sq
    refine ⟨o, hoo, only _ _ _ sq hn' hxo, fun o' ho' e'' => ?_⟩
    obtain rfl := he.same ho' hp e''
    exact before_of_mem e hoA
  | @refused name s x hr only sj hn gj =>
    obtain ⟨p, hp, rfl, hrep⟩ := he.got _ _ gj
    have rp := sent_unique h (he.sent p hp) sj
    obtain ⟨A, B, e⟩ := List.mem_iff_append.mp hp
    have e' : ops.map pair = A.map pair ++ (p.req, p.reply) :: B.map pair := by rw [e]; simp [pair]
    have hh := sadd_reply (e' ▸ he.trace) (e' ▸ he.plain hr) (e' ▸ he.uses hr) rp hn
    rw [hrep] at hh
    have hin : x ∈ offered s (A.map pair) := by
      by_contra hx
      rw [show [x].toFinset \ offered s (A.map pair) = {x} by
        ext y; simp only [List.toFinset_cons, List.toFinset_nil, Finset.mem_sdiff, Finset.mem_insert, Finset.notMem_empty, or_false, Finset.mem_singleton]
        exact ⟨fun h => h.1, fun h => ⟨h, h ▸ hx⟩⟩] at hh
      simp at hh
    obtain ⟨o, hoA, name', xs, hreq, hn', hxo⟩ := offered_mem.mp hin
    have hoo : o ∈ ops := by rw [e]; simp [hoA]
    have hb := before_of_mem e hoA
    have sq := he.sent o hoo
    rw [hreq] at sq
    refine ⟨o, hoo, only _ _ _ (fun hid => ?_) sq hn' hxo, fun o' ho' e'' => ?_⟩
    · obtain rfl := he.same hoo hp hid
      exact before_asymm hnd hb hb
    · obtain rfl := he.same ho' hp e''
      exact hb
  | @counted rj c m ps hr hl hall sj oj gj hc hi =>
    obtain ⟨p, hp, rfl, rfl⟩ := he.got _ _ gj
    have op : On (b! "get") c p.req := by rw [← sent_unique h sj (he.sent p hp)]; exact oj
    obtain ⟨A, B, e⟩ := List.mem_iff_append.mp hp
    obtain ⟨o, hoA, hoi⟩ := counted_all he hr hl hall e op hc hi
    refine ⟨o, by rw [e]; simp [hoA], hoi, fun o' ho' e'' => ?_⟩
    obtain rfl := he.same ho' hp e''
    exact before_of_mem e hoA

theorem reaches_before {ext rng L σ ops} (h : Run ext 1 rng L σ) (he : Explains ext rng L σ.store ops) {i j}
    (ht : Reaches Decodes (visible L) i j) : ∃ o ∈ ops, o.id = i ∧ ∀ o' ∈ ops, o'.id = j → Before ops o o' := by
  have hnd : ops.Nodup := List.Nodup.of_map _ he.nodup
  induction ht with
  | one ht => exact tells_before h he ht
  | step _ ht ih =>
    obtain ⟨o, ho, hi, hb⟩ := ih
    obtain ⟨o1, ho1, hi1, hb1⟩ := tells_before h he ht
    exact ⟨o, ho, hi, fun o' ho' e => before_trans hnd (hb o1 ho1 hi1) (hb1 o' ho' e)⟩

/-- **C90 (one order for all).**  There is one order of requests that explains every answer any client received, in which a request
of which word reached another one was executed, and before that one. -/
theorem C90_one_order {ext rng L σ} (h : Run ext 1 rng L σ) : ∃ ops : List Op,
    Trace ext (Store.init rng) (ops.map fun o => (o.req, o.reply)) σ.store ∧ (ops.map (·.id)).Nodup ∧
    (∀ o ∈ ops, Sent Decodes (visible L) o.id o.req) ∧
    (∀ i m, Got (visible L) i m → ∃ o ∈ ops, o.id = i ∧ o.reply = m) ∧
    ∀ i j, Reaches Decodes (visible L) i j → ∃ o ∈ ops, o.id = i ∧ ∀ o' ∈ ops, o'.id = j → Before ops o o' := by
  obtain ⟨ops, he⟩ := explained h
  exact ⟨ops, he.trace, he.nodup, he.sent, he.got, fun i j hr => reaches_before h he hr⟩

/-- **C90 (no circles).**  No request hears of itself. -/
theorem C90_no_circle {ext rng L σ} (h : Run ext 1 rng L σ) (i : Nat) : ¬ Reaches Decodes (visible L) i i := by
  intro hr
  obtain ⟨ops, he⟩ := explained h
  obtain ⟨o, ho, hi, hb⟩ := reaches_before h he hr
  have hnd : ops.Nodup := List.Nodup.of_map _ he.nodup
  exact before_asymm hnd (hb o ho hi) (hb o ho hi)

/-- **C90 (registers).**  A GET returns a text (or nil) that was put by a SET (or DEL) which did not hear of the GET, and which was not
overwritten by another SET or DEL that heard of it and of which the GET heard; it returns nil without any DEL only if it heard of
no SET or DEL. -/
theorem C90_register {ext rng L σ k} (h : Run ext 1 rng L σ) (hr : Reserved Decodes (visible L) k [b! "set", b! "del"])
    {i req m} (si : Sent Decodes (visible L) i req) (oi : On (b! "get") k req) (gi : Got (visible L) i m) :
    ∃ w, m = .bulk w ∧
      ((∃ j r, Sent Decodes (visible L) j r ∧ Puts k r w ∧ ¬ Reaches Decodes (visible L) i j ∧
          ∀ j' r' w', Sent Decodes (visible L) j' r' → Puts k r' w' →
            ¬ (Reaches Decodes (visible L) j j' ∧ Reaches Decodes (visible L) j' i)) ∨
       (w = none ∧ ∀ j r w', Sent Decodes (visible L) j r → Puts k r w' → ¬ Reaches Decodes (visible L) j i)) := by
  obtain ⟨ops, he⟩ := explained h
  have hnd : ops.Nodup := List.Nodup.of_map _ he.nodup
  obtain ⟨p, hp, rfl, rfl⟩ := he.got _ _ gi
  have op : On (b! "get") k p.req := by rw [← sent_unique h si (he.sent p hp)]; exact oi
  obtain ⟨A, B, e⟩ := List.mem_iff_append.mp hp
  refine ⟨_, read_last he hr e op, ?_⟩
  rcases lastPut_cases k A with ⟨A1, o, A2, rfl, h1, h2⟩ | ⟨h1, h2⟩
  · have ho : o ∈ ops := by rw [e]; simp
    refine .inl ⟨o.id, o.req, he.sent o ho, putOf_iff.mp h1, fun ha => ?_, ?_⟩
    · obtain ⟨p', hp', e', hb⟩ := reaches_before h he ha
      obtain rfl := he.same hp' hp e'
      exact before_asymm hnd (before_of_mem e (by simp)) (hb o ho rfl)
    · rintro j' r' w' sj' hw' ⟨ha1, ha2⟩
      obtain ⟨o', ho', rfl, hb2⟩ := reaches_before h he ha2
      obtain ⟨o1, ho1, e1, hb1⟩ := reaches_before h he ha1
      obtain rfl := he.same ho1 ho e1
      rw [sent_unique h sj' (he.sent o' ho')] at hw'
      have b1 := hb1 o' ho' rfl
      have b2 := mem_of_before hnd e (hb2 p hp rfl)
      simp only [List.mem_append, List.mem_cons] at b2
      have e2 : ops = A1 ++ o1 :: (A2 ++ p :: B) := by rw [e]; simp
      rcases b2 with b2 | rfl | b2
      · exact before_asymm hnd b1 (before_of_mem e2 b2)
      · exact before_asymm hnd b1 b1
      · have := h2 o' b2
        rw [putOf_iff.mpr hw'] at this
        cases this
  · refine .inr ⟨h1, fun j r w' sj hw' ha => ?_⟩
    obtain ⟨o', ho', rfl, hb⟩ := reaches_before h he ha
    rw [sent_unique h sj (he.sent o' ho')] at hw'
    have := h2 o' (mem_of_before hnd e (hb p hp rfl))
    rw [putOf_iff.mpr hw'] at this
    cases this

/-- **C90 (who hears of it, sees it).**  If word of a SET reached a GET of the same key, and word of every other SET and DEL of the key
reached that SET, then the GET returns the text of the SET. -/
theorem C90_fresh {ext rng L σ k} (h : Run ext 1 rng L σ) (hr : Reserved Decodes (visible L) k [b! "set", b! "del"])
    {i req m j r w} (si : Sent Decodes (visible L) i req) (oi : On (b! "get") k req) (gi : Got (visible L) i m)
    (sj : Sent Decodes (visible L) j r) (hw : Puts k r w) (hji : Reaches Decodes (visible L) j i)
    (hq : ∀ j' r' w', j' ≠ j → Sent Decodes (visible L) j' r' → Puts k r' w' → Reaches Decodes (visible L) j' j) :
    m = .bulk w := by
  obtain ⟨w', rfl, ⟨j', r', sj', hw', _, hlast⟩ | ⟨_, hno⟩⟩ := C90_register h hr si oi gi
  · by_cases hj : j' = j
    · subst hj
      rw [sent_unique h sj sj'] at hw
      rw [← putOf_iff] at hw hw'
      rw [hw] at hw'
      cases hw'; rfl
    · exact absurd ⟨hq j' r' w' hj sj' hw', hji⟩ (hlast j r w sj hw)
  · exact absurd hji (hno j r w sj hw)

/-- the run, the keys and the words of the example: client 0 sends `SET x 5` and has no answer yet; client 1 reads 5 and, having that
answer, pushes `a` to `q`; client 2 pops `a` before that push is answered, and then reads `x`; the answers to client 0 and to the
push come last -/
def told : List Act :=
  [.recv 0 0 setX5, .handle 0, .handle 0, .work 0, .work 0, .work 0, .work 0] ++ whole 1 1 getX ++
  [.recv 2 1 rpushQ, .handle 2, .handle 2, .work 0, .work 0, .work 0, .work 0] ++ whole 3 2 lpopQ ++ whole 4 2 getX ++
  [.handle 0, .handle 0, .handle 2, .handle 2]

/-- Case of C90: word of the SET reaches the last GET, although the SET was not answered before. -/
example : ∃ L σ, Run ext0 1 rng0 L σ ∧ Reserved Decodes (visible L) (b! "x") [b! "set", b! "del"] ∧
    Reserved Decodes (visible L) (b! "q") [b! "rpush", b! "lpop"] ∧
    Sent Decodes (visible L) 0 [b! "SET", b! "x", b! "5"] ∧ Puts (b! "x") [b! "SET", b! "x", b! "5"] (some (b! "5")) ∧
    (∀ n r w, n ≠ 0 → Sent Decodes (visible L) n r → Puts (b! "x") r w → Reaches Decodes (visible L) n 0) ∧
    Sent Decodes (visible L) 4 [b! "GET", b! "x"] ∧ On (b! "get") (b! "x") [b! "GET", b! "x"] ∧
    Got (visible L) 4 (.bulk (some (b! "5"))) ∧
    Reaches Decodes (visible L) 0 4 ∧ ¬ Answered (visible L) 0 4 := by
  have hd : (trySchedule ext0 it0 1 rng0 told).map (fun p => visible p.1) =
      some [.call 0 0 setX5, .call 1 1 getX, .ret 1 1 (b! "$1\r\n5\r\n"), .call 2 1 rpushQ, .call 3 2 lpopQ,
        .ret 3 2 (b! "*1\r\n$1\r\na\r\n"), .call 4 2 getX, .ret 4 2 (b! "$1\r\n5\r\n"), .ret 0 0 (b! "+OK\r\n"), .ret 2 1 (b! ":1\r\n")] := by
    decide +kernel
  obtain ⟨r, hr, hv⟩ := Option.map_eq_some_iff.mp hd
  have hsent : ∀ i req, Sent Decodes (visible r.1) i req →
      (i = 0 ∧ req = [b! "SET", b! "x", b! "5"]) ∨ (i = 2 ∧ req = [b! "RPUSH", b! "q", b! "a"]) ∨
      (i = 3 ∧ req = [b! "LPOP", b! "q"]) ∨ ((i = 1 ∨ i = 4) ∧ req = [b! "GET", b! "x"]) := by
    rintro i req ⟨c, b, h1, h2⟩
    rw [hv] at h1
    simp only [List.mem_cons, Linear.Ev.call.injEq, reduceCtorEq, List.not_mem_nil, or_false, false_or] at h1
    rcases h1 with ⟨rfl, _, rfl⟩ | ⟨rfl, _, rfl⟩ | ⟨rfl, _, rfl⟩ | ⟨rfl, _, rfl⟩ | ⟨rfl, _, rfl⟩
    · exact .inl ⟨rfl, decodes_det h2 setX5_request⟩
    · exact .inr (.inr (.inr ⟨.inl rfl, decodes_det h2 getX_request⟩))
    · exact .inr (.inl ⟨rfl, decodes_det h2 decodes_rpushQ⟩)
    · exact .inr (.inr (.inl ⟨rfl, decodes_det h2 decodes_lpopQ⟩))
    · exact .inr (.inr (.inr ⟨.inr rfl, decodes_det h2 getX_request⟩))
  have only : ∀ n r' w, Sent Decodes (visible r.1) n r' → Puts (b! "x") r' w → n = 0 := by
    intro n r' w hs hput
    have := putOf_iff.mpr hput
    rcases hsent n r' hs with ⟨rfl, rfl⟩ | ⟨rfl, rfl⟩ | ⟨_, rfl⟩ | ⟨_, rfl⟩
    · rfl
    all_goals cases this
  have hx : Reserved Decodes (visible r.1) (b! "x") [b! "set", b! "del"] := by
    intro i req hs
    rcases hsent i req hs with ⟨_, rfl⟩ | ⟨_, rfl⟩ | ⟨_, rfl⟩ | ⟨_, rfl⟩ <;>
      exact ⟨by unfold Plain StrSpec.Ascii; decide, by decide⟩
  have hq : Reserved Decodes (visible r.1) (b! "q") [b! "rpush", b! "lpop"] := by
    intro i req hs
    rcases hsent i req hs with ⟨_, rfl⟩ | ⟨_, rfl⟩ | ⟨_, rfl⟩ | ⟨_, rfl⟩ <;>
      exact ⟨by unfold Plain StrSpec.Ascii; decide, by decide⟩
  have s0 : Sent Decodes (visible r.1) 0 [b! "SET", b! "x", b! "5"] := ⟨0, setX5, by rw [hv]; simp, setX5_request⟩
  have s1 : Sent Decodes (visible r.1) 1 [b! "GET", b! "x"] := ⟨1, getX, by rw [hv]; simp, getX_request⟩
  have s3 : Sent Decodes (visible r.1) 3 [b! "LPOP", b! "q"] := ⟨2, lpopQ, by rw [hv]; simp, decodes_lpopQ⟩
  have s4 : Sent Decodes (visible r.1) 4 [b! "GET", b! "x"] := ⟨2, getX, by rw [hv]; simp, getX_request⟩
  have p0 : Puts (b! "x") [b! "SET", b! "x", b! "5"] (some (b! "5")) := putOf_iff.mp rfl
  have da : Denotes (b! "*1\r\n$1\r\na\r\n") (Resp.bulks [b! "a"]) :=
    isRequest_denotes ⟨b! "1", _, by rfl, .cons (d := b! "1") (a := b! "a") (by rfl) .nil, by rfl⟩
  have g1 : Got (visible r.1) 1 (.bulk (some (b! "5"))) := ⟨1, _, by rw [hv]; simp, denotes_five, nofun⟩
  have g3 : Got (visible r.1) 3 (Resp.bulks [b! "a"]) := ⟨2, _, by rw [hv]; simp, da, nofun⟩
  have a12 : Answered (visible r.1) 1 2 := ⟨1, b! "$1\r\n5\r\n", 1, rpushQ, by rw [hv]; exact ⟨[_, _], [], _, rfl⟩, fun h => by
    have := denotes_unique h denotes_five; cases this⟩
  have a34 : Answered (visible r.1) 3 4 := ⟨2, b! "*1\r\n$1\r\na\r\n", 2, getX, by rw [hv]; exact ⟨[_, _, _, _, _], [], _, rfl⟩, fun h => by
    have := denotes_unique h da; cases this⟩
  refine ⟨r.1, r.2, try_run hr, hx, hq, s0, p0, fun n r' w hn hs hput => absurd (only n r' w hs hput) hn, s4, ⟨_, [], rfl, rfl⟩,
    ⟨2, _, by rw [hv]; simp, denotes_five, nofun⟩,
    .step (.step (.step (.one (.read hx s0 p0 (fun n r' hs hput => only n r' _ hs hput) s1 ⟨_, [], rfl, rfl⟩ g1)) (.answered a12))
      (.popped (x := b! "a") hq ?_ s3 ⟨_, [], rfl, rfl⟩ g3 (by decide))) (.answered a34), ?_⟩
  · intro n name vs hs hn _
    rcases hsent _ _ hs with ⟨_, h⟩ | ⟨rfl, _⟩ | ⟨_, h⟩ | ⟨_, h⟩
    · cases h
    · rfl
    · cases h; exact absurd hn (by decide)
    · cases h
  · rintro ⟨c, b, c', b', ⟨l1, l2, l3, e⟩, _⟩
    rw [hv] at e
    have hmem : ∀ {A B : List Linear.Ev} {x y : Linear.Ev}, A ++ x :: B = l1 ++ .ret 0 c b :: (l2 ++ .call 4 c' b' :: l3) →
        (∀ z ∈ A, ∀ c b, z ≠ .ret 0 c b) → y = .call 4 c' b' → y ∈ B := by
      intro A B x y e hA rfl
      rcases List.append_eq_append_iff.mp e with ⟨d, rfl, h⟩ | ⟨d, rfl, h⟩
      · cases d with
        | nil => injection h with _ h; subst h; simp
        | cons z d => injection h with _ h; subst h; simp
      · cases d with
        | nil => injection h with _ h; subst h; simp
        | cons z d => injection h with h _; exact absurd h.symm (hA _ (by simp) c b)
    have := hmem (A := [.call 0 0 setX5, .call 1 1 getX, .ret 1 1 (b! "$1\r\n5\r\n"), .call 2 1 rpushQ, .call 3 2 lpopQ,
        .ret 3 2 (b! "*1\r\n$1\r\na\r\n"), .call 4 2 getX, .ret 4 2 (b! "$1\r\n5\r\n")]) e (by
          intro z hz c b
          simp only [List.mem_cons, List.not_mem_nil, or_false] at hz
          rcases hz with rfl | rfl | rfl | rfl | rfl | rfl | rfl | rfl <;> nofun) rfl
    simp at this

/-- Case of a barrier: clients 0 and 1 increment `x` and have no answer yet; client 2 reads 2 and so hears of both. -/
example : ∃ L σ, Run ext0 1 rng0 L σ ∧ Reaches Decodes (visible L) 0 2 ∧ Reaches Decodes (visible L) 1 2 := by
  have hd : (trySchedule ext0 it0 1 rng0 (
      [.recv 0 0 incrX, .handle 0, .handle 0, .work 0, .work 0, .work 0, .work 0,
       .recv 1 1 incrX, .handle 1, .handle 1, .work 0, .work 0, .work 0, .work 0] ++ whole 2 2 getX)).map (fun p => visible p.1) =
      some [.call 0 0 incrX, .call 1 1 incrX, .call 2 2 getX, .ret 2 2 (b! "$1\r\n2\r\n")] := by
    decide +kernel
  obtain ⟨r, hr, hv⟩ := Option.map_eq_some_iff.mp hd
  have hsent : ∀ i req, Sent Decodes (visible r.1) i req →
      ((i = 0 ∨ i = 1) ∧ req = [b! "INCR", b! "x"]) ∨ (i = 2 ∧ req = [b! "GET", b! "x"]) := by
    rintro i req ⟨c, b, h1, h2⟩
    rw [hv] at h1
    simp only [List.mem_cons, Linear.Ev.call.injEq, reduceCtorEq, List.not_mem_nil, or_false, false_or] at h1
    rcases h1 with ⟨rfl, _, rfl⟩ | ⟨rfl, _, rfl⟩ | ⟨rfl, _, rfl⟩
    · exact .inl ⟨.inl rfl, decodes_det h2 incrX_request⟩
    · exact .inl ⟨.inr rfl, decodes_det h2 incrX_request⟩
    · exact .inr ⟨rfl, decodes_det h2 getX_request⟩
  have d2 : Denotes (b! "$1\r\n2\r\n") (.bulk (some (b! "2"))) := by
    refine ⟨1, fun f hf rest => ?_⟩
    obtain ⟨f, rfl⟩ : ∃ g, f = g + 1 := ⟨f - 1, by omega⟩
    have e : b! "$1\r\n2\r\n" ++ rest = 36 :: b! "1" ++ [13, 10] ++ b! "2" ++ [13, 10] ++ rest := rfl
    rw [e, parse_bulk (by decide) f]
  have all : ∀ i ∈ [0, 1], Informs Decodes (visible r.1) i 2 := by
    intro i hi
    refine .counted (c := b! "x") (m := .bulk (some (b! "2"))) (ps := [0, 1]) ?_ (by decide) ?_
      ⟨2, getX, by rw [hv]; simp, getX_request⟩ ⟨_, [], rfl, rfl⟩ ⟨2, _, by rw [hv]; simp, d2, nofun⟩ (.inr ⟨_, rfl, by decide +kernel⟩) hi
    · intro i req hs
      rcases hsent i req hs with ⟨_, rfl⟩ | ⟨_, rfl⟩ <;> exact ⟨by unfold Plain StrSpec.Ascii; decide, fun _ => by decide⟩
    · intro n q d hs ha
      rcases hsent n q hs with ⟨hn, rfl⟩ | ⟨_, rfl⟩
      · exact ⟨adds_incrX.mp ha, by rcases hn with rfl | rfl <;> decide⟩
      · exact absurd ha adds_getX
  exact ⟨r.1, r.2, try_run hr, .one (all 0 (by decide)), .one (all 1 (by decide))⟩

end Godis.Event

namespace Godis.V1
open Event (Decodes visible)
open Linear (Before Op)
open CoordSpec

/-! ## the v1 server -/

/-- C90, v1 server. -/
theorem C90_v1_one_order {ext rng L v} (h : VRun ext rng L v) : ∃ ops : List Op,
    Trace ext (Store.init rng) (ops.map fun o => (o.req, o.reply)) v.sys.store ∧ (ops.map (·.id)).Nodup ∧
    (∀ o ∈ ops, Sent Decodes (visible (sysLabels L)) o.id o.req) ∧
    (∀ i m, Got (visible (sysLabels L)) i m → ∃ o ∈ ops, o.id = i ∧ o.reply = m) ∧
    ∀ i j, Reaches Decodes (visible (sysLabels L)) i j → ∃ o ∈ ops, o.id = i ∧ ∀ o' ∈ ops, o'.id = j → Before ops o o' :=
  Event.C90_one_order h.run

/-- C90, v1 server. -/
theorem C90_v1_no_circle {ext rng L v} (h : VRun ext rng L v) (i : Nat) : ¬ Reaches Decodes (visible (sysLabels L)) i i :=
  Event.C90_no_circle h.run i

/-- C90, v1 server. -/
theorem C90_v1_register {ext rng L v k} (h : VRun ext rng L v)
    (hr : Reserved Decodes (visible (sysLabels L)) k [b! "set", b! "del"])
    {i req m} (si : Sent Decodes (visible (sysLabels L)) i req) (oi : On (b! "get") k req) (gi : Got (visible (sysLabels L)) i m) :
    ∃ w, m = .bulk w ∧
      ((∃ j r, Sent Decodes (visible (sysLabels L)) j r ∧ Puts k r w ∧ ¬ Reaches Decodes (visible (sysLabels L)) i j ∧
          ∀ j' r' w', Sent Decodes (visible (sysLabels L)) j' r' → Puts k r' w' →
            ¬ (Reaches Decodes (visible (sysLabels L)) j j' ∧ Reaches Decodes (visible (sysLabels L)) j' i)) ∨
       (w = none ∧ ∀ j r w', Sent Decodes (visible (sysLabels L)) j r → Puts k r w' → ¬ Reaches Decodes (visible (sysLabels L)) j i)) :=
  Event.C90_register h.run hr si oi gi

end Godis.V1
