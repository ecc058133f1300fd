import Verif.Props.Coord
/-!
# A key is an atomic register, a counter loses no increment: C74

For every schedule and any number of clients, about what they see at their sockets (Spec/Coord.lean).
-/
namespace Godis
open Resp (Reply)
open StrSpec (lower Ascii isError counters delta contrib CountsAs getReply)
open KeySpec (keyArgs readOnly)
open ListSpec (Plain OnlyUses)
open CoordSpec (On Puts Adds)

/-- what the request puts into `k` -/
def putOf (k : Bytes) : List Bytes → Option (Option Bytes)
  | name :: key :: rest =>
    if key = k then
      if lower name = b! "set" then rest.head?.map some
      else if lower name = b! "del" then some none else none
    else none
  | _ => none

theorem putOf_iff {k : Bytes} {req : List Bytes} {w} : putOf k req = some w ↔ Puts k req w := by
  match req with
  | [] => exact ⟨nofun, by rintro (⟨_, _, _, h, _⟩ | ⟨_, _, h, _⟩) <;> cases h⟩
  | [_] => exact ⟨nofun, by rintro (⟨_, _, _, h, _⟩ | ⟨_, _, h, _⟩) <;> cases h⟩
  | name :: key :: rest =>
    show (if key = k then if lower name = b! "set" then rest.head?.map some
      else if lower name = b! "del" then some none else none else none) = some w ↔ _
    constructor
    · intro h
      split at h
      · next hk =>
        subst hk
        split at h
        · next hn =>
          cases rest with
          | nil => cases h
          | cons v rest => cases h; exact .inl ⟨name, v, rest, rfl, hn, rfl⟩
        · split at h
          · next hn => cases h; exact .inr ⟨name, rest, rfl, hn, rfl⟩
          · cases h
      · cases h
    · rintro (⟨n, v, r, h, hn, rfl⟩ | ⟨n, r, h, hn, rfl⟩)
      · cases h; rw [if_pos rfl, if_pos hn]; rfl
      · cases h; rw [if_pos rfl, if_neg (by rw [hn]; decide), if_pos hn]

/-- what was put last -/
def lastPut (k : Bytes) (tr : List (List Bytes × Reply)) : Option Bytes :=
  tr.foldl (fun w p => (putOf k p.1).getD w) none

def textView : Option Bytes → StrSpec.View
  | none => .absent
  | some v => .str v

theorem register_trace {ext rng tr s k} (h : Trace ext (Store.init rng) tr s) (hp : ∀ p ∈ tr, Plain p.1)
    (hu : OnlyUses k [b! "set", b! "del"] tr) : viewOf s k = textView (lastPut k tr) := by
  have aux : ∀ {s0 : Store} {tr : List (List Bytes × Reply)} {s : Store}, Trace ext s0 tr s → s0 = Store.init rng →
      (∀ p ∈ tr, Plain p.1) → OnlyUses k [b! "set", b! "del"] tr → viewOf s k = textView (lastPut k tr) := by
    intro s0 tr s h
    induction h with
    | nil => intro e _ _; subst e; rfl
    | @snoc tr s1 it req m s2 h1 ha ih =>
      intro e hp hu
      subst e
      have i1 := ih rfl (fun p hq => hp p (by simp [hq])) (fun p hq => hu p (by simp [hq]))
      have ht := h1.typed (typed_init rng)
      have hur := hu (req, m) (by simp)
      have hl : lastPut k (tr ++ [(req, m)]) = (putOf k req).getD (lastPut k tr) := by simp [lastPut, List.foldl_append]
      rw [hl]
      obtain ⟨name, args, rfl, hc⟩ := ha.cases
      have hasc : Ascii name := (hp (name :: args, m) (by simp)).1 name rfl
      simp only [List.headD_cons, List.tail_cons, List.mem_cons, List.not_mem_nil, or_false] at hur
      have keep : ∀ {c : Cmd}, lookupCmd (toLower ext.lowerUni name) = some c → lower name ∉ [b! "set", b! "del"] → viewOf s2 k = viewOf s1 k := by
        intro c hl hn
        by_cases hk : k ∈ keyArgs (lower name) args
        · rcases hur hk with h | h
          · exact absurd (by simpa using h) hn
          · rw [C17_reads_change_nothing h ha]
        · obtain ⟨o, hf, _⟩ := (answers_iff hl).mp ha
          have he := fn_eff _ ht hf
          rw [lower_eq hasc] at hl
          rw [← lookup_name hl] at he
          unfold viewOf
          rw [he.keys_frame ht hk]
      rcases hc with ⟨hnone, rfl, _⟩ | ⟨c, o, hl, _, _⟩
      · have : putOf k (name :: args) = none := by
          cases hq : putOf k (name :: args) with
          | none => rfl
          | some w =>
            exfalso
            rw [lower_eq hasc] at hnone
            rcases putOf_iff.mp hq with ⟨n, v, r, h, hn, _⟩ | ⟨n, r, h, hn, _⟩
            · cases h; rw [hn] at hnone; cases hnone
            · cases h; rw [hn] at hnone; cases hnone
        rw [this]; exact i1
      · by_cases hset : lower name = b! "set"
        · have hlk : lookupCmd (toLower ext.lowerUni name) = some .set := by rw [lower_eq hasc, hset]; rfl
          obtain ⟨o, hf, _⟩ := (answers_iff hlk).mp ha
          match args, hf, ha with
          | k' :: v :: rest, hf, ha =>
            simp only [Cmd.fn, cmdSet] at hf
            cases hf
            rw [set_view]
            by_cases hk : k = k'
            · subst hk
              rw [if_pos rfl, putOf_iff.mpr (.inl ⟨name, v, rest, rfl, hset, rfl⟩)]; rfl
            · rw [if_neg hk, i1]
              have : putOf k (name :: k' :: v :: rest) = none := if_neg (Ne.symm hk)
              rw [this]; rfl
          | [], hf, ha => cases hf; exact i1
          | [k'], hf, ha =>
            cases hf
            have : putOf k [name, k'] = none := by
              show (if k' = k then if lower name = b! "set" then none else _ else none) = none
              rw [if_pos hset]; exact ite_self _
            rw [this]; exact i1
        · by_cases hdel : lower name = b! "del"
          · have hlk : lookupCmd (toLower ext.lowerUni name) = some .del := by rw [lower_eq hasc, hdel]; rfl
            cases args with
            | nil =>
              obtain ⟨o, hf, _⟩ := (answers_iff hlk).mp ha
              simp only [Cmd.fn, cmdDel] at hf
              cases hf
              exact i1
            | cons k' rest =>
              have ha' : Answers ext it s1 (b! "del" :: k' :: rest) m s2 := by
                rw [answers_iff (c := .del) rfl]; exact (answers_iff hlk).mp ha
              obtain ⟨_, rfl⟩ := del_answers.mp ha'
              by_cases hk : k' = k
              · subst hk
                rw [putOf_iff.mpr (.inr ⟨name, rest, rfl, hdel, rfl⟩)]
                refine viewOf_none ?_
                simp only
                rw [SMap.get_deleteIfExists _ ht.wf]; simp
              · have : putOf k (name :: k' :: rest) = none := if_neg hk
                rw [this]
                show viewOf _ k = textView (lastPut k tr)
                rw [← i1]
                unfold viewOf
                simp only
                rw [SMap.get_deleteIfExists _ ht.wf, if_neg (fun h => hk h.symm)]
          · have : putOf k (name :: args) = none := by
              cases hq : putOf k (name :: args) with
              | none => rfl
              | some w =>
                rcases putOf_iff.mp hq with ⟨n, v, r, h, hn, _⟩ | ⟨n, r, h, hn, _⟩
                · cases h; exact absurd hn hset
                · cases h; exact absurd hn hdel
            rw [this, keep hl (by simp only [List.mem_cons, List.not_mem_nil, or_false, not_or]; exact ⟨hset, hdel⟩)]
            exact i1
  exact aux h rfl hp hu

/-- the reply to GET in such a history -/
theorem register_get {ext rng A req m B s k} (h : Trace ext (Store.init rng) (A ++ (req, m) :: B) s)
    (hp : ∀ p ∈ A ++ (req, m) :: B, Plain p.1) (hu : OnlyUses k [b! "set", b! "del"] (A ++ (req, m) :: B))
    (hreq : On (b! "get") k req) : m = .bulk (lastPut k A) := by
  obtain ⟨s1, it, s2, h1, ha, _⟩ := h.mid
  have hv := register_trace h1 (fun p hq => hp p (by simp [hq])) (fun p hq => hu p (by simp [hq]))
  obtain ⟨name, rest, rfl, hn⟩ := hreq
  have hasc : Ascii name := (hp (name :: k :: rest, m) (by simp)).1 name rfl
  have hlk : lookupCmd (toLower ext.lowerUni name) = some .get := by rw [lower_eq hasc, hn]; rfl
  have ha' : Answers ext it s1 (b! "get" :: k :: rest) m s2 := by
    rw [answers_iff (c := .get) rfl]; exact (answers_iff hlk).mp ha
  rw [((get_answers (h1.typed (typed_init rng))).mp ha').1, hv]
  cases lastPut k A <;> rfl

end Godis

namespace Godis.Event
open Resp (Reply Denotes)
open Linear (Before Op)
open StrSpec (lower isError CountsAs Wraps contrib delta)
open ListSpec (Plain OnlyUses)
open CoordSpec

theorem lastPut_cases (k : Bytes) (A : List Op) :
    (∃ A1 o A2, A = A1 ++ o :: A2 ∧ putOf k o.req = some (lastPut k (A.map pair)) ∧ ∀ o' ∈ A2, putOf k o'.req = none) ∨
    (lastPut k (A.map pair) = none ∧ ∀ o' ∈ A, putOf k o'.req = none) := by
  induction A using List.reverseRecOn with
  | nil => exact .inr ⟨rfl, by simp⟩
  | append_singleton A o ih =>
    have e : lastPut k ((A ++ [o]).map pair) = (putOf k o.req).getD (lastPut k (A.map pair)) := by
      simp [lastPut, List.foldl_append, pair]
    rw [e]
    cases hq : putOf k o.req with
    | some w => exact .inl ⟨A, o, [], rfl, hq, by simp⟩
    | none =>
      rcases ih with ⟨A1, o1, A2, rfl, h1, h2⟩ | ⟨h1, h2⟩
      · refine .inl ⟨A1, o1, A2 ++ [o], by simp, h1, fun o' ho' => ?_⟩
        rcases List.mem_append.mp ho' with h | h
        · exact h2 o' h
        · rw [List.mem_singleton.mp h]; exact hq
      · refine .inr ⟨h1, fun o' ho' => ?_⟩
        rcases List.mem_append.mp ho' with h | h
        · exact h2 o' h
        · rw [List.mem_singleton.mp h]; exact hq

theorem mem_of_before {ops A B : List Op} {p o : Op} (hnd : ops.Nodup) (e : ops = A ++ p :: B) (h : Before ops o p) : o ∈ A := by
  have ho : o ∈ ops := by obtain ⟨l1, l2, l3, e⟩ := h; rw [e]; simp
  rw [e] at ho
  simp only [List.mem_append, List.mem_cons] at ho
  rcases ho with h1 | rfl | h1
  · exact h1
  · exact (before_asymm hnd h h).elim
  · obtain ⟨B1, B2, rfl⟩ := List.mem_iff_append.mp h1
    exact (before_asymm hnd h ⟨A, B1, B2, e⟩).elim

theorem before_of_mem {ops A B : List Op} {p o : Op} (e : ops = A ++ p :: B) (h : o ∈ A) : Before ops o p := by
  obtain ⟨A1, A2, rfl⟩ := List.mem_iff_append.mp h
  exact ⟨A1, A2, B, by rw [e]; simp⟩

theorem before_trans {ops : List Op} {a b c : Op} (hnd : ops.Nodup) (h : Before ops a b) (h' : Before ops b c) : Before ops a c := by
  obtain ⟨l1, l2, l3, e⟩ := h'
  have e1 : ops = (l1 ++ b :: l2) ++ c :: l3 := by rw [e]; simp
  refine before_of_mem e1 (List.mem_append_left _ ?_)
  exact mem_of_before hnd e h

/-- the read `p` of the register: what it returns -/
theorem read_last {ext rng L s ops k} (he : Explains ext rng L s ops) (hr : Reserved Decodes (visible L) k [b! "set", b! "del"])
    {A B : List Op} {p : Op} (e : ops = A ++ p :: B) (hp : On (b! "get") k p.req) : p.reply = .bulk (lastPut k (A.map pair)) := by
  have e' : ops.map pair = A.map pair ++ (p.req, p.reply) :: B.map pair := by rw [e]; simp [pair]
  exact register_get (e' ▸ he.trace) (e' ▸ he.plain hr) (e' ▸ he.uses hr) hp

/-- **C74 (atomic register).**  If all clients use `k` only with SET, DEL and reads, then a GET returns the text of a SET (or nil,
of a DEL) that was not sent only after the GET was answered, and that was not overwritten by a SET or DEL which was answered
before the GET was sent and sent after that SET was answered; it returns nil without any DEL only if no SET or DEL was answered
before the GET was sent. -/
theorem C74_register {ext rng L σ k} (h : Run ext 1 rng L σ) (hr : Reserved Decodes (visible L) k [b! "set", b! "del"])
    {i req m} (si : Sent Decodes (visible L) i req) (oi : On (b! "get") k req) (gi : Got (visible L) i m) :
    ∃ w, m = .bulk w ∧
      ((∃ j r, Sent Decodes (visible L) j r ∧ Puts k r w ∧ ¬ Answered (visible L) i j ∧
          ∀ j' r' w', Sent Decodes (visible L) j' r' → Puts k r' w' → ¬ (Answered (visible L) j j' ∧ Answered (visible L) j' i)) ∨
       (w = none ∧ ∀ j r w', Sent Decodes (visible L) j r → Puts k r w' → ¬ Answered (visible L) j i)) := by
  obtain ⟨ops, he⟩ := explained h
  have hnd : ops.Nodup := List.Nodup.of_map _ he.nodup
  obtain ⟨p, hp, rfl, rfl⟩ := he.got _ _ gi
  have op : On (b! "get") k p.req := by rw [← sent_unique h si (he.sent p hp)]; exact oi
  obtain ⟨A, B, e⟩ := List.mem_iff_append.mp hp
  refine ⟨_, read_last he hr e op, ?_⟩
  rcases lastPut_cases k A with ⟨A1, o, A2, rfl, h1, h2⟩ | ⟨h1, h2⟩
  · have ho : o ∈ ops := by rw [e]; simp
    refine .inl ⟨o.id, o.req, he.sent o ho, putOf_iff.mp h1, fun ha => ?_, ?_⟩
    · exact before_asymm hnd (before_of_mem e (by simp)) (he.order p hp o ho ha)
    · rintro j' r' w' sj' hw' ⟨ha1, ha2⟩
      obtain ⟨o', ho', rfl⟩ := he.done _ _ ha2
      rw [sent_unique h sj' (he.sent o' ho')] at hw'
      have b1 := he.order o ho o' ho' ha1
      have b2 := mem_of_before hnd e (he.order o' ho' p hp ha2)
      simp only [List.mem_append, List.mem_cons] at b2
      have e2 : ops = A1 ++ o :: (A2 ++ p :: B) := by rw [e]; simp
      rcases b2 with b2 | rfl | b2
      · exact before_asymm hnd b1 (before_of_mem e2 b2)
      · exact before_asymm hnd b1 b1
      · have := h2 o' b2
        rw [putOf_iff.mpr hw'] at this
        cases this
  · refine .inr ⟨h1, fun j r w' sj hw' ha => ?_⟩
    obtain ⟨o', ho', rfl⟩ := he.done _ _ ha
    rw [sent_unique h sj (he.sent o' ho')] at hw'
    have := h2 o' (mem_of_before hnd e (he.order o' ho' p hp ha))
    rw [putOf_iff.mpr hw'] at this
    cases this

/-- **C74 (read your writes).**  A client that got the answer to its SET and then sends a GET reads its own text, unless another
SET or DEL of the key was sent that had not been answered before that SET was sent (so that it may be the later one). -/
theorem C74_read_your_writes {ext rng L σ k} (h : Run ext 1 rng L σ) (hr : Reserved Decodes (visible L) k [b! "set", b! "del"])
    {i req m j r w} (si : Sent Decodes (visible L) i req) (oi : On (b! "get") k req) (gi : Got (visible L) i m)
    (sj : Sent Decodes (visible L) j r) (hw : Puts k r w) (hji : Answered (visible L) j i)
    (hq : ∀ j' r' w', j' ≠ j → Sent Decodes (visible L) j' r' → Puts k r' w' → Answered (visible L) j' j) :
    m = .bulk w := by
  obtain ⟨w', rfl, ⟨j', r', sj', hw', _, hlast⟩ | ⟨_, hno⟩⟩ := C74_register h hr si oi gi
  · by_cases hj : j' = j
    · subst hj
      rw [sent_unique h sj sj'] at hw
      rw [← putOf_iff] at hw hw'
      rw [hw] at hw'
      cases hw'; rfl
    · exact absurd ⟨hq j' r' w' hj sj' hw', hji⟩ (hlast j r w sj hw)
  · exact absurd hji (hno j r w sj hw)

/-- **C74 (no step back).**  If a GET returned a text that only the SET `j` put, and a GET sent after its answer returned a text that
only the SET `j'` put, then `j'` was not answered before `j` was sent. -/
theorem C74_no_step_back {ext rng L σ k} (h : Run ext 1 rng L σ) (hr : Reserved Decodes (visible L) k [b! "set", b! "del"])
    {i i' ri ri' v v' j j'} (si : Sent Decodes (visible L) i ri) (oi : On (b! "get") k ri) (gi : Got (visible L) i (.bulk (some v)))
    (si' : Sent Decodes (visible L) i' ri') (oi' : On (b! "get") k ri') (gi' : Got (visible L) i' (.bulk (some v')))
    (hii : Answered (visible L) i i')
    (hj : ∀ n r, Sent Decodes (visible L) n r → Puts k r (some v) → n = j)
    (hj' : ∀ n r, Sent Decodes (visible L) n r → Puts k r (some v') → n = j') :
    ¬ Answered (visible L) j' j := by
  obtain ⟨ops, he⟩ := explained h
  have hnd : ops.Nodup := List.Nodup.of_map _ he.nodup
  have source : ∀ {i ri v}, Sent Decodes (visible L) i ri → On (b! "get") k ri → Got (visible L) i (.bulk (some v)) →
      ∃ A p B o, ops = A ++ p :: B ∧ p.id = i ∧ ∃ A1 A2, A = A1 ++ o :: A2 ∧ putOf k o.req = some (some v) ∧
        ∀ o' ∈ A2, putOf k o'.req = none := by
    intro i ri v si oi gi
    obtain ⟨p, hp, rfl, hrep⟩ := he.got _ _ gi
    have op : On (b! "get") k p.req := by rw [← sent_unique h si (he.sent p hp)]; exact oi
    obtain ⟨A, B, e⟩ := List.mem_iff_append.mp hp
    have hrd := read_last he hr e op
    rw [hrep] at hrd
    injection hrd with hrd
    rcases lastPut_cases k A with ⟨A1, o, A2, rfl, h1, h2⟩ | ⟨h1, h2⟩
    · exact ⟨_, p, B, o, e, rfl, A1, A2, rfl, by rw [h1, hrd], h2⟩
    · rw [h1] at hrd; cases hrd
  obtain ⟨A, p, B, o, e, hpi, A1, A2, rfl, ho, _⟩ := source si oi gi
  obtain ⟨A', p', B', o', e', hpi', A1', A2', rfl, ho', hlast⟩ := source si' oi' gi'
  have mo : o ∈ ops := by rw [e]; simp
  have mo' : o' ∈ ops := by rw [e']; simp
  have mp : p ∈ ops := by rw [e]; simp
  have mp' : p' ∈ ops := by rw [e']; simp
  have ij := hj _ _ (he.sent o mo) (putOf_iff.mp ho)
  have ij' := hj' _ _ (he.sent o' mo') (putOf_iff.mp ho')
  intro hans
  have b1 : Before ops o' o := he.order o' mo' o mo (by rw [ij, ij']; exact hans)
  have b2 : Before ops o p := before_of_mem e (by simp)
  have b3 : Before ops p p' := he.order p mp p' mp' (by rw [hpi, hpi']; exact hii)
  have b4 := mem_of_before hnd e' (before_trans hnd b2 b3)
  simp only [List.mem_append, List.mem_cons] at b4
  have e2 : ops = A1' ++ o' :: (A2' ++ p' :: B') := by rw [e']; simp
  rcases b4 with b4 | rfl | b4
  · exact before_asymm hnd b1 (before_of_mem e2 b4)
  · exact before_asymm hnd b1 b1
  · have := hlast o b4
    rw [ho] at this
    cases this

/-! ## counters -/

/-- what the executed request added to `k` -/
def added (k : Bytes) (o : Op) : Option Int :=
  match o.req with
  | name :: key :: rest => if key = k ∧ ¬ isError o.reply then delta (lower name) (key :: rest) else none
  | _ => none

theorem contrib_eq (k : Bytes) (o : Op) : contrib k (pair o) = (added k o).getD 0 := by
  unfold added pair
  match o.req with
  | [] => rfl
  | [_] => rfl
  | name :: key :: rest =>
    show (if key = k ∧ ¬ isError o.reply then (delta (lower name) (key :: rest)).getD 0 else 0) =
      (if key = k ∧ ¬ isError o.reply then delta (lower name) (key :: rest) else none).getD 0
    split <;> rfl

theorem added_iff {k : Bytes} {o : Op} {d : Int} : added k o = some d ↔ Adds k o.req d ∧ isError o.reply = false := by
  unfold added Adds
  match o.req with
  | [] => exact ⟨nofun, by rintro ⟨⟨_, _, h, _⟩, _⟩; cases h⟩
  | [_] => exact ⟨nofun, by rintro ⟨⟨_, _, h, _⟩, _⟩; cases h⟩
  | name :: key :: rest =>
    show (if key = k ∧ ¬ isError o.reply then delta (lower name) (key :: rest) else none) = some d ↔ _
    constructor
    · intro h
      split at h
      · next hc => obtain ⟨rfl, hc⟩ := hc; exact ⟨⟨name, rest, rfl, h⟩, by simpa using hc⟩
      · cases h
    · rintro ⟨⟨n, r, h1, h2⟩, h3⟩
      cases h1
      rw [if_pos ⟨rfl, by simp [h3]⟩]; exact h2

/-- **C74 (counter).**  If all clients use `k` only with INCR, INCRBY, DECR, DECRBY and reads, then a GET shows the sum (modulo
2^64) of the increments of a set of requests, each counted once, which contains all those that were answered (not refused) before
the GET was sent, and only requests that were sent, not after the GET was answered. -/
theorem C74_counter {ext rng L σ k} (h : Run ext 1 rng L σ) (hr : Reserved Decodes (visible L) k StrSpec.counters)
    {i req m} (si : Sent Decodes (visible L) i req) (oi : On (b! "get") k req) (gi : Got (visible L) i m) :
    ∃ (S : List (Nat × Int)) (n : Int), CountsAs m n ∧ Wraps n (S.map (·.2)).sum ∧ (S.map (·.1)).Nodup ∧
      (∀ j d, (j, d) ∈ S → (∃ r, Sent Decodes (visible L) j r ∧ Adds k r d) ∧ ¬ Answered (visible L) i j) ∧
      (∀ j r d mj, Sent Decodes (visible L) j r → Adds k r d → Got (visible L) j mj → isError mj = false →
        Answered (visible L) j i → (j, d) ∈ S) := by
  obtain ⟨ops, he⟩ := explained h
  have hnd : ops.Nodup := List.Nodup.of_map _ he.nodup
  obtain ⟨p, hp, rfl, rfl⟩ := he.got _ _ gi
  have op : On (b! "get") k p.req := by rw [← sent_unique h si (he.sent p hp)]; exact oi
  obtain ⟨A, B, e⟩ := List.mem_iff_append.mp hp
  have e' : ops.map pair = A.map pair ++ (p.req, p.reply) :: B.map pair := by rw [e]; simp [pair]
  have htr := he.trace
  have hpl := he.plain hr
  have hus := he.uses hr
  rw [e'] at htr hpl hus
  obtain ⟨s1, it, s2, h1, ha, _⟩ := htr.mid
  obtain ⟨m', n, g1, g2, g3⟩ := C10_no_lost_update (k := k) ⟨rng, [], .nil⟩ h1 (fun q hq => (hpl q (by simp [hq])).1)
    (fun q hq name args e hk => by
      have := hus q (by simp [hq])
      simp only [e, List.headD_cons, List.tail_cons] at this
      exact this hk)
    (m0 := .bulk none) (n0 := 0) (fun it => by rw [get_answers (typed_init rng)]; exact ⟨rfl, rfl⟩) (.inl ⟨rfl, rfl⟩)
  have hm : p.reply = m' := by
    obtain ⟨name, rest, hreq, hn⟩ := op
    rw [hreq] at ha
    have hasc : StrSpec.Ascii name := (hpl (p.req, p.reply) (by simp)).1 name (by rw [hreq]; rfl)
    have hlk : lookupCmd (toLower ext.lowerUni name) = some .get := by rw [lower_eq hasc, hn]; rfl
    have ha' : Answers ext it s1 (b! "get" :: k :: rest) p.reply s2 := by
      rw [answers_iff (c := .get) rfl]; exact (answers_iff hlk).mp ha
    rw [((get_answers (h1.typed (typed_init rng))).mp ha').1, ((get_answers (h1.typed (typed_init rng))).mp (g1 it)).1]
  refine ⟨A.filterMap fun o => (added k o).map fun d => (o.id, d), n, hm ▸ g2, ?_, ?_, ?_, ?_⟩
  · have hs : ∀ l : List Op, ((l.filterMap fun o => (added k o).map fun d => (o.id, d)).map (·.2)).sum = ((l.map pair).map (contrib k)).sum := by
      intro l
      induction l with
      | nil => rfl
      | cons o l ih =>
        rw [List.filterMap_cons]
        cases ho : added k o with
        | none => simp [ih, contrib_eq, ho]
        | some d => simp [ih, contrib_eq, ho]
    rw [hs, ← Int.zero_add (List.sum _)]
    exact g3
  · have hs : ∀ l : List Op, ((l.filterMap fun o => (added k o).map fun d => (o.id, d)).map (·.1)).Sublist (l.map (·.id)) := by
      intro l
      induction l with
      | nil => exact .slnil
      | cons o l ih =>
        rw [List.filterMap_cons]
        cases ho : added k o with
        | none => exact ih.cons _
        | some d => exact ih.cons_cons _
    refine (hs A).nodup ?_
    have := he.nodup
    rw [e, List.map_append, List.nodup_append] at this
    exact this.1
  · intro j d hjd
    obtain ⟨o, ho, hod⟩ := List.mem_filterMap.mp hjd
    obtain ⟨d', ho', hod⟩ := Option.map_eq_some_iff.mp hod
    cases hod
    have hoo : o ∈ ops := by rw [e]; simp [ho]
    exact ⟨⟨o.req, he.sent o hoo, (added_iff.mp ho').1⟩, fun hans =>
      before_asymm hnd (before_of_mem e ho) (he.order p hp o hoo hans)⟩
  · intro j r d mj sj hd gj hmj hans
    obtain ⟨o, ho, rfl, rfl⟩ := he.got _ _ gj
    rw [sent_unique h sj (he.sent o ho)] at hd
    have := mem_of_before hnd e (he.order o ho p hp hans)
    exact List.mem_filterMap.mpr ⟨o, this, by rw [added_iff.mpr ⟨hd, hmj⟩]; rfl⟩

/-! ## the hypotheses are met -/

def getX : Bytes := b! "*2\r\n$3\r\nGET\r\n$1\r\nx\r\n"
def setX7 : Bytes := b! "*3\r\n$3\r\nset\r\n$1\r\nx\r\n$1\r\n7\r\n"
theorem getX_request : Decodes getX [b! "GET", b! "x"] :=
  decodes_of ⟨b! "2", _, by decide, (.cons (d := b! "3") (by decide) (.cons (d := b! "1") (by decide) .nil)), by decide⟩ (by decide) (by decide)
theorem setX5_request : Decodes setX5 [b! "SET", b! "x", b! "5"] :=
  decodes_of ⟨b! "3", _, by decide, (.cons (d := b! "3") (by decide) (.cons (d := b! "1") (by decide) (.cons (d := b! "1") (by decide) .nil))), by decide⟩ (by decide) (by decide)
theorem setX7_request : Decodes setX7 [b! "set", b! "x", b! "7"] :=
  decodes_of ⟨b! "3", _, by decide, (.cons (d := b! "3") (by decide) (.cons (d := b! "1") (by decide) (.cons (d := b! "1") (by decide) .nil))), by decide⟩ (by decide) (by decide)

theorem denotes_five : Denotes (b! "$1\r\n5\r\n") (.bulk (some (b! "5"))) := by
  refine ⟨1, fun f hf rest => ?_⟩
  obtain ⟨f, rfl⟩ : ∃ g, f = g + 1 := ⟨f - 1, by omega⟩
  have e : b! "$1\r\n5\r\n" ++ rest = 36 :: b! "1" ++ [13, 10] ++ b! "5" ++ [13, 10] ++ rest := rfl
  rw [e, parse_bulk (by decide) f]
theorem denotes_seven : Denotes (b! "$1\r\n7\r\n") (.bulk (some (b! "7"))) := by
  refine ⟨1, fun f hf rest => ?_⟩
  obtain ⟨f, rfl⟩ : ∃ g, f = g + 1 := ⟨f - 1, by omega⟩
  have e : b! "$1\r\n7\r\n" ++ rest = 36 :: b! "1" ++ [13, 10] ++ b! "7" ++ [13, 10] ++ rest := rfl
  rw [e, parse_bulk (by decide) f]
theorem denotes_ok : Denotes (b! "+OK\r\n") (.simple (b! "OK")) :=
  ⟨1, fun f hf rest => by obtain ⟨f, rfl⟩ : ∃ g, f = g + 1 := ⟨f - 1, by omega⟩; rfl⟩

/-- Case of the register theorems: client 0 sets `x` to 5, client 1 reads 5, client 0 sets it to 7, client 1 reads 7. -/
example : ∃ L σ, Run ext0 1 rng0 L σ ∧ Reserved Decodes (visible L) (b! "x") [b! "set", b! "del"] ∧
    Sent Decodes (visible L) 0 [b! "SET", b! "x", b! "5"] ∧ Sent Decodes (visible L) 2 [b! "set", b! "x", b! "7"] ∧
    Puts (b! "x") [b! "SET", b! "x", b! "5"] (some (b! "5")) ∧ Puts (b! "x") [b! "set", b! "x", b! "7"] (some (b! "7")) ∧
    Sent Decodes (visible L) 1 [b! "GET", b! "x"] ∧ Sent Decodes (visible L) 3 [b! "GET", b! "x"] ∧
    On (b! "get") (b! "x") [b! "GET", b! "x"] ∧
    Got (visible L) 1 (.bulk (some (b! "5"))) ∧ Got (visible L) 3 (.bulk (some (b! "7"))) ∧
    Answered (visible L) 2 3 ∧ Answered (visible L) 1 3 ∧ Answered (visible L) 0 2 ∧
    (∀ n r, Sent Decodes (visible L) n r → Puts (b! "x") r (some (b! "5")) → n = 0) ∧
    (∀ n r, Sent Decodes (visible L) n r → Puts (b! "x") r (some (b! "7")) → n = 2) ∧
    ∀ j' r' w', j' ≠ 2 → Sent Decodes (visible L) j' r' → Puts (b! "x") r' w' → Answered (visible L) j' 2 := by
  have hd : (trySchedule ext0 it0 1 rng0 (whole 0 0 setX5 ++ whole 1 1 getX ++ whole 2 0 setX7 ++ whole 3 1 getX)).map (fun p => visible p.1) =
      some [.call 0 0 setX5, .ret 0 0 (b! "+OK\r\n"), .call 1 1 getX, .ret 1 1 (b! "$1\r\n5\r\n"),
        .call 2 0 setX7, .ret 2 0 (b! "+OK\r\n"), .call 3 1 getX, .ret 3 1 (b! "$1\r\n7\r\n")] := by decide +kernel
  obtain ⟨r, hr, hv⟩ := Option.map_eq_some_iff.mp hd
  have hsent : ∀ i req, Sent Decodes (visible r.1) i req →
      (i = 0 ∧ req = [b! "SET", b! "x", b! "5"]) ∨ (i = 2 ∧ req = [b! "set", b! "x", b! "7"]) ∨
      ((i = 1 ∨ i = 3) ∧ req = [b! "GET", b! "x"]) := by
    rintro i req ⟨c, b, h1, h2⟩
    rw [hv] at h1
    simp only [List.mem_cons, Linear.Ev.call.injEq, reduceCtorEq, List.not_mem_nil, or_false, false_or] at h1
    rcases h1 with ⟨rfl, _, rfl⟩ | ⟨rfl, _, rfl⟩ | ⟨rfl, _, rfl⟩ | ⟨rfl, _, rfl⟩
    · exact .inl ⟨rfl, decodes_det h2 setX5_request⟩
    · exact .inr (.inr ⟨.inl rfl, decodes_det h2 getX_request⟩)
    · exact .inr (.inl ⟨rfl, decodes_det h2 setX7_request⟩)
    · exact .inr (.inr ⟨.inr rfl, decodes_det h2 getX_request⟩)
  have put0 : ∀ {w}, Puts (b! "x") [b! "SET", b! "x", b! "5"] w → w = some (b! "5") := fun h => by
    have := putOf_iff.mpr h; cases this; rfl
  have put2 : ∀ {w}, Puts (b! "x") [b! "set", b! "x", b! "7"] w → w = some (b! "7") := fun h => by
    have := putOf_iff.mpr h; cases this; rfl
  have put1 : ∀ {w}, ¬ Puts (b! "x") [b! "GET", b! "x"] w := fun h => by
    have := putOf_iff.mpr h; cases this
  have ngo : ¬ Denotes (b! "+OK\r\n") Linear.gaveUp := fun h => by have := denotes_unique h denotes_ok; cases this
  have a02 : Answered (visible r.1) 0 2 := ⟨0, b! "+OK\r\n", 0, setX7, by rw [hv]; exact ⟨[_], [_, _], _, rfl⟩, ngo⟩
  refine ⟨r.1, r.2, try_run hr, ?_, ⟨0, setX5, by rw [hv]; simp, setX5_request⟩, ⟨0, setX7, by rw [hv]; simp, setX7_request⟩,
    putOf_iff.mp rfl, putOf_iff.mp rfl, ⟨1, getX, by rw [hv]; simp, getX_request⟩, ⟨1, getX, by rw [hv]; simp, getX_request⟩,
    ⟨_, [], rfl, rfl⟩, ⟨1, _, by rw [hv]; simp, denotes_five, nofun⟩, ⟨1, _, by rw [hv]; simp, denotes_seven, nofun⟩,
    ⟨0, b! "+OK\r\n", 1, getX, by rw [hv]; exact ⟨[_, _, _, _, _], [], _, rfl⟩, ngo⟩,
    ⟨1, b! "$1\r\n5\r\n", 1, getX, by rw [hv]; exact ⟨[_, _, _], [_, _], _, rfl⟩, fun h => by
      have := denotes_unique h denotes_five; cases this⟩,
    a02, ?_, ?_, ?_⟩
  · intro i req hs
    rcases hsent i req hs with ⟨_, rfl⟩ | ⟨_, rfl⟩ | ⟨_, rfl⟩ <;>
      exact ⟨by unfold Plain StrSpec.Ascii; decide, fun _ => by decide⟩
  · intro n q hs hput
    rcases hsent n q hs with ⟨rfl, rfl⟩ | ⟨_, rfl⟩ | ⟨_, rfl⟩
    · rfl
    · exact absurd (put2 hput) (by decide)
    · exact absurd hput put1
  · intro n q hs hput
    rcases hsent n q hs with ⟨_, rfl⟩ | ⟨rfl, rfl⟩ | ⟨_, rfl⟩
    · exact absurd (put0 hput) (by decide)
    · rfl
    · exact absurd hput put1
  · intro j' r' w' hne hs hput
    rcases hsent j' r' hs with ⟨rfl, rfl⟩ | ⟨rfl, rfl⟩ | ⟨_, rfl⟩
    · exact a02
    · exact absurd rfl hne
    · exact absurd hput put1

/-- Case of C74_counter: two clients increment `x` at the same time, then one reads 2. -/
example : ∃ L σ, Run ext0 1 rng0 L σ ∧ Reserved Decodes (visible L) (b! "x") StrSpec.counters ∧
    Sent Decodes (visible L) 2 [b! "GET", b! "x"] ∧ (∃ m, Got (visible L) 2 m) ∧ Answered (visible L) 0 2 ∧ Answered (visible L) 1 2 ∧
    Adds (b! "x") [b! "INCR", b! "x"] 1 := by
  have hd : (trySchedule ext0 it0 1 rng0 (overlap incrX ++ whole 2 0 getX)).map (fun p => visible p.1) =
      some [.call 0 0 incrX, .call 1 1 incrX, .ret 0 0 (b! ":2\r\n"), .ret 1 1 (b! ":1\r\n"), .call 2 0 getX, .ret 2 0 (b! "$1\r\n2\r\n")] := by
    decide +kernel
  obtain ⟨r, hr, hv⟩ := Option.map_eq_some_iff.mp hd
  have hint : ∀ {b : Bytes} {n : Int}, (∀ f rest, Resp.parse (f + 1) (b ++ rest) = some (.int n, rest)) → ¬ Denotes b Linear.gaveUp := by
    intro b n h h'
    have : Denotes b (.int n) := ⟨1, fun f hf rest => by obtain ⟨f, rfl⟩ : ∃ g, f = g + 1 := ⟨f - 1, by omega⟩; exact h f rest⟩
    have := denotes_unique h' this
    cases this
  refine ⟨r.1, r.2, try_run hr, ?_, ⟨0, getX, by rw [hv]; simp, getX_request⟩, ⟨.bulk (some (b! "2")), 0, b! "$1\r\n2\r\n", by rw [hv]; simp, ?_, nofun⟩,
    ⟨0, b! ":2\r\n", 0, getX, by rw [hv]; exact ⟨[_, _], [_], _, rfl⟩, hint (n := 2) fun f rest => rfl⟩,
    ⟨1, b! ":1\r\n", 0, getX, by rw [hv]; exact ⟨[_, _, _], [], _, rfl⟩, hint (n := 1) fun f rest => rfl⟩, ⟨_, [], rfl, rfl⟩⟩
  · rintro i req ⟨c, b, h1, h2⟩
    rw [hv] at h1
    simp only [List.mem_cons, Linear.Ev.call.injEq, reduceCtorEq, List.not_mem_nil, or_false, false_or] at h1
    have hq : req = [b! "INCR", b! "x"] ∨ req = [b! "GET", b! "x"] := by
      rcases h1 with ⟨_, _, rfl⟩ | ⟨_, _, rfl⟩ | ⟨_, _, rfl⟩
      · exact .inl (decodes_det h2 incrX_request)
      · exact .inl (decodes_det h2 incrX_request)
      · exact .inr (decodes_det h2 getX_request)
    rcases hq with rfl | rfl <;> exact ⟨by unfold Plain StrSpec.Ascii; decide, fun _ => by decide⟩
  · refine ⟨1, fun f hf rest => ?_⟩
    obtain ⟨f, rfl⟩ : ∃ g, f = g + 1 := ⟨f - 1, by omega⟩
    have e : b! "$1\r\n2\r\n" ++ rest = 36 :: b! "1" ++ [13, 10] ++ b! "2" ++ [13, 10] ++ rest := rfl
    rw [e, parse_bulk (by decide) f]

end Godis.Event

namespace Godis.V1
open Event (Decodes visible)
open CoordSpec
open StrSpec (isError CountsAs Wraps)

/-- C74, v1 server. -/
theorem C74_v1_register {ext rng L v k} (h : VRun ext rng L v) (hr : Reserved Decodes (visible (sysLabels L)) k [b! "set", b! "del"])
    {i req m} (si : Sent Decodes (visible (sysLabels L)) i req) (oi : On (b! "get") k req) (gi : Got (visible (sysLabels L)) i m) :
    ∃ w, m = .bulk w ∧
      ((∃ j r, Sent Decodes (visible (sysLabels L)) j r ∧ Puts k r w ∧ ¬ Answered (visible (sysLabels L)) i j ∧
          ∀ j' r' w', Sent Decodes (visible (sysLabels L)) j' r' → Puts k r' w' →
            ¬ (Answered (visible (sysLabels L)) j j' ∧ Answered (visible (sysLabels L)) j' i)) ∨
       (w = none ∧ ∀ j r w', Sent Decodes (visible (sysLabels L)) j r → Puts k r w' → ¬ Answered (visible (sysLabels L)) j i)) :=
  Event.C74_register h.run hr si oi gi

/-- C74, v1 server. -/
theorem C74_v1_counter {ext rng L v k} (h : VRun ext rng L v) (hr : Reserved Decodes (visible (sysLabels L)) k StrSpec.counters)
    {i req m} (si : Sent Decodes (visible (sysLabels L)) i req) (oi : On (b! "get") k req) (gi : Got (visible (sysLabels L)) i m) :
    ∃ (S : List (Nat × Int)) (n : Int), CountsAs m n ∧ Wraps n (S.map (·.2)).sum ∧ (S.map (·.1)).Nodup ∧
      (∀ j d, (j, d) ∈ S → (∃ r, Sent Decodes (visible (sysLabels L)) j r ∧ Adds k r d) ∧ ¬ Answered (visible (sysLabels L)) i j) ∧
      (∀ j r d mj, Sent Decodes (visible (sysLabels L)) j r → Adds k r d → Got (visible (sysLabels L)) j mj → isError mj = false →
        Answered (visible (sysLabels L)) j i → (j, d) ∈ S) :=
  Event.C74_counter h.run hr si oi gi

end Godis.V1
