import Verif.Proofs.Types
import Verif.Props.Kinds
import Verif.Props.Snapshots
/-!
# What type of value a key holds: C85

Which type a key has after a request, exactly; a key keeps its type, and does not vanish, unless a request names it that replaces or
deletes; what many clients can conclude from their own replies (Spec/Types.lean).
-/
namespace Godis
open Resp (Reply)
open StrSpec (lower Ascii isError)
open TypeSpec
open Linear (Op)

variable {ext : Ext} {it : Iter} {rng : Rng} {s s' : Store} {args : List Bytes} {m : Reply} {name k : Bytes} {c : Cmd}

/-- the type tag -/
def tagOf : Ty → KeyType
  | .text => .string
  | .list => .list
  | .set => .set
  | .sorted => .sortedSet

theorem tag_text (t : Ty) : (tagOf t).text = t.name := by cases t <;> rfl

theorem says_iff {t : Ty} : Reads ext s [b! "type", k] (.simple t.name) ↔ tyOf s k = some (tagOf t) := by
  have e : (∀ it, Answers ext it s [b! "type", k] (.simple t.name) s) ↔ typeText s k = t.name :=
    ⟨fun h => by have := (type_answers.mp (h it0)).1; exact (Reply.simple.inj this).symm, fun h it => type_answers.mpr ⟨by rw [h], rfl⟩⟩
  refine e.trans ?_
  unfold typeText tyOf
  cases s.keys.get k with
  | none => cases t <;> simp [Ty.name]
  | some i =>
    show i.type.text = t.name ↔ some i.type = some (tagOf t)
    cases i.type <;> cases t <;> simp [Ty.name, KeyType.text, tagOf]

/-- the command is among the creators of the type -/
def isCr : Cmd → Ty → Bool
  | .incr, .text | .incrBy, .text | .decr, .text | .decrBy, .text | .stringAppend, .text => true
  | .lPush, .list | .rPush, .list => true
  | .sAdd, .set => true
  | .zAdd, .sorted | .zIncr, .sorted => true
  | _, _ => false

theorem mem_creators (c : Cmd) (t : Ty) : c.name ∈ creators t ↔ isCr c t = true := by cases c <;> cases t <;> decide +kernel
theorem name_set (c : Cmd) : c.name = b! "set" ↔ c = .set := by cases c <;> decide +kernel
theorem name_del (c : Cmd) : c.name = b! "del" ↔ c = .del := by cases c <;> decide +kernel
theorem name_mset (c : Cmd) : c.name = b! "mset" ↔ c = .mSet := by cases c <;> decide +kernel
theorem name_smove (c : Cmd) : c.name = b! "smove" ↔ c = .sMove := by cases c <;> decide +kernel
theorem name_storer (c : Cmd) : c.name ∈ storers ↔ c.isStoreOp := by
  unfold Cmd.isStoreOp; cases c <;> decide +kernel

theorem makes_iff {t : Ty} (hn : lower name = c.name) : Makes k t (name :: args) ↔ mkTy c args k = some (tagOf t) := by
  have e : Makes k t (name :: args) ↔ (isCr c t = true ∧ args.head? = some k ∨ c = .set ∧ args.head? = some k ∧ t = .text ∨
      c = .mSet ∧ k ∈ pairKeys args ∧ t = .text ∨ c.isStoreOp ∧ args.head? = some k ∧ t = .set ∨ c = .sMove ∧ args[1]? = some k ∧ t = .set) := by
    rw [← mem_creators, ← name_set, ← name_mset, ← name_smove, ← name_storer, ← hn]
    exact ⟨by rintro ⟨_, _, e, h⟩; cases e; exact h, fun h => ⟨_, _, rfl, h⟩⟩
  rw [e]
  unfold Cmd.isStoreOp
  cases c <;> cases t <;> simp [isCr, mkTy, tagOf]

theorem replaces_iff (hn : lower name = c.name) : Replaces k (name :: args) ↔
    ((c = .set ∨ c = .del ∨ c.isStoreOp) ∧ args.head? = some k ∨ c = .mSet ∧ k ∈ pairKeys args) := by
  rw [← name_set, ← name_del, ← name_mset, ← name_storer, ← hn]
  exact ⟨by rintro ⟨_, _, e, h⟩; cases e; exact h, fun h => ⟨_, _, rfl, h⟩⟩

theorem replace_none {args : List Bytes} {k : Bytes} (h : mkTy c args k = none) :
    ((c = .set ∨ c = .del ∨ c.isStoreOp) ∧ args.head? = some k ∨ c = .mSet ∧ k ∈ pairKeys args) ↔ c = .del ∧ args.head? = some k := by
  unfold Cmd.isStoreOp
  cases c <;> simp_all [mkTy]

theorem next_iff {t : Ty} {ok : Bool} {old : Option KeyType} (hn : lower name = c.name)
    (hfit : ok = true → ∀ t', mkTy c args k = some t' →
      old = none ∨ old = some t' ∨ (c = .set ∨ c.isStoreOp) ∧ args.head? = some k ∨ c = .mSet ∧ k ∈ pairKeys args) :
    tyNext c args k ok old = some (tagOf t) ↔
      Makes k t (name :: args) ∧ ok = true ∨ old = some (tagOf t) ∧ (¬ Replaces k (name :: args) ∨ ok = false) := by
  rw [makes_iff hn, replaces_iff hn]
  unfold tyNext
  cases ok with
  | false => simp
  | true =>
    rw [if_pos rfl]
    cases hm : mkTy c args k with
    | none =>
      rw [replace_none hm]
      dsimp only
      split
      · next h => simp [h]
      · next h => simp [h]
    | some t0 =>
      dsimp only
      constructor
      · intro h; exact .inl ⟨h, rfl⟩
      · rintro (⟨h, _⟩ | ⟨h1, h2⟩)
        · exact h
        · rcases hfit rfl t0 hm with h | h | h | h
          · rw [h] at h1; cases h1
          · rw [h] at h1; exact h1
          · refine absurd (.inl ⟨?_, h.2⟩) (h2.resolve_right (by simp))
            rcases h.1 with h | h
            · exact .inl h
            · exact .inr (.inr h)
          · exact absurd (.inr h) (h2.resolve_right (by simp))

theorem reply_err {o : Except Err Response} {W Q : Bytes → Prop} (H : s.All W Q) (hf : c.fn ext it s args = .ok (s', o))
    (hm : (setRsp o).reply = some m) : okb o = !isError m := by
  cases o with
  | error e => cases e <;> cases hm <;> rfl
  | ok rsp =>
    have := fn_kind (ext := ext) (it := it) (args := args) H c (s', .ok rsp) hf rsp m rfl hm
    cases m with
    | error e => exact absurd this (kind_no_error _ _ _)
    | _ => rfl

/-- **C85 (exactly).**  After every history, and whatever the next request is: TYPE `k` then answers `t` if and only if the request
shows it (it creates or stores a value of type `t` under `k`, and was not refused), or TYPE `k` answered `t` before and the request
does not replace or delete `k`, or was refused. -/
theorem C85_exactly {t : Ty} (hs : Reachable ext s) (ha : ∀ w ∈ req.head?, Ascii w) (h : Answers ext it s req m s') (k : Bytes) :
    Reads ext s' [b! "type", k] (.simple t.name) ↔
      Vouches k t req m ∨ Reads ext s [b! "type", k] (.simple t.name) ∧ (¬ Replaces k req ∨ isError m = true) := by
  rw [says_iff, says_iff]
  obtain ⟨name, args, rfl, ⟨hl, rfl, rfl⟩ | ⟨c, o, hl, hf, hm⟩⟩ := h.cases
  · constructor
    · intro h; exact .inr ⟨h, .inr rfl⟩
    · rintro (⟨_, h⟩ | ⟨h, _⟩)
      · cases h
      · exact h
  · have hn : lower name = c.name := by
      rw [← lookup_name hl, lower_eq (ha name rfl)]
    obtain ⟨rng, tr, htr⟩ := hs
    have ht := htr.typed (typed_init rng)
    have ho := reply_err (texts_trace htr) hf hm
    rw [fn_ty ht hf k, next_iff hn (fun h => fun t' => fn_fit ht hf h), ho]
    simp [Vouches]

theorem says_says {t : Ty} (ha : ∀ w ∈ req.head?, Ascii w) (h : Answers ext it s req m s') (hs : Says k t req m) :
    tyOf s' k = some (tagOf t) := by
  obtain ⟨name, rest, rfl, hn, rfl⟩ := hs
  have hlk : lookupCmd (toLower ext.lowerUni name) = some .keyType := by rw [lower_eq (ha name rfl), hn]; rfl
  have h' : Answers ext it s (b! "type" :: k :: rest) (.simple t.name) s' := by
    rw [answers_iff (c := .keyType) rfl]; exact (answers_iff hlk).mp h
  obtain ⟨h1, rfl⟩ := type_answers.mp h'
  exact (says_iff (ext := ext)).mp fun it => (type_answers (ext := ext)).mpr ⟨h1, rfl⟩

theorem shows_says {t : Ty} (hs : Reachable ext s) (ha : ∀ w ∈ req.head?, Ascii w) (h : Answers ext it s req m s')
    (hv : TypeSpec.Shows k t req m) : Reads ext s' [b! "type", k] (.simple t.name) := by
  rcases hv with hv | hv
  · exact (C85_exactly hs ha h k).mpr (.inl hv)
  · exact says_iff.mpr (says_says ha h hv)

/-- **C85 (stays).**  Whatever requests follow: while those that could replace or delete `k` are refused, TYPE `k` keeps its answer. -/
theorem C85_stays {t : Ty} {tr} (hs : Reachable ext s) (h : Trace ext s tr s') (ha : ∀ p ∈ tr, ∀ w ∈ p.1.head?, Ascii w)
    (hr : ∀ p ∈ tr, Replaces k p.1 → isError p.2 = true) (h0 : Reads ext s [b! "type", k] (.simple t.name)) :
    Reads ext s' [b! "type", k] (.simple t.name) := by
  obtain ⟨rng, tr0, h1⟩ := hs
  induction h with
  | nil => exact h0
  | @snoc tr s1 it req m s2 h2 ha' ih =>
    refine (C85_exactly ⟨rng, _, h1.append h2⟩ (ha (req, m) (by simp)) ha' k).mpr (.inr ⟨ih (fun p hp => ha p (by simp [hp])) (fun p hp => hr p (by simp [hp])), ?_⟩)
    by_cases hq : Replaces k req
    · exact .inr (hr (req, m) (by simp) hq)
    · exact .inl hq

theorem trace_nil (h : Trace ext s [] s') : s' = s := by
  generalize hx : ([] : List (List Bytes × Reply)) = x at h
  cases h with
  | nil => rfl
  | snoc => simp at hx

theorem kind_name (t : Ty) : typeName t.kind = t.name := by cases t <;> rfl

/-- what is heard about a key whose type is known -/
theorem hears_of {t : Ty} (hs : Reachable ext s) (ha : ∀ w ∈ req.head?, Ascii w) (h : Answers ext it s req m s')
    (h0 : Reads ext s [b! "type", k] (.simple t.name)) : Hears k t req m := by
  rintro name rest rfl
  have hll : lower (lower name) = lower name := by
    unfold StrSpec.lower
    rw [List.map_map]
    refine List.map_congr_left fun x _ => ?_
    show (if 65 ≤ (if 65 ≤ x.toNat ∧ x.toNat ≤ 90 then x + 32 else x).toNat ∧ (if 65 ≤ x.toNat ∧ x.toNat ≤ 90 then x + 32 else x).toNat ≤ 90
      then (if 65 ≤ x.toNat ∧ x.toNat ≤ 90 then x + 32 else x) + 32 else (if 65 ≤ x.toNat ∧ x.toNat ≤ 90 then x + 32 else x)) = _
    by_cases hh : 65 ≤ x.toNat ∧ x.toNat ≤ 90
    · simp only [if_pos hh]
      rw [if_neg]
      rw [UInt8.toNat_add]
      show ¬ (65 ≤ (x.toNat + 32) % 256 ∧ (x.toNat + 32) % 256 ≤ 90)
      omega
    · simp only [if_neg hh]
  have h' : Answers ext it s (lower name :: k :: rest) m s' := by
    unfold Answers at h ⊢
    rw [← C16_case_insensitive ext it s (k :: rest) (ha name rfl) hll.symm]; exact h
  refine ⟨fun hn => ?_, fun hn => ?_, fun kd hk hne hl hs1 => ?_⟩
  · rw [hn] at h'
    rw [(type_answers.mp h').1, (type_answers.mp (h0 it)).1]
  · rw [hn] at h'
    rw [(exists_answers.mp h').1]
    have := says_iff.mp h0
    unfold tyOf at this
    cases hg : s.keys.get k with
    | none => rw [hg] at this; cases this
    | some i => rfl
  · have hneN : t.name ≠ b! "none" := by cases t <;> decide
    have hkd : t.name ≠ typeName kd := by
      rw [← kind_name]
      intro h
      apply hne
      revert h
      cases t <;> cases kd <;> decide
    obtain ⟨e, he, _⟩ := C14_wrong_type_partial hs rest hk hl hs1 h0 hneN hkd it
    obtain ⟨rfl, _⟩ := h'.unique he
    rfl

end Godis

namespace Godis.Event
open Resp (Reply)
open Linear (Before Op)
open StrSpec (lower isError Ascii)
open CoordSpec TypeSpec

section
variable {ext : Ext} {rng : Rng} {L : List Label} {s : Store} {ops : List Op} {k : Bytes}

/-- what a shown type means for the requests executed later, as long as `k` is not replaced -/
theorem later_type (he : Explains ext rng L s ops) (hp : AsciiNames Decodes (visible L)) {A B C : List Op} {o : Op} {t : Ty}
    (e : ops = A ++ o :: B ++ C) (hv : TypeSpec.Shows k t o.req o.reply) (hr : ∀ p ∈ B, Replaces k p.req → isError p.reply = true) :
    ∃ s1, Trace ext (Store.init rng) ((A ++ o :: B).map pair) s1 ∧ Trace ext s1 (C.map pair) s ∧
      Reads ext s1 [b! "type", k] (.simple t.name) := by
  have ht := he.trace
  have e1 : ops.map pair = (A.map pair ++ [pair o]) ++ B.map pair ++ C.map pair := by rw [e]; simp
  rw [e1] at ht
  have hasc : ∀ p ∈ ops, ∀ w ∈ p.req.head?, Ascii w := fun p hq => hp p.id p.req (he.sent p hq)
  obtain ⟨s3, h3, h4⟩ := ht.split
  obtain ⟨s2, h5, h6⟩ := h3.split
  obtain ⟨s1, it, h1, ha⟩ := Trace.last h5
  refine ⟨s3, by rw [show (A ++ o :: B).map pair = (A.map pair ++ [pair o]) ++ B.map pair by simp]; exact h3, h4, ?_⟩
  refine C85_stays ⟨_, _, h5⟩ h6 ?_ ?_ (shows_says ⟨_, _, h1⟩ (hasc o (by rw [e]; simp)) ha hv)
  · intro q hq
    obtain ⟨p, hp, rfl⟩ := List.mem_map.mp hq
    exact hasc p (by rw [e]; simp [hp])
  · intro q hq
    obtain ⟨p, hp, rfl⟩ := List.mem_map.mp hq
    exact hr p hp

end

/-- **C85 (clients).**  Client 1's reply shows that `k` holds a value of type `t` (the request put it there, or asked TYPE).  If nobody
else replaces or deletes `k` in between (each such request was answered before client 1 sent its own, or was sent after client 2 had
its reply, or was refused), then client 2, who sends a request after that reply, hears the same type: TYPE answers it, EXISTS answers
1, and commands for another type are refused. -/
theorem C85_clients {ext rng L σ k} {t : Ty} {i j req req' m m'} (h : Run ext 1 rng L σ) (hp : AsciiNames Decodes (visible L))
    (si : Sent Decodes (visible L) i req) (gi : Got (visible L) i m) (hv : TypeSpec.Shows k t req m)
    (sj : Sent Decodes (visible L) j req') (gj : Got (visible L) j m') (hij : Answered (visible L) i j)
    (ho : ∀ r q, r ≠ i → r ≠ j → Sent Decodes (visible L) r q → Replaces k q →
      Answered (visible L) r i ∨ Answered (visible L) j r ∨ TurnedDown (visible L) r) :
    Hears k t req' m' := by
  obtain ⟨ops, he⟩ := explained h
  have hnd : ops.Nodup := List.Nodup.of_map _ he.nodup
  obtain ⟨o, mo, rfl, rfl⟩ := he.got _ _ gi
  obtain ⟨p, mp, rfl, rfl⟩ := he.got _ _ gj
  obtain rfl := sent_unique h si (he.sent o mo)
  obtain rfl := sent_unique h sj (he.sent p mp)
  obtain ⟨A, B, C, e⟩ := he.order o mo p mp hij
  have e1 : ops = A ++ o :: B ++ p :: C := by rw [e]; simp
  obtain ⟨s1, h1, h2, h3⟩ := later_type (C := p :: C) he hp e1 hv (by
    intro q hq hrep
    have mq : q ∈ ops := by rw [e1]; simp [hq]
    have b1 : Before ops o q := by
      obtain ⟨B1, B2, rfl⟩ := List.mem_iff_append.mp hq
      exact ⟨A, B1, B2 ++ p :: C, by rw [e]; simp⟩
    have b2 : Before ops q p := before_of_mem e1 (by simp [hq])
    have n1 : q.id ≠ o.id := fun h => by
      rw [List.inj_on_of_nodup_map he.nodup mq mo h] at b1; exact before_asymm hnd b1 b1
    have n2 : q.id ≠ p.id := fun h => by
      rw [List.inj_on_of_nodup_map he.nodup mq mp h] at b2; exact before_asymm hnd b2 b2
    rcases ho q.id q.req n1 n2 (he.sent q mq) hrep with h | h | ⟨m, h, hm⟩
    · exact (before_asymm hnd b1 (he.order q mq o mo h)).elim
    · exact (before_asymm hnd b2 (he.order p mp q mq h)).elim
    · obtain ⟨q', mq', e', rfl⟩ := he.got _ _ h
      rw [← List.inj_on_of_nodup_map he.nodup mq' mq e']; exact hm)
  rw [List.map_cons] at h2
  obtain ⟨s2, it, s4, h4, h5, _⟩ := Trace.mid (A := []) h2
  obtain rfl := trace_nil h4
  exact hears_of ⟨_, _, h1⟩ (hp _ _ (he.sent p mp)) h5 h3

theorem name_inj {t t' : Ty} (h : t.name = t'.name) : t = t' := by revert h; cases t <;> cases t' <;> decide

theorem one_before {ext rng L s k} {ops : List Op} {t t' : Ty} {o o' : Op} (he : Explains ext rng L s ops)
    (hp : AsciiNames Decodes (visible L)) (hno : ∀ q ∈ ops, Replaces k q.req → isError q.reply = true) (hb : Before ops o o')
    (hv : TypeSpec.Shows k t o.req o.reply) (hv' : TypeSpec.Shows k t' o'.req o'.reply) : t = t' := by
  obtain ⟨A, B, C, e⟩ := hb
  have e1 : ops = A ++ o :: B ++ o' :: C := by rw [e]; simp
  have mo' : o' ∈ ops := by rw [e1]; simp
  obtain ⟨s1, h1, h2, h3⟩ := later_type (C := o' :: C) he hp e1 hv (fun q hq => hno q (by rw [e1]; simp [hq]))
  rw [List.map_cons] at h2
  obtain ⟨s2, it, s4, h4, h5, _⟩ := Trace.mid (A := []) h2
  obtain rfl := trace_nil h4
  have hasc := hp _ _ (he.sent o' mo')
  have k1 := shows_says ⟨_, _, h1⟩ hasc h5 hv'
  have k2 : Reads ext s4 [b! "type", k] (.simple t.name) := by
    refine (C85_exactly ⟨_, _, h1⟩ hasc h5 k).mpr (.inr ⟨h3, ?_⟩)
    by_cases hq : Replaces k o'.req
    · exact .inr (hno o' mo' hq)
    · exact .inl hq
  have := (k1 it0).unique (k2 it0)
  exact name_inj (Reply.simple.inj this.1)

/-- **C85 (one type).**  If nobody ever replaces or deletes `k` (all such requests are refused), then all replies that show the type of
what `k` holds show the same type, whoever got them and in whatever order. -/
theorem C85_one_type {ext rng L σ k} {t t' : Ty} {i i' req req' m m'} (h : Run ext 1 rng L σ) (hp : AsciiNames Decodes (visible L))
    (hno : ∀ r q, Sent Decodes (visible L) r q → Replaces k q → TurnedDown (visible L) r)
    (si : Sent Decodes (visible L) i req) (gi : Got (visible L) i m) (hv : TypeSpec.Shows k t req m)
    (si' : Sent Decodes (visible L) i' req') (gi' : Got (visible L) i' m') (hv' : TypeSpec.Shows k t' req' m') : t = t' := by
  obtain ⟨ops, he⟩ := explained h
  have hnd : ops.Nodup := List.Nodup.of_map _ he.nodup
  obtain ⟨o, mo, rfl, rfl⟩ := he.got _ _ gi
  obtain ⟨p, mp, rfl, rfl⟩ := he.got _ _ gi'
  obtain rfl := sent_unique h si (he.sent o mo)
  obtain rfl := sent_unique h si' (he.sent p mp)
  have hno' : ∀ q ∈ ops, Replaces k q.req → isError q.reply = true := fun q mq hq => by
    obtain ⟨m, hg, hm⟩ := hno _ _ (he.sent q mq) hq
    obtain ⟨q', mq', e', rfl⟩ := he.got _ _ hg
    rw [← List.inj_on_of_nodup_map he.nodup mq' mq e']; exact hm
  obtain ⟨A, B, e⟩ := List.mem_iff_append.mp mo
  have mp' := mp
  rw [e] at mp'
  simp only [List.mem_append, List.mem_cons] at mp'
  rcases mp' with h1 | rfl | h1
  · exact (one_before he hp hno' (before_of_mem e h1) hv' hv).symm
  · have ht := he.trace
    rw [show ops.map pair = A.map pair ++ (p.req, p.reply) :: B.map pair by rw [e]; simp [pair]] at ht
    obtain ⟨s1, it, s2, h1, ha, _⟩ := Trace.mid ht
    have hasc := hp _ _ (he.sent p mp)
    have k1 := shows_says ⟨_, _, h1⟩ hasc ha hv
    have k2 := shows_says ⟨_, _, h1⟩ hasc ha hv'
    have := (k2 it0).unique (k1 it0)
    exact name_inj (Reply.simple.inj this.1)
  · obtain ⟨B1, B2, rfl⟩ := List.mem_iff_append.mp h1
    exact one_before he hp hno' ⟨A, B1, B2, e⟩ hv hv'

/-! ## the hypotheses are met -/

def rpushX : Bytes := b! "*3\r\n$5\r\nRPUSH\r\n$1\r\nx\r\n$1\r\n1\r\n"
def typeX : Bytes := b! "*2\r\n$4\r\nTYPE\r\n$1\r\nx\r\n"
theorem rpushX_request : Decodes rpushX [b! "RPUSH", b! "x", b! "1"] :=
  decodes_of ⟨b! "3", _, by decide, (.cons (d := b! "5") (by decide) (.cons (d := b! "1") (by decide) (.cons (d := b! "1") (by decide) .nil))), by decide⟩ (by decide) (by decide)
theorem typeX_request : Decodes typeX [b! "TYPE", b! "x"] :=
  decodes_of ⟨b! "2", _, by decide, (.cons (d := b! "4") (by decide) (.cons (d := b! "1") (by decide) .nil)), by decide⟩ (by decide) (by decide)

/-- Case of the theorems: client 0 pushes to `x`; then client 1 asks for its type, and is told `list`. -/
example : ∃ L σ, Run ext0 1 rng0 L σ ∧ AsciiNames Decodes (visible L) ∧
    Sent Decodes (visible L) 0 [b! "RPUSH", b! "x", b! "1"] ∧ Got (visible L) 0 (.int 1) ∧
    TypeSpec.Shows (b! "x") .list [b! "RPUSH", b! "x", b! "1"] (.int 1) ∧
    Sent Decodes (visible L) 1 [b! "TYPE", b! "x"] ∧ Got (visible L) 1 (.simple (b! "list")) ∧
    TypeSpec.Shows (b! "x") .list [b! "TYPE", b! "x"] (.simple (b! "list")) ∧ Answered (visible L) 0 1 ∧
    ∀ r q, Sent Decodes (visible L) r q → ¬ Replaces (b! "x") q := by
  have hd : (trySchedule ext0 it0 1 rng0 (whole 0 0 rpushX ++ whole 1 1 typeX)).map (fun p => visible p.1) =
      some [.call 0 0 rpushX, .ret 0 0 (b! ":1\r\n"), .call 1 1 typeX, .ret 1 1 (b! "+list\r\n")] := by decide +kernel
  obtain ⟨r, hr, hv⟩ := Option.map_eq_some_iff.mp hd
  have d1 : Resp.Denotes (b! ":1\r\n") (.int 1) := by
    exact ⟨1, fun f hf rest => by obtain ⟨f, rfl⟩ : ∃ g, f = g + 1 := ⟨f - 1, by omega⟩; rfl⟩
  have hreq : ∀ i req, Sent Decodes (visible r.1) i req → req = [b! "RPUSH", b! "x", b! "1"] ∨ req = [b! "TYPE", b! "x"] := by
    rintro i req ⟨c, b, h1, h2⟩
    rw [hv] at h1
    simp only [List.mem_cons, Linear.Ev.call.injEq, reduceCtorEq, List.not_mem_nil, or_false, false_or] at h1
    rcases h1 with ⟨_, _, rfl⟩ | ⟨_, _, rfl⟩
    · exact .inl (decodes_det h2 rpushX_request)
    · exact .inr (decodes_det h2 typeX_request)
  refine ⟨r.1, r.2, try_run hr, ?_, ⟨0, rpushX, by rw [hv]; simp, rpushX_request⟩, ⟨0, b! ":1\r\n", by rw [hv]; simp, d1, nofun⟩,
    .inl ⟨⟨_, _, rfl, .inl (by decide)⟩, rfl⟩, ⟨1, typeX, by rw [hv]; simp, typeX_request⟩, ⟨1, b! "+list\r\n", by rw [hv]; simp, ?_, nofun⟩,
    .inr ⟨_, _, rfl, by decide, rfl⟩,
    ⟨0, _, 1, typeX, by rw [hv]; exact ⟨[_], [], _, rfl⟩, fun h => by have := denotes_unique h d1; cases this⟩, ?_⟩
  · intro i req hs
    rcases hreq i req hs with rfl | rfl <;> (unfold StrSpec.Ascii; decide)
  · exact ⟨1, fun f hf rest => by obtain ⟨f, rfl⟩ : ∃ g, f = g + 1 := ⟨f - 1, by omega⟩; rfl⟩
  · intro i req hs
    rcases hreq i req hs with rfl | rfl <;> (rintro ⟨_, _, h, hc⟩; cases h; revert hc; decide)

end Godis.Event

namespace Godis.V1
open Resp (Reply)
open Event (Decodes visible)
open CoordSpec TypeSpec

/-- C85, v1 server. -/
theorem C85_v1_clients {ext rng L v k} {t : Ty} {i j req req' m m'} (h : VRun ext rng L v) (hp : AsciiNames Decodes (visible (sysLabels L)))
    (si : Sent Decodes (visible (sysLabels L)) i req) (gi : Got (visible (sysLabels L)) i m) (hv : TypeSpec.Shows k t req m)
    (sj : Sent Decodes (visible (sysLabels L)) j req') (gj : Got (visible (sysLabels L)) j m') (hij : Answered (visible (sysLabels L)) i j)
    (ho : ∀ r q, r ≠ i → r ≠ j → Sent Decodes (visible (sysLabels L)) r q → Replaces k q →
      Answered (visible (sysLabels L)) r i ∨ Answered (visible (sysLabels L)) j r ∨ TurnedDown (visible (sysLabels L)) r) :
    Hears k t req' m' :=
  Event.C85_clients h.run hp si gi hv sj gj hij ho

/-- C85, v1 server. -/
theorem C85_v1_one_type {ext rng L v k} {t t' : Ty} {i i' req req' m m'} (h : VRun ext rng L v) (hp : AsciiNames Decodes (visible (sysLabels L)))
    (hno : ∀ r q, Sent Decodes (visible (sysLabels L)) r q → Replaces k q → TurnedDown (visible (sysLabels L)) r)
    (si : Sent Decodes (visible (sysLabels L)) i req) (gi : Got (visible (sysLabels L)) i m) (hv : TypeSpec.Shows k t req m)
    (si' : Sent Decodes (visible (sysLabels L)) i' req') (gi' : Got (visible (sysLabels L)) i' m') (hv' : TypeSpec.Shows k t' req' m') : t = t' :=
  Event.C85_one_type h.run hp hno si gi hv si' gi' hv'

end Godis.V1
