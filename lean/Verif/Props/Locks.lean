import Verif.Props.Together
import Verif.Spec.Locks
/-!
# A lock kept in a counter: C86
-/
namespace Godis
open Resp (Reply)
open StrSpec (lower Ascii isError CountsAs)
open KeySpec (keyArgs readOnly)
open ListSpec (Plain OnlyUses)
open CoordSpec (On)

/-! ## the history of the lock -/

/-- how often the lock was taken -/
def taken (k : Bytes) (tr : List (List Bytes × Reply)) : Nat := tr.countP fun p => decide (On (b! "incr") k p.1 ∧ p.2 = .int 1)
/-- how often it was deleted -/
def freed (k : Bytes) (tr : List (List Bytes × Reply)) : Nat := tr.countP fun p => decide (On (b! "del") k p.1)

/-- the lock is free and was freed at least as often as taken; or it is not, and was freed at least that often but once -/
def LockInv (k : Bytes) (tr : List (List Bytes × Reply)) (s : Store) : Prop :=
  viewOf s k = .absent ∧ taken k tr ≤ freed k tr ∨
  (∃ c : Nat, 1 ≤ c ∧ c ≤ tr.length ∧ viewOf s k ≠ .absent ∧ CountsAs (StrSpec.getReply (viewOf s k)) c) ∧ taken k tr ≤ freed k tr + 1

theorem keyArgs_first {c : Bytes} {args : List Bytes} {k : Bytes} (hc : c = b! "incr" ∨ c = b! "del") (h : k ∈ keyArgs c args) :
    args.head? = some k := by
  have : keyArgs c args = args.take 1 := by rcases hc with rfl | rfl <;> rfl
  rw [this] at h
  cases args with
  | nil => cases h
  | cons a as => simp at h; simp [h]

theorem lock_trace {ext rng tr s k} (h : Trace ext (Store.init rng) tr s) (hp : ∀ p ∈ tr, Plain p.1)
    (hu : OnlyUses k [b! "incr", b! "del"] tr) (hl : tr.length < 2 ^ 63) : LockInv k tr s := by
  have aux : ∀ {s0 : Store} {tr : List (List Bytes × Reply)} {s : Store}, Trace ext s0 tr s → s0 = Store.init rng →
      (∀ p ∈ tr, Plain p.1) → OnlyUses k [b! "incr", b! "del"] tr → tr.length < 2 ^ 63 → LockInv k tr s := by
    intro s0 tr s h
    induction h with
    | nil => intro e _ _ _; subst e; exact .inl ⟨rfl, le_refl _⟩
    | @snoc tr s1 it req m s2 h1 ha ih =>
      intro e hp hu hl
      subst e
      have hl' : tr.length + 1 < 2 ^ 63 := by simpa using hl
      have i1 := ih rfl (fun p hq => hp p (by simp [hq])) (fun p hq => hu p (by simp [hq])) (by omega)
      have ht := h1.typed (typed_init rng)
      have hur := hu (req, m) (by simp)
      have et : taken k (tr ++ [(req, m)]) = taken k tr + if On (b! "incr") k req ∧ m = .int 1 then 1 else 0 := by
        simp [taken, List.countP_append, List.countP_singleton]
      have ef : freed k (tr ++ [(req, m)]) = freed k tr + if On (b! "del") k req then 1 else 0 := by
        simp [freed, List.countP_append, List.countP_singleton]
      obtain ⟨name, args, rfl, hc⟩ := ha.cases
      have hasc : Ascii name := (hp (name :: args, m) (by simp)).1 name rfl
      simp only [List.headD_cons, List.tail_cons, List.mem_cons, List.not_mem_nil, or_false] at hur
      by_cases hd : On (b! "del") k (name :: args)
      · obtain ⟨n, rest, he, hn⟩ := hd
        cases he
        have hlk : lookupCmd (toLower ext.lowerUni name) = some .del := by rw [lower_eq hasc, hn]; rfl
        have ha' : Answers ext it s1 (b! "del" :: k :: rest) m s2 := by
          rw [answers_iff (c := .del) rfl]; exact (answers_iff hlk).mp ha
        obtain ⟨_, rfl⟩ := del_answers.mp ha'
        have hni : ¬ On (b! "incr") k (name :: k :: rest) := by
          rintro ⟨n, r, e, h⟩; cases e; rw [hn] at h; exact absurd h (by decide)
        refine .inl ⟨viewOf_none ?_, ?_⟩
        · simp only
          rw [SMap.get_deleteIfExists _ ht.wf]; simp
        · rw [et, ef, if_neg (fun h => hni h.1), if_pos ⟨_, _, rfl, hn⟩]
          rcases i1 with h | h <;> omega
      · rw [if_neg hd, Nat.add_zero] at ef
        by_cases hi : On (b! "incr") k (name :: args)
        · obtain ⟨n, rest, he, hn⟩ := hi
          cases he
          have hdl : StrSpec.delta (lower name) (k :: rest) = some 1 := by rw [hn]; rfl
          have hr : ∀ m0, StrSpec.getReply (viewOf s1 k) = m0 → Reads ext s1 [b! "get", k] m0 := fun m0 e it => by
            rw [get_answers ht]; exact ⟨e.symm, rfl⟩
          have hgo : ∀ c : Nat, c ≤ tr.length → CountsAs (StrSpec.getReply (viewOf s1 k)) c →
              m = .int ((c + 1 : Nat) : Int) ∧ viewOf s2 k ≠ .absent ∧ CountsAs (StrSpec.getReply (viewOf s2 k)) ((c + 1 : Nat) : Int) := by
            intro c hcl hca
            obtain ⟨i, s', a1, a2, a3, _⟩ := C09_counter_partial (n := (c : Int)) ⟨rng, tr, h1⟩ hdl (by
              rcases hca with ⟨a, b⟩ | ⟨t, a, b⟩
              · exact .inl ⟨hr _ a, b⟩
              · exact .inr ⟨t, hr _ a, b⟩) it
            obtain ⟨hm, rfl⟩ := a2.unique ha
            rw [wraps_iff] at a1
            have hv : i = ((c + 1 : Nat) : Int) := by
              rw [a1]; push_cast; exact wrap64_of_range _ (by omega) (by omega)
            subst hv
            have hg : StrSpec.getReply (viewOf s2 k) = .bulk (some (StrSpec.decimal ((c + 1 : Nat) : Int))) := by
              have := a3 it0
              rw [get_answers (ha.typed ht)] at this
              exact this.1.symm
            refine ⟨hm, (fun h => by rw [h] at hg; cases hg), .inr ⟨_, hg, ?_⟩⟩
            have := counter_step ht ha (hp (name :: k :: rest, m) (by simp)).1 (fun nm ar e hk => by
              have := hu (name :: k :: rest, m) (by simp)
              simp only [e, List.headD_cons, List.tail_cons] at this
              rw [← (List.cons.inj e).1, hn]; left; decide) hca
            have hcb : StrSpec.contrib k (name :: k :: rest, m) = 1 := by
              rw [hm]
              show (if k = k ∧ ¬ isError (.int _) then (StrSpec.delta (lower name) (k :: rest)).getD 0 else 0) = 1
              rw [if_pos ⟨rfl, by simp [isError]⟩, hdl]; rfl
            rw [hcb, wrap64_of_range _ (by omega) (by omega), hg] at this
            rcases this with ⟨h, _⟩ | ⟨t, h, h'⟩
            · cases h
            · cases h; exact_mod_cast h'
          rcases i1 with ⟨hv, hle⟩ | ⟨⟨c, c1, c2, c3, c4⟩, hle⟩
          · obtain ⟨rfl, h2, h3⟩ := hgo 0 (by omega) (.inl ⟨by rw [hv]; rfl, rfl⟩)
            refine .inr ⟨⟨1, le_refl _, by simp, h2, h3⟩, ?_⟩
            rw [et, ef]
            split <;> omega
          · obtain ⟨rfl, h2, h3⟩ := hgo c c2 c4
            refine .inr ⟨⟨c + 1, by omega, by simp; omega, h2, h3⟩, ?_⟩
            rw [et, ef, if_neg]
            · omega
            · rintro ⟨_, h⟩
              have := Reply.int.inj h
              omega
        · rw [if_neg (fun h => hi h.1), Nat.add_zero] at et
          have hv : viewOf s2 k = viewOf s1 k := by
            by_cases hk : k ∈ keyArgs (lower name) args
            · rcases hur hk with h | h
              · exfalso
                have := keyArgs_first h hk
                cases args with
                | nil => cases this
                | cons a as =>
                  cases this
                  rcases h with h | h
                  · exact hi ⟨_, _, rfl, h⟩
                  · exact hd ⟨_, _, rfl, h⟩
              · rw [C17_reads_change_nothing h ha]
            · rcases hc with ⟨_, rfl, _⟩ | ⟨c, o, hlk, hf, _⟩
              · rfl
              · have he := fn_eff _ ht hf
                rw [lower_eq hasc] at hlk
                rw [← lookup_name hlk] at he
                unfold viewOf
                rw [he.keys_frame ht hk]
          unfold LockInv
          rw [hv, et, ef]
          rcases i1 with h | ⟨⟨c, c1, c2, c3, c4⟩, hle⟩
          · exact .inl h
          · exact .inr ⟨⟨c, c1, by simp; omega, c3, c4⟩, hle⟩
  exact aux h rfl hp hu hl

/-- when the lock is taken, it has been freed as often as taken before -/
theorem lock_taken {ext rng A req B s k} (h : Trace ext (Store.init rng) (A ++ (req, .int 1) :: B) s)
    (hp : ∀ p ∈ A ++ (req, .int 1) :: B, Plain p.1) (hu : OnlyUses k [b! "incr", b! "del"] (A ++ (req, .int 1) :: B))
    (hl : (A ++ (req, .int 1) :: B).length < 2 ^ 63) (hi : On (b! "incr") k req) : taken k A ≤ freed k A := by
  obtain ⟨s1, it, s2, h1, ha, h2⟩ := h.mid
  have i1 := lock_trace h1 (fun p hq => hp p (by simp [hq])) (fun p hq => hu p (by simp [hq])) (by simp at hl; omega)
  rcases i1 with h | ⟨⟨c, c1, c2, c3, c4⟩, hle⟩
  · exact h.2
  · exfalso
    have ht := h1.typed (typed_init rng)
    obtain ⟨name, rest, rfl, hn⟩ := hi
    have hdl : StrSpec.delta (lower name) (k :: rest) = some 1 := by rw [hn]; rfl
    have hr : ∀ m0, StrSpec.getReply (viewOf s1 k) = m0 → Reads ext s1 [b! "get", k] m0 := fun m0 e it => by
      rw [get_answers ht]; exact ⟨e.symm, rfl⟩
    obtain ⟨i, s', a1, a2, a3, _⟩ := C09_counter_partial (n := (c : Int)) ⟨rng, A, h1⟩ hdl (by
      rcases c4 with ⟨a, b⟩ | ⟨t, a, b⟩
      · exact .inl ⟨hr _ a, b⟩
      · exact .inr ⟨t, hr _ a, b⟩) it
    obtain ⟨hm, rfl⟩ := a2.unique ha
    rw [wraps_iff] at a1
    have hl' : A.length + 1 < 2 ^ 63 := by simp at hl; omega
    have hv : i = c + 1 := by rw [a1]; exact wrap64_of_range _ (by omega) (by omega)
    have := Reply.int.inj hm
    omega

end Godis

namespace Godis.Event
open Resp (Reply Denotes)
open Linear (Before Op Ev)
open StrSpec (lower isError)
open CoordSpec

/-! ## the events at the sockets are different, so that they have an order -/

theorem visible_append (A B : List Label) : visible (A ++ B) = visible A ++ visible B := List.filterMap_append

theorem Run.visible_nodup {ext n rng L σ} (h : Run ext n rng L σ) : (visible L).Nodup := by
  induction h with
  | nil => exact List.nodup_nil
  | @snoc L σ l σ' hr hc hs ih =>
    have hk : Run ext n rng (L ++ l :: []) σ' := .snoc hr hc hs
    rw [visible_append]
    have key : ∀ e, e ∈ visible [l] → e ∉ visible L := by
      intro e he hm
      cases l with
      | recv i c f =>
        obtain rfl : e = .call i c f := by simpa [visible] using he
        exact hk.recv_first (.recv i c f) (mem_visible_call.mp hm) rfl
      | write i c b =>
        obtain rfl : e = .ret i c b := by simpa [visible] using he
        exact ((C44_at_most_once hk).2 L [] i c b rfl c b).1 (mem_visible_ret.mp hm)
      | _ => simp [visible] at he
    refine List.nodup_append.mpr ⟨ih, ?_, fun a ha b hb hab => key b hb (hab ▸ ha)⟩
    cases l <;> simp [visible]

theorem before_chain {α : Type} {l : List α} {a b c : α} (hn : l.Nodup) (h : Before l a b) (h' : Before l b c) : Before l a c := by
  obtain ⟨l1, l2, l3, e⟩ := h
  obtain ⟨r1, r2, r3, e'⟩ := h'
  have e1 : l = (l1 ++ a :: l2) ++ b :: l3 := by rw [e]; simp
  have e2 : l = r1 ++ b :: (r2 ++ c :: r3) := by rw [e']
  have hb : l1 ++ a :: l2 = r1 := by
    rw [e1] at e2 hn
    have h1 : b ∉ l1 ++ a :: l2 := by
      intro hb
      exact (List.nodup_append.mp hn).2.2 b hb b (by simp) rfl
    have h2 : b ∉ r1 := by
      rw [e2] at hn
      intro hb
      exact (List.nodup_append.mp hn).2.2 b hb b (by simp) rfl
    rcases List.append_eq_append_iff.mp e2 with ⟨x, hx, hy⟩ | ⟨x, hx, hy⟩
    · cases x with
      | nil => simpa using hx.symm
      | cons y x =>
        have : b = y := by simpa using (List.cons.inj hy).1
        exact absurd (by rw [hx, this]; simp) h2
    · cases x with
      | nil => simpa using hx
      | cons y x =>
        have : b = y := by simpa using (List.cons.inj hy).1
        exact absurd (by rw [hx, this]; simp) h1
  refine ⟨l1, l2 ++ b :: r2, r3, ?_⟩
  rw [e', ← hb]; simp

theorem before_or {α : Type} {l : List α} {a b : α} (hne : a ≠ b) (ha : a ∈ l) (hb : b ∈ l) : Before l a b ∨ Before l b a := by
  obtain ⟨l1, l2, rfl⟩ := List.mem_iff_append.mp ha
  simp only [List.mem_append, List.mem_cons] at hb
  rcases hb with hb | rfl | hb
  · obtain ⟨r1, r2, rfl⟩ := List.mem_iff_append.mp hb
    exact .inr ⟨r1, r2, l2, by simp⟩
  · exact absurd rfl hne
  · obtain ⟨r1, r2, rfl⟩ := List.mem_iff_append.mp hb
    exact .inl ⟨l1, r1, r2, by simp⟩

section
variable {ext : Ext} {n : Nat} {rng : Rng} {L : List Label} {σ : Sys} {a b i j r : Nat}

/-- what was not answered before something was sent: that arrived before the answer -/
theorem arrived_of (h : ¬ Answered (visible L) j r) {m : Reply} (hg : Got (visible L) j m) {req} (hs : Sent Decodes (visible L) r req) :
    ArrivedBefore (visible L) r j := by
  obtain ⟨c, b, hc, hd, hne⟩ := hg
  obtain ⟨c', b', hc', _⟩ := hs
  rcases before_or (a := Ev.ret j c b) (b := Ev.call r c' b') nofun hc hc' with h1 | h1
  · exact absurd ⟨c, b, c', b', h1, fun h => hne (denotes_unique hd h)⟩ h
  · exact ⟨c', b', c, b, h1⟩

/-- `a` was answered, then `r` came, then `j` was answered, then `b` came -/
theorem answered_chain (h : Run ext n rng L σ) (h1 : Answered (visible L) a r) (h2 : ArrivedBefore (visible L) r j)
    (h3 : Answered (visible L) j b) : Answered (visible L) a b := by
  obtain ⟨c1, b1, c2, b2, e1, hg⟩ := h1
  obtain ⟨c3, b3, c4, b4, e2⟩ := h2
  obtain ⟨c5, b5, c6, b6, e3, _⟩ := h3
  have hn := h.visible_nodup
  have m2 : Ev.call r c2 b2 ∈ visible L := by obtain ⟨_, _, _, e⟩ := e1; rw [e]; simp
  have m3 : Ev.call r c3 b3 ∈ visible L := by obtain ⟨_, _, _, e⟩ := e2; rw [e]; simp
  have m4 : Ev.ret j c4 b4 ∈ visible L := by obtain ⟨_, _, _, e⟩ := e2; rw [e]; simp
  have m5 : Ev.ret j c5 b5 ∈ visible L := by obtain ⟨_, _, _, e⟩ := e3; rw [e]; simp
  obtain ⟨rfl, rfl⟩ := h.recv_unique (mem_visible_call.mp m2) (mem_visible_call.mp m3)
  have : c4 = c5 ∧ b4 = b5 := by
    have w4 := mem_visible_ret.mp m4
    have w5 := mem_visible_ret.mp m5
    obtain ⟨A, B, e⟩ := List.mem_iff_append.mp w4
    rw [e] at w5
    simp only [List.mem_append, List.mem_cons, Label.write.injEq] at w5
    rcases w5 with w | ⟨_, rfl, rfl⟩ | w
    · exact absurd w ((C44_at_most_once h).2 A B j c4 b4 e c5 b5).1
    · exact ⟨rfl, rfl⟩
    · exact absurd w ((C44_at_most_once h).2 A B j c4 b4 e c5 b5).2
  obtain ⟨rfl, rfl⟩ := this
  exact ⟨c1, b1, c6, b6, before_chain hn (before_chain hn e1 e2) e3, hg⟩

/-- a request is not answered before it has come -/
theorem answered_irrefl (h : Run ext 1 rng L σ) : ¬ Answered (visible L) i i := by
  intro hi
  obtain ⟨ops, he⟩ := explained h
  obtain ⟨o, ho, rfl⟩ := he.done _ _ hi
  have hb := he.order o ho o ho hi
  exact before_asymm (List.Nodup.of_map _ he.nodup) hb hb

theorem answered_asymm (h : Run ext 1 rng L σ) (h1 : Answered (visible L) i j) (h2 : Answered (visible L) j i) : False := by
  obtain ⟨ops, he⟩ := explained h
  obtain ⟨o, ho, rfl⟩ := he.done _ _ h1
  obtain ⟨p, hp, rfl⟩ := he.done _ _ h2
  exact before_asymm (List.Nodup.of_map _ he.nodup) (he.order o ho p hp h1) (he.order p hp o ho h2)

theorem answered_trans (h : Run ext 1 rng L σ) (h1 : Answered (visible L) a i) (h2 : Answered (visible L) i b) : Answered (visible L) a b := by
  obtain ⟨c1, b1, c2, b2, e1, hg⟩ := h1
  obtain ⟨c3, b3, c4, b4, e2, hg'⟩ := h2
  refine answered_chain h ⟨c1, b1, c2, b2, e1, hg⟩ (j := i) ?_ ⟨c3, b3, c4, b4, e2, hg'⟩
  refine ⟨c2, b2, c3, b3, ?_⟩
  have m2 : Ev.call i c2 b2 ∈ visible L := by obtain ⟨_, _, _, e⟩ := e1; rw [e]; simp
  have m3 : Ev.ret i c3 b3 ∈ visible L := by obtain ⟨_, _, _, e⟩ := e2; rw [e]; simp
  rcases before_or (a := Ev.call i c2 b2) (b := Ev.ret i c3 b3) nofun m2 m3 with h' | h'
  · exact h'
  · exfalso
    exact answered_irrefl h ⟨c3, b3, c2, b2, h', hg'⟩

end

/-! ## the theorems -/

section
variable {ext : Ext} {rng : Rng} {L : List Label} {σ : Sys} {k x : Bytes} {owner : Nat → Nat} {a b i j g : Nat}

/-- **C86 (mutual exclusion).**  If the clients keep to the agreement, two of them never have the lock at the same time: of two INCRs
that were answered 1, the lock taken with the one was given back by a DEL that arrived before the other was answered. -/
theorem C86_exclusion (h : Run ext 1 rng L σ) (hk : LockRules Decodes (visible L) k owner) (hn : (visible L).length < 2 ^ 63)
    (hij : i ≠ j) (ti : Takes Decodes (visible L) k i) (tj : Takes Decodes (visible L) k j) :
    (∃ r, Frees Decodes (visible L) k r ∧ owner r = i ∧ ArrivedBefore (visible L) r j) ∨
    (∃ r, Frees Decodes (visible L) k r ∧ owner r = j ∧ ArrivedBefore (visible L) r i) := by
  obtain ⟨ops, he⟩ := explained h
  have hnd : ops.Nodup := List.Nodup.of_map _ he.nodup
  have main : ∀ {i j : Nat} {p q : Op}, p ∈ ops → p.id = i → Before ops p q → q.id = j → Takes Decodes (visible L) k i →
      Takes Decodes (visible L) k j → ∃ r, Frees Decodes (visible L) k r ∧ owner r = i ∧ ArrivedBefore (visible L) r j := by
    rintro _ _ p q mp rfl hpq rfl ti tj
    have mq : q ∈ ops := by obtain ⟨_, _, _, e⟩ := hpq; rw [e]; simp
    obtain ⟨A, B, e⟩ := List.mem_iff_append.mp mq
    have mA : p ∈ A := mem_of_before hnd e hpq
    -- the takes and the frees before `q`
    let T := A.filter fun o => decide (On (b! "incr") k o.req ∧ o.reply = .int 1)
    let F := A.filter fun o => decide (On (b! "del") k o.req)
    have hlen : (ops.map pair).length < 2 ^ 63 := by
      have := he.length_le
      simp only [List.length_map]; omega
    have hTF : T.length ≤ F.length := by
      obtain ⟨⟨req, sq, oq⟩, gq⟩ := tj
      obtain ⟨q', mq', e1, e2⟩ := he.got _ _ gq
      obtain rfl := he.same mq' mq e1
      obtain rfl := sent_unique h sq (he.sent q' mq')
      have e' : ops.map pair = A.map pair ++ (q'.req, .int 1) :: B.map pair := by rw [e]; simp [pair, e2]
      have := lock_taken (e' ▸ he.trace) (e' ▸ he.plain hk.reserved) (e' ▸ he.uses hk.reserved) (e' ▸ hlen) oq
      simp [taken, freed, List.countP_eq_length_filter, List.filter_map, Function.comp_def, pair] at this
      simp only [T, F, Bool.decide_and]
      convert this <;> exact decide_eq_decide.mpr Iff.rfl
    have mF : ∀ o, o ∈ F → o ∈ ops ∧ Frees Decodes (visible L) k o.id := by
      intro o ho
      obtain ⟨h1, h2⟩ := List.mem_filter.mp ho
      have mo : o ∈ ops := by rw [e]; simp [h1]
      exact ⟨mo, o.req, he.sent o mo, by simpa using h2⟩
    -- the owners of the frees are takes
    have hsub : F.map (fun o => owner o.id) ⊆ T.map (·.id) := by
      intro w hw
      obtain ⟨o, ho, rfl⟩ := List.mem_map.mp hw
      obtain ⟨mo, fo⟩ := mF o ho
      obtain ⟨⟨⟨req, sw, ow⟩, gw⟩, aw⟩ := hk.owned _ fo
      obtain ⟨w, mw, e1, e2⟩ := he.got _ _ gw
      rw [← e1] at aw sw
      have hb := he.order w mw o mo aw
      have wA : w ∈ A := mem_of_before hnd e (before_trans hnd hb (before_of_mem e (List.mem_filter.mp ho).1))
      obtain rfl := sent_unique h sw (he.sent w mw)
      exact List.mem_map.mpr ⟨w, List.mem_filter.mpr ⟨wA, by simpa using ⟨ow, e2⟩⟩, e1⟩
    have hAnd : (A.map (·.id)).Nodup := by
      have := he.nodup
      rw [e, List.map_append] at this
      exact (List.nodup_append.mp this).1
    have hFnd : (F.map (fun o => owner o.id)).Nodup := by
      have hF0 : (F.map (·.id)).Nodup := ((List.filter_sublist).map _).nodup hAnd
      refine List.Nodup.map_on ?_ (List.Nodup.of_map _ hF0)
      intro o ho o' ho' heq
      exact List.inj_on_of_nodup_map hF0 ho ho' (hk.once _ _ (mF o ho).2 (mF o' ho').2 heq)
    have hTnd : (T.map (·.id)).Nodup := ((List.filter_sublist).map _).nodup hAnd
    have hperm : (F.map (fun o => owner o.id)).Perm (T.map (·.id)) :=
      (List.subperm_of_subset hFnd hsub).perm_of_length_le (by simpa using hTF)
    have hpT : p.id ∈ T.map (·.id) := by
      obtain ⟨⟨req, sp, op⟩, gp⟩ := ti
      obtain ⟨p', mp', e1, e2⟩ := he.got _ _ gp
      obtain rfl := he.same mp' mp e1
      obtain rfl := sent_unique h sp (he.sent p' mp')
      exact List.mem_map.mpr ⟨p', List.mem_filter.mpr ⟨mA, by simpa using ⟨op, e2⟩⟩, rfl⟩
    obtain ⟨o, ho, how⟩ := List.mem_map.mp (hperm.mem_iff.mpr hpT)
    obtain ⟨mo, fo⟩ := mF o ho
    refine ⟨o.id, fo, how, arrived_of ?_ tj.2 (he.sent o mo)⟩
    intro ha
    exact before_asymm hnd (before_of_mem e (List.mem_filter.mp ho).1) (he.order q mq o mo ha)
  obtain ⟨p, mp, e1, _⟩ := he.got _ _ ti.2
  obtain ⟨q, mq, e2, _⟩ := he.got _ _ tj.2
  obtain ⟨A, B, e⟩ := List.mem_iff_append.mp mp
  rcases before_ne e mq (by rw [e1, e2]; exact hij) with h1 | h1
  · exact .inr (main mq e2 (before_of_mem e h1) e1 tj ti)
  · obtain ⟨B1, B2, rfl⟩ := List.mem_iff_append.mp h1
    exact .inl (main mp e1 ⟨A, B1, B2, e⟩ e2 ti tj)

/-- what is done under the lock comes before or after what another holder does -/
theorem section_order (h : Run ext 1 rng L σ) (hk : LockRules Decodes (visible L) k owner) (hn : (visible L).length < 2 ^ 63) (hij : i ≠ j)
    (ti : Takes Decodes (visible L) k i) (tj : Takes Decodes (visible L) k j) :
    (∀ a b, Within Decodes (visible L) k owner a i → Within Decodes (visible L) k owner b j → Answered (visible L) a b) ∨
    (∀ a b, Within Decodes (visible L) k owner a i → Within Decodes (visible L) k owner b j → Answered (visible L) b a) := by
  rcases C86_exclusion h hk hn hij ti tj with ⟨r, f, o, ar⟩ | ⟨r, f, o, ar⟩
  · exact .inl fun a b wa wb => answered_chain h (wa.2.2 r f o) ar wb.2.1
  · exact .inr fun a b wa wb => answered_chain h (wb.2.2 r f o) ar wa.2.1

/-- **C86 (critical sections).**  Requests that two clients send while they have the lock never overlap: one is answered before the
other is sent. -/
theorem C86_sections (h : Run ext 1 rng L σ) (hk : LockRules Decodes (visible L) k owner) (hn : (visible L).length < 2 ^ 63) (hij : i ≠ j)
    (wa : Within Decodes (visible L) k owner a i) (wb : Within Decodes (visible L) k owner b j) :
    Answered (visible L) a b ∨ Answered (visible L) b a := by
  rcases section_order h hk hn hij wa.1 wb.1 with h | h
  · exact .inl (h a b wa wb)
  · exact .inr (h a b wa wb)

theorem guarded_or (h : Run ext 1 rng L σ) (hk : LockRules Decodes (visible L) k owner) (hn : (visible L).length < 2 ^ 63)
    (hx : Guarded Decodes (visible L) k owner x) (hab : a ≠ b) {ra rb : List Bytes} (sa : Sent Decodes (visible L) a ra)
    (ua : (∃ w, Puts x ra w) ∨ On (b! "get") x ra) (sb : Sent Decodes (visible L) b rb) (ub : (∃ w, Puts x rb w) ∨ On (b! "get") x rb) :
    Answered (visible L) a b ∨ Answered (visible L) b a := by
  obtain ⟨i, wa⟩ := hx.within a ra sa ua
  obtain ⟨j, wb⟩ := hx.within b rb sb ub
  by_cases hij : i = j
  · subst hij; exact hx.alone a b i hab wa wb
  · exact C86_sections h hk hn hij wa wb

theorem puts_not_get {req : List Bytes} {w} (h : Puts x req w) : ¬ On (b! "get") x req := by
  rintro ⟨n, r, e, hn⟩
  rcases h with ⟨n', v, r', e', hn', _⟩ | ⟨n', r', e', hn', _⟩ <;> (rw [e] at e'; cases e'; rw [hn] at hn'; exact absurd hn' (by decide))

/-- **C86 (the last change is read).**  A key that is used under the lock only: every GET is answered with exactly what the last SET or DEL
before it has put there, where all others were answered before that one was sent, or sent after the GET was answered. -/
theorem C86_read (h : Run ext 1 rng L σ) (hk : LockRules Decodes (visible L) k owner) (hn : (visible L).length < 2 ^ 63)
    (hx : Guarded Decodes (visible L) k owner x) {req m} (sg : Sent Decodes (visible L) g req) (og : On (b! "get") x req)
    (gg : Got (visible L) g m) :
    (∃ p w, m = .bulk w ∧ Changes Decodes (visible L) x p w ∧ Answered (visible L) p g ∧
      ∀ q w', Changes Decodes (visible L) x q w' → q ≠ p → Answered (visible L) q p ∨ Answered (visible L) g q) ∨
    (m = .bulk none ∧ ∀ q w', Changes Decodes (visible L) x q w' → Answered (visible L) g q) := by
  have ne : ∀ q w', Changes Decodes (visible L) x q w' → q ≠ g := by
    rintro q w' ⟨r, s, hp⟩ rfl
    rw [sent_unique h s sg] at hp
    exact puts_not_get hp og
  have or_g : ∀ q w', Changes Decodes (visible L) x q w' → Answered (visible L) q g ∨ Answered (visible L) g q := by
    rintro q w' hq
    obtain ⟨r, s, hp⟩ := hq
    exact guarded_or h hk hn hx (ne q w' ⟨r, s, hp⟩) s (.inl ⟨_, hp⟩) sg (.inr og)
  obtain ⟨w, rfl, ⟨p, r, sp, hp, hnp, hlast⟩ | ⟨rfl, hno⟩⟩ := C74_register h hx.reserved sg og gg
  · have hpg : Answered (visible L) p g := (or_g p w ⟨r, sp, hp⟩).resolve_right hnp
    refine .inl ⟨p, w, rfl, ⟨r, sp, hp⟩, hpg, fun q w' hq hqp => ?_⟩
    rcases or_g q w' hq with h1 | h1
    · obtain ⟨rq, sq, hq⟩ := hq
      rcases guarded_or h hk hn hx hqp sq (.inl ⟨_, hq⟩) sp (.inl ⟨_, hp⟩) with h2 | h2
      · exact .inl h2
      · exact absurd ⟨h2, h1⟩ (hlast q rq w' sq hq)
    · exact .inr h1
  · refine .inr ⟨rfl, fun q w' hq => ?_⟩
    obtain ⟨rq, sq, hp⟩ := hq
    exact (or_g q w' ⟨rq, sq, hp⟩).resolve_left (hno q rq w' sq hp)

/-- **C86 (no lost update).**  If every change of the key is a read-modify-write with the function `f` under the lock, then a GET before
which `n` changes were answered reads `f` applied `n` times to nothing. -/
theorem C86_no_lost_update (h : Run ext 1 rng L σ) (hk : LockRules Decodes (visible L) k owner) (hn : (visible L).length < 2 ^ 63)
    (hx : Guarded Decodes (visible L) k owner x) {f} (hf : Updates Decodes (visible L) k owner x f) {req m}
    (sg : Sent Decodes (visible L) g req) (og : On (b! "get") x req) (gg : Got (visible L) g m) (S : Finset Nat)
    (hS : ∀ q, q ∈ S ↔ (∃ w, Changes Decodes (visible L) x q w) ∧ Answered (visible L) q g) :
    m = .bulk (f^[S.card] none) := by
  induction hc : S.card generalizing S g req m with
  | zero =>
    obtain rfl := Finset.card_eq_zero.mp hc
    rcases C86_read h hk hn hx sg og gg with ⟨p, w, _, hp, ha, _⟩ | ⟨rfl, _⟩
    · exact absurd ((hS p).mpr ⟨⟨w, hp⟩, ha⟩) (by simp)
    · rfl
  | succ n ih =>
    rcases C86_read h hk hn hx sg og gg with ⟨p, w, rfl, hp, ha, hlast⟩ | ⟨rfl, hno⟩
    · have mp : p ∈ S := (hS p).mpr ⟨⟨w, hp⟩, ha⟩
      obtain ⟨rp, sp, pp⟩ := hp
      obtain ⟨i, wp⟩ := hx.within p rp sp (.inl ⟨w, pp⟩)
      obtain ⟨⟨g', req', m', sg', og', gg', wg', hgp, rfl⟩, honly⟩ := hf p w i ⟨rp, sp, pp⟩ wp
      have := ih sg' og' gg' (S.erase p) (fun q => ?_) (by rw [Finset.card_erase_of_mem mp, hc]; rfl)
      · rw [Reply.bulk.inj this, Function.iterate_succ_apply']
      · rw [Finset.mem_erase, hS]
        constructor
        · rintro ⟨hqp, ⟨w', hq⟩, hqg⟩
          refine ⟨⟨w', hq⟩, ?_⟩
          have hqp' : Answered (visible L) q p := by
            rcases hlast q w' hq hqp with h1 | h1
            · exact h1
            · exact (answered_asymm h h1 hqg).elim
          have hq' := hq
          obtain ⟨rq, sq, pq⟩ := hq'
          obtain ⟨j, wq⟩ := hx.within q rq sq (.inl ⟨w', pq⟩)
          have hij : i ≠ j := fun hij => hqp (honly q w' hq (hij ▸ wq))
          rcases section_order h hk hn hij wp.1 wq.1 with h1 | h1
          · exact (answered_asymm h hqp' (h1 p q wp wq)).elim
          · exact h1 g' q wg' wq
        · rintro ⟨⟨w', hq⟩, hqg⟩
          refine ⟨?_, ⟨w', hq⟩, answered_trans h (answered_trans h hqg hgp) ha⟩
          rintro rfl
          exact answered_asymm h hqg hgp
    · exfalso
      obtain ⟨q, hq⟩ : S.Nonempty := Finset.card_pos.mp (by omega)
      obtain ⟨⟨w, hc⟩, ha⟩ := (hS q).mp hq
      exact answered_asymm h (hno q w hc) ha

end

/-! ## the hypotheses are met -/

/-- requests one after the other -/
def inTurn : Nat → List (Nat × Bytes × Bytes) → List Linear.Ev
  | _, [] => []
  | n, (c, f, b) :: l => Linear.Ev.call n c f :: Linear.Ev.ret n c b :: inTurn (n + 1) l

theorem inTurn_call {l : List (Nat × Bytes × Bytes)} {i c f} : ∀ {n}, Linear.Ev.call i c f ∈ inTurn n l → ∃ d b, i = n + d ∧ l[d]? = some (c, f, b) := by
  induction l with
  | nil => intro n h; cases h
  | cons x l ih =>
    intro n h
    obtain ⟨c', f', b'⟩ := x
    simp only [inTurn, List.mem_cons, Linear.Ev.call.injEq, reduceCtorEq, false_or] at h
    rcases h with ⟨rfl, rfl, rfl⟩ | h
    · exact ⟨0, b', rfl, rfl⟩
    · obtain ⟨d, b, rfl, hd⟩ := ih h
      exact ⟨d + 1, b, by omega, hd⟩

theorem inTurn_mem {l : List (Nat × Bytes × Bytes)} {c f b} : ∀ {n d}, l[d]? = some (c, f, b) →
    Linear.Ev.call (n + d) c f ∈ inTurn n l ∧ Linear.Ev.ret (n + d) c b ∈ inTurn n l := by
  induction l with
  | nil => intro n d h; cases h
  | cons x l ih =>
    intro n d h
    cases d with
    | zero => cases h; exact ⟨by simp [inTurn], by simp [inTurn]⟩
    | succ d =>
      have := ih (n := n + 1) (d := d) h
      rw [show n + (d + 1) = n + 1 + d by omega]
      exact ⟨by simp [inTurn, this.1], by simp [inTurn, this.2]⟩

theorem inTurn_before {l : List (Nat × Bytes × Bytes)} {c f b c' f' b'} : ∀ {n d d'}, l[d]? = some (c, f, b) → l[d']? = some (c', f', b') →
    d < d' → Linear.Before (inTurn n l) (Linear.Ev.ret (n + d) c b) (Linear.Ev.call (n + d') c' f') := by
  induction l with
  | nil => intro n d d' h; cases h
  | cons x l ih =>
    intro n d d' h h' hd
    obtain ⟨d', rfl⟩ : ∃ e, d' = e + 1 := ⟨d' - 1, by omega⟩
    cases d with
    | zero =>
      cases h
      have := (inTurn_mem (n := n + 1) (l := l) (d := d') h').1
      rw [show n + (d' + 1) = n + 1 + d' by omega]
      obtain ⟨l1, l2, e⟩ := List.mem_iff_append.mp this
      exact ⟨[Linear.Ev.call n c f], l1, l2, by simp [inTurn, e]⟩
    | succ d =>
      obtain ⟨l1, l2, l3, e⟩ := ih (n := n + 1) h h' (by omega)
      obtain ⟨c0, f0, b0⟩ := x
      rw [show n + (d + 1) = n + 1 + d by omega, show n + (d' + 1) = n + 1 + d' by omega]
      exact ⟨Linear.Ev.call n c0 f0 :: Linear.Ev.ret n c0 b0 :: l1, l2, l3, by simp [inTurn, e]⟩

def incrLk : Bytes := b! "*2\r\n$4\r\nINCR\r\n$1\r\nl\r\n"
def delLk : Bytes := b! "*2\r\n$3\r\nDEL\r\n$1\r\nl\r\n"
def setX1 : Bytes := b! "*3\r\n$3\r\nSET\r\n$1\r\nx\r\n$1\r\n1\r\n"
theorem incrLk_request : Decodes incrLk [b! "INCR", b! "l"] :=
  decodes_of ⟨b! "2", _, by decide, (.cons (d := b! "4") (by decide) (.cons (d := b! "1") (by decide) .nil)), by decide⟩ (by decide) (by decide)
theorem delLk_request : Decodes delLk [b! "DEL", b! "l"] :=
  decodes_of ⟨b! "2", _, by decide, (.cons (d := b! "3") (by decide) (.cons (d := b! "1") (by decide) .nil)), by decide⟩ (by decide) (by decide)
theorem setX1_request : Decodes setX1 [b! "SET", b! "x", b! "1"] :=
  decodes_of ⟨b! "3", _, by decide, (.cons (d := b! "3") (by decide) (.cons (d := b! "1") (by decide) (.cons (d := b! "1") (by decide) .nil))), by decide⟩ (by decide) (by decide)
theorem denotes_one : Denotes (b! ":1\r\n") (.int 1) :=
  ⟨1, fun f hf rest => by obtain ⟨f, rfl⟩ : ∃ g, f = g + 1 := ⟨f - 1, by omega⟩; rfl⟩
theorem denotes_nil : Denotes (b! "$-1\r\n") (.bulk none) :=
  ⟨1, fun f hf rest => by obtain ⟨f, rfl⟩ : ∃ g, f = g + 1 := ⟨f - 1, by omega⟩; rfl⟩
theorem denotes_text1 : Denotes (b! "$1\r\n1\r\n") (.bulk (some (b! "1"))) := by
  refine ⟨1, fun f hf rest => ?_⟩
  obtain ⟨f, rfl⟩ : ∃ g, f = g + 1 := ⟨f - 1, by omega⟩
  have e : b! "$1\r\n1\r\n" ++ rest = 36 :: b! "1" ++ [13, 10] ++ b! "1" ++ [13, 10] ++ rest := rfl
  rw [e, parse_bulk (by decide) f]

/-- client 0 takes the lock, reads, writes, gives the lock back; client 1 takes it and reads -/
def lockCase : List (Nat × Bytes × Bytes) :=
  [(0, incrLk, b! ":1\r\n"), (0, getX, b! "$-1\r\n"), (0, setX1, b! "+OK\r\n"), (0, delLk, b! ":1\r\n"),
   (1, incrLk, b! ":1\r\n"), (1, getX, b! "$1\r\n1\r\n")]

def lockReqs : List (List Bytes) :=
  [[b! "INCR", b! "l"], [b! "GET", b! "x"], [b! "SET", b! "x", b! "1"], [b! "DEL", b! "l"], [b! "INCR", b! "l"], [b! "GET", b! "x"]]

def lockReplies : List Reply := [.int 1, .bulk none, .simple (b! "OK"), .int 1, .int 1, .bulk (some (b! "1"))]

/-- who gave the lock back had taken it with request 0 -/
def lockOwner : Nat → Nat := fun _ => 0

/-- the function: nothing becomes `1` -/
def lockFn : Option Bytes → Option Bytes
  | none => some (b! "1")
  | some _ => some (b! "2")

/-- Case of the theorems: the hypotheses of all of them hold of this run. -/
example : ∃ L σ, Run ext0 1 rng0 L σ ∧ LockRules Decodes (visible L) (b! "l") lockOwner ∧ (visible L).length < 2 ^ 63 ∧
    Takes Decodes (visible L) (b! "l") 0 ∧ Takes Decodes (visible L) (b! "l") 4 ∧
    Guarded Decodes (visible L) (b! "l") lockOwner (b! "x") ∧ Updates Decodes (visible L) (b! "l") lockOwner (b! "x") lockFn ∧
    Within Decodes (visible L) (b! "l") lockOwner 2 0 ∧ Within Decodes (visible L) (b! "l") lockOwner 5 4 ∧
    Sent Decodes (visible L) 5 [b! "GET", b! "x"] ∧ Got (visible L) 5 (.bulk (some (b! "1"))) ∧
    ∀ q, q ∈ ({2} : Finset Nat) ↔ (∃ w, Changes Decodes (visible L) (b! "x") q w) ∧ Answered (visible L) q 5 := by
  have hd : (trySchedule ext0 it0 1 rng0 (whole 0 0 incrLk ++ whole 1 0 getX ++ whole 2 0 setX1 ++ whole 3 0 delLk ++ whole 4 1 incrLk ++
      whole 5 1 getX)).map (fun p => visible p.1) = some (inTurn 0 lockCase) := by decide +kernel
  obtain ⟨r, hr, hv⟩ := Option.map_eq_some_iff.mp hd
  have h := try_run hr
  -- the requests
  have dec : ∀ (d c : Nat) (f b : Bytes), lockCase[d]? = some (c, f, b) → ∃ req m, lockReqs[d]? = some req ∧ lockReplies[d]? = some m ∧ Decodes f req ∧ Denotes b m ∧
      m ≠ Linear.gaveUp := by
    intro d c f b hq
    match d, hq with
    | 0, hq => cases hq; exact ⟨_, _, rfl, rfl, incrLk_request, denotes_one, nofun⟩
    | 1, hq => cases hq; exact ⟨_, _, rfl, rfl, getX_request, denotes_nil, nofun⟩
    | 2, hq => cases hq; exact ⟨_, _, rfl, rfl, setX1_request, denotes_ok, nofun⟩
    | 3, hq => cases hq; exact ⟨_, _, rfl, rfl, delLk_request, denotes_one, nofun⟩
    | 4, hq => cases hq; exact ⟨_, _, rfl, rfl, incrLk_request, denotes_one, nofun⟩
    | 5, hq => cases hq; exact ⟨_, _, rfl, rfl, getX_request, denotes_text1, nofun⟩
    | _ + 6, hq => cases hq
  have sent : ∀ d req, lockReqs[d]? = some req → Sent Decodes (visible r.1) d req := by
    intro d req hq
    have hlt : d < 6 := (List.getElem?_eq_some_iff.mp hq).1
    obtain ⟨⟨c, f, b⟩, hc⟩ : ∃ p, lockCase[d]? = some p := ⟨_, List.getElem?_eq_getElem (show d < lockCase.length from hlt)⟩
    obtain ⟨req', m, h1, h2, h3, _⟩ := dec d c f b hc
    rw [hq] at h1; cases h1
    have := (inTurn_mem (n := 0) hc).1
    rw [Nat.zero_add] at this
    exact ⟨c, f, by rw [hv]; exact this, h3⟩
  have only : ∀ i req, Sent Decodes (visible r.1) i req → lockReqs[i]? = some req := by
    rintro i req ⟨c, f, h1, h2⟩
    rw [hv] at h1
    obtain ⟨d, b, e, hc⟩ := inTurn_call h1
    rw [Nat.zero_add] at e; subst e
    obtain ⟨req', m, h3, _, h4, _⟩ := dec i c f b hc
    rw [h3, decodes_det h2 h4]
  have got : ∀ d m, lockReplies[d]? = some m → Got (visible r.1) d m := by
    intro d m hq
    have hlt : d < 6 := (List.getElem?_eq_some_iff.mp hq).1
    obtain ⟨⟨c, f, b⟩, hc⟩ : ∃ p, lockCase[d]? = some p := ⟨_, List.getElem?_eq_getElem (show d < lockCase.length from hlt)⟩
    obtain ⟨req', m', h1, h2, h3, h4, h5⟩ := dec d c f b hc
    rw [hq] at h2; cases h2
    have := (inTurn_mem (n := 0) hc).2
    rw [Nat.zero_add] at this
    exact ⟨c, b, by rw [hv]; exact this, h4, h5⟩
  have ans : ∀ {d d'}, d < d' → d' < 6 → Answered (visible r.1) d d' := by
    intro d d' h1 h2
    obtain ⟨⟨c, f, b⟩, hc⟩ : ∃ p, lockCase[d]? = some p := ⟨_, List.getElem?_eq_getElem (show d < lockCase.length from by have : lockCase.length = 6 := rfl; omega)⟩
    obtain ⟨⟨c', f', b'⟩, hc'⟩ : ∃ p, lockCase[d']? = some p := ⟨_, List.getElem?_eq_getElem (show d' < lockCase.length from h2)⟩
    obtain ⟨req', m', _, _, _, h4, h5⟩ := dec d c f b hc
    have := inTurn_before (n := 0) hc hc' h1
    rw [Nat.zero_add, Nat.zero_add] at this
    exact ⟨c, b, c', f', by rw [hv]; exact this, fun h => h5 (denotes_unique h4 h)⟩
  have ans_iff : ∀ {i j}, Answered (visible r.1) i j → i < j ∧ j < 6 := by
    intro i j ha
    have hj : j < 6 := by
      obtain ⟨c, b, c', f', e, _⟩ := ha
      have : Linear.Ev.call j c' f' ∈ visible r.1 := by obtain ⟨_, _, _, e⟩ := e; rw [e]; simp
      rw [hv] at this
      obtain ⟨d, b, e, hc⟩ := inTurn_call this
      have := (List.getElem?_eq_some_iff.mp hc).1
      have h6 : lockCase.length = 6 := rfl
      omega
    refine ⟨?_, hj⟩
    by_contra hij
    rcases Nat.lt_or_eq_of_le (Nat.le_of_not_lt hij) with h1 | rfl
    · have hi : i < 6 := by
        obtain ⟨ops, he⟩ := explained h
        obtain ⟨o, ho, rfl⟩ := he.done _ _ ha
        exact (List.getElem?_eq_some_iff.mp (only _ _ (he.sent o ho))).1
      exact answered_asymm h ha (ans h1 hi)
    · exact answered_irrefl h ha
  have frees : ∀ q, Frees Decodes (visible r.1) (b! "l") q → q = 3 := by
    rintro q ⟨req, hs, hon⟩
    have := only q req hs
    match q, this with
    | 0, e | 1, e | 2, e | 4, e | 5, e => cases e; obtain ⟨n, a, h, hn⟩ := hon; (cases h <;> exact absurd hn (by decide))
    | 3, _ => rfl
  have incr_on : On (b! "incr") (b! "l") [b! "INCR", b! "l"] := ⟨_, _, rfl, by decide⟩
  have t0 : Takes Decodes (visible r.1) (b! "l") 0 := ⟨⟨_, sent 0 _ rfl, incr_on⟩, got 0 _ rfl⟩
  have t4 : Takes Decodes (visible r.1) (b! "l") 4 := ⟨⟨_, sent 4 _ rfl, incr_on⟩, got 4 _ rfl⟩
  have takes : ∀ i, Takes Decodes (visible r.1) (b! "l") i → i = 0 ∨ i = 4 := by
    rintro i ⟨⟨req, hs, hon⟩, _⟩
    have := only i req hs
    match i, this with
    | 0, _ => exact .inl rfl
    | 4, _ => exact .inr rfl
    | 1, e | 2, e | 3, e | 5, e => cases e; obtain ⟨n, a, h, hn⟩ := hon; (cases h <;> exact absurd hn (by decide))
  have w0 : ∀ a, 0 < a → a < 3 → Within Decodes (visible r.1) (b! "l") lockOwner a 0 := fun a h1 h2 =>
    ⟨t0, ans h1 (by omega), fun q hq _ => by rw [frees q hq]; exact ans h2 (by omega)⟩
  have w4 : Within Decodes (visible r.1) (b! "l") lockOwner 5 4 :=
    ⟨t4, ans (by omega) (by omega), fun q hq ho => by cases ho⟩
  have changes : ∀ q w, Changes Decodes (visible r.1) (b! "x") q w → q = 2 ∧ w = some (b! "1") := by
    rintro q w ⟨req, hs, hp⟩
    have := only q req hs
    match q, this with
    | 0, e | 1, e | 3, e | 4, e | 5, e =>
      cases e
      rcases hp with ⟨n, v, a, h, hn, _⟩ | ⟨n, a, h, hn, _⟩ <;> cases h <;> exact absurd hn (by decide)
    | 2, e =>
      cases e
      refine ⟨rfl, ?_⟩
      rcases hp with ⟨n, v, a, h, hn, hw⟩ | ⟨n, a, h, hn, _⟩
      · cases h; exact hw
      · (cases h ; exact absurd hn (by decide))
  have c2 : Changes Decodes (visible r.1) (b! "x") 2 (some (b! "1")) := ⟨_, sent 2 _ rfl, .inl ⟨_, _, _, rfl, by decide, rfl⟩⟩
  refine ⟨r.1, r.2, h, ⟨?_, ?_, ?_⟩, by rw [hv]; decide, t0, t4, ⟨?_, ?_, ?_⟩, ?_, w0 2 (by omega) (by omega), w4, sent 5 _ rfl, got 5 _ rfl, ?_⟩
  · intro i req hs
    have := List.mem_of_getElem? (only i req hs)
    revert this
    have : ∀ q ∈ lockReqs, ListSpec.Plain q ∧ (b! "l" ∈ KeySpec.keyArgs (lower (q.headD [])) q.tail →
        lower (q.headD []) ∈ [b! "incr", b! "del"] ∨ lower (q.headD []) ∈ KeySpec.readOnly) := by
      unfold ListSpec.Plain StrSpec.Ascii; decide
    exact this req
  · intro q hq
    rw [frees q hq]
    exact ⟨t0, ans (by decide) (by omega)⟩
  · intro q q' hq hq' _
    rw [frees q hq, frees q' hq']
  · intro i req hs
    have := List.mem_of_getElem? (only i req hs)
    revert this
    have : ∀ q ∈ lockReqs, ListSpec.Plain q ∧ (b! "x" ∈ KeySpec.keyArgs (lower (q.headD [])) q.tail →
        lower (q.headD []) ∈ [b! "set", b! "del"] ∨ lower (q.headD []) ∈ KeySpec.readOnly) := by
      unfold ListSpec.Plain StrSpec.Ascii; decide
    exact this req
  · intro a req hs hc
    rcases hc with ⟨w, hw⟩ | hg
    · obtain ⟨rfl, _⟩ := changes a w ⟨req, hs, hw⟩
      exact ⟨0, w0 2 (by omega) (by omega)⟩
    · have := only a req hs
      match a, this with
      | 1, _ => exact ⟨0, w0 1 (by omega) (by omega)⟩
      | 5, _ => exact ⟨4, w4⟩
      | 0, e | 2, e | 3, e | 4, e => cases e; obtain ⟨n, a, h, hn⟩ := hg; (cases h <;> exact absurd hn (by decide))
  · intro a b i hab ha hb
    have h1 := (ans_iff ha.2.1).2
    have h2 := (ans_iff hb.2.1).2
    rcases Nat.lt_or_gt_of_ne hab with h | h
    · exact .inl (ans h h2)
    · exact .inr (ans h h1)
  · intro p w i hc hw
    obtain ⟨rfl, rfl⟩ := changes p w hc
    have hi : i = 0 := by
      rcases takes i hw.1 with h | h
      · exact h
      · have := (ans_iff hw.2.1).1; omega
    subst hi
    exact ⟨⟨1, _, none, sent 1 _ rfl, ⟨_, _, rfl, by decide⟩, got 1 _ rfl, w0 1 (by omega) (by omega), ans (by omega) (by omega), rfl⟩,
      fun p' w' hc' _ => (changes p' w' hc').1⟩
  · intro q
    rw [Finset.mem_singleton]
    constructor
    · rintro rfl; exact ⟨⟨_, c2⟩, ans (by omega) (by omega)⟩
    · rintro ⟨⟨w, hw⟩, _⟩; exact (changes q w hw).1

end Godis.Event

namespace Godis.V1
open Resp (Reply)
open Event (Decodes visible)
open CoordSpec

section
variable {ext : Ext} {rng : Rng} {L : List VLabel} {v : Srv} {k x : Bytes} {owner : Nat → Nat} {a b i j g : Nat}

/-- C86, v1 server. -/
theorem C86_v1_exclusion (h : VRun ext rng L v) (hk : LockRules Decodes (visible (sysLabels L)) k owner)
    (hn : (visible (sysLabels L)).length < 2 ^ 63) (hij : i ≠ j) (ti : Takes Decodes (visible (sysLabels L)) k i)
    (tj : Takes Decodes (visible (sysLabels L)) k j) :
    (∃ r, Frees Decodes (visible (sysLabels L)) k r ∧ owner r = i ∧ ArrivedBefore (visible (sysLabels L)) r j) ∨
    (∃ r, Frees Decodes (visible (sysLabels L)) k r ∧ owner r = j ∧ ArrivedBefore (visible (sysLabels L)) r i) :=
  Event.C86_exclusion h.run hk hn hij ti tj

/-- C86, v1 server. -/
theorem C86_v1_sections (h : VRun ext rng L v) (hk : LockRules Decodes (visible (sysLabels L)) k owner)
    (hn : (visible (sysLabels L)).length < 2 ^ 63) (hij : i ≠ j) (wa : Within Decodes (visible (sysLabels L)) k owner a i)
    (wb : Within Decodes (visible (sysLabels L)) k owner b j) :
    Answered (visible (sysLabels L)) a b ∨ Answered (visible (sysLabels L)) b a :=
  Event.C86_sections h.run hk hn hij wa wb

/-- C86, v1 server. -/
theorem C86_v1_read (h : VRun ext rng L v) (hk : LockRules Decodes (visible (sysLabels L)) k owner)
    (hn : (visible (sysLabels L)).length < 2 ^ 63) (hx : Guarded Decodes (visible (sysLabels L)) k owner x) {req m}
    (sg : Sent Decodes (visible (sysLabels L)) g req) (og : On (b! "get") x req) (gg : Got (visible (sysLabels L)) g m) :
    (∃ p w, m = .bulk w ∧ Changes Decodes (visible (sysLabels L)) x p w ∧ Answered (visible (sysLabels L)) p g ∧
      ∀ q w', Changes Decodes (visible (sysLabels L)) x q w' → q ≠ p →
        Answered (visible (sysLabels L)) q p ∨ Answered (visible (sysLabels L)) g q) ∨
    (m = .bulk none ∧ ∀ q w', Changes Decodes (visible (sysLabels L)) x q w' → Answered (visible (sysLabels L)) g q) :=
  Event.C86_read h.run hk hn hx sg og gg

/-- C86, v1 server. -/
theorem C86_v1_no_lost_update (h : VRun ext rng L v) (hk : LockRules Decodes (visible (sysLabels L)) k owner)
    (hn : (visible (sysLabels L)).length < 2 ^ 63) (hx : Guarded Decodes (visible (sysLabels L)) k owner x) {f}
    (hf : Updates Decodes (visible (sysLabels L)) k owner x f) {req m}
    (sg : Sent Decodes (visible (sysLabels L)) g req) (og : On (b! "get") x req) (gg : Got (visible (sysLabels L)) g m) (S : Finset Nat)
    (hS : ∀ q, q ∈ S ↔ (∃ w, Changes Decodes (visible (sysLabels L)) x q w) ∧ Answered (visible (sysLabels L)) q g) :
    m = .bulk (f^[S.card] none) :=
  Event.C86_no_lost_update h.run hk hn hx hf sg og gg S hS

end
end Godis.V1
