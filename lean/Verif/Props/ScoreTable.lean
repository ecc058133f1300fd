import Verif.Proofs.Scores3
import Verif.Proofs.Reference3
import Verif.Props.Play
/-!
# C67: scores and cardinality of sorted sets, in every history

`C65` says nothing about a sorted set after the server has damaged it.  `ScoreSpec` (Spec/Scores.lean) describes what
holds even then.
-/
namespace Godis
open Resp (Reply bulks)
open ScoreSpec
open ZSpec (Num Flags addArgs commands words)
open StrSpec (lower Ascii)
open KeySpec (KView foreign)
open RefSpec (heardAll)

variable {ext : Ext} {rng : Rng}

/-- C67. Every history of the server, whatever damage it did, is explained by score tables. -/
theorem C67_history {tr : List (List Bytes × Reply)} {s : Store} (h : Trace ext (Store.init rng) tr s) :
    ∃ w, Explains (numOf ext) (heardAll (libOf ext) tr) w := by
  obtain ⟨w, hw, _⟩ := (heard_trace h).tables (fun p hp => (heardAll_plain tr p hp).1)
  exact ⟨w, hw⟩

/-! ## members that no request names -/

theorem addArgs_members (N : Num) : ∀ (n : Nat) (l : List Bytes) (f : Flags), l.length ≤ n → ∀ es f', addArgs N l f = some (es, f') → ∀ e ∈ es, e.2 ∈ l := by
  intro n
  induction n with
  | zero =>
    intro l f hl es f' h
    obtain rfl := List.length_eq_zero_iff.mp (Nat.le_zero.mp hl)
    unfold addArgs at h; cases h; simp
  | succ n ih =>
    intro l f hl es f' h
    rcases l with _ | ⟨a, _ | ⟨b, rest⟩⟩
    · unfold addArgs at h; cases h; simp
    · unfold addArgs at h; cases h; simp
    · simp only [List.length_cons] at hl
      unfold addArgs at h
      have h1 : ∀ f, addArgs N (b :: rest) f = some (es, f') → ∀ e ∈ es, e.2 ∈ a :: b :: rest := fun f h e he =>
        List.mem_cons_of_mem _ (ih (b :: rest) f (by simp; omega) es f' h e he)
      split at h
      · exact h1 _ h
      · split at h
        · exact h1 _ h
        · split at h
          · exact h1 _ h
          · cases hp : N.parse a with
            | none => rw [hp] at h; cases h
            | some sc =>
              rw [hp] at h
              simp only [Option.bind_some] at h
              cases hz : addArgs N rest f with
              | none => rw [hz] at h; cases h
              | some r =>
                rw [hz] at h
                cases h
                intro e he
                rcases List.mem_cons.mp he with rfl | he
                · simp
                · have := ih rest f (by omega) _ _ hz e he
                  simp [this]

theorem offer_other {N : Num} {f : Flags} {t t' : Table} {e : ZSpec.Entry} {n : Nat} {x : Bytes} (h : Offer N f t e t' n) (hx : e.2 ≠ x) :
    t'.score x = t.score x := by
  have hp : ∀ o, ScoreSpec.put t.score e.2 o x = t.score x := fun o => by unfold ScoreSpec.put; rw [if_neg (Ne.symm hx)]
  unfold Offer at h
  split at h
  · split at h
    · rw [h.1]
    · rw [h.1]; exact hp _
  · rcases h with ⟨rfl, _⟩ | ⟨_, _, rfl, _⟩
    · rfl
    · exact hp _

theorem offers_other {N : Num} {f : Flags} {x : Bytes} : ∀ {es : List ZSpec.Entry} {t t' : Table} {n : Nat}, Offers N f es t t' n → (∀ e ∈ es, e.2 ≠ x) →
    t'.score x = t.score x
  | [], _, _, _, h, _ => by rw [h.1]
  | e :: es, t, t', n, ⟨t1, n1, n2, h1, h2, _⟩, hx => by
    rw [offers_other h2 (fun e he => hx e (List.mem_cons_of_mem _ he)), offer_other h1 (hx e (by simp))]

theorem changing_here {e m : Reply} {t : Table} {v' : View} {P : Table → Table → Prop} {x : Bytes} (h : changing e (.here t) v' m P)
    (hP : ∀ t', P t t' → t'.score x = t.score x) : ∃ t', v' = .here t' ∧ t'.score x = t.score x := by
  obtain ⟨t', h1, h2⟩ := h
  exact ⟨t', h1, hP t' h2⟩

theorem creating_here {m : Reply} {t : Table} {v' : View} {P : Table → Table → Prop} {x : Bytes} (h : creating (.here t) v' m P)
    (hP : ∀ t', P t t' → t'.score x = t.score x) : ∃ t', v' = .here t' ∧ t'.score x = t.score x := by
  obtain ⟨t', h1, h2⟩ := h
  exact ⟨t', h1, hP t' h2⟩

theorem reading_here {m : Reply} {t : Table} {v' : View} {P : Table → Prop} {x : Bytes} (h : reading (.here t) v' m P) :
    ∃ t', v' = .here t' ∧ t'.score x = t.score x := changing_here h (fun t' ht => by rw [ht.1])

theorem onKey_spares {N : Num} {name : Bytes} {rest : List Bytes} {m : Reply} {t : Table} {v' : View} {x : Bytes} (h : OnKey N name rest m (.here t) v')
    (hx : name ∈ [s!! "zadd", s!! "zincr", s!! "zrem"] → x ∉ rest) : ∃ t', v' = .here t' ∧ t'.score x = t.score x := by
  have same : ∀ {m' : Reply}, v' = .here t ∧ m = m' → ∃ t', v' = .here t' ∧ t'.score x = t.score x := fun h => ⟨t, h.1, rfl⟩
  unfold OnKey at h
  by_cases hn : name = s!! "zadd"
  · rw [if_pos hn] at h
    have hx := hx (by rw [hn]; decide)
    rcases rest with _ | ⟨a, _ | ⟨b, r⟩⟩
    · exact same h
    · exact same h
    · simp only at h
      cases ha : addArgs N (a :: b :: r) {} with
      | none => rw [ha] at h; exact same h
      | some p =>
        obtain ⟨es, f⟩ := p
        rw [ha] at h
        refine creating_here h (fun t' ⟨n, h1, _⟩ => offers_other h1 (fun e he => ?_))
        rintro rfl
        exact hx (addArgs_members N _ _ _ (Nat.le_refl _) _ _ ha e he)
  rw [if_neg hn] at h; clear hn
  by_cases hn : name = s!! "zincr"
  · rw [if_pos hn] at h
    have hx := hx (by rw [hn]; decide)
    rcases rest with _ | ⟨d, _ | ⟨y, r⟩⟩
    · exact same h
    · exact same h
    · simp only at h
      cases hp : N.parse d with
      | none => rw [hp] at h; exact same h
      | some sc =>
        rw [hp] at h
        refine creating_here h (fun t' ⟨n, h1, _⟩ => offer_other h1 ?_)
        rintro rfl
        exact hx (by simp)
  rw [if_neg hn] at h; clear hn
  by_cases hn : name = s!! "zrem"
  · rw [if_pos hn] at h
    have hx := hx (by rw [hn]; decide)
    rcases rest with _ | ⟨d, r⟩
    · exact same h
    · refine changing_here h (fun t' ht => ?_)
      unfold Removed at ht
      split at ht
      · rw [ht.1]
      · rw [ht.2.1 x, if_neg hx]
  rw [if_neg hn] at h; clear hn
  by_cases hn : name = s!! "zpopmin" ∨ name = s!! "zpopmax"
  · rw [if_pos hn] at h
    cases hp : ZSpec.popCount rest with
    | none => rw [hp] at h; exact same h
    | some n =>
      rw [hp] at h
      refine changing_here h (fun t' ht => ?_)
      unfold Popped at ht
      split at ht
      · rw [ht.1]
      · obtain ⟨_, _, _, h1, _⟩ := ht
        rw [h1]
  rw [if_neg hn] at h; clear hn
  by_cases hn : name = s!! "zscore"
  · rw [if_pos hn] at h
    rcases rest with _ | ⟨a, r⟩
    · exact same h
    · exact reading_here h
  rw [if_neg hn] at h; clear hn
  by_cases hn : name = s!! "zrank"
  · rw [if_pos hn] at h
    rcases rest with _ | ⟨a, r⟩
    · exact same h
    · exact reading_here h
  rw [if_neg hn] at h; clear hn
  by_cases hn : name = s!! "zcard"
  · rw [if_pos hn] at h
    exact reading_here h
  rw [if_neg hn] at h; clear hn
  by_cases hn : name = s!! "zcount"
  · rw [if_pos hn] at h
    rcases rest with _ | ⟨a, _ | ⟨b, r⟩⟩
    · exact same h
    · exact same h
    · exact reading_here h
  rw [if_neg hn] at h; clear hn
  by_cases hn : name = s!! "zrange"
  · rw [if_pos hn] at h
    rcases rest with _ | ⟨a, _ | ⟨b, r⟩⟩
    · exact same h
    · exact same h
    · exact reading_here h
  rw [if_neg hn] at h; clear hn
  by_cases hn : name = s!! "zrangebyscore"
  · rw [if_pos hn] at h
    rcases rest with _ | ⟨a, _ | ⟨b, r⟩⟩
    · exact same h
    · exact same h
    · exact reading_here h
  rw [if_neg hn] at h; clear hn
  rcases rest with _ | ⟨a, _ | ⟨b, r⟩⟩
  · exact same h
  · exact same h
  · exact reading_here h

theorem msetKeys_sub : ∀ (n : Nat) (l : List Bytes), l.length ≤ n → ∀ k ∈ ListSpec.msetKeys l, k ∈ l := by
  intro n
  induction n with
  | zero =>
    intro l hl k hk
    obtain rfl := List.length_eq_zero_iff.mp (Nat.le_zero.mp hl)
    unfold ListSpec.msetKeys at hk; simp at hk
  | succ n ih =>
    intro l hl k hk
    rcases l with _ | ⟨a, _ | ⟨b, rest⟩⟩
    · unfold ListSpec.msetKeys at hk; simp at hk
    · unfold ListSpec.msetKeys at hk; simp at hk
    · unfold ListSpec.msetKeys at hk
      rcases List.mem_cons.mp hk with rfl | hk
      · simp
      · have := ih rest (by simp at hl; omega) k hk
        simp [this]

/-- a request that spares the member leaves its score as it is -/
theorem serves_spares {N : Num} {req : List Bytes} {m : Reply} {w w' : Bytes → View} {k x : Bytes} {t : Table}
    (h : Serves N (lower (req.headD [])) req.tail m w w') (hs : Spares k x req) (hk : w k = .here t) :
    ∃ t', w' k = .here t' ∧ t'.score x = t.score x := by
  obtain ⟨hs1, hs2⟩ := hs
  generalize lower (req.headD []) = name at *
  generalize req.tail = args at *
  unfold Serves at h
  split at h
  · split at h
    · rw [h.1]; exact ⟨t, hk, rfl⟩
    · next k' rest =>
      obtain ⟨h1, h2⟩ := h
      by_cases e : k = k'
      · subst e
        rw [hk] at h1
        exact onKey_spares h1 (fun hn => hs1 hn rfl)
      · exact ⟨t, (h2 k e).trans hk, rfl⟩
  · refine ⟨t, ?_, rfl⟩
    rw [h k, hk]
    have over : ∀ n ∈ overwriting, name = n → k ∉ args := fun n hn e => hs2 (e ▸ hn)
    have hhead : k ∉ args → args.head? ≠ some k := fun hn e => hn (List.mem_of_mem_head? e)
    unfold KeySpec.foreign
    split
    · rfl
    split
    · next hn => rw [if_neg (fun hm => over _ (by decide) hn (msetKeys_sub _ _ (Nat.le_refl _) k hm))]
    split
    · split <;> rfl
    split
    · rfl
    next hh =>
    rw [not_not] at hh
    have hin : k ∈ args := List.mem_of_mem_head? hh
    split
    · next hn =>
      refine absurd hin (over name ?_ rfl)
      unfold overwriting; simp only [List.mem_append, List.mem_cons]; simp [hn]
    split
    · next hn => exact absurd hin (over _ (by decide) hn)
    split
    · rfl
    split
    · next hn =>
      refine absurd hin (over name ?_ rfl)
      unfold overwriting; simp [hn]
    · rfl

/-! ## what a client can rely on -/

theorem tables_spares {tr : List (List Bytes × Reply)} {s s' : Store} {w : Bytes → View} {k x : Bytes} {t : Table} (h : Trace ext s tr s')
    (ht : Typed s) (hn : ShareSets s) (hw : TAll s w) (hp : ∀ p ∈ tr, Named p.1 ∧ Spares k x p.1) (hk : w k = .here t) :
    ∃ w' t', TAll s' w' ∧ Typed s' ∧ w' k = .here t' ∧ t'.score x = t.score x := by
  suffices ∃ w' t', TAll s' w' ∧ Typed s' ∧ ShareSets s' ∧ w' k = .here t' ∧ t'.score x = t.score x by
    obtain ⟨w', t', h1, h2, _, h3⟩ := this; exact ⟨w', t', h1, h2, h3⟩
  induction h with
  | nil => exact ⟨w, t, hw, ht, hn, hk, rfl⟩
  | @snoc tr s1 it req m s2 h0 ha ih =>
    obtain ⟨w1, t1, hw1, ht1, hn1, hk1, hx1⟩ := ih (fun p hp' => hp p (by simp [hp']))
    obtain ⟨hnm, hsp⟩ := hp (req, m) (by simp)
    obtain ⟨w2, hw2, hs⟩ := ha.tables ht1 hn1 hw1 hnm
    obtain ⟨t2, hk2, hx2⟩ := serves_spares hs hsp hk1
    exact ⟨w2, t2, hw2, ha.typed ht1, ha.shareSets ht1 hn1, hk2, hx2.trans hx1⟩

/-- C67. If `ZADD k text x` was answered 1, where `text` reads as `sc`, and nothing since named `x` in ZADD, ZINCR or ZREM on
`k` or replaced `k`, then `ZSCORE k x` replies `sc` whenever ZCARD does not reply 0: whatever else was added, removed or
popped, in every order. -/
theorem C67_last_report {tr₁ tr₂ : List (List Bytes × Reply)} {s₀ s₁ s₂ s₃ s₄ : Store} {it it' it'' : Iter} {k text x : Bytes} {sc : F64} {c : Int} {m : Reply}
    (h₁ : Trace ext (Store.init rng) tr₁ s₀) (hp₁ : ∀ p ∈ tr₁, Named p.1)
    (hadd : Answers ext it s₀ [b! "zadd", k, text, x] (.int 1) s₁) (hsc : ext.parseFloat text = some sc)
    (hflag : toLower ext.lowerUni text ∉ [b! "xx", b! "nx", b! "incr"])
    (h₂ : Trace ext s₁ tr₂ s₂) (hp₂ : ∀ p ∈ tr₂, Named p.1 ∧ Spares k x p.1)
    (hcard : Answers ext it' s₂ [b! "zcard", k] (.int c) s₃) (hc : c ≠ 0)
    (hscore : Answers ext it'' s₂ [b! "zscore", k, x] m s₄) : m = .bulk (some (ext.formatFloat sc)) := by
  obtain ⟨w0, _, hw0, ht0, hn0⟩ := h₁.tables hp₁
  obtain ⟨w1, hw1, hs1⟩ := hadd.tables ht0 hn0 hw0 (by intro n hn; cases hn; unfold Ascii; decide)
  have ht1 := hadd.typed ht0
  have hn1 := hadd.shareSets ht0 hn0
  -- ZADD gave the score
  have hk1 : ∃ t, w1 k = .here t ∧ t.score x = some sc := by
    have hs : OnKey (numOf ext) (s!! "zadd") [text, x] (.int 1) (w0 k) (w1 k) := hs1.1
    simp only [List.mem_cons, List.not_mem_nil, or_false, not_or] at hflag
    have ha : addArgs (numOf ext) [text, x] {} = some ([(sc, x)], {}) := by
      have h0 : ∀ f, addArgs (numOf ext) [] f = some ([], f) := fun f => by unfold addArgs; rfl
      unfold addArgs
      rw [show (numOf ext).lower text = toLower ext.lowerUni text from rfl, if_neg hflag.1, if_neg hflag.2.1, if_neg hflag.2.2, h0]
      simp [show (numOf ext).parse text = some sc from hsc]
    have hs : match addArgs (numOf ext) [text, x] {} with
      | none => w1 k = w0 k ∧ Reply.int 1 = ListSpec.errRange
      | some (es, f) => creating (w0 k) (w1 k) (.int 1) (fun t t' => ∃ n : Nat, Offers (numOf ext) f es t t' n ∧ Reply.int 1 = .int n) := hs
    rw [ha] at hs
    simp only at hs
    have key : ∀ t t', (∃ n : Nat, Offers (numOf ext) {} [(sc, x)] t t' n ∧ Reply.int 1 = .int n) → t'.score x = some sc := by
      rintro t t' ⟨n, ⟨t1, n1, n2, h1, ⟨ht', hn2⟩, hn⟩, hm⟩
      have hn1 : n1 = 1 := by
        have : (1 : Int) = (n : Int) := by injection hm
        omega
      subst hn1 ht'
      unfold Offer at h1
      split at h1
      · simp only [Bool.false_eq_true, if_false] at h1
        rw [h1.1]; simp [ScoreSpec.put]
      · rcases h1 with ⟨_, h1⟩ | ⟨_, _, h1, _⟩
        · cases h1
        · rw [h1]; simp [ScoreSpec.put]
    unfold creating at hs
    split at hs
    · obtain ⟨t', h1, h2⟩ := hs; exact ⟨t', h1, key _ _ h2⟩
    · cases hs.2
    · obtain ⟨t', h1, h2⟩ := hs; exact ⟨t', h1, key _ _ h2⟩
  obtain ⟨t1, hk1, hx1⟩ := hk1
  obtain ⟨w2, t2, hw2, ht2, hk2, hx2⟩ := tables_spares h₂ ht1 hn1 hw1 hp₂ hk1
  have hn2 := h₂.shareSets ht1 hn1
  obtain ⟨w3, _, hs3⟩ := hcard.tables ht2 hn2 hw2 (by intro n hn; cases hn; unfold Ascii; decide)
  have hs3 : reading (w2 k) (w3 k) (.int c) (fun t => Reply.int c = .int t.card) := hs3.1
  rw [hk2] at hs3
  obtain ⟨_, _, h30, h3⟩ := hs3
  have h3 : c = t2.card := by injection h3
  obtain ⟨w4, _, hs4⟩ := hscore.tables ht2 hn2 hw2 (by intro n hn; cases hn; unfold Ascii; decide)
  have hs4 : reading (w2 k) (w4 k) m (fun t => m = .bulk (if t.card = 0 then none else (t.score x).map (numOf ext).fmt)) := hs4.1
  rw [hk2] at hs4
  obtain ⟨_, _, h40, h4⟩ := hs4
  rw [h4, if_neg (by rw [← h3]; exact hc), hx2, hx1]
  rfl

/-- C67. If ZREM of `x` (and perhaps others) from `k` was answered with a number other than 0, and nothing since named `x` in
ZADD, ZINCR or ZREM on `k` or replaced `k`, then `ZSCORE k x` replies nil. -/
theorem C67_removed {tr₁ tr₂ : List (List Bytes × Reply)} {s₀ s₁ s₂ s₄ : Store} {it it'' : Iter} {k x : Bytes} {xs : List Bytes} {c : Int} {m : Reply}
    (h₁ : Trace ext (Store.init rng) tr₁ s₀) (hp₁ : ∀ p ∈ tr₁, Named p.1) (hx : x ∈ xs)
    (hrem : Answers ext it s₀ (b! "zrem" :: k :: xs) (.int c) s₁) (hc : c ≠ 0)
    (h₂ : Trace ext s₁ tr₂ s₂) (hp₂ : ∀ p ∈ tr₂, Named p.1 ∧ Spares k x p.1)
    (hscore : Answers ext it'' s₂ [b! "zscore", k, x] m s₄) : m = .bulk none := by
  obtain ⟨w0, _, hw0, ht0, hn0⟩ := h₁.tables hp₁
  obtain ⟨w1, hw1, hs1⟩ := hrem.tables ht0 hn0 hw0 (by intro n hn; cases hn; unfold Ascii; decide)
  have ht1 := hrem.typed ht0
  have hn1 := hrem.shareSets ht0 hn0
  have hk1 : ∃ t, w1 k = .here t ∧ t.score x = none := by
    obtain ⟨y, ys, rfl⟩ : ∃ y ys, xs = y :: ys := by
      cases xs with
      | nil => cases hx
      | cons y ys => exact ⟨y, ys, rfl⟩
    have hs : changing ListSpec.errType (w0 k) (w1 k) (.int c) (Removed (y :: ys) (.int c)) := hs1.1
    unfold changing at hs
    split at hs
    · have h2 := hs.2
      unfold Removed at h2
      rw [if_pos (show ScoreSpec.empty.card = 0 from rfl)] at h2
      have : c = 0 := by injection h2.2
      exact absurd this hc
    · cases hs.2
    · obtain ⟨t', h1, h2⟩ := hs
      unfold Removed at h2
      split at h2
      · have : c = 0 := by injection h2.2
        exact absurd this hc
      · exact ⟨t', h1, by rw [h2.2.1 x, if_pos hx]⟩
  obtain ⟨t1, hk1, hx1⟩ := hk1
  obtain ⟨w2, t2, hw2, ht2, hk2, hx2⟩ := tables_spares h₂ ht1 hn1 hw1 hp₂ hk1
  have hn2 := h₂.shareSets ht1 hn1
  obtain ⟨w4, _, hs4⟩ := hscore.tables ht2 hn2 hw2 (by intro n hn; cases hn; unfold Ascii; decide)
  have hs4 : reading (w2 k) (w4 k) m (fun t => m = .bulk (if t.card = 0 then none else (t.score x).map (numOf ext).fmt)) := hs4.1
  rw [hk2] at hs4
  obtain ⟨_, _, h40, h4⟩ := hs4
  rw [h4, hx2, hx1]
  simp

/-- a history that damages the sorted set: a removal at the third position, then ZPOPMAX of an unrelated size -/
def damaging : List (List Bytes) :=
  [[b! "ZADD", b! "z", b! "1", b! "a", b! "2", b! "b", b! "3", b! "c", b! "4", b! "d"], [b! "ZREM", b! "z", b! "d", b! "d", b! "e"],
   [b! "ZPOPMIN", b! "z"], [b! "ZADD", b! "z", b! "7", b! "b"]]

/-- Case: the sorted set is damaged (`ZSpec` gives up), three scores are known, and the replies are those of the score tables:
the popped `a` still has its score. -/
example : ((play ext0 it0 (Store.init rng0) (damaging ++ [[b! "ZCARD", b! "z"], [b! "ZSCORE", b! "z", b! "b"],
      [b! "ZSCORE", b! "z", b! "d"], [b! "ZSCORE", b! "z", b! "a"]])).map fun p => p.1.map (·.2)) =
    some [.int 4, .int 1, bulks [b! "a", b! "1"], .int 1, .int 3, .bulk (some (b! "7")), .bulk none, .bulk (some (b! "1"))] := by
  decide +kernel

/-- Case: `C67_last_report` and `C67_removed` have instances in that history: after `ZADD z 7 b` every kind of request may
follow, and after `ZREM z d d e` so may the rest of the history. -/
example : (∀ req ∈ [[b! "zpopmax", b! "z", b! "2"], [b! "ZADD", b! "z", b! "9", b! "a"], [b! "ZREM", b! "z", b! "a"], [b! "SET", b! "x", b! "z1"],
        [b! "ZADD", b! "y", b! "1", b! "b"]], Spares (b! "z") (b! "b") req) ∧
    (∀ req ∈ damaging.drop 2, Spares (b! "z") (b! "d") req) ∧ ¬ Spares (b! "z") (b! "b") [b! "Del", b! "z"] ∧
    ¬ Spares (b! "z") (b! "b") [b! "zrem", b! "z", b! "a", b! "b"] := by decide

end Godis
