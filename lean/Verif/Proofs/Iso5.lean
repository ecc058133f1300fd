import Mathlib.Data.List.Induction
import Verif.Proofs.Iso4
import Verif.Proofs.Reach
import Verif.Proofs.Strings2
/-!
# Requests on other keys, and whole histories
-/
namespace Godis
open Same (G)
open StrSpec (lower Ascii)
namespace IsoB
variable {K : Bytes → Prop} {B : Nat → Nat → Prop} {s t : Store}

/-- a change that touches only keys outside `K` -/
theorem change (h : IsoB K B s t) {ext c args N s'} (hN : ∀ k ∈ N, ¬ K k) (hc : Change ext c args N s s') : IsoB K B s' t := by
  have lS : ∀ {r q}, B r q → r < s.heap.length := fun hb => by
    obtain ⟨o, h1, _⟩ := h.heap hb; exact (List.getElem?_eq_some_iff.mp h1).1
  have key : ∀ {k : Bytes} (i : KeyInfo) (g : Rng), ¬ K k → (∀ tp r, i = ⟨tp, .ref r⟩ → r < s.heap.length ∧ ∀ q, ¬ B r q) →
      IsoB K B ⟨s.keys.set k i, s.heap, g⟩ t := by
    intro k i g hk hi
    refine ⟨h.fn, h.inj, h.heap, ?_, ?_, h.sepT, h.wfS.set _ _, h.wfT, ?_, h.bdT⟩
    · intro k' hk'
      show InfoRel B ((s.keys.set k i).get k') _
      rw [SMap.get_set, if_neg (fun (e : k' = k) => hk (e ▸ hk'))]
      exact h.keys hk'
    · intro k' tp r q hk' hg
      replace hg : (s.keys.set k i).get k' = _ := hg
      rw [SMap.get_set] at hg
      split at hg
      · exact (hi tp r (Option.some.inj hg)).2 q
      · exact h.sepS hk' hg
    · intro k' tp r hg
      replace hg : (s.keys.set k i).get k' = _ := hg
      rw [SMap.get_set] at hg
      split at hg
      · exact (hi tp r (Option.some.inj hg)).1
      · exact h.bdS hg
  cases hc with
  | str _ hk => exact key _ _ (hN _ hk) (fun tp r e => by cases e)
  | @del k _ hk =>
    refine ⟨h.fn, h.inj, h.heap, ?_, ?_, h.sepT, h.wfS.del _, h.wfT, ?_, h.bdT⟩
    · intro k' hk'
      show InfoRel B ((s.keys.del k).get k') _
      rw [SMap.get_del _ _ _ h.wfS, if_neg (fun (e : k' = k) => hN _ hk (e ▸ hk'))]
      exact h.keys hk'
    · intro k' tp r q hk' hg
      replace hg : (s.keys.del k).get k' = _ := hg
      rw [SMap.get_del _ _ _ h.wfS] at hg
      split at hg
      · cases hg
      · exact h.sepS hk' hg
    · intro k' tp r hg
      replace hg : (s.keys.del k).get k' = _ := hg
      rw [SMap.get_del _ _ _ h.wfS] at hg
      split at hg
      · cases hg
      · exact h.bdS hg
  | @new k o g hk _ _ _ =>
    have hk' := hN _ hk
    refine ⟨h.fn, h.inj, ?_, ?_, ?_, h.sepT, h.wfS.set _ _, h.wfT, ?_, h.bdT⟩
    · intro r q hb
      obtain ⟨o', h1, h2⟩ := h.heap hb
      exact ⟨o', by show (s.heap ++ [o])[r]? = _; rw [List.getElem?_append_left (lS hb)]; exact h1, h2⟩
    · intro k1 hk1
      show InfoRel B ((s.keys.set k _).get k1) _
      rw [SMap.get_set, if_neg (fun (e : k1 = k) => hk' (e ▸ hk1))]
      exact h.keys hk1
    · intro k1 tp r q hk1 hg hb
      replace hg : (s.keys.set k _).get k1 = _ := hg
      rw [SMap.get_set] at hg
      split at hg
      · cases hg
        have := lS hb; omega
      · exact h.sepS hk1 hg hb
    · intro k1 tp r hg
      replace hg : (s.keys.set k _).get k1 = _ := hg
      show r < (s.heap ++ [o]).length
      rw [List.length_append]
      rw [SMap.get_set] at hg
      split at hg
      · cases hg; simp
      · have := h.bdS hg; omega
  | @write k r o o' g hk hg ho _ _ =>
    have hk' := hN _ hk
    refine ⟨h.fn, h.inj, ?_, h.keys, h.sepS, h.sepT, h.wfS, h.wfT, ?_, h.bdT⟩
    · intro r' q hb
      obtain ⟨o1, h1, h2⟩ := h.heap hb
      refine ⟨o1, ?_, h2⟩
      show (s.heap.set r o')[r']? = _
      rw [List.getElem?_set_ne (fun e => h.sepS hk' hg (e ▸ hb))]; exact h1
    · intro k1 tp r' hg'; show r' < (s.heap.set r o').length; rw [List.length_set]; exact h.bdS hg'
  | @«alias» dst src r _ _ hd hs hg =>
    exact key _ _ (hN _ hd) (fun tp r' e => by cases e; exact ⟨h.bdS hg, fun q => h.sepS (hN _ hs) hg⟩)

theorem eff (h : IsoB K B s t) {ext c args N s'} (hN : ∀ k ∈ N, ¬ K k) (hc : Eff ext c args N s s') : IsoB K B s' t := by
  induction hc with
  | refl => exact h
  | step h1 _ ih => exact ih (h.change hN h1)

end IsoB

/-! ### requests -/

/-- the words of a request, the name in lower case -/
def lowered : List Bytes → List Bytes
  | [] => []
  | name :: args => lower name :: args

variable {K : Bytes → Prop} {s t : Store}

/-- A request that names no key of `K` changes nothing on `K`. -/
theorem foreign_iso {ext it s req m s' B} (ht : Typed s) (ha : Answers ext it s req m s') (hn : ∀ name ∈ req.head?, Ascii name)
    (hK : ∀ k ∈ KeySpec.named (lowered req), ¬ K k) (h : IsoB K B s t) : IsoB K B s' t := by
  obtain ⟨name, args, rfl, hc⟩ := ha.cases
  rcases hc with ⟨_, rfl, _⟩ | ⟨c, o, hl, hf, _⟩
  · exact h
  · rw [lower_eq (hn name (by simp))] at hl
    have := fn_eff c ht hf
    rw [← lookup_name hl] at this
    exact h.eff hK this

/-- `a` for the first `n` draws, then `g` -/
def Rng.cut (n : Nat) (a g : Rng) : Rng := fun i => if i < n then a i else g (i - n)

theorem Rng.cut_skip (n : Nat) (a g : Rng) : (Rng.cut n a g).skip n = g := by
  funext i
  show (if i + n < n then a (i + n) else g (i + n - n)) = g i
  rw [if_neg (by omega), Nat.add_sub_cancel]

/-- A request that looks only at keys of `K` is answered in the same way on any store that agrees on `K`, if the random heights
are the same. -/
theorem own_iso {ext it s req m s'} (ha : Answers ext it s req m s') (hn : ∀ name ∈ req.head?, Ascii name)
    (hk : (lowered req).head? ≠ some (b! "keys")) (hK : ∀ k ∈ KeySpec.looksAt (lowered req), K k) :
    ∃ n, ∀ t B, IsoB K B s t → (∀ i < n, t.rng i = s.rng i) →
      ∃ t' B', Answers ext it t req m t' ∧ IsoB K B' s' t' ∧ t'.rng = t.rng.skip n := by
  obtain ⟨name, args, rfl, hc⟩ := ha.cases
  rcases hc with ⟨hl, rfl, rfl⟩ | ⟨c, o, hl, hf, hm⟩
  · refine ⟨0, fun t B h _ => ⟨t, B, ?_, h, rfl⟩⟩
    refine ⟨newResponseWithError Err.unknownCommand.msg, ?_, rfl⟩
    simp [runRequest, newCommand, execute, hl, setRsp]
    rfl
  · have hl' := hl
    rw [lower_eq (hn name (by simp))] at hl'
    have hname := lookup_name hl'
    have hck : c ≠ .keys := by
      rintro rfl
      exact hk (by rw [lowered, hname]; show some Cmd.keys.name = some (b! "keys"); decide)
    have hKc : ∀ k ∈ IsoB.keysOf c args, K k := by
      intro k hk'
      refine hK k ?_
      simp only [lowered, KeySpec.looksAt]
      unfold IsoB.keysOf at hk'
      split at hk'
      · next e => subst e; rw [hname, if_pos (by decide)]; exact hk'
      · next e =>
        rw [if_neg, hname]
        · exact hk'
        · rw [hname]; intro e'; revert e e'; clear * -; cases c <;> decide
    obtain ⟨n, hh⟩ := IsoB.fn_follows (s := s) ext it c hck args hKc _ _ hf
    refine ⟨n, fun t B h hg => ?_⟩
    obtain ⟨t', h1, ⟨B', h2⟩, h3⟩ := hh t ⟨B, h⟩ hg
    exact ⟨t', B', (answers_iff hl).mpr ⟨o, h1, hm⟩, h2, h3⟩

/-! ### histories -/

theorem Trace.last {ext s0 tr req m s'} (h : Trace ext s0 (tr ++ [(req, m)]) s') :
    ∃ s it, Trace ext s0 tr s ∧ Answers ext it s req m s' := by
  generalize hx : tr ++ [(req, m)] = x at h
  cases h with
  | nil => simp at hx
  | snoc h1 ha =>
    obtain ⟨rfl, e⟩ := List.append_inj' hx rfl
    cases e
    exact ⟨_, _, h1, ha⟩

/-- what a history is made of: who sent the request, the request, the reply -/
abbrev HistEntry (ι : Type) := ι × List Bytes × Resp.Reply

/-- The requests of `tr` for which `mine` holds look only at keys of `K`, the others name no key of `K`: alone they get the same
replies. -/
theorem alone {ι : Type} {ext rng} {tr : List (HistEntry ι)} {s} (mine : ι → Bool)
    (h : Trace ext (Store.init rng) (tr.map (·.2)) s)
    (hn : ∀ p ∈ tr, ∀ name ∈ p.2.1.head?, Ascii name)
    (hk : ∀ p ∈ tr, mine p.1 = true → (lowered p.2.1).head? ≠ some (b! "keys") ∧ ∀ k ∈ KeySpec.looksAt (lowered p.2.1), K k)
    (ho : ∀ p ∈ tr, mine p.1 = false → ∀ k ∈ KeySpec.named (lowered p.2.1), ¬ K k) :
    ∀ g, ∃ rng' t B, Trace ext (Store.init rng') ((tr.filter (fun p => mine p.1)).map (·.2)) t ∧ IsoB K B s t ∧ t.rng = g := by
  generalize htr : tr.map (·.2) = tr' at h
  induction h generalizing tr with
  | nil =>
    rw [List.map_eq_nil_iff] at htr
    subst htr
    exact fun g => ⟨g, Store.init g, _, .nil, .init K _ _, rfl⟩
  | @snoc tr1 s1 it req m s2 ht ha ih =>
    obtain ⟨tr0, l, rfl, h1, h2⟩ := List.map_eq_append_iff.mp htr
    obtain ⟨p, rfl, hp⟩ : ∃ p, l = [p] ∧ p.2 = (req, m) := by
      cases l with
      | nil => cases h2
      | cons p l =>
        cases l with
        | nil => exact ⟨p, rfl, by simpa using h2⟩
        | cons _ _ => simp at h2
    obtain ⟨who, req', m'⟩ := p
    cases hp
    have ih := ih (fun p hp => hn p (by simp [hp])) (fun p hp => hk p (by simp [hp])) (fun p hp => ho p (by simp [hp])) h1
    have hn := hn (who, req, m) (by simp)
    intro g
    rw [List.filter_append, List.map_append]
    cases hm : mine who with
    | false =>
      obtain ⟨rng', t, B, i1, i2, i3⟩ := ih g
      refine ⟨rng', t, B, ?_, foreign_iso (ht.typed (typed_init rng)) ha hn (ho (who, req, m) (by simp) hm) i2, i3⟩
      simpa [hm] using i1
    | true =>
      obtain ⟨hk1, hk2⟩ := hk (who, req, m) (by simp) hm
      obtain ⟨n, hh⟩ := own_iso ha hn hk1 hk2
      obtain ⟨rng', t, B, i1, i2, i3⟩ := ih (Rng.cut n s1.rng g)
      obtain ⟨t', B', j1, j2, j3⟩ := hh t B i2 (fun i hi => by rw [i3]; simp only [Rng.cut, if_pos hi])
      refine ⟨rng', t', B', ?_, j2, by rw [j3, i3, Rng.cut_skip]⟩
      have := i1.snoc j1
      simpa [hm] using this

/-- The two parts of an interleaving of requests on different keys, each answered alone, are answered together. -/
theorem together {ι : Type} {ext} (mine : ι → Bool) : ∀ (tr : List (HistEntry ι)),
    (∀ p ∈ tr, ∀ name ∈ p.2.1.head?, Ascii name) →
    (∀ p ∈ tr, (lowered p.2.1).head? ≠ some (b! "keys")) →
    (∀ p ∈ tr, ∀ k, k ∈ KeySpec.looksAt (lowered p.2.1) ∨ k ∈ KeySpec.named (lowered p.2.1) → (K k ↔ mine p.1 = true)) →
    ∀ {r1 r2 t u}, Trace ext (Store.init r1) ((tr.filter (fun p => mine p.1)).map (·.2)) t →
    Trace ext (Store.init r2) ((tr.filter (fun p => !mine p.1)).map (·.2)) u →
    ∀ g, ∃ rng s B C, Trace ext (Store.init rng) (tr.map (·.2)) s ∧ IsoB K B t s ∧ IsoB (fun k => ¬ K k) C u s ∧ s.rng = g := by
  intro tr
  induction tr using List.reverseRecOn with
  | nil =>
    intro _ _ _ r1 r2 t u h1 h2 g
    generalize hx : List.map (·.2) (List.filter _ ([] : List (HistEntry ι))) = x at h1
    cases h1 with
    | nil =>
      generalize hy : List.map (·.2) (List.filter _ ([] : List (HistEntry ι))) = y at h2
      cases h2 with
      | nil => exact ⟨g, Store.init g, _, _, .nil, .init K _ _, .init _ _ _, rfl⟩
      | snoc => simp at hy
    | snoc => simp at hx
  | append_singleton tr p ih =>
    intro hn hk hK r1 r2 t u h1 h2 g
    have ih := @ih (fun p hp => hn p (by simp [hp])) (fun p hp => hk p (by simp [hp])) (fun p hp => hK p (by simp [hp]))
    have hn := hn p (by simp)
    have hk := hk p (by simp)
    have hK := hK p (by simp)
    obtain ⟨who, req, m⟩ := p
    rw [List.filter_append, List.map_append] at h1 h2
    cases hm : mine who with
    | true =>
      have e1 : List.map (·.2) (List.filter (fun p : HistEntry ι => mine p.1) [(who, req, m)]) = [(req, m)] := by simp [hm]
      have e2 : List.map (·.2) (List.filter (fun p : HistEntry ι => !mine p.1) [(who, req, m)]) = [] := by simp [hm]
      rw [e1] at h1; rw [e2, List.append_nil] at h2
      obtain ⟨t0, it, h1, ha⟩ := h1.last
      obtain ⟨n, hh⟩ := own_iso (K := K) ha hn hk (fun k hk => (hK k (.inl hk)).mpr hm)
      obtain ⟨rng, s, B, C, i1, i2, i3, i4⟩ := ih h1 h2 (Rng.cut n t0.rng g)
      obtain ⟨s', B', j1, j2, j3⟩ := hh s B i2 (fun i hi => by rw [i4]; simp only [Rng.cut, if_pos hi])
      refine ⟨rng, s', B', C, by rw [List.map_append]; exact i1.snoc j1, j2, ?_, by rw [j3, i4, Rng.cut_skip]⟩
      have := foreign_iso (K := fun k => ¬ K k) (i1.typed (typed_init rng)) j1 hn
        (fun k hk hK' => hK' ((hK k (.inr hk)).mpr hm)) i3.flip
      exact this.flip
    | false =>
      have e1 : List.map (·.2) (List.filter (fun p : HistEntry ι => mine p.1) [(who, req, m)]) = [] := by simp [hm]
      have e2 : List.map (·.2) (List.filter (fun p : HistEntry ι => !mine p.1) [(who, req, m)]) = [(req, m)] := by simp [hm]
      rw [e1, List.append_nil] at h1; rw [e2] at h2
      obtain ⟨u0, it, h2, ha⟩ := h2.last
      have nK : ∀ k, k ∈ KeySpec.looksAt (lowered req) ∨ k ∈ KeySpec.named (lowered req) → ¬ K k := by
        intro k hk hKk
        have := (hK k hk).mp hKk
        simp [hm] at this
      obtain ⟨n, hh⟩ := own_iso (K := fun k => ¬ K k) ha hn hk (fun k hk => nK k (.inl hk))
      obtain ⟨rng, s, B, C, i1, i2, i3, i4⟩ := ih h1 h2 (Rng.cut n u0.rng g)
      obtain ⟨s', C', j1, j2, j3⟩ := hh s C i3 (fun i hi => by rw [i4]; simp only [Rng.cut, if_pos hi])
      refine ⟨rng, s', B, C', by rw [List.map_append]; exact i1.snoc j1, ?_, j2, by rw [j3, i4, Rng.cut_skip]⟩
      exact (foreign_iso (i1.typed (typed_init rng)) j1 hn (fun k hk => nK k (.inr hk)) i2.flip).flip

end Godis
