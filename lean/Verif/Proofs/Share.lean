import Verif.Proofs.Keys
/-! Only sets can be shared between keys, so every other value is framed in every reachable store. -/
namespace Godis
open Resp (Reply)

/-- keys that share an object hold a set -/
def ShareSets (s : Store) : Prop :=
  ∀ k1 k2 t1 t2 r, s.keys.get k1 = some ⟨t1, .ref r⟩ → s.keys.get k2 = some ⟨t2, .ref r⟩ → k1 = k2 ∨ t1 = .set

theorem shareSets_init (rng : Rng) : ShareSets (Store.init rng) := by
  intro k1 k2 t1 t2 r h; cases h

theorem Typed.same_type {s : Store} (ht : Typed s) {k1 k2 t1 t2 r} (h1 : s.keys.get k1 = some ⟨t1, .ref r⟩)
    (h2 : s.keys.get k2 = some ⟨t2, .ref r⟩) : t1 = t2 := by
  rcases ht.kind _ _ h1 with ⟨v, h⟩ | ⟨r', o, h, ho, _⟩
  · cases h
  · cases h
    rcases ht.kind _ _ h2 with ⟨v, h⟩ | ⟨r', o', h, ho', _⟩
    · cases h
    · cases h
      rw [ho] at ho'; cases ho'; rfl

theorem Change.shareSets {ext c args N} {s s' : Store} (h : Change ext c args N s s') (ht : Typed s) (hn : ShareSets s) :
    ShareSets s' := by
  cases h with
  | @str k v _ _ =>
    intro k1 k2 t1 t2 r h1 h2
    simp only [SMap.get_set] at h1 h2
    split at h1
    · cases h1
    · split at h2
      · cases h2
      · exact hn _ _ _ _ _ h1 h2
  | @del k _ _ =>
    intro k1 k2 t1 t2 r h1 h2
    simp only [SMap.get_del _ _ _ ht.wf] at h1 h2
    split at h1
    · cases h1
    · split at h2
      · cases h2
      · exact hn _ _ _ _ _ h1 h2
  | @new k o rng _ _ _ _ =>
    intro k1 k2 t1 t2 r h1 h2
    simp only [SMap.get_set] at h1 h2
    split at h1
    · next e1 =>
      split at h2
      · next e2 => exact .inl (by rw [e1, e2])
      · cases h1
        exact absurd (ht.ref_lt h2) (by simp)
    · split at h2
      · cases h2
        exact absurd (ht.ref_lt h1) (by simp)
      · exact hn _ _ _ _ _ h1 h2
  | write => exact hn
  | @«alias» dst src r _ _ _ _ hg =>
    intro k1 k2 t1 t2 r' h1 h2
    simp only [SMap.get_set] at h1 h2
    split at h1
    · cases h1; exact .inr rfl
    · split at h2
      · cases h2
        exact .inr (ht.same_type h1 hg)
      · exact hn _ _ _ _ _ h1 h2

theorem Eff.shareSets {ext c args N} {s s' : Store} (h : Eff ext c args N s s') (ht : Typed s) (hn : ShareSets s) :
    ShareSets s' := by
  induction h with
  | refl => exact hn
  | step h _ ih => exact ih (h.typed ht) (h.shareSets ht hn)

/-- `k` does not hold a set -/
def NotSet (s : Store) (k : Bytes) : Prop := ∀ v, s.keys.get k ≠ some ⟨.set, v⟩

theorem Change.value_frame' {ext c args N} {s s' : Store} (h : Change ext c args N s s') (ht : Typed s) (hn : ShareSets s)
    {k : Bytes} (hk : k ∉ N) (hs : NotSet s k) : s'.valueAt k = s.valueAt k ∧ NotSet s' k := by
  have hf := h.keys_frame ht hk
  refine ⟨?_, fun v => by rw [hf]; exact hs v⟩
  unfold Store.valueAt
  rw [hf]
  cases hg : s.keys.get k with
  | none => rfl
  | some info =>
    obtain ⟨t, v⟩ := info
    cases v with
    | str v => rfl
    | ref r =>
      have hr := ht.ref_lt hg
      cases h with
      | str => rfl
      | del => rfl
      | new =>
        simp only
        rw [List.getElem?_append_left hr]
      | @write k' r' o o' rng hk' hg' ho hst _ =>
        simp only
        have : r' ≠ r := by
          rintro rfl
          rcases hn _ _ _ _ _ hg hg' with e | e
          · exact hk (e ▸ hk')
          · exact hs _ (e ▸ hg)
        rw [List.getElem?_set_ne this]
      | «alias» => rfl

/-- a value that is not a set is not changed by commands that do not name its key -/
theorem Eff.value_frame' {ext c args N} {s s' : Store} (h : Eff ext c args N s s') (ht : Typed s) (hn : ShareSets s)
    {k : Bytes} (hk : k ∉ N) (hs : NotSet s k) : s'.valueAt k = s.valueAt k ∧ s'.keys.get k = s.keys.get k := by
  induction h with
  | refl => exact ⟨rfl, rfl⟩
  | step h _ ih =>
    have h1 := h.value_frame' ht hn hk hs
    have h2 := ih (h.typed ht) (h.shareSets ht hn) h1.2
    exact ⟨h2.1.trans h1.1, h2.2.trans (h.keys_frame ht hk)⟩

theorem Answers.shareSets {ext it s req m s'} (h : Answers ext it s req m s') (ht : Typed s) (hn : ShareSets s) :
    ShareSets s' := by
  rcases h.eff ht with rfl | ⟨_, _, _, _, _, he⟩
  · exact hn
  · exact he.shareSets ht hn

theorem Trace.shareSets {ext s tr s'} (h : Trace ext s tr s') (ht : Typed s) (hn : ShareSets s) : ShareSets s' := by
  induction h with
  | nil => exact hn
  | snoc h0 ha ih => exact ha.shareSets (h0.typed ht) ih

theorem Reachable.shareSets {ext s} (h : Reachable ext s) : ShareSets s := by
  obtain ⟨rng, tr, h⟩ := h
  exact h.shareSets (typed_init rng) (shareSets_init rng)

end Godis
