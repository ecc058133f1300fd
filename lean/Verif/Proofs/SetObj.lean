import Verif.Model.SetObj
import Verif.Proofs.ShardMap
import Verif.Spec.Sets
/-! The set object computes the mathematical operations. -/
namespace Godis
namespace SObj

variable {o a b : SObj} {X Y : Finset Bytes} {g g' : Nat} {it : Iter}

/-- `o` has the members `X`, and its recorded length is `g` too large -/
structure Is (o : SObj) (X : Finset Bytes) (g : Nat) : Prop where
  wf : o.m.WF
  mem : ∀ v, o.m.has v = true ↔ v ∈ X
  len : o.length = X.card + g

theorem Is.empty : SObj.empty.Is ∅ 0 := ⟨.empty, fun v => by simp [SObj.empty, SMap.has], by simp [SObj.empty]⟩

theorem Is.unique (h : o.Is X g) (h' : o.Is Y g') : X = Y ∧ g = g' := by
  have e : X = Y := by ext v; rw [← h.mem, ← h'.mem]
  subst e
  exact ⟨rfl, by have := h.len; have := h'.len; omega⟩

theorem Is.get (h : o.Is X g) (v : Bytes) : o.m.get v = if v ∈ X then some () else none := by
  have := h.mem v
  rw [SMap.has_eq] at this
  cases hg : o.m.get v with
  | none => rw [hg] at this; rw [if_neg (by simpa using this)]
  | some u => rw [hg] at this; rw [if_pos (by simpa using this)]

theorem Is.has (h : o.Is X g) (v : Bytes) : o.m.has v = decide (v ∈ X) := by
  rw [Bool.eq_iff_iff, h.mem]; simp

theorem Is.keys (h : o.Is X g) : (o.m.keys it).Nodup ∧ (o.m.keys it).toFinset = X := by
  refine ⟨SMap.entries_keys_nodup it _ h.wf, ?_⟩
  ext v
  rw [List.mem_toFinset, SMap.mem_keys it _ h.wf, ← SMap.has_eq, h.mem]

theorem Is.sAdd (h : o.Is X g) (v : Bytes) :
    (o.sAdd v).1.Is (insert v X) g ∧ (o.sAdd v).2 = if v ∈ X then 0 else 1 := by
  have hmem : ∀ w, (o.m.setIfAbsent v ()).1.has w = true ↔ w ∈ insert v X := by
    intro w
    rw [SMap.has_eq, SMap.get_setIfAbsent, Finset.mem_insert, ← h.mem w, SMap.has_eq]
    by_cases e : w = v
    · subst e; cases hw : o.m.get w <;> simp
    · simp [e]
  have hwf := h.wf.setIfAbsent v ()
  have hsnd := SMap.setIfAbsent_snd o.m v ()
  have hlen := h.len
  rw [h.has] at hsnd
  unfold SObj.sAdd
  by_cases hv : v ∈ X
  · have h2 : (o.m.setIfAbsent v ()).2 = false := by simp [hsnd, hv]
    simp only [h2, hv, if_true]
    refine ⟨⟨hwf, hmem, ?_⟩, rfl⟩
    simp [Finset.insert_eq_of_mem hv, hlen]
  · have h2 : (o.m.setIfAbsent v ()).2 = true := by simp [hsnd, hv]
    simp only [h2, hv, if_true, if_false]
    refine ⟨⟨hwf, hmem, ?_⟩, by simp⟩
    simp [Finset.card_insert_of_notMem hv, hlen]; omega

theorem Is.sRem (h : o.Is X g) (v : Bytes) :
    (o.sRem v).1.Is (X.erase v) g ∧ (o.sRem v).2 = if v ∈ X then 1 else 0 := by
  have hmem : ∀ w, (o.m.deleteIfExists v).1.has w = true ↔ w ∈ X.erase v := by
    intro w
    rw [SMap.has_eq, SMap.get_deleteIfExists _ h.wf, Finset.mem_erase, ← h.mem w, SMap.has_eq]
    by_cases e : w = v
    · subst e; simp
    · simp [e]
  have hwf := h.wf.deleteIfExists v
  have hsnd := SMap.deleteIfExists_snd o.m v
  have hlen := h.len
  rw [h.has] at hsnd
  unfold SObj.sRem
  by_cases hv : v ∈ X
  · have h2 : (o.m.deleteIfExists v).2 = true := by simp [hsnd, hv]
    simp only [h2, hv, if_true]
    refine ⟨⟨hwf, hmem, ?_⟩, by simp⟩
    have := Finset.card_pos.mpr ⟨v, hv⟩
    simp only [Finset.card_erase_of_mem hv, hlen]; omega
  · have h2 : (o.m.deleteIfExists v).2 = false := by simp [hsnd, hv]
    simp only [h2, hv, if_false]
    refine ⟨⟨hwf, hmem, ?_⟩, by simp⟩
    simp [Finset.erase_eq_of_notMem hv, hlen]

/-- the deletion of SMOVE: the recorded length stays -/
theorem Is.smove (h : o.Is X g) (v : Bytes) :
    (SObj.mk (o.m.deleteIfExists v).1 o.length).Is (X \ [v].toFinset) (g + (X ∩ [v].toFinset).card) := by
  have h1 := h.sRem v
  have hl := h.len
  refine ⟨h.wf.deleteIfExists v, ?_, ?_⟩
  · intro w
    show (o.m.deleteIfExists v).1.has w = true ↔ _
    rw [SMap.has_eq, SMap.get_deleteIfExists _ h.wf]
    have := h.mem w
    rw [SMap.has_eq] at this
    by_cases e : w = v
    · subst e; simp
    · simp [e, this]
  · have := Finset.card_sdiff_add_card_inter X [v].toFinset
    simp only [hl]; push_cast; omega

theorem Is.sAddAll (h : o.Is X g) : ∀ (vs : List Bytes),
    (o.sAddAll vs).1.Is (X ∪ vs.toFinset) g ∧ (o.sAddAll vs).2 = ((vs.toFinset \ X).card : Int) := by
  intro vs
  induction vs generalizing o X with
  | nil => simpa [SObj.sAddAll] using h
  | cons v vs ih =>
    obtain ⟨h1, h2⟩ := h.sAdd v
    obtain ⟨h3, h4⟩ := ih h1
    refine ⟨?_, ?_⟩
    · have e : X ∪ (v :: vs).toFinset = insert v X ∪ vs.toFinset := by ext w; simp
      rw [e]; exact h3
    · show (o.sAdd v).2 + ((o.sAdd v).1.sAddAll vs).2 = _
      rw [h2, h4]
      by_cases hv : v ∈ X
      · have e : (v :: vs).toFinset \ X = vs.toFinset \ insert v X := by
          ext w; simp only [List.toFinset_cons, Finset.mem_sdiff, Finset.mem_insert]
          constructor
          · rintro ⟨rfl | h, hw⟩
            · exact absurd hv hw
            · exact ⟨h, by rintro (rfl | h'); exact hw hv; exact hw h'⟩
          · rintro ⟨h, hw⟩; exact ⟨.inr h, fun h' => hw (.inr h')⟩
        rw [e, if_pos hv]; simp
      · have e : (v :: vs).toFinset \ X = insert v (vs.toFinset \ insert v X) := by
          ext w; simp only [List.toFinset_cons, Finset.mem_sdiff, Finset.mem_insert]
          by_cases e : w = v
          · subst e; simp [hv]
          · simp [e]
        rw [e, Finset.card_insert_of_notMem (by simp), if_neg hv]; push_cast; omega

theorem Is.sRemAll (h : o.Is X g) : ∀ (vs : List Bytes),
    (o.sRemAll vs).1.Is (X \ vs.toFinset) g ∧ (o.sRemAll vs).2 = ((X ∩ vs.toFinset).card : Int) := by
  intro vs
  induction vs generalizing o X with
  | nil => simpa [SObj.sRemAll] using h
  | cons v vs ih =>
    obtain ⟨h1, h2⟩ := h.sRem v
    obtain ⟨h3, h4⟩ := ih h1
    refine ⟨?_, ?_⟩
    · have e : X \ (v :: vs).toFinset = X.erase v \ vs.toFinset := by ext w; simp; tauto
      rw [e]; exact h3
    · show (o.sRem v).2 + ((o.sRem v).1.sRemAll vs).2 = _
      rw [h2, h4]
      by_cases hv : v ∈ X
      · have e : X ∩ (v :: vs).toFinset = insert v (X.erase v ∩ vs.toFinset) := by
          ext w; simp only [List.toFinset_cons, Finset.mem_inter, Finset.mem_insert, Finset.mem_erase]
          by_cases e : w = v
          · subst e; simp [hv]
          · simp [e]
        rw [e, Finset.card_insert_of_notMem (by simp), if_pos hv]; push_cast; omega
      · have e : X ∩ (v :: vs).toFinset = X.erase v ∩ vs.toFinset := by
          ext w; simp only [List.toFinset_cons, Finset.mem_inter, Finset.mem_insert, Finset.mem_erase]
          by_cases e : w = v
          · subst e; simp [hv]
          · simp [e]
        rw [e, if_neg hv]; simp

/-- folding `sAdd` over the entries that pass a test -/
theorem Is.fold (h : o.Is X g) (p : Bytes → Bool) : ∀ (es : List (Bytes × Unit)),
    (es.foldl (fun r kv => if p kv.1 then (r.sAdd kv.1).1 else r) o).Is (X ∪ ((es.map (·.1)).filter p).toFinset) g := by
  intro es
  induction es generalizing o X with
  | nil => simpa using h
  | cons e es ih =>
    simp only [List.foldl_cons, List.map_cons]
    by_cases hp : p e.1
    · have := ih (h.sAdd e.1).1
      simp only [hp, if_true, List.filter_cons, List.toFinset_cons]
      rw [show X ∪ insert e.1 (List.filter p (es.map (·.1))).toFinset = insert e.1 X ∪ (List.filter p (es.map (·.1))).toFinset by
        ext w; simp]
      exact this
    · have := ih h
      simp only [hp, List.filter_cons]
      exact this

theorem Is.entries (h : o.Is X g) : ((o.m.entries it).map (·.1)).toFinset = X := (h.keys (it := it)).2

theorem Is.sDiff (ha : a.Is X g) (hb : b.Is Y g') : (a.sDiff it b).Is (X \ Y) 0 := by
  have := Is.empty.fold (fun k => !b.m.has k) (a.m.entries it)
  have e : ∅ ∪ (((a.m.entries it).map (·.1)).filter (fun k => !b.m.has k)).toFinset = X \ Y := by
    ext w
    have h1 : w ∈ (a.m.entries it).map (·.1) ↔ w ∈ X := by rw [← List.mem_toFinset, ha.entries]
    simp only [Finset.empty_union, List.mem_toFinset, List.mem_filter, h1, Finset.mem_sdiff, hb.has]; simp
  rw [e] at this
  exact this

theorem Is.sInter (ha : a.Is X g) (hb : b.Is Y g') : (a.sInter it b).Is (X ∩ Y) 0 := by
  have := Is.empty.fold (fun k => b.m.has k) (a.m.entries it)
  have e : ∅ ∪ (((a.m.entries it).map (·.1)).filter (fun k => b.m.has k)).toFinset = X ∩ Y := by
    ext w
    have h1 : w ∈ (a.m.entries it).map (·.1) ↔ w ∈ X := by rw [← List.mem_toFinset, ha.entries]
    simp only [Finset.empty_union, List.mem_toFinset, List.mem_filter, h1, Finset.mem_inter, hb.has]; simp
  rw [e] at this
  exact this

theorem Is.sUnion (ha : a.Is X g) (hb : b.Is Y g') : (SObj.sUnion it [a, b]).Is (X ∪ Y) 0 := by
  have h1 := Is.empty.fold (fun _ => true) (a.m.entries it)
  simp only [if_true, Finset.empty_union, List.filter_true, ha.entries] at h1
  have h2 := h1.fold (fun _ => true) (b.m.entries it)
  simp only [if_true, List.filter_true, hb.entries] at h2
  exact h2

/-- the loop of SPOP -/
theorem pop_loop : ∀ (es : List (Bytes × Unit)) (m : SMap Unit) (n : Int) (acc : List Bytes), m.WF → (es.map (·.1)).Nodup →
    (∀ e ∈ es, m.has e.1 = true) →
    ∃ q, SMap.rangeAndDeleteLoop (fun (st : Int × List Bytes) key (_ : Unit) =>
      if st.1 ≤ 0 then (st, false, false) else ((st.1 - 1, st.2 ++ [key]), true, true)) es m (n, acc) =
      (q, (n - (min n.toNat es.length : Nat), acc ++ (es.map (·.1)).take n.toNat)) ∧ q.WF ∧
      ∀ w, q.get w = if w ∈ (es.map (·.1)).take n.toNat then none else m.get w := by
  intro es
  induction es with
  | nil => intro m n acc hm _ _; exact ⟨m, by simp [SMap.rangeAndDeleteLoop], hm, by simp⟩
  | cons e es ih =>
    intro m n acc hm hnd hall
    by_cases hn : n ≤ 0
    · refine ⟨m, ?_, hm, ?_⟩
      · have : n.toNat = 0 := by omega
        simp [SMap.rangeAndDeleteLoop, hn, this]
      · have : n.toNat = 0 := by omega
        simp [this]
    · simp only [List.map_cons, List.nodup_cons] at hnd
      obtain ⟨q, h1, h2, h3⟩ := ih (m.del e.1) (n - 1) (acc ++ [e.1]) (hm.del e.1) hnd.2 (fun e' he' => by
        have : e'.1 ≠ e.1 := fun h => hnd.1 (h ▸ List.mem_map_of_mem he')
        rw [SMap.has_eq, SMap.get_del_ne _ this, ← SMap.has_eq]
        exact hall e' (List.mem_cons_of_mem _ he'))
      have hk : n.toNat = (n - 1).toNat + 1 := by omega
      refine ⟨q, ?_, h2, ?_⟩
      · simp only [SMap.rangeAndDeleteLoop, hn, if_false, if_true]
        rw [h1, hk]
        simp only [List.map_cons, List.take_succ_cons, List.length_cons, Prod.mk.injEq, true_and]
        refine ⟨by omega, by simp⟩
      · intro w
        rw [h3, hk]
        simp only [List.map_cons, List.take_succ_cons, List.mem_cons]
        by_cases hw : w ∈ (es.map (·.1)).take (n - 1).toNat
        · rw [if_pos hw, if_pos (.inr hw)]
        · simp only [hw, or_false, if_false]
          rw [SMap.get_del _ _ _ hm]
          try rfl

/-- SPOP removes what it returns: `min n size` distinct members -/
theorem Is.sPop (h : o.Is X g) (n : Int) : ∃ o' l, o.sPop it n = (o', l) ∧ l.Nodup ∧ l.toFinset ⊆ X ∧
    l.length = min n.toNat X.card ∧ o'.Is (X \ l.toFinset) (g + (X ∩ l.toFinset).card) := by
  have hkeys := h.keys (it := it)
  have hall : ∀ e ∈ o.m.entries it, o.m.has e.1 = true := by
    intro e he
    rw [h.mem, ← h.entries (it := it), List.mem_toFinset]
    exact List.mem_map_of_mem he
  obtain ⟨q, h1, h2, h3⟩ := pop_loop (o.m.entries it) o.m n [] h.wf hkeys.1 hall
  have hsub : ∀ w ∈ ((o.m.entries it).map (·.1)).take n.toNat, w ∈ X := by
    intro w hw
    rw [← h.entries (it := it), List.mem_toFinset]
    exact List.mem_of_mem_take hw
  refine ⟨⟨q, o.length⟩, ((o.m.entries it).map (·.1)).take n.toNat, ?_, ?_, ?_, ?_, ?_⟩
  · unfold SObj.sPop SMap.rangeAndDelete
    simp only [h1, List.nil_append]
  · exact hkeys.1.sublist (List.take_sublist _ _)
  · intro w hw; exact hsub w (List.mem_toFinset.mp hw)
  · rw [List.length_take]
    congr 1
    have := List.toFinset_card_of_nodup hkeys.1
    rw [hkeys.2] at this
    exact this.symm
  · refine ⟨h2, ?_, ?_⟩
    · intro w
      show q.has w = true ↔ _
      rw [SMap.has_eq, h3, Finset.mem_sdiff, List.mem_toFinset, ← h.mem w, SMap.has_eq]
      by_cases hw : w ∈ ((o.m.entries it).map (·.1)).take n.toNat <;> simp [hw]
    · have := Finset.card_sdiff_add_card_inter X (((o.m.entries it).map (·.1)).take n.toNat).toFinset
      have hl := h.len
      show o.length = _
      rw [hl]; push_cast; omega

end SObj
end Godis
