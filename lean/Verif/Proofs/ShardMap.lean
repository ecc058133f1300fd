import Verif.Model.ShardMap
import Mathlib.Data.List.Perm.Basic
import Mathlib.Data.List.Nodup
/-! The sharded map refines a partial function from keys to values. -/
namespace Godis

namespace GoMap
variable {V : Type}

theorem get_set (m : GoMap V) (k k' : Bytes) (v : V) :
    (m.set k v).get k' = if k' = k then some v else m.get k' := by
  induction m with
  | nil =>
    by_cases h : k' = k
    · subst h; simp [set, get]
    · simp [set, get, h, Ne.symm h]
  | cons a m ih =>
    obtain ⟨a, w⟩ := a
    unfold set
    by_cases ha : a = k
    · subst ha
      rw [if_pos rfl]
      by_cases h : k' = a
      · subst h; simp [get]
      · simp [get, h, Ne.symm h]
    · rw [if_neg ha]
      by_cases h : k' = k
      · subst h; simp only [get, if_neg ha, ih, if_true]
      · by_cases h2 : a = k'
        · subst h2; simp [get, h]
        · simp only [get, if_neg h2, ih, if_neg h]

theorem get_del_ne (m : GoMap V) {k k' : Bytes} (h : k' ≠ k) : (m.del k).get k' = m.get k' := by
  induction m with
  | nil => simp [del]
  | cons a m ih =>
    obtain ⟨a, w⟩ := a
    unfold del
    by_cases ha : a = k
    · subst ha; rw [if_pos rfl]; simp only [get, if_neg (Ne.symm h)]
    · rw [if_neg ha]
      by_cases h2 : a = k'
      · subst h2; simp [get]
      · simp only [get, if_neg h2, ih]

theorem get_eq_none (m : GoMap V) (k : Bytes) : m.get k = none ↔ k ∉ m.keys := by
  induction m with
  | nil => simp [get, keys]
  | cons a m ih =>
    obtain ⟨a, w⟩ := a
    by_cases ha : a = k
    · subst ha; simp [get, keys]
    · simp only [get, if_neg ha, ih]
      simp [keys, Ne.symm ha]

theorem mem_keys (m : GoMap V) (k : Bytes) : k ∈ m.keys ↔ (m.get k).isSome := by
  have := get_eq_none m k
  cases h : m.get k <;> simp_all

theorem del_keys (m : GoMap V) (k : Bytes) : (m.del k).keys = m.keys.erase k := by
  induction m with
  | nil => simp [del, keys]
  | cons a m ih =>
    obtain ⟨a, w⟩ := a
    unfold del
    by_cases ha : a = k
    · subst ha; simp [keys]
    · rw [if_neg ha]
      simp only [keys, List.map_cons] at ih ⊢
      rw [ih, List.erase_cons_tail (by simpa using ha)]

theorem set_keys (m : GoMap V) (k : Bytes) (v : V) :
    (m.set k v).keys = if k ∈ m.keys then m.keys else m.keys ++ [k] := by
  induction m with
  | nil => simp [set, keys]
  | cons a m ih =>
    obtain ⟨a, w⟩ := a
    unfold set
    by_cases ha : a = k
    · subst ha; simp [keys]
    · rw [if_neg ha]
      simp only [keys, List.map_cons, List.mem_cons] at ih ⊢
      rw [ih]
      by_cases hk : k ∈ List.map (·.1) m
      · simp [hk]
      · simp [hk, Ne.symm ha]

theorem get_del_self (m : GoMap V) (k : Bytes) (h : m.keys.Nodup) : (m.del k).get k = none := by
  rw [get_eq_none, del_keys]
  exact fun hh => (List.Nodup.mem_erase_iff h).mp hh |>.1 rfl

theorem set_nodup (m : GoMap V) (k : Bytes) (v : V) (h : m.keys.Nodup) : (m.set k v).keys.Nodup := by
  rw [set_keys]
  split
  · exact h
  · next hk => exact List.nodup_append.mpr ⟨h, by simp, by simp; exact fun a ha hh => hk (hh ▸ ha)⟩

theorem del_nodup (m : GoMap V) (k : Bytes) (h : m.keys.Nodup) : (m.del k).keys.Nodup := by
  rw [del_keys]; exact h.erase k

end GoMap

namespace SMap
variable {V : Type}

/-- Well-formed: no duplicate key in a shard, every key in its own shard. -/
structure WF (m : SMap V) : Prop where
  nodup : ∀ i, (m.shards i).keys.Nodup
  home : ∀ i k, k ∈ (m.shards i).keys → shardIdx k = i

theorem WF.empty : (SMap.empty : SMap V).WF := ⟨fun _ => by simp [SMap.empty, GoMap.keys], fun _ _ h => by
  simp [SMap.empty, GoMap.keys] at h⟩

@[simp] theorem get_empty (k : Bytes) : (SMap.empty : SMap V).get k = none := rfl

theorem upd_shards (m : SMap V) (i j : Fin 32) (g : GoMap V) :
    (m.upd i g).shards j = if j = i then g else m.shards j := rfl

theorem get_set (m : SMap V) (k k' : Bytes) (v : V) :
    (m.set k v).get k' = if k' = k then some v else m.get k' := by
  unfold get set
  rw [upd_shards]
  split
  · next h => rw [GoMap.get_set, ← h]
  · next h =>
    have : k' ≠ k := fun hh => h (by rw [hh])
    rw [if_neg this]

@[simp] theorem get_set_self (m : SMap V) (k : Bytes) (v : V) : (m.set k v).get k = some v := by
  rw [get_set, if_pos rfl]

theorem get_set_ne (m : SMap V) {k k' : Bytes} (v : V) (h : k' ≠ k) : (m.set k v).get k' = m.get k' := by
  rw [get_set, if_neg h]

theorem get_del_ne (m : SMap V) {k k' : Bytes} (h : k' ≠ k) : (m.del k).get k' = m.get k' := by
  unfold get del
  rw [upd_shards]
  split
  · next hh => rw [GoMap.get_del_ne _ h, ← hh]
  · rfl

theorem get_del_self (m : SMap V) (k : Bytes) (h : m.WF) : (m.del k).get k = none := by
  unfold get del
  rw [upd_shards, if_pos rfl]
  exact GoMap.get_del_self _ _ (h.nodup _)

theorem get_del (m : SMap V) (k k' : Bytes) (h : m.WF) :
    (m.del k).get k' = if k' = k then none else m.get k' := by
  split
  · next hh => subst hh; exact get_del_self m _ h
  · next hh => exact get_del_ne m hh

theorem WF.set {m : SMap V} (h : m.WF) (k : Bytes) (v : V) : (m.set k v).WF := by
  constructor
  · intro i
    unfold SMap.set
    rw [upd_shards]
    split
    · exact GoMap.set_nodup _ _ _ (h.nodup _)
    · exact h.nodup _
  · intro i k' hk
    unfold SMap.set at hk
    rw [upd_shards] at hk
    split at hk
    · next hi =>
      rw [GoMap.set_keys] at hk
      split at hk
      · exact h.home _ _ (hi ▸ hk)
      · rcases List.mem_append.mp hk with hk | hk
        · exact h.home _ _ (hi ▸ hk)
        · simp only [List.mem_singleton] at hk; rw [hk, hi]
    · exact h.home _ _ hk

theorem WF.del {m : SMap V} (h : m.WF) (k : Bytes) : (m.del k).WF := by
  constructor
  · intro i
    unfold SMap.del
    rw [upd_shards]
    split
    · exact GoMap.del_nodup _ _ (h.nodup _)
    · exact h.nodup _
  · intro i k' hk
    unfold SMap.del at hk
    rw [upd_shards] at hk
    split at hk
    · next hi =>
      rw [GoMap.del_keys] at hk
      exact h.home _ _ (hi ▸ List.mem_of_mem_erase hk)
    · exact h.home _ _ hk

theorem has_eq (m : SMap V) (k : Bytes) : m.has k = (m.get k).isSome := rfl

theorem WF.setIfAbsent {m : SMap V} (h : m.WF) (k : Bytes) (v : V) : (m.setIfAbsent k v).1.WF := by
  unfold SMap.setIfAbsent; split
  · exact h
  · exact h.set k v

theorem WF.deleteIfExists {m : SMap V} (h : m.WF) (k : Bytes) : (m.deleteIfExists k).1.WF := by
  unfold SMap.deleteIfExists; split
  · exact h.del k
  · exact h

theorem WF.loadAndDelete {m : SMap V} (h : m.WF) (k : Bytes) : (m.loadAndDelete k).1.WF := by
  unfold SMap.loadAndDelete; split
  · exact h
  · exact h.del k

theorem WF.upsert {R : Type} {m : SMap V} (h : m.WF) (k : Bytes) (f : Option V → Except R V) :
    (m.upsert k f).1.WF := by
  unfold SMap.upsert; split
  · exact h
  · exact h.set k _

theorem get_setIfAbsent (m : SMap V) (k k' : Bytes) (v : V) :
    (m.setIfAbsent k v).1.get k' = if k' = k then some ((m.get k).getD v) else m.get k' := by
  unfold setIfAbsent
  rw [has_eq]
  cases h : m.get k with
  | some w =>
    simp only [Option.isSome_some, if_true, Option.getD_some]
    split
    · next hh => rw [hh, h]
    · rfl
  | none =>
    simp only [Option.isSome_none, Bool.false_eq_true, if_false, Option.getD_none, get_set]

theorem setIfAbsent_snd (m : SMap V) (k : Bytes) (v : V) : (m.setIfAbsent k v).2 = !(m.has k) := by
  unfold setIfAbsent; split <;> simp_all

theorem get_deleteIfExists (m : SMap V) (hm : m.WF) (k k' : Bytes) :
    (m.deleteIfExists k).1.get k' = if k' = k then none else m.get k' := by
  unfold deleteIfExists
  rw [has_eq]
  cases h : m.get k with
  | some w => simp only [Option.isSome_some, if_true]; exact get_del m k k' hm
  | none =>
    simp only [Option.isSome_none, Bool.false_eq_true, if_false]
    split
    · next hh => rw [hh, h]
    · rfl

theorem deleteIfExists_snd (m : SMap V) (k : Bytes) : (m.deleteIfExists k).2 = m.has k := by
  unfold deleteIfExists; split <;> simp_all

theorem get_loadAndDelete (m : SMap V) (hm : m.WF) (k k' : Bytes) :
    (m.loadAndDelete k).1.get k' = if k' = k then none else m.get k' := by
  unfold loadAndDelete
  cases h : m.get k with
  | some w => exact get_del m k k' hm
  | none =>
    simp only
    split
    · next hh => rw [hh, h]
    · rfl

theorem loadAndDelete_snd (m : SMap V) (k : Bytes) : (m.loadAndDelete k).2 = m.get k := by
  unfold loadAndDelete; split <;> simp_all

/-! ## listing -/

theorem shardEntries_keys (it : Iter) (m : SMap V) (i : Fin 32) :
    (m.shardEntries it i).map (·.1) = it.f i.val (m.shards i).keys := by
  unfold shardEntries
  rw [List.map_filterMap]
  have hp := it.perm i.val (m.shards i).keys
  have : ∀ l : List Bytes, (∀ k ∈ l, k ∈ (m.shards i).keys) →
      l.filterMap (fun k => Option.map (·.1) (((m.shards i).get k).map (fun v => (k, v)))) = l := by
    intro l
    induction l with
    | nil => simp
    | cons k l ih =>
      intro h
      have hk := (GoMap.mem_keys _ _).mp (h k (by simp))
      obtain ⟨v, hv⟩ := Option.isSome_iff_exists.mp hk
      rw [List.filterMap_cons]
      simp only [hv, Option.map_some]
      rw [ih (fun k hk => h k (by simp [hk]))]
  exact this _ (fun k hk => hp.mem_iff.mp hk)

theorem mem_shardEntries (it : Iter) (m : SMap V) (i : Fin 32) (k : Bytes) (v : V) :
    (k, v) ∈ m.shardEntries it i ↔ (m.shards i).get k = some v := by
  unfold shardEntries
  simp only [List.mem_filterMap, Option.map_eq_some_iff, Prod.mk.injEq]
  constructor
  · rintro ⟨k', _, v', hv, rfl, rfl⟩; exact hv
  · intro h
    refine ⟨k, ?_, v, h, rfl, rfl⟩
    exact (it.perm _ _).mem_iff.mpr ((GoMap.mem_keys _ _).mpr (by simp [h]))

theorem mem_entries (it : Iter) (m : SMap V) (hm : m.WF) (k : Bytes) (v : V) :
    (k, v) ∈ m.entries it ↔ m.get k = some v := by
  unfold entries
  simp only [List.mem_flatMap, List.mem_finRange, true_and, mem_shardEntries]
  constructor
  · rintro ⟨i, hi⟩
    have := hm.home i k ((GoMap.mem_keys _ _).mpr (by simp [hi]))
    unfold get; rw [this]; exact hi
  · intro h; exact ⟨_, h⟩

theorem entries_keys_nodup (it : Iter) (m : SMap V) (hm : m.WF) : (m.keys it).Nodup := by
  unfold keys entries
  rw [List.map_flatMap]
  rw [List.nodup_flatMap]
  constructor
  · intro i _
    rw [shardEntries_keys]
    exact (it.perm _ _).nodup_iff.mpr (hm.nodup i)
  · have : (List.finRange 32).Pairwise (· ≠ ·) := List.nodup_finRange 32
    refine this.imp ?_
    intro i j hij k hk hk'
    simp only at hk hk'
    rw [shardEntries_keys] at hk hk'
    have hi := hm.home i k ((it.perm _ _).mem_iff.mp hk)
    have hj := hm.home j k ((it.perm _ _).mem_iff.mp hk')
    exact hij (hi.symm.trans hj)

theorem mem_keys (it : Iter) (m : SMap V) (hm : m.WF) (k : Bytes) : k ∈ m.keys it ↔ (m.get k).isSome := by
  unfold keys
  simp only [List.mem_map, Prod.exists, exists_and_right, exists_eq_right]
  constructor
  · rintro ⟨v, hv⟩; rw [(mem_entries it m hm k v).mp hv]; rfl
  · intro h
    obtain ⟨v, hv⟩ := Option.isSome_iff_exists.mp h
    exact ⟨v, (mem_entries it m hm k v).mpr hv⟩

/-- number of keys -/
def card (m : SMap V) : Nat := ((List.finRange 32).map (fun i => (m.shards i).length)).sum

theorem keys_length (it : Iter) (m : SMap V) : (m.keys it).length = m.card := by
  unfold keys entries card
  rw [List.map_flatMap, List.length_flatMap]
  congr 1
  apply List.map_congr_left
  intro i _
  rw [shardEntries_keys, (it.perm _ _).length_eq]
  simp [GoMap.keys]

/-- two nodup enumerations of the same keys have the same length -/
theorem card_eq_of_mem {l : List Bytes} (m : SMap V) (hm : m.WF) (hl : l.Nodup)
    (h : ∀ k, k ∈ l ↔ (m.get k).isSome) : l.length = m.card := by
  let it : Iter := ⟨fun _ l => l, fun _ _ => List.Perm.refl _⟩
  rw [← keys_length it m]
  apply List.Perm.length_eq
  rw [List.perm_ext_iff_of_nodup hl (entries_keys_nodup it m hm)]
  intro k
  rw [h, mem_keys it m hm]

theorem card_congr {W : Type} (m : SMap V) (hm : m.WF) (n : SMap W) (hn : n.WF)
    (h : ∀ k, (m.get k).isSome = (n.get k).isSome) : m.card = n.card := by
  let it : Iter := ⟨fun _ l => l, fun _ _ => List.Perm.refl _⟩
  rw [← keys_length it m]
  apply card_eq_of_mem n hn (entries_keys_nodup it m hm)
  intro k
  rw [mem_keys it m hm, h]

theorem card_set_new (m : SMap V) (hm : m.WF) (k : Bytes) (v : V) (h : m.get k = none) :
    (m.set k v).card = m.card + 1 := by
  let it : Iter := ⟨fun _ l => l, fun _ _ => List.Perm.refl _⟩
  rw [← keys_length it m]
  have hnotin : k ∉ m.keys it := by rw [mem_keys it m hm, h]; simp
  rw [← card_eq_of_mem (m.set k v) (hm.set k v) (l := k :: m.keys it)]
  · simp
  · exact List.nodup_cons.mpr ⟨hnotin, entries_keys_nodup it m hm⟩
  · intro k'
    rw [get_set, List.mem_cons, mem_keys it m hm]
    by_cases hk : k' = k <;> simp [hk]

theorem card_set_old (m : SMap V) (hm : m.WF) (k : Bytes) (v : V) (h : (m.get k).isSome) :
    (m.set k v).card = m.card := by
  apply card_congr _ (hm.set k v) _ hm
  intro k'
  rw [get_set]
  by_cases hk : k' = k
  · subst hk; simp [h]
  · simp [hk]

theorem card_del (m : SMap V) (hm : m.WF) (k : Bytes) (h : (m.get k).isSome) :
    (m.del k).card + 1 = m.card := by
  let it : Iter := ⟨fun _ l => l, fun _ _ => List.Perm.refl _⟩
  rw [← keys_length it (m.del k)]
  have hnotin : k ∉ (m.del k).keys it := by
    rw [mem_keys it _ (hm.del k), get_del_self m k hm]; simp
  rw [← card_eq_of_mem m hm (l := k :: (m.del k).keys it)]
  · simp
  · exact List.nodup_cons.mpr ⟨hnotin, entries_keys_nodup it _ (hm.del k)⟩
  · intro k'
    rw [List.mem_cons, mem_keys it _ (hm.del k), get_del m k k' hm]
    by_cases hk : k' = k
    · subst hk; simp [h]
    · simp [hk]

@[simp] theorem card_empty : (SMap.empty : SMap V).card = 0 := by
  simp [card, empty]

/-- every key is in the range loop exactly once, with its value -/
theorem entries_nodup (it : Iter) (m : SMap V) (hm : m.WF) : (m.entries it).Nodup :=
  List.Nodup.of_map _ (entries_keys_nodup it m hm)

end SMap
end Godis
