import Verif.Proofs.Reference2
/-! Requests as the server takes them: names and words with letters outside ASCII. -/
namespace Godis
open Resp (Reply)
open StrSpec (lower Ascii)
open ListSpec (Plain)
open RefSpec (heard heardAll place allCommands)
open ZSpec (words)

variable {ext : Ext} {it : Iter} {s s' : Store} {m : Reply}

/-- the names in the table -/
theorem names_lower : ∀ n ∈ allCommands, Ascii n ∧ lower n = n ∧ (lookupCmd n).isSome = true := by
  unfold Ascii; decide +kernel

theorem names_table (c : Cmd) : c.name ∈ allCommands := by cases c <;> decide +kernel

theorem lookup_none {n : Bytes} (h : n ∉ allCommands) : lookupCmd n = none := by
  cases hc : lookupCmd n with
  | none => rfl
  | some c => exact absurd (lookup_name hc ▸ names_table c) h

theorem toLower_name {n : Bytes} (h : n ∈ allCommands) : toLower ext.lowerUni n = n := by
  obtain ⟨h1, h2, _⟩ := names_lower n h
  rw [lower_eq h1, h2]

theorem place_word (w : Bytes) : Ascii (place (libOf ext) w) ∧
    (∀ x, x = b! "after" ∨ x = b! "before" → (toLower ext.lowerUni (place (libOf ext) w) = x ↔ toLower ext.lowerUni w = x)) := by
  unfold place
  by_cases h : (libOf ext).num.lower w = b! "before" ∨ (libOf ext).num.lower w = b! "after"
  · rw [if_pos h]
    have e : (libOf ext).num.lower w = toLower ext.lowerUni w := rfl
    rw [e] at h ⊢
    rcases h with h | h <;> rw [h] <;> refine ⟨by unfold Ascii; decide, fun x _ => ?_⟩ <;>
      (rw [lower_eq (by unfold Ascii; decide)]; exact Iff.rfl)
  · rw [if_neg h]
    refine ⟨by unfold Ascii; decide, fun x hx => ?_⟩
    have e : (libOf ext).num.lower w = toLower ext.lowerUni w := rfl
    rw [e] at h
    constructor
    · intro h'
      rw [lower_eq (by unfold Ascii; decide)] at h'
      subst h'
      rcases hx with hx | hx <;> cases hx
    · intro h'
      exact absurd (h'.symm ▸ hx.symm) h

theorem heard_plain (req : List Bytes) : Plain (heard (libOf ext) req) := by
  rcases req with _ | ⟨name, args⟩
  · exact ⟨by simp [heard], by simp [heard, lower]⟩
  · unfold heard
    simp only
    split
    · exact ⟨by simp [Ascii], by simp [lower]⟩
    · next hn =>
      have hn : (libOf ext).num.lower name ∈ allCommands := by simpa using hn
      obtain ⟨h1, h2, _⟩ := names_lower _ hn
      split
      · next hl =>
        split
        · exact ⟨by simpa using h1, fun _ w hw => by simp at hw; subst hw; exact (place_word _).1⟩
        · next hx =>
          refine ⟨by simpa using h1, fun _ w hw => ?_⟩
          exfalso
          rcases args with _ | ⟨k, _ | ⟨w', rest⟩⟩
          · simp at hw
          · simp at hw
          · exact hx _ _ _ rfl
      · next hl =>
        exact ⟨by simpa using h1, fun h => absurd (by simpa [h2] using h) hl⟩

theorem heard_run (it : Iter) (s : Store) (req : List Bytes) : runRequest ext it s (heard (libOf ext) req) = runRequest ext it s req := by
  rcases req with _ | ⟨name, args⟩
  · rfl
  · unfold heard
    have e : (libOf ext).num.lower name = toLower ext.lowerUni name := rfl
    simp only [e]
    split
    · next hn =>
      simp only [runRequest, newCommand]
      unfold execute
      rw [lookup_none hn, lookup_none (by rw [lower_eq (by simp [Ascii])]; decide +kernel)]
    · next hn =>
      have hn : toLower ext.lowerUni name ∈ allCommands := by simpa using hn
      have hid := toLower_name (ext := ext) hn
      split
      · next hl =>
        split
        · next k w rest =>
          simp only [runRequest, newCommand, hid]
          unfold execute
          rw [hl]
          have : lookupCmd (b! "linsert") = some .lInsert := by decide +kernel
          rw [this]
          have : Cmd.fn .lInsert = cmdLInsert := rfl
          simp only [this]
          have hw := (place_word (ext := ext) w).2
          have : cmdLInsert ext it s (k :: place (libOf ext) w :: rest) = cmdLInsert ext it s (k :: w :: rest) := by
            unfold cmdLInsert
            rcases rest with _ | ⟨p, _ | ⟨v, rest⟩⟩
            · rfl
            · rfl
            · simp only [hw _ (.inl rfl), hw _ (.inr rfl)]
          rw [this]
        · simp only [runRequest, newCommand, hid]
      · simp only [runRequest, newCommand, hid]

theorem heard_answers {req : List Bytes} : Answers ext it s (heard (libOf ext) req) m s' ↔ Answers ext it s req m s' := by
  unfold Answers
  rw [heard_run]

theorem heard_ends {req : List Bytes} {o : RefSpec.Outcome} (h : Ends ext it s (heard (libOf ext) req) o) : Ends ext it s req o := by
  cases o with
  | reply m => obtain ⟨s', h⟩ := h; exact ⟨s', heard_answers.mp h⟩
  | nothing => exact (heard_run it s req).symm.trans h
  | unwritable => obtain ⟨s', r, h, h'⟩ := h; exact ⟨s', r, (heard_run it s req).symm.trans h, h'⟩
  | crash => obtain ⟨p, h⟩ := h; exact ⟨p, (heard_run it s req).symm.trans h⟩

theorem heard_length (req : List Bytes) : (heard (libOf ext) req).length ≤ req.length := by
  rcases req with _ | ⟨name, args⟩
  · simp [heard]
  · unfold heard
    simp only
    split
    · simp
    · split
      · split <;> simp
      · simp

theorem heard_words (tr : List (List Bytes × Reply)) : words (heardAll (libOf ext) tr) ≤ words tr := by
  induction tr with
  | nil => exact Nat.le_refl _
  | cons p tr ih =>
    have := heard_length (ext := ext) p.1
    simp only [words, heardAll, List.map_cons, List.sum_cons] at ih ⊢
    omega

theorem heard_trace {s0 : Store} {tr : List (List Bytes × Reply)} (h : Trace ext s0 tr s) : Trace ext s0 (heardAll (libOf ext) tr) s := by
  induction h with
  | nil => exact .nil
  | snoc _ ha ih =>
    unfold heardAll at ih ⊢
    rw [List.map_append]
    exact .snoc ih (heard_answers.mpr ha)

theorem heardAll_plain (tr : List (List Bytes × Reply)) : ∀ p ∈ heardAll (libOf ext) tr, Plain p.1 := by
  intro p hp
  obtain ⟨q, _, rfl⟩ := List.mem_map.mp hp
  exact heard_plain _

end Godis
