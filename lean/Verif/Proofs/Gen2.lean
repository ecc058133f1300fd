import Verif.Proofs.Gen
/-!
# The generator on whole files
-/
namespace Godis.Gen
open GenSpec StrSpec
open KeySpec (Str)

theorem prescribes_parse {ext} {prev : Option Bytes} {ls es} (h : Prescribes prev ls es) :
    ∀ last, (prev = none → last = []) → (∀ p, prev = some p → last = trimSpace ext p) →
      parseLines ext last ls = es.map (fun e => ⟨e.1, e.2⟩) := by
  have hasc : ∀ {w : Bytes}, Word w → Ascii w := by
    intro w hw c hc
    have := hw.2 c hc
    unfold Letter at this; omega
  induction h with
  | nil => intro last _ _; rfl
  | @other prev l ls es hno _ ih =>
    intro last _ _
    have : regexCmdFuncStr l = [] := by
      by_contra hne
      obtain ⟨pre, hp, _⟩ := (regex_spec l).1 hne
      exact hno _ _ hp
    simp only [parseLines, this, if_true]
    exact ih _ (by simp) (by simp)
  | @own prev l ls es fn hd hb _ ih =>
    intro last h1 h2
    obtain ⟨hne, he⟩ := declares_iff.mp hd
    have hlast : last = [] := by
      cases prev with
      | none => exact h1 rfl
      | some p => rw [h2 p rfl]; exact trim_blank (hb p rfl)
    simp only [parseLines, he, if_neg hne, List.map_cons]
    rw [ih _ (by simp) (by simp), hlast]
    congr 1
    unfold mkKV
    rw [if_pos rfl]
    obtain ⟨pre, hp, _⟩ := hd
    rw [lower_eq (hasc hp.1)]
  | @comment p l ls es fn w hd hc _ ih =>
    intro last _ h2
    obtain ⟨hne, he⟩ := declares_iff.mp hd
    simp only [parseLines, he, if_neg hne, List.map_cons]
    rw [ih _ (by simp) (by simp), h2 p rfl, mkKV_comment hc]

theorem rawLines_line {l t acc : Bytes} (hl : (10 : UInt8) ∉ l) :
    rawLines (l ++ 10 :: t) acc = (acc.reverse ++ l) :: rawLines t [] := by
  induction l generalizing acc with
  | nil => simp [rawLines]
  | cons c cs ih =>
    simp only [List.mem_cons, not_or] at hl
    rw [List.cons_append, rawLines, if_neg (fun h => hl.1 h.symm), ih hl.2]
    simp

theorem rawLines_last {l acc : Bytes} (hl : (10 : UInt8) ∉ l) (hne : acc.reverse ++ l ≠ []) :
    rawLines l acc = [acc.reverse ++ l] := by
  induction l generalizing acc with
  | nil => simp at hne; simp [rawLines, hne]
  | cons c cs ih =>
    simp only [List.mem_cons, not_or] at hl
    rw [rawLines, if_neg (fun h => hl.1 h.symm), ih hl.2 (by simp)]
    simp

theorem takeWhile_len {x : Bytes} {r : List Bytes} (h : x.length < 65536) :
    (x :: r).takeWhile (fun l => l.length < 65536) = x :: r.takeWhile (fun l => l.length < 65536) := by
  rw [List.takeWhile_cons, if_pos (decide_eq_true h)]

theorem scan_isText {ls text} (h : IsText ls text) (hlen : ∀ l ∈ ls, l.length < 65535) : scanLines text = ls := by
  have hcr : ∀ l : Bytes, l.getLast? ≠ some 13 → dropCR l = l := fun l hl => if_neg hl
  induction h with
  | nil => rfl
  | @last l hne h10 h13 =>
    have := hlen l (by simp)
    unfold scanLines
    rw [rawLines_last h10 (by simpa using hne)]
    rw [takeWhile_len (by simp only [List.reverse_nil, List.nil_append]; omega)]
    simp [hcr l h13]
  | @line l ls t eol he h10 h13 ht ih =>
    have h1 := hlen l (by simp)
    have ih := ih (fun x hx => hlen x (by simp [hx]))
    unfold scanLines at ih ⊢
    rcases he with rfl | rfl
    · rw [show l ++ (s!! "\n" ++ t) = l ++ 10 :: t from rfl, rawLines_line h10]
      rw [takeWhile_len (by simp only [List.reverse_nil, List.nil_append]; omega), List.map_cons, ih]
      simp [hcr l h13]
    · rw [show l ++ (s!! "\r\n" ++ t) = (l ++ [13]) ++ 10 :: t by simp, rawLines_line (by simp [h10])]
      rw [takeWhile_len (by simp only [List.reverse_nil, List.nil_append, List.length_append, List.length_singleton]; omega), List.map_cons, ih]
      simp [dropCR]

/-- a line of 64 KiB hides everything after it -/
theorem scan_long {l t : Bytes} (h10 : (10 : UInt8) ∉ l) (hlen : 65536 ≤ l.length) : scanLines (l ++ 10 :: t) = [] := by
  unfold scanLines
  have : ¬ (([] : Bytes).reverse ++ l).length < 65536 := by simp only [List.reverse_nil, List.nil_append]; omega
  rw [rawLines_line h10, List.takeWhile_cons, if_neg (fun hh => this (of_decide_eq_true hh))]
  rfl

theorem render_eq (es : List (Bytes × Bytes)) : render (es.map (fun e => ⟨e.1, e.2⟩)) = tableFile es := by
  unfold render tableFile
  have : ∀ es : List (Bytes × Bytes),
      (es.map (fun e => (⟨e.1, e.2⟩ : KV))).flatMap (fun kv => b! "\n\timplementedCommands[\"" ++ kv.cmdName ++ b! "\"] = " ++ kv.funcName)
        ++ b! "\n" =
      b! "\n" ++ es.flatMap (fun e => s!! "\timplementedCommands[\"" ++ e.1 ++ s!! "\"] = " ++ e.2 ++ s!! "\n") := by
    intro es
    induction es with
    | nil => rfl
    | cons e es ih =>
      simp only [List.map_cons, List.flatMap_cons, List.append_assoc] at ih ⊢
      rw [ih]
      simp
  have := this es
  simp only [List.append_assoc] at this ⊢
  have e : b! "\n}\n" = b! "\n" ++ b! "}\n" := rfl
  rw [e, ← List.append_assoc (List.flatMap _ _) (b! "\n"), this]
  simp

theorem outName_eq {stem : Bytes} (h : SourcePath stem) : outName (stem ++ b! ".go") = stem ++ b! ".cmd.go" := by
  replace h := h.1
  unfold outName
  induction stem with
  | nil => rfl
  | cons c cs ih =>
    rw [List.cons_append, replace1, if_neg, ih]
    · rfl
    · intro a b e
      exact h (c :: a) b (by simp at e ⊢; exact e)
    · intro hp
      obtain ⟨b, hb⟩ := List.isPrefixOf_iff_prefix.mp hp
      have h1 := h [] b (by simpa using hb.symm)
      subst h1
      have := congrArg List.length hb
      simp at this

theorem read_eq {ext fs} {stem text : Bytes} (h : SourcePath stem) (hf : fs (stem ++ b! ".go") = some text) :
    readAndParseFile ext fs (stem ++ b! ".go") = some (parseText ext text) := by
  unfold readAndParseFile
  rw [if_neg, if_neg, hf]
  · intro hs
    obtain ⟨a, ha⟩ := List.isSuffixOf_iff_suffix.mp hs
    have e : a ++ b! ".cmd" ++ b! ".go" = stem ++ b! ".go" := by rw [← ha]; simp
    exact h.2 a (List.append_cancel_right e).symm
  · simp [List.isSuffixOf_iff_suffix]

/-! ## ASCII sources do not depend on the Unicode tables -/

theorem trim_indep {ext ext' : GenExt} {s : Bytes} (h : Ascii s) : trimSpace ext s = trimSpace ext' s := by
  unfold trimSpace; rw [if_pos (all_ascii.mpr h), if_pos (all_ascii.mpr h)]

theorem trim_ascii {ext : GenExt} {s : Bytes} (h : Ascii s) : Ascii (trimSpace ext s) := by
  unfold trimSpace; rw [if_pos (all_ascii.mpr h)]
  intro c hc
  have h1 := (List.dropWhile_sublist _).mem (List.mem_reverse.mp hc)
  exact h c ((List.dropWhile_sublist _).mem (List.mem_reverse.mp h1))

theorem mkKV_indep {ext ext' : GenExt} {a f : Bytes} (h : Ascii a) (hf : Ascii f) : mkKV ext a f = mkKV ext' a f := by
  unfold mkKV
  split
  · rw [lower_eq hf, lower_eq hf]
  · have h1 : Ascii (trimPrefix (trimSuffix a (b! ".")) (b! "//")) := by
      have h2 : Ascii (trimSuffix a (b! ".")) := by
        unfold trimSuffix; split
        · exact fun c hc => h c (List.mem_of_mem_take hc)
        · exact h
      unfold trimPrefix; split
      · exact fun c hc => h2 c (List.mem_of_mem_drop hc)
      · exact h2
    rw [lower_eq (trim_ascii h1), lower_eq (trim_ascii h1), trim_indep (ext := ext) (ext' := ext') h1]

theorem parseLines_indep {ext ext' : GenExt} {ls : List Bytes} : ∀ {last : Bytes}, Ascii last → (∀ l ∈ ls, Ascii l) →
    parseLines ext last ls = parseLines ext' last ls := by
  induction ls with
  | nil => intro _ _ _; rfl
  | cons l ls ih =>
    intro last h hl
    have hll := hl l (by simp)
    simp only [parseLines]
    rw [trim_indep (ext := ext) (ext' := ext') hll,
      ih (last := trimSpace ext' l) (trim_ascii hll) (fun x hx => hl x (by simp [hx]))]
    by_cases hf : regexCmdFuncStr l = []
    · rw [if_pos hf, if_pos hf]
    · rw [if_neg hf, if_neg hf]
      congr 1
      apply mkKV_indep h
      obtain ⟨pre, hp, _⟩ := (regex_spec l).1 hf
      intro c hc
      have := hp.1.2 c hc
      unfold Letter at this; omega

theorem rawLines_ascii {t : Bytes} : ∀ {acc : Bytes}, Ascii t → Ascii acc → ∀ l ∈ rawLines t acc, Ascii l := by
  induction t with
  | nil =>
    intro acc _ ha l hl
    unfold rawLines at hl
    split at hl
    · simp at hl
    · simp at hl; subst hl; exact fun c hc => ha c (List.mem_reverse.mp hc)
  | cons c cs ih =>
    intro acc ht ha l hl
    have htc : Ascii cs := fun x hx => ht x (by simp [hx])
    unfold rawLines at hl
    split at hl
    · rcases List.mem_cons.mp hl with rfl | hl
      · exact fun x hx => ha x (List.mem_reverse.mp hx)
      · exact ih htc (by intro x hx; simp at hx) l hl
    · refine ih htc ?_ l hl
      intro x hx
      rcases List.mem_cons.mp hx with rfl | hx
      · exact ht _ (by simp)
      · exact ha x hx

theorem parseText_indep {ext ext' : GenExt} {t : Bytes} (h : t.all (· < 128) = true) : parseText ext t = parseText ext' t := by
  unfold parseText
  apply parseLines_indep
  · intro x hx; simp at hx
  · intro l hl
    unfold scanLines at hl
    obtain ⟨r, hr, rfl⟩ := List.mem_map.mp hl
    have hr := rawLines_ascii (all_ascii.mp h) (by intro x hx; simp at hx) r ((List.takeWhile_sublist _).mem hr)
    unfold dropCR; split
    · exact fun c hc => hr c ((List.dropLast_sublist _).mem hc)
    · exact hr

end Godis.Gen
