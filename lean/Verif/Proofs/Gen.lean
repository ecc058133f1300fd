import Verif.Model.Gen
import Verif.Spec.Gen
import Verif.Proofs.Strings
/-!
# The generator: what its pattern finds and what it registers
-/
namespace Godis.Gen
open GenSpec StrSpec
open KeySpec (Str)

theorem isSpace_iff {c} : isSpace c = true ↔ Space c := by
  unfold isSpace Space; simp

theorem isAlpha_iff {c} : isAlpha c = true ↔ Letter c := by
  unfold isAlpha Letter; simp [UInt8.le_iff_toNat_le]

theorem isTrim_iff {c} : isTrim c = true ↔ Blank c := by
  unfold isTrim Blank; simp [UInt8.le_iff_toNat_le, ← UInt8.toNat_inj]

theorem mem_takeWhile {p : UInt8 → Bool} {l : Bytes} {x : UInt8} (h : x ∈ l.takeWhile p) : p x = true := by
  have := List.all_takeWhile (p := p) (l := l)
  exact List.all_eq_true.mp this x h

theorem dropWhile_nil {p : UInt8 → Bool} {l : Bytes} : l.dropWhile p = [] ↔ ∀ x ∈ l, p x = true := by
  induction l with
  | nil => simp
  | cons c cs ih =>
    by_cases hc : p c = true
    · simp [hc, ih]
    · simp [hc]

theorem lit_some {p s r} : lit p s = some r ↔ s = p ++ r := by
  unfold lit
  constructor
  · intro h
    split at h
    · rename_i hp
      obtain ⟨t, rfl⟩ := List.isPrefixOf_iff_prefix.mp hp
      simp at h; rw [h]
    · cases h
  · rintro rfl
    rw [if_pos (List.isPrefixOf_iff_prefix.mpr ⟨r, rfl⟩)]; simp

theorem anyByte_some {s r} : anyByte s = some r ↔ ∃ d, d ≠ 10 ∧ s = d :: r := by
  cases s with
  | nil => simp [anyByte]
  | cons c cs =>
    unfold anyByte
    by_cases hc : c = 10
    · simp [hc]
    · simp [hc]

/-- `\s+` followed by something that does not start with a space -/
theorem spaces1_some {s r} (h : spaces1 s = some r) : ∃ w, Spaces w ∧ s = w ++ r := by
  cases s with
  | nil => simp [spaces1] at h
  | cons c cs =>
    simp only [spaces1] at h
    split at h
    · rename_i hc
      simp at h; subst h
      refine ⟨c :: cs.takeWhile isSpace, ⟨by simp, ?_⟩, by simp⟩
      intro x hx
      rcases List.mem_cons.mp hx with rfl | hx
      · exact isSpace_iff.mp hc
      · exact isSpace_iff.mp (mem_takeWhile hx)
    · cases h

theorem dropWhile_app {p : UInt8 → Bool} {w : Bytes} {c : UInt8} {r : Bytes} (hw : ∀ x ∈ w, p x = true) (hc : p c = false) :
    (w ++ c :: r).dropWhile p = c :: r := by
  induction w with
  | nil => simp [hc]
  | cons x xs ih =>
    have hx := hw x (by simp)
    simp [hx]
    exact ih (fun y hy => hw y (by simp [hy]))

theorem takeWhile_app {p : UInt8 → Bool} {w : Bytes} {c : UInt8} {r : Bytes} (hw : ∀ x ∈ w, p x = true) (hc : p c = false) :
    (w ++ c :: r).takeWhile p = w := by
  induction w with
  | nil => simp [hc]
  | cons x xs ih =>
    have hx := hw x (by simp)
    simp [hx]
    exact ih (fun y hy => hw y (by simp [hy]))

theorem spaces1_app {w : Bytes} {c : UInt8} {r : Bytes} (hw : Spaces w) (hc : isSpace c = false) :
    spaces1 (w ++ c :: r) = some (c :: r) := by
  obtain ⟨hne, hw⟩ := hw
  cases w with
  | nil => exact absurd rfl hne
  | cons x xs =>
    have hx : isSpace x = true := isSpace_iff.mpr (hw x (by simp))
    simp only [spaces1, List.cons_append, hx, if_true]
    rw [dropWhile_app (fun y hy => isSpace_iff.mpr (hw y (by simp [hy]))) hc]

/-- the matcher accepts exactly the headers -/
theorem matchHere_some {s n : Bytes} : matchHere s = some n ↔ HeaderAt s [] n := by
  constructor
  · intro h
    unfold matchHere at h
    simp only [Option.bind_eq_bind, Option.bind_eq_some_iff] at h
    obtain ⟨r1, h1, r2, h2, h⟩ := h
    split at h
    · cases h
    · rename_i hne
      simp only [Option.bind_eq_some_iff] at h
      obtain ⟨r3, h3, r4, h4, r5, h5, r6, h6, r7, h7, r8, h8, r9, h9, h⟩ := h
      simp only [Option.some.injEq] at h
      obtain rfl := lit_some.mp h1
      obtain ⟨w1, hw1, rfl⟩ := spaces1_some h2
      obtain ⟨w2, hw2, rfl⟩ := spaces1_some h4
      obtain rfl := lit_some.mp h5
      obtain ⟨d, hd, rfl⟩ := anyByte_some.mp h6
      obtain rfl := lit_some.mp h7
      obtain ⟨w3, hw3, rfl⟩ := spaces1_some h8
      obtain rfl := lit_some.mp h9
      have e3 := lit_some.mp h3
      have er2 : r2 = n ++ r2.dropWhile isAlpha := by rw [← h]; simp
      refine ⟨⟨by rw [← h]; exact hne, ?_⟩, w1, w2, w3, r9, d, hw1, hw2, hw3, hd, ?_⟩
      · intro c hc; rw [← h] at hc; exact isAlpha_iff.mp (mem_takeWhile hc)
      · rw [e3] at er2
        rw [er2]
        simp
  · rintro ⟨⟨hne, hn⟩, w1, w2, w3, post, d, hw1, hw2, hw3, hd, rfl⟩
    unfold matchHere
    obtain ⟨c0, n', rfl⟩ := List.exists_cons_of_ne_nil hne
    have hc0 : isSpace c0 = false := by
      have := hn c0 (by simp)
      cases h : isSpace c0 with
      | false => rfl
      | true =>
        have h := isSpace_iff.mp h
        unfold Space at h
        simp at h
        unfold Letter at this
        rcases h with rfl | rfl | rfl | rfl | rfl <;> revert this <;> decide
    rw [List.nil_append]
    rw [show lit (b! "func") _ = _ from lit_some.mpr rfl]
    simp only [Option.bind_eq_bind, Option.bind_some]
    rw [List.cons_append, spaces1_app hw1 hc0]
    simp only [Option.bind_some]
    have ha : ∀ x ∈ c0 :: n', isAlpha x = true := fun x hx => isAlpha_iff.mpr (hn x hx)
    have ht : ∀ r, List.takeWhile isAlpha (c0 :: (n' ++ (b! "(c *Command)" ++ r))) = c0 :: n' := fun r => by
      have := takeWhile_app (p := isAlpha) (w := c0 :: n') (c := 40) (r := b! "c *Command)" ++ r) ha (by decide)
      simpa using this
    have hd' : ∀ r, List.dropWhile isAlpha (c0 :: (n' ++ (b! "(c *Command)" ++ r))) = b! "(c *Command)" ++ r := fun r => by
      have := dropWhile_app (p := isAlpha) (w := c0 :: n') (c := 40) (r := b! "c *Command)" ++ r) ha (by decide)
      simpa using this
    rw [ht, hd']
    rw [if_neg (by simp), show lit (b! "(c *Command)") _ = _ from lit_some.mpr rfl]
    simp only [Option.bind_some]
    rw [show ∀ r, spaces1 (w2 ++ (b! "(*protocol" ++ r)) = some (b! "(*protocol" ++ r) from
      fun r => spaces1_app (c := 40) hw2 (by decide)]
    simp only [Option.bind_some]
    rw [show lit (b! "(*protocol") _ = _ from lit_some.mpr rfl]
    simp only [Option.bind_some]
    rw [show anyByte (d :: _) = _ from anyByte_some.mpr ⟨d, hd, rfl⟩]
    simp only [Option.bind_some]
    rw [show lit (b! "Response,") _ = _ from lit_some.mpr rfl]
    simp only [Option.bind_some]
    rw [show ∀ r, spaces1 (w3 ++ (b! "error)" ++ r)) = some (b! "error)" ++ r) from
      fun r => spaces1_app (c := 101) hw3 (by decide)]
    simp only [Option.bind_some]
    rw [show lit (b! "error)") _ = _ from lit_some.mpr rfl]
    rfl

theorem headerAt_cons {c : UInt8} {cs pre n : Bytes} : HeaderAt (c :: cs) (c :: pre) n ↔ HeaderAt cs pre n := by
  unfold HeaderAt
  simp

theorem headerAt_head {c x : UInt8} {cs pre n : Bytes} (h : HeaderAt (c :: cs) (x :: pre) n) : x = c := by
  obtain ⟨_, s1, s2, s3, post, d, _, _, _, _, e⟩ := h
  simp at e; exact e.1.symm

theorem headerAt_nil {pre n : Bytes} : ¬ HeaderAt [] pre n := by
  rintro ⟨_, s1, s2, s3, post, d, _, _, _, _, e⟩
  simp at e

/-- the pattern finds the first header, or there is none -/
theorem regex_spec (l : Bytes) :
    (regexCmdFuncStr l ≠ [] → Declares l (regexCmdFuncStr l)) ∧
    (regexCmdFuncStr l = [] → ∀ pre n, ¬ HeaderAt l pre n) := by
  induction l with
  | nil => exact ⟨fun h => absurd rfl h, fun _ _ _ => headerAt_nil⟩
  | cons c cs ih =>
    unfold regexCmdFuncStr
    cases hm : matchHere (c :: cs) with
    | some n =>
      have := matchHere_some.mp hm
      exact ⟨fun _ => ⟨[], this, fun _ _ _ => by simp⟩, fun h => absurd h this.1.1⟩
    | none =>
      have hno : ∀ n, ¬ HeaderAt (c :: cs) [] n := fun n hn => by rw [matchHere_some.mpr hn] at hm; cases hm
      constructor
      · intro h
        obtain ⟨pre, h1, h2⟩ := ih.1 h
        refine ⟨c :: pre, headerAt_cons.mpr h1, ?_⟩
        intro pre' n' hh
        cases pre' with
        | nil => exact absurd hh (hno n')
        | cons x xs =>
          obtain rfl := headerAt_head hh
          have := h2 xs n' (headerAt_cons.mp hh)
          simp; exact this
      · intro h pre n hh
        cases pre with
        | nil => exact hno n hh
        | cons x xs =>
          obtain rfl := headerAt_head hh
          exact ih.2 h xs n (headerAt_cons.mp hh)

theorem headerAt_name_unique {l pre n n' : Bytes} (h : HeaderAt l pre n) (h' : HeaderAt l pre n') : n = n' := by
  induction pre generalizing l with
  | nil =>
    have := matchHere_some.mpr h
    rw [matchHere_some.mpr h'] at this
    exact (Option.some.inj this).symm
  | cons x xs ih =>
    cases l with
    | nil => exact absurd h headerAt_nil
    | cons c cs =>
      obtain rfl := headerAt_head h
      exact ih (headerAt_cons.mp h) (headerAt_cons.mp h')

theorem headerAt_prefix {l pre n : Bytes} (h : HeaderAt l pre n) : pre <+: l := by
  obtain ⟨_, s1, s2, s3, post, d, _, _, _, _, e⟩ := h
  exact ⟨_, e.symm⟩

theorem declares_iff {l n : Bytes} : Declares l n ↔ n ≠ [] ∧ regexCmdFuncStr l = n := by
  constructor
  · rintro ⟨pre, h, hmin⟩
    refine ⟨h.1.1, ?_⟩
    have hne : regexCmdFuncStr l ≠ [] := fun h0 => (regex_spec l).2 h0 pre n h
    obtain ⟨pre', h', hmin'⟩ := (regex_spec l).1 hne
    have e1 := hmin _ _ h'
    have e2 := hmin' _ _ h
    have : pre = pre' := by
      rw [List.prefix_iff_eq_take.mp (headerAt_prefix h), List.prefix_iff_eq_take.mp (headerAt_prefix h')]
      rw [Nat.le_antisymm e1 e2]
    subst this
    exact headerAt_name_unique h' h
  · rintro ⟨hn, rfl⟩
    exact (regex_spec l).1 hn

/-! ## TrimSpace -/

theorem all_ascii {s : Bytes} : s.all (· < 128) = true ↔ Ascii s := by
  unfold Ascii; simp [UInt8.lt_iff_toNat_lt]

theorem trim_blank {ext} {s : Bytes} (h : ∀ x ∈ s, Blank x) : trimSpace ext s = [] := by
  have ha : Ascii s := fun c hc => by have := h c hc; unfold Blank at this; omega
  unfold trimSpace
  rw [if_pos (all_ascii.mpr ha)]
  have : s.dropWhile isTrim = [] := by
    rw [dropWhile_nil]; exact fun x hx => isTrim_iff.mpr (h x hx)
  simp [this]

theorem trim_tight {ext} {a t b : Bytes} (ha : ∀ x ∈ a, Blank x) (hb : ∀ x ∈ b, Blank x) (ht : Tight t) (hA : Ascii t) :
    trimSpace ext (a ++ (t ++ b)) = t := by
  have hasc : Ascii (a ++ (t ++ b)) := by
    intro c hc
    simp only [List.mem_append] at hc
    rcases hc with h | h | h
    · have := ha c h; unfold Blank at this; omega
    · exact hA c h
    · have := hb c h; unfold Blank at this; omega
  unfold trimSpace
  rw [if_pos (all_ascii.mpr hasc)]
  obtain ⟨⟨c, u, e1, hc⟩, v, d, e2, hd⟩ := ht
  have h1 : (a ++ (t ++ b)).dropWhile isTrim = t ++ b := by
    rw [e1, List.cons_append]
    exact dropWhile_app (fun x hx => isTrim_iff.mpr (ha x hx))
      (by cases h : isTrim c with | false => rfl | true => exact absurd (isTrim_iff.mp h) hc)
  rw [h1]
  have h2 : (t ++ b).reverse.dropWhile isTrim = t.reverse := by
    rw [List.reverse_append, e2, List.reverse_append]
    exact dropWhile_app (c := d) (r := v.reverse) (fun x hx => isTrim_iff.mpr (hb x (List.mem_reverse.mp hx)))
      (by cases h : isTrim d with | false => rfl | true => exact absurd (isTrim_iff.mp h) hd)
  rw [h2]; simp

theorem trim_nil_iff {ext} {s : Bytes} (hA : Ascii s) : trimSpace ext s = [] ↔ ∀ x ∈ s, Blank x := by
  constructor
  · intro h
    unfold trimSpace at h
    rw [if_pos (all_ascii.mpr hA)] at h
    have h := List.reverse_eq_nil_iff.mp h
    rw [dropWhile_nil] at h
    by_contra hx
    simp only [not_forall] at hx
    obtain ⟨x, hx, hn⟩ := hx
    cases hd : s.dropWhile isTrim with
    | nil =>
      rw [dropWhile_nil] at hd
      exact hn (isTrim_iff.mp (hd x hx))
    | cons y ys =>
      rw [hd] at h
      have hy : isTrim y = true := h y (by simp)
      have := List.head?_dropWhile_not isTrim s
      rw [hd] at this
      simp [hy] at this
  · exact trim_blank

/-- the entry for a comment that names `w` -/
theorem mkKV_comment {ext} {line w fn : Bytes} (h : CommentNames line w) :
    mkKV ext (trimSpace ext line) fn = ⟨lower w, fn⟩ := by
  obtain ⟨ht, hA, a, b, c, dot, hb, rfl, hdot⟩ := h
  have hba : ∀ x ∈ a, Blank x := fun x hx => hb x (by simp [hx])
  have hbb : ∀ x ∈ b, Blank x := fun x hx => hb x (by simp [hx])
  have hbc : ∀ x ∈ c, Blank x := fun x hx => hb x (by simp [hx])
  have hAb : ∀ {x : UInt8}, Blank x → x.toNat < 128 := by intro x hx; unfold Blank at hx; omega
  have hcore : trimSpace ext (a ++ (s!! "//" ++ (b ++ (w ++ dot ++ c)))) = s!! "//" ++ (b ++ (w ++ dot)) := by
    have : a ++ (s!! "//" ++ (b ++ (w ++ dot ++ c))) = a ++ ((s!! "//" ++ (b ++ (w ++ dot))) ++ c) := by simp
    rw [this]
    apply trim_tight hba hbc
    · refine ⟨⟨47, 47 :: (b ++ (w ++ dot)), rfl, by unfold Blank; decide⟩, ?_⟩
      rcases hdot with ⟨d, _, rfl⟩ | ⟨rfl, _⟩
      · exact ⟨s!! "//" ++ (b ++ (w ++ d)), 46, by simp, by unfold Blank; decide⟩
      · obtain ⟨_, u, e, rfl, he⟩ := ht
        exact ⟨s!! "//" ++ (b ++ u), e, by simp, he⟩
    · intro x hx
      simp only [List.mem_append] at hx
      rcases hx with h | h | h | h
      · simp at h; subst h; decide
      · exact hAb (hbb x h)
      · exact hA x h
      · rcases hdot with ⟨d, hd, rfl⟩ | ⟨rfl, _⟩
        · simp only [List.mem_append] at h
          rcases h with h | h
          · exact hAb (hd x h)
          · simp at h; subst h; decide
        · simp at h
  rw [hcore]
  unfold mkKV
  rw [if_neg (by simp)]
  have hpre : ∀ r, trimPrefix (s!! "//" ++ r) (b! "//") = r := fun r => by
    unfold trimPrefix; simp
  have hlow : toLower ext.lowerUni w = lower w := lower_eq hA
  rcases hdot with ⟨d, hd, rfl⟩ | ⟨rfl, hw⟩
  · have : trimSuffix (s!! "//" ++ (b ++ (w ++ (d ++ s!! ".")))) (b! ".") = s!! "//" ++ (b ++ (w ++ d)) := by
      have e : s!! "//" ++ (b ++ (w ++ (d ++ s!! "."))) = (s!! "//" ++ (b ++ (w ++ d))) ++ b! "." := by simp
      rw [e]; unfold trimSuffix
      rw [if_pos (List.isSuffixOf_iff_suffix.mpr ⟨_, rfl⟩)]
      exact List.take_left' (by simp; omega)
    rw [this, hpre, trim_tight hbb hd ht hA, hlow]
  · have : trimSuffix (s!! "//" ++ (b ++ (w ++ []))) (b! ".") = s!! "//" ++ (b ++ (w ++ [])) := by
      unfold trimSuffix
      rw [if_neg]
      intro hs
      obtain ⟨u, hu⟩ := List.isSuffixOf_iff_suffix.mp hs
      obtain ⟨_, v, e, hv, he⟩ := ht
      rw [hv] at hu hw
      have hu : u ++ [46] = (47 :: 47 :: (b ++ v)) ++ [e] := by rw [hu]; simp
      have := congrArg List.getLast? hu
      rw [List.getLast?_concat, List.getLast?_concat] at this
      simp at hw
      exact hw (Option.some.inj this).symm
    rw [this, hpre, List.append_nil]
    have := trim_tight (ext := ext) (b := []) hbb (by simp) ht hA
    rw [List.append_nil] at this
    rw [this, hlow]

/-! ## the loop -/

/-- the (trimmed) line before the first of `ls`, and after `pre` -/
def lastOf (ext : GenExt) (last : Bytes) : List Bytes → Bytes
  | [] => last
  | l :: ls => lastOf ext (trimSpace ext l) ls

theorem lastOf_eq {ext last} (pre : List Bytes) :
    lastOf ext last pre = match pre.getLast? with | none => last | some l => trimSpace ext l := by
  induction pre generalizing last with
  | nil => rfl
  | cons l ls ih =>
    rw [lastOf, ih]
    cases ls with
    | nil => rfl
    | cons a b =>
      rw [List.getLast?_cons_cons]
      cases h : (a :: b).getLast? with
      | none => simp at h
      | some x => rfl

theorem parse_append {ext} (pre post : List Bytes) (last) :
    parseLines ext last (pre ++ post) = parseLines ext last pre ++ parseLines ext (lastOf ext last pre) post := by
  induction pre generalizing last with
  | nil => rfl
  | cons l ls ih =>
    rw [List.cons_append]
    simp only [parseLines, ih, lastOf]
    split <;> simp

theorem mem_parse {ext} {kv : KV} {ls last} :
    kv ∈ parseLines ext last ls ↔ ∃ pre l post, ls = pre ++ l :: post ∧ Declares l kv.funcName ∧
      kv = mkKV ext (lastOf ext last pre) kv.funcName := by
  induction ls generalizing last with
  | nil => simp [parseLines]
  | cons l ls ih =>
    have hrest : kv ∈ parseLines ext (trimSpace ext l) ls ↔
        ∃ pre l' post, l :: ls = (l :: pre) ++ l' :: post ∧ Declares l' kv.funcName ∧
          kv = mkKV ext (lastOf ext last (l :: pre)) kv.funcName := by
      rw [ih]; simp [lastOf]
    have hfn : ∀ x y, (mkKV ext x y).funcName = y := by intro x y; unfold mkKV; split <;> rfl
    simp only [parseLines]
    constructor
    · intro h
      by_cases hf : regexCmdFuncStr l = []
      · rw [if_pos hf] at h
        obtain ⟨pre, l', post, e, hh⟩ := hrest.mp h
        exact ⟨l :: pre, l', post, e, hh⟩
      · rw [if_neg hf] at h
        rcases List.mem_cons.mp h with h | h
        · refine ⟨[], l, ls, rfl, ?_, ?_⟩
          · rw [h, hfn]; exact declares_iff.mpr ⟨hf, rfl⟩
          · rw [h, hfn]; rfl
        · obtain ⟨pre, l', post, e, hh⟩ := hrest.mp h
          exact ⟨l :: pre, l', post, e, hh⟩
    · rintro ⟨pre, l', post, e, hd, hk⟩
      cases pre with
      | nil =>
        simp at e
        obtain ⟨rfl, rfl⟩ := e
        obtain ⟨h1, h2⟩ := declares_iff.mp hd
        rw [if_neg (by rw [h2]; exact h1)]
        apply List.mem_cons.mpr; left
        rw [h2]; exact hk
      | cons x xs =>
        have e1 : x = l := by simp at e; exact e.1.symm
        subst e1
        have := hrest.mpr ⟨xs, l', post, e, hd, hk⟩
        split
        · exact this
        · exact List.mem_cons_of_mem _ this

/-- the functions registered are those declared, in the order of the lines -/
theorem parse_funcs {ext} (ls last) :
    (parseLines ext last ls).map (·.funcName) = (ls.map regexCmdFuncStr).filter (· ≠ []) := by
  have hfn : ∀ x y, (mkKV ext x y).funcName = y := by intro x y; unfold mkKV; split <;> rfl
  induction ls generalizing last with
  | nil => rfl
  | cons l ls ih =>
    simp only [parseLines, List.map_cons]
    by_cases hf : regexCmdFuncStr l = []
    · simp [hf, ih]
    · simp [hf, ih, hfn]

theorem functions_filter (ls : List Bytes) : Functions ls ((ls.map regexCmdFuncStr).filter (· ≠ [])) := by
  induction ls with
  | nil => exact .nil
  | cons l ls ih =>
    by_cases hf : regexCmdFuncStr l = []
    · simp only [List.map_cons, hf, List.filter_cons]
      exact .other ((regex_spec l).2 hf) ih
    · simp only [List.map_cons, List.filter_cons, ne_eq, hf, not_false_eq_true, decide_true, if_true]
      exact .decl ((regex_spec l).1 hf) ih

end Godis.Gen
