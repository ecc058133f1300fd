import Verif.Model.Config
import Verif.Spec.Config
/-!
# C83: the configuration is replaced as a whole
-/
namespace Godis.Config
open ConfigSpec (Ask Ans Seen Reading Where Moves Lives Atomic Waiting Overlap inForce)

/-- What can be seen of a step of goroutine `i`. -/
def Label.seen : Nat × Label → Option Seen
  | (i, .callInit doc) => some (.asks i (.load doc))
  | (i, .retInit e) => some (.told i (.verdict e))
  | (i, .callGet) => some (.asks i .timeout)
  | (i, .retGet t) => some (.told i (.nanoseconds t))
  | (_, .crash) => none
  | (_, .tau) => none

/-- What can be seen of a run. -/
def shown (L : List (Nat × Label)) : List Seen := L.filterMap Label.seen

/-- What the decoder makes of documents, as far as the timeout goes. -/
def reading (dec : Decoder) : Reading := fun doc => (dec doc).map (·.timeout)

theorem shown_step {L : List (Nat × Label)} {x : Nat × Label} : shown (L ++ [x]) = shown L ++ (Label.seen x).toList := by
  unfold shown
  rw [List.filterMap_append]
  cases h : Label.seen x <;> simp [List.filterMap, h]

/-- `cfg` never becomes nil again -/
theorem cfg_kept {dec i s l s'} (h : Step dec i s l s') (hs : s.cfg ≠ none) : s'.cfg ≠ none := by
  cases h <;> simp_all [St.goto]

/-- Who is past the nil check has seen a configuration. -/
theorem safe {dec L s} (h : Run dec L s) : ∀ i, (s.pc i = .checking ∨ s.pc i = .reading → s.cfg ≠ none) ∧ s.pc i ≠ .crashed := by
  induction h with
  | nil => intro i; simp [St.init]
  | @step L s j l s' hr hs ih =>
    intro i
    have hk := cfg_kept hs
    have ii := ih i
    have ij := ih j
    by_cases hij : i = j
    · subst hij
      cases hs <;> simp_all [St.goto]
    · cases hs <;> simp_all [St.goto, Function.update_of_ne]

/-- **C83_no_crash**: however many goroutines hand in documents and ask for the timeout at the same time, the package does not
panic. -/
theorem C83_no_crash {dec L s} (h : Run dec L s) : ∀ i, (i, Label.crash) ∉ L := by
  induction h with
  | nil => simp
  | @step L s j l s' hr hs ih =>
    intro i hi
    rcases List.mem_append.1 hi with hi | hi
    · exact ih i hi
    · have : l = .crash := by simp at hi; exact hi.2.symm
      subst this
      cases hs with
      | nilDeref hp hc => exact (safe hr j).1 hp hc

/-- What is known of a goroutine from what it was seen doing. -/
def Fits (dec : Decoder) (H : List Seen) (i : Nat) : Pc → Prop
  | .out => True
  | .decoding doc => Waiting H i (.load doc)
  | .assigning c => ∃ doc, Waiting H i (.load doc) ∧ dec doc = .ok c
  | .initDone e => ∃ doc, Waiting H i (.load doc) ∧ e = (match dec doc with | .error e => some e | .ok _ => none)
  | .comparing => Waiting H i .timeout
  | .checking => Waiting H i .timeout
  | .reading => Waiting H i .timeout
  | .getDone _ => Waiting H i .timeout
  | .crashed => True

theorem waiting_more {H i a s} (h : Waiting H i a) (hs : ∀ b, s ≠ .told i b) : Waiting (H ++ [s]) i a := by
  obtain ⟨A, B, e, hb⟩ := h
  refine ⟨A, B ++ [s], by simp [e], fun b hm => ?_⟩
  rcases List.mem_append.1 hm with hm | hm
  · exact hb b hm
  · exact hs b (by simp at hm; exact hm.symm)

theorem waiting_now {H i a} : Waiting (H ++ [.asks i a]) i a := ⟨H, [], rfl, by simp⟩

theorem Fits.more {dec H i s p} (h : Fits dec H i p) (hs : ∀ b, s ≠ .told i b) : Fits dec (H ++ [s]) i p := by
  cases p <;> simp only [Fits] at h ⊢
  all_goals first
    | exact waiting_more h hs
    | (obtain ⟨d, hd, he⟩ := h; exact ⟨d, waiting_more hd hs, he⟩)

theorem seen_own {i l s b j} (h : Label.seen (j, l) = some s) (hij : i ≠ j) : s ≠ .told i b := by
  cases l <;> simp [Label.seen] at h <;> subst h <;> simp
  all_goals (intro e; exact absurd e.symm hij)

theorem fits {dec L s} (h : Run dec L s) : ∀ i, Fits dec (shown L) i (s.pc i) := by
  induction h with
  | nil => intro i; simp [St.init, Fits]
  | @step L s j l s' hr hs ih =>
    intro i
    rw [shown_step]
    by_cases hij : i = j
    · subst hij
      have ii := ih i
      cases hs with
      | callInit doc hp => simpa [St.goto, Fits, Label.seen] using waiting_now
      | refuse hp hd => rw [hp] at ii; simp only [Fits] at ii; simp [St.goto, Label.seen, Fits]; exact ⟨_, ii, by rw [hd]⟩
      | accept hp hd => rw [hp] at ii; simp only [Fits] at ii; simp [St.goto, Label.seen, Fits]; exact ⟨_, ii, hd⟩
      | assign hp =>
        rw [hp] at ii; simp only [Fits] at ii; simp [St.goto, Label.seen, Fits]
        obtain ⟨d, hd, he⟩ := ii; exact ⟨d, hd, by rw [he]⟩
      | retInit hp => simp [St.goto, Fits]
      | callGet hp => simpa [St.goto, Fits, Label.seen] using waiting_now
      | isNil hp _ => rw [hp] at ii; simp only [Fits] at ii; simpa [St.goto, Label.seen, Fits] using ii
      | notNil hp _ => rw [hp] at ii; simp only [Fits] at ii; simpa [St.goto, Label.seen, Fits] using ii
      | isZero hp _ _ => rw [hp] at ii; simp only [Fits] at ii; simpa [St.goto, Label.seen, Fits] using ii
      | notZero hp _ _ => rw [hp] at ii; simp only [Fits] at ii; simpa [St.goto, Label.seen, Fits] using ii
      | read hp _ => rw [hp] at ii; simp only [Fits] at ii; simpa [St.goto, Label.seen, Fits] using ii
      | nilDeref _ _ => simp [St.goto, Fits]
      | retGet hp => simp [St.goto, Fits]
    · have hpc : s'.pc i = s.pc i := by cases hs <;> simp [St.goto, Function.update_of_ne hij]
      rw [hpc]
      cases hl : Label.seen (j, l) with
      | none => simpa using ih i
      | some x => exact (ih i).more (fun b => seen_own hl hij)

/-- **C83_verdict**: `InitConfig` says of every document what the decoder says of it, whatever else happens. -/
theorem C83_verdict {dec L s i e} (h : Run dec (L ++ [(i, .retInit e)]) s) :
    ∃ doc, Waiting (shown L) i (.load doc) ∧ e = (match dec doc with | .error e => some e | .ok _ => none) := by
  generalize hM : L ++ [(i, Label.retInit e)] = M at h
  cases h with
  | nil => simp at hM
  | @step L' s0 j l s' hr hs =>
    obtain ⟨rfl, hx⟩ := List.append_inj' hM rfl
    simp at hx
    obtain ⟨rfl, rfl⟩ := hx
    cases hs with
    | retInit hp => have := fits hr i; rw [hp] at this; exact this

/-- The configurations in the variable, and about to be put there, come from accepted documents. -/
theorem origin {dec L s} (h : Run dec L s) :
    (∀ c, s.cfg = some c → ∃ i doc, .asks i (.load doc) ∈ shown L ∧ dec doc = .ok c) ∧
    (∀ i t, s.pc i = .getDone t → t = fiveSeconds ∨ ∃ j doc c, .asks j (.load doc) ∈ shown L ∧ dec doc = .ok c ∧ c.timeout = t) := by
  induction h with
  | nil => simp [St.init]
  | @step L s j l s' hr hs ih =>
    have hf := fits hr j
    rw [shown_step]
    have lift : ∀ {x}, x ∈ shown L → x ∈ shown L ++ (Label.seen (j, l)).toList := fun h => List.mem_append_left _ h
    have c1 : ∀ c, s.cfg = some c → ∃ i doc, Seen.asks i (.load doc) ∈ shown L ++ (Label.seen (j, l)).toList ∧ dec doc = .ok c :=
      fun c hc => let ⟨i, d, hm, hd⟩ := ih.1 c hc; ⟨i, d, lift hm, hd⟩
    have c2 : ∀ i t, s.pc i = .getDone t → t = fiveSeconds ∨
        ∃ j' doc c, Seen.asks j' (.load doc) ∈ shown L ++ (Label.seen (j, l)).toList ∧ dec doc = .ok c ∧ c.timeout = t :=
      fun i t ht => (ih.2 i t ht).imp_right fun ⟨a, d, c, hm, hd⟩ => ⟨a, d, c, lift hm, hd⟩
    constructor
    · intro c hc
      cases hs with
      | assign hp =>
        rw [hp] at hf
        obtain ⟨d, ⟨A, B, e, _⟩, hd⟩ := hf
        simp [St.goto] at hc
        subst hc
        exact ⟨j, d, lift (by simp [e]), hd⟩
      | _ => exact c1 c hc
    · intro i t ht
      by_cases hij : i = j
      · subst hij
        cases hs with
        | isNil _ _ => simp [St.goto] at ht; exact .inl ht.symm
        | isZero _ _ _ => simp [St.goto] at ht; exact .inl ht.symm
        | @read c hp hc =>
          simp [St.goto] at ht
          obtain ⟨a, d, hm, hd⟩ := c1 c hc
          exact .inr ⟨a, d, c, hm, hd, ht⟩
        | _ => simp [St.goto] at ht
      · have hpc : s'.pc i = s.pc i := by cases hs <;> simp [St.goto, Function.update_of_ne hij]
        rw [hpc] at ht
        exact c2 i t ht

/-- **C83_origin**: the timeout is always five seconds or the timeout of an accepted document that was handed in before. -/
theorem C83_origin {dec L s i t} (h : Run dec (L ++ [(i, .retGet t)]) s) :
    t = 5 * 10 ^ 9 ∨ ∃ j doc c, .asks j (.load doc) ∈ shown L ∧ dec doc = .ok c ∧ c.timeout = t := by
  generalize hM : L ++ [(i, Label.retGet t)] = M at h
  cases h with
  | nil => simp at hM
  | @step L' s0 j l s' hr hs =>
    obtain ⟨rfl, hx⟩ := List.append_inj' hM rfl
    simp at hx
    obtain ⟨rfl, rfl⟩ := hx
    cases hs with
    | retGet hp => exact (origin hr).2 i t hp

/-- Where the goroutine of the specification is. -/
def spot : Pc → Where
  | .out => none
  | .decoding doc => some (.inl (.load doc))
  | .assigning _ => none  -- not used
  | .initDone e => some (.inr (.verdict e))
  | .comparing => some (.inl .timeout)
  | .checking => some (.inl .timeout)
  | .reading => some (.inl .timeout)
  | .getDone t => some (.inr (.nanoseconds t))
  | .crashed => none

/-- The state of the specification fits the state of the program. -/
def Like (dec : Decoder) (s : St) (x : Option Int × (Nat → Where)) : Prop :=
  x.1 = s.cfg.map (·.timeout) ∧
  (∀ i, (∀ c, s.pc i ≠ .assigning c) → x.2 i = spot (s.pc i)) ∧
  (∀ i c, s.pc i = .assigning c → ∃ doc, x.2 i = some (.inl (.load doc)) ∧ dec doc = .ok c)

theorem Overlap.more {H s} (h : ¬ Overlap (H ++ s)) : ¬ Overlap H :=
  fun ⟨A, ha, r⟩ => h ⟨A, ha.trans (List.prefix_append _ _), r⟩

theorem like_update {dec s x i p w v c'} (hl : Like dec s x) (hv : v = c'.map (·.timeout))
    (hw : ((∀ c, p ≠ .assigning c) ∧ w = spot p) ∨ ∃ c doc, p = .assigning c ∧ w = some (.inl (.load doc)) ∧ dec doc = .ok c) :
    Like dec ({ s with cfg := c' }.goto i p) (v, Function.update x.2 i w) := by
  obtain ⟨h1, h2, h3⟩ := hl
  refine ⟨hv, ?_, ?_⟩
  · intro j hj
    by_cases h : j = i
    · subst h
      simp [St.goto] at hj ⊢
      rcases hw with ⟨_, e⟩ | ⟨c, d, e, _⟩
      · exact e
      · exact absurd e (hj c)
    · simp [St.goto, Function.update_of_ne h] at hj ⊢
      exact h2 j hj
  · intro j c hj
    by_cases h : j = i
    · subst h
      simp [St.goto] at hj ⊢
      rcases hw with ⟨e, _⟩ | ⟨c', d, e, e2, e3⟩
      · exact absurd hj (e c)
      · rw [e] at hj; cases hj; exact ⟨d, e2, e3⟩
    · simp [St.goto, Function.update_of_ne h] at hj ⊢
      exact h3 j c hj

theorem atomic {dec L s} (h : Run dec L s)
    (hc : (∀ i doc c, .asks i (.load doc) ∈ shown L → dec doc = .ok c → c.timeout ≠ 0) ∨ ¬ Overlap (shown L)) :
    (∃ x, Lives (reading dec) (shown L) x ∧ Like dec s x) ∧
    (∀ i c, s.pc i = .reading → s.cfg = some c → c.timeout ≠ 0) := by
  induction h with
  | nil => exact ⟨⟨_, .start, rfl, fun _ _ => rfl, nofun⟩, nofun⟩
  | @step L s j l s' hr hs ih =>
    rw [shown_step] at hc
    obtain ⟨⟨x, hx, hl⟩, hz⟩ := ih (hc.imp (fun h i d c hm => h i d c (List.mem_append_left _ hm)) Overlap.more)
    have hf := fits hr
    rw [shown_step]
    obtain ⟨v, w⟩ := x
    have hl' := hl
    obtain ⟨h1, h2, h3⟩ := hl
    simp only at h1 h2 h3
    have h2j : ∀ p, s.pc j = p → (∀ c, p ≠ .assigning c) → w j = spot p := fun p hp hn => by
      rw [← hp]; exact h2 j (by rw [hp]; exact hn)
    -- the second part, for steps that leave `cfg` alone
    have keep : ∀ p, s' = s.goto j p → p ≠ .reading → ∀ i c, s'.pc i = .reading → s'.cfg = some c → c.timeout ≠ 0 := by
      intro p e hp i c hi hcc
      subst e
      by_cases h : i = j
      · subst h; simp [St.goto] at hi; exact absurd hi hp
      · simp [St.goto, Function.update_of_ne h] at hi hcc; exact hz i c hi hcc
    cases hs with
    | callInit doc hp =>
      refine ⟨⟨_, .seen hx (.ask (a := .load doc) (h2j _ hp (by simp))), ?_⟩, keep _ rfl (by simp)⟩
      exact like_update (c' := s.cfg) hl' h1 (.inl ⟨by simp, rfl⟩)
    | @refuse doc e hp hd =>
      simp only [Label.seen, Option.toList, List.append_nil]
      refine ⟨⟨_, .hidden hx (.refused (doc := doc) (e := e) (h2j _ hp (by simp)) (by simp [reading, hd, Except.map])), ?_⟩, keep _ rfl (by simp)⟩
      exact like_update (c' := s.cfg) hl' h1 (.inl ⟨by simp, rfl⟩)
    | @accept doc c hp hd =>
      simp only [Label.seen, Option.toList, List.append_nil]
      refine ⟨⟨_, hx, ?_⟩, keep _ rfl (by simp)⟩
      have := like_update (i := j) (p := .assigning c) (w := w j) (v := v) (c' := s.cfg) hl' h1
        (.inr ⟨c, doc, rfl, h2j _ hp (by simp), hd⟩)
      simpa using this
    | @assign c hp =>
      simp only [Label.seen, Option.toList, List.append_nil]
      obtain ⟨doc, hw, hd⟩ := h3 j c hp
      refine ⟨⟨_, .hidden hx (.accepted (t := c.timeout) hw (by simp [reading, hd, Except.map])), ?_⟩, ?_⟩
      · exact like_update (c' := some c) hl' rfl (.inl ⟨by simp, rfl⟩)
      · intro i c' hi hcc
        have hcc' : c = c' := by simpa [St.goto] using hcc
        subst hcc'
        have hij : i ≠ j := by rintro rfl; simp [St.goto] at hi
        have hi' : s.pc i = .reading := by simpa [St.goto, Function.update_of_ne hij] using hi
        rcases hc with hc | hc
        · have fj := hf j; rw [hp] at fj
          obtain ⟨d, ⟨A, B, e, _⟩, hd'⟩ := fj
          exact hc j d c (by simp [e]) hd'
        · exfalso
          have fi := hf i; rw [hi'] at fi
          have fj := hf j; rw [hp] at fj
          obtain ⟨d, fd, _⟩ := fj
          exact hc ⟨shown L, List.prefix_append _ _, j, i, d, fd, fi⟩
    | @retInit e hp =>
      refine ⟨⟨_, .seen hx (.told (a := .verdict e) (h2j _ hp (by simp))), ?_⟩, keep _ rfl (by simp)⟩
      exact like_update (c' := s.cfg) hl' h1 (.inl ⟨by simp, rfl⟩)
    | callGet hp =>
      refine ⟨⟨_, .seen hx (.ask (a := .timeout) (h2j _ hp (by simp))), ?_⟩, keep _ rfl (by simp)⟩
      exact like_update (c' := s.cfg) hl' h1 (.inl ⟨by simp, rfl⟩)
    | isNil hp hn =>
      simp only [Label.seen, Option.toList, List.append_nil]
      refine ⟨⟨_, .hidden hx (.looked (h2j _ hp (by simp))), ?_⟩, keep _ rfl (by simp)⟩
      exact like_update (c' := s.cfg) hl' h1 (.inl ⟨by simp, by rw [h1, hn]; rfl⟩)
    | notNil hp hn =>
      simp only [Label.seen, Option.toList, List.append_nil]
      refine ⟨⟨_, hx, ?_⟩, keep _ rfl (by simp)⟩
      have := like_update (i := j) (p := .checking) (w := w j) (v := v) (c' := s.cfg) hl' h1
        (.inl ⟨by simp, by simpa [spot] using h2j _ hp (by simp)⟩)
      simpa using this
    | @isZero c hp hn h0 =>
      simp only [Label.seen, Option.toList, List.append_nil]
      refine ⟨⟨_, .hidden hx (.looked (h2j _ hp (by simp))), ?_⟩, keep _ rfl (by simp)⟩
      exact like_update (c' := s.cfg) hl' h1 (.inl ⟨by simp, by rw [h1, hn]; simp [inForce, h0, spot, fiveSeconds]⟩)
    | @notZero c hp hn h0 =>
      simp only [Label.seen, Option.toList, List.append_nil]
      refine ⟨⟨_, hx, ?_⟩, ?_⟩
      · have := like_update (i := j) (p := .reading) (w := w j) (v := v) (c' := s.cfg) hl' h1
          (.inl ⟨by simp, by simpa [spot] using h2j _ hp (by simp)⟩)
        simpa using this
      · intro i c' hi hcc
        have : c = c' := by simpa [St.goto, hn] using hcc
        rw [← this]; exact h0
    | @read c hp hn =>
      simp only [Label.seen, Option.toList, List.append_nil]
      refine ⟨⟨_, .hidden hx (.looked (h2j _ hp (by simp))), ?_⟩, keep _ rfl (by simp)⟩
      exact like_update (c' := s.cfg) hl' h1 (.inl ⟨by simp, by rw [h1, hn]; simp [inForce, hz j c hp hn, spot]⟩)
    | nilDeref hp hn => exact absurd hn ((safe hr j).1 hp)
    | @retGet t hp =>
      refine ⟨⟨_, .seen hx (.told (a := .nanoseconds t) (h2j _ hp (by simp))), ?_⟩, keep _ rfl (by simp)⟩
      exact like_update (c' := s.cfg) hl' h1 (.inl ⟨by simp, rfl⟩)

/-- **C83_atomic_partial**: what goroutines see is what they would see of a configuration that is replaced, and looked at, in
one moment; provided that no accepted document that is handed in
leaves the timeout open (or sets it to 0), or that no goroutine hands in a
document while another one asks for the timeout.  Missing: documents without a timeout, handed in at the same time
(`C83_zero_violated` shows that this is false of the code). -/
theorem C83_atomic_partial {dec L s} (h : Run dec L s)
    (hc : (∀ i doc c, .asks i (.load doc) ∈ shown L → dec doc = .ok c → c.timeout ≠ 0) ∨ ¬ Overlap (shown L)) : Atomic (reading dec) (shown L) :=
  let ⟨⟨x, hx, _⟩, _⟩ := atomic h hc; ⟨x, hx⟩

/-- Of a configuration that is replaced in one moment nobody is told that the timeout is 0. -/
theorem lives_ne_zero {rd H x} (h : Lives rd H x) :
    (∀ i, Seen.told i (.nanoseconds 0) ∉ H) ∧ ∀ i, x.2 i ≠ some (.inr (.nanoseconds 0)) := by
  induction h with
  | start => simp
  | @hidden H x y hx hm ih =>
    refine ⟨ih.1, fun i => ?_⟩
    cases hm <;> (rename_i j _ ; simp only [Function.update_apply]; split)
    all_goals first
      | exact ih.2 i
      | (simp; done)
      | (simp [inForce]; split <;> (try split) <;> simp_all)
  | @seen H x s y hx hm ih =>
    cases hm with
    | @ask v w i a hw =>
      refine ⟨fun j hj => ?_, fun j => ?_⟩
      · rcases List.mem_append.1 hj with hj | hj
        · exact ih.1 j hj
        · simp at hj
      · simp only [Function.update_apply]; split
        · simp
        · exact ih.2 j
    | @told v w i a hw =>
      refine ⟨fun j hj => ?_, fun j => ?_⟩
      · rcases List.mem_append.1 hj with hj | hj
        · exact ih.1 j hj
        · simp at hj
          obtain ⟨rfl, rfl⟩ := hj
          exact ih.2 _ hw
      · simp only [Function.update_apply]; split
        · simp
        · exact ih.2 j

/-- **C83_never_zero_partial**: under the same conditions nobody is ever told that the timeout is 0 (no time at all). -/
theorem C83_never_zero_partial {dec L s} (h : Run dec L s)
    (hc : (∀ i doc c, .asks i (.load doc) ∈ shown L → dec doc = .ok c → c.timeout ≠ 0) ∨ ¬ Overlap (shown L)) (i : Nat) :
    .told i (.nanoseconds 0) ∉ shown L :=
  let ⟨_, hx⟩ := C83_atomic_partial h hc; (lives_ne_zero hx).1 i

/-! ## A concrete case, and the one that goes wrong -/

/-- Three documents: one sets seven seconds, one sets nothing, all others are refused. -/
def dec0 : Decoder := fun doc =>
  if doc = b! "7s" then .ok ⟨7 * 10 ^ 9, []⟩ else if doc = b! "{}" then .ok ⟨0, []⟩ else .error (b! "yaml")

/-- Goroutine 0 hands in a document and is told the verdict. -/
theorem load_run {dec L s i doc} (h : Run dec L s) (hp : s.pc i = .out) :
    ∃ M s', Run dec (L ++ M) s' ∧ shown M = [.asks i (.load doc), .told i (.verdict (match dec doc with | .error e => some e | .ok _ => none))] ∧
      s'.cfg = (match dec doc with | .error _ => s.cfg | .ok c => some c) ∧ s'.pc = s.pc := by
  have h1 := h.step (Step.callInit (i := i) doc hp)
  cases hd : dec doc with
  | error e =>
    have h2 := h1.step (Step.refuse (i := i) (doc := doc) (e := e) (by simp [St.goto]) hd)
    have h3 := h2.step (Step.retInit (i := i) (e := some e) (by simp [St.goto]))
    simp only [List.append_assoc] at h3
    refine ⟨_, _, h3, rfl, rfl, ?_⟩
    funext k; by_cases hk : k = i
    · subst hk; simp [St.goto, hp]
    · simp [St.goto, Function.update_of_ne hk]
  | ok c =>
    have h2 := h1.step (Step.accept (i := i) (doc := doc) (c := c) (by simp [St.goto]) hd)
    have h3 := h2.step (Step.assign (i := i) (c := c) (by simp [St.goto]))
    have h4 := h3.step (Step.retInit (i := i) (e := none) (by simp [St.goto]))
    simp only [List.append_assoc] at h4
    refine ⟨_, _, h4, rfl, rfl, ?_⟩
    funext k; by_cases hk : k = i
    · subst hk; simp [St.goto, hp]
    · simp [St.goto, Function.update_of_ne hk]

/-- **C83_zero_violated**: while goroutine 1 asks for the timeout, goroutine 0 hands in a document that sets none, and goroutine
1 is told 0 — which nobody is ever told of a configuration that is replaced in one moment. -/
theorem C83_zero_violated : ∃ L s, Run dec0 L s ∧ shown L =
      [.asks 0 (.load (b! "7s")), .told 0 (.verdict none), .asks 1 .timeout,
       .asks 0 (.load (b! "{}")), .told 0 (.verdict none), .told 1 (.nanoseconds 0)] ∧
    ¬ Atomic (reading dec0) (shown L) := by
  obtain ⟨M, s, h, hM, hc, hp⟩ := load_run (doc := b! "7s") (i := 0) (Run.nil (dec := dec0)) rfl
  have h1 := h.step (Step.callGet (i := 1) (by rw [hp]; rfl))
  have h2 := h1.step (Step.notNil (i := 1) (c := ⟨7 * 10 ^ 9, []⟩) (by simp [St.goto]) (by simpa [St.goto, dec0] using hc))
  have h3 := h2.step (Step.notZero (i := 1) (c := ⟨7 * 10 ^ 9, []⟩) (by simp [St.goto]) (by simpa [St.goto, dec0] using hc) (by decide))
  obtain ⟨N, s', h4, hN, hc', hp'⟩ := load_run (doc := b! "{}") (i := 0) h3 (by simp [St.goto, hp, St.init])
  have h5 := h4.step (Step.read (i := 1) (c := ⟨0, []⟩) (by rw [hp']; simp [St.goto]) (by simpa [dec0] using hc'))
  have h6 := h5.step (Step.retGet (i := 1) (t := 0) (by simp [St.goto]))
  refine ⟨_, _, h6, (fun e => ⟨e, fun ⟨x, hx⟩ => (lives_ne_zero hx).1 1 (by rw [e]; simp)⟩) ?_⟩
  rw [shown_step, shown_step, show ∀ A B, shown (A ++ B) = shown A ++ shown B from fun A B => List.filterMap_append,
    shown_step, shown_step, shown_step, show ([] : List (Nat × Label)) ++ M = M from rfl, hM, hN]
  rfl

/-- A refused document changes nothing, and an accepted one is in force (the hypotheses of `C83_atomic_partial` hold here: the
calls do not overlap). -/
example : ∃ L s, Run dec0 L s ∧ shown L =
      [.asks 0 (.load (b! "7s")), .told 0 (.verdict none), .asks 0 (.load (b! "?")), .told 0 (.verdict (some (b! "yaml"))),
       .asks 1 .timeout, .told 1 (.nanoseconds (7 * 10 ^ 9))] := by
  obtain ⟨M, s, h, hM, hc, hp⟩ := load_run (doc := b! "7s") (i := 0) (Run.nil (dec := dec0)) rfl
  obtain ⟨N, s', h', hN, hc', hp'⟩ := load_run (doc := b! "?") (i := 0) h (by rw [hp]; rfl)
  have hv : s'.cfg = some ⟨7 * 10 ^ 9, []⟩ := by rw [hc']; simpa [dec0] using hc
  have h1 := h'.step (Step.callGet (i := 1) (by rw [hp', hp]; rfl))
  have h2 := h1.step (Step.notNil (i := 1) (by simp [St.goto]) (by simpa [St.goto] using hv))
  have h3 := h2.step (Step.notZero (i := 1) (by simp [St.goto]) (by simpa [St.goto] using hv) (by decide))
  have h4 := h3.step (Step.read (i := 1) (by simp [St.goto]) (by simpa [St.goto] using hv))
  have h5 := h4.step (Step.retGet (i := 1) (t := 7 * 10 ^ 9) (by simp [St.goto]))
  refine ⟨_, _, h5, ?_⟩
  rw [shown_step, shown_step, shown_step, shown_step, shown_step,
    show ∀ A B, shown (A ++ B) = shown A ++ shown B from fun A B => List.filterMap_append,
    show ([] : List (Nat × Label)) ++ M = M from rfl, hM, hN]
  rfl

end Godis.Config
