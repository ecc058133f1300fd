import Verif.Props.Grammar
import Verif.Props.Concurrency
import Verif.Proofs.Event4
import Verif.Props.Schedules
import Verif.Props.Register
import Verif.Props.Coord
import Verif.Spec.Noise
/-!
# Noise immunity: C91
-/
namespace Godis.Event
open NoiseSpec
open Linear (Before)

/-- the state with some handlers replaced -/
def Sys.mask (σ : Sys) (g : Nat → Option Handler) : Sys := { σ with handler := fun i => (g i).getD (σ.handler i) }

theorem mask_upd {g : Nat → Option Handler} {i : Nat} (h : g i = none) (f : Nat → Handler) (x : Handler) :
    (fun j => (g j).getD (upd f i x j)) = upd (fun j => (g j).getD (f j)) i x := by
  funext j
  unfold upd
  by_cases e : j = i
  · subst e; simp [h]
  · simp [e]

theorem step_mask {ext n σ l σ'} {g : Nat → Option Handler} (hs : Step ext n σ l σ') (hg : ∀ i, l.about = some i → l.byWorker = false → g i = none) :
    Step ext n (σ.mask g) l (σ'.mask g) := by
  have hm : ∀ {i}, g i = none → (σ.mask g).handler i = σ.handler i := by intro i h; simp [Sys.mask, h]
  have hu : ∀ {i} (x : Handler), g i = none → (fun j => (g j).getD (upd σ.handler i x j)) = upd (σ.mask g).handler i x :=
    fun x h => mask_upd h _ _
  cases hs with
  | recv i c f k =>
    have hi := hg i rfl rfl
    simp only [Sys.mask, mask_upd hi]
    exact .recv (σ.mask g) i c f (by rw [hm hi, k])
  | drop i c f k =>
    have hi := hg i rfl rfl
    simp only [Sys.mask, mask_upd hi]
    exact .drop (σ.mask g) i c f (by rw [hm hi, k])
  | badFrame i c f e r k kd =>
    have hi := hg i rfl rfl
    simp only [Sys.mask, mask_upd hi]
    exact .badFrame (σ.mask g) i c f e r (by rw [hm hi, k]) kd
  | decodePanic i c f p k kd =>
    have hi := hg i rfl rfl
    simp only [Sys.mask, mask_upd hi]
    exact .decodePanic (σ.mask g) i c f p (by rw [hm hi, k]) kd
  | log i c f rec r k kd =>
    have hi := hg i rfl rfl
    simp only [Sys.mask, mask_upd hi]
    exact .log (σ.mask g) i c f rec r (by rw [hm hi, k]) kd
  | noCommand i c rec k kd =>
    have hi := hg i rfl rfl
    simp only [Sys.mask, mask_upd hi]
    exact .noCommand (σ.mask g) i c rec (by rw [hm hi, k]) kd
  | enqueue i c rec nm as k k1 k2 k3 =>
    have hi := hg i rfl rfl
    simp only [Sys.mask, mask_upd hi]
    exact .enqueue (σ.mask g) i c rec nm as (by rw [hm hi, k]) k1 k2 k3
  | sendClosed i c rec nm as k k1 k2 =>
    have hi := hg i rfl rfl
    simp only [Sys.mask, mask_upd hi]
    exact .sendClosed (σ.mask g) i c rec nm as (by rw [hm hi, k]) k1 k2
  | take w e r k1 k2 k3 => exact .take (σ.mask g) w e r k1 k2 k3
  | start w e k1 k2 => exact .start (σ.mask g) w e k1 k2
  | exec w e sn s' it rsp k1 k2 k3 => exact .exec (σ.mask g) w e sn s' it rsp k1 k2 k3
  | crash w e sn it p k1 k2 k3 k4 => exact .crash (σ.mask g) w e sn it p k1 k2 k3 k4
  | publish w e rsp k1 k2 => exact .publish (σ.mask g) w e rsp k1 k2
  | timeout i c k =>
    have hi := hg i rfl rfl
    simp only [Sys.mask, mask_upd hi]
    exact .timeout (σ.mask g) i c (by rw [hm hi, k])
  | result i c rsp k k1 =>
    have hi := hg i rfl rfl
    simp only [Sys.mask, mask_upd hi]
    exact .result (σ.mask g) i c rsp (by rw [hm hi, k]) k1
  | write i c rsp b k k1 k2 =>
    have hi := hg i rfl rfl
    simp only [Sys.mask, mask_upd hi]
    exact .write (σ.mask g) i c rsp b (by rw [hm hi, k]) k1 k2
  | writeNothing i c rsp k k1 =>
    have hi := hg i rfl rfl
    simp only [Sys.mask, mask_upd hi]
    exact .writeNothing (σ.mask g) i c rsp (by rw [hm hi, k]) k1
  | encodePanic i c rsp p k k1 =>
    have hi := hg i rfl rfl
    simp only [Sys.mask, mask_upd hi]
    exact .encodePanic (σ.mask g) i c rsp p (by rw [hm hi, k]) k1
  | stop k => exact .stop (σ.mask g) k
  | signal w k1 k2 => exact .signal (σ.mask g) w k1 k2
  | exitTold w k1 k2 k3 => exact .exitTold (σ.mask g) w k1 k2 k3
  | exitClosed w k1 k2 k3 k4 => exact .exitClosed (σ.mask g) w k1 k2 k3 k4
  | stopped k1 k2 => exact .stopped (σ.mask g) k1 k2

theorem not_ok_of_noise {b : Bytes} (h : Noise b) {rec rest} : decodeFromReader b ≠ .ok rec rest := by
  obtain ⟨f, hf⟩ := h
  intro he
  have := decode_faults hf
  rw [he] at this
  exact not_ok_of_reports this

theorem noise_of_err {b : Bytes} (h : ∀ rec rest, decodeFromReader b ≠ .ok rec rest) : Noise b := by
  rcases reads_total b with ⟨as, t, rest, hr⟩ | ⟨f, hf⟩
  · exact absurd (decode_reads hr) (h _ _)
  · exact ⟨f, hf⟩

/-- a noise gets no further than the decoder -/
def Stuck : Handler → Prop
  | .absent | .submitted _ _ | .ended => True
  | _ => False

theorem stuck {ext n rng L σ} (h : Run ext n rng L σ) {i : Nat} (hn : ∀ c f, .recv i c f ∈ L → Noise f) : Stuck (σ.handler i) := by
  induction h with
  | nil => trivial
  | @snoc L σ l σ' hr hc hs ih =>
    have ih := ih fun c f hm => hn c f (List.mem_append_left _ hm)
    have hH := hr.inv.handlers i
    cases hs <;> simp only [upd_apply] <;> (try exact ih) <;> split <;> (try exact ih) <;>
      first
        | trivial
        | (next e => subst e; simp_all [Stuck]; done)
        | skip
    rename_i k kd e
    · subst e; rw [k] at hH
      exact absurd kd (not_ok_of_noise (hn _ _ (List.mem_append_left _ hH.1)))

/-- what happens to a noise: it is dropped, refused or given up -/
theorem about_noise {ext n rng L σ l σ'} (h : Run ext n rng L σ) (hs : Step ext n σ l σ') {i : Nat}
    (hn : ∀ c f, .recv i c f ∈ L → Noise f) (hi : l.about = some i) :
    ((∃ c f, l = .recv i c f) ∨ l = .quiet i ∨ ∃ p, l = .died i p) ∧ ∃ x, σ' = { σ with handler := upd σ.handler i x } := by
  have hno : ∀ {c f rec rest}, .recv i c f ∈ L → decodeFromReader f ≠ .ok rec rest :=
    fun hm => not_ok_of_noise (hn _ _ hm)
  have hI := h.inv
  have hH := hI.handlers i
  have hS := stuck h hn
  have good : ∀ {e : Ev}, Good ext L e → e.id ≠ i := by
    rintro e ⟨_, c, f, rec, rest, h1, h2, _⟩ rfl
    exact hno h1 h2
  cases hs <;> simp only [Label.about, Option.some.injEq, reduceCtorEq] at hi
  case recv k => subst hi; exact ⟨.inl ⟨_, _, rfl⟩, _, rfl⟩
  case drop k => subst hi; exact ⟨.inr (.inl rfl), _, rfl⟩
  case badFrame k kd => subst hi; exact ⟨.inr (.inl rfl), _, rfl⟩
  case decodePanic k kd => subst hi; exact ⟨.inr (.inr ⟨_, rfl⟩), _, rfl⟩
  case log k kd =>
    subst hi; rw [k] at hH
    exact absurd kd (hno hH.1)
  case take w e r k1 k2 k3 => exact absurd hi (good (hI.chanGood e (by rw [k3]; simp)).1)
  case start w e k1 k2 => exact absurd hi (good (hI.pend w e (by rw [k2]; rfl)).1)
  case exec w e _ _ _ _ k1 k2 k3 => exact absurd hi (good (hI.pend w e (by rw [k2]; rfl)).1)
  case crash w e _ _ _ k1 k2 k3 k4 => exact absurd hi (good (hI.pend w e (by rw [k2]; rfl)).1)
  case publish w e rsp k1 k2 => exact absurd hi (good (hI.gotExec w e rsp k2).1)
  all_goals (subst hi; exfalso; simp_all [Stuck])

/-! ## Without it -/

/-- the rest of the run: all but what is about the requests of `G` -/
noncomputable def restOf (G : Nat → Prop) (L : List Label) : List Label :=
  open Classical in L.filter fun l => decide (∀ i, l.about = some i → ¬ G i)

theorem restOf_snoc_keep {G : Nat → Prop} {L : List Label} {l : Label} (h : ∀ i, l.about = some i → ¬ G i) :
    restOf G (L ++ [l]) = restOf G L ++ [l] := by
  classical
  unfold restOf
  rw [List.filter_append]
  congr 1
  simp only [List.filter_cons, List.filter_nil, decide_eq_true_eq]
  rw [if_pos h]

theorem restOf_snoc_drop {G : Nat → Prop} {L : List Label} {l : Label} {i : Nat} (h : l.about = some i) (hG : G i) :
    restOf G (L ++ [l]) = restOf G L := by
  classical
  unfold restOf
  rw [List.filter_append]
  simp [hG, h]

open Classical in
/-- the handlers of `G` were never there -/
noncomputable def never (G : Nat → Prop) (i : Nat) : Option Handler := if G i then some .absent else none

theorem mask_noop {σ : Sys} {g : Nat → Option Handler} {i : Nat} (h : g i ≠ none) (x : Handler) :
    Sys.mask { σ with handler := upd σ.handler i x } g = σ.mask g := by
  unfold Sys.mask
  congr 1
  funext j
  unfold upd
  by_cases e : j = i
  · subst e
    obtain ⟨y, hy⟩ := Option.ne_none_iff_exists'.mp h
    simp [hy]
  · simp [e]

/-- noise is removed from a run -/
theorem Run.without {ext n rng L σ} (h : Run ext n rng L σ) {G : Nat → Prop} (hG : ∀ i c f, G i → .recv i c f ∈ L → Noise f) :
    Run ext n rng (restOf G L) (σ.mask (never G)) := by
  induction h with
  | nil =>
    have : (Sys.init rng).mask (never G) = Sys.init rng := by
      unfold Sys.mask Sys.init
      congr 1
      funext j
      unfold never
      split <;> rfl
    rw [this]
    exact .nil
  | @snoc L σ l σ' hr hc hs ih =>
    have ih := ih fun i c f g hm => hG i c f g (List.mem_append_left _ hm)
    by_cases hl : ∀ i, l.about = some i → ¬ G i
    · rw [restOf_snoc_keep hl]
      exact .snoc ih hc (step_mask hs fun i hi _ => by simp [never, hl i hi])
    · simp only [not_forall, not_not] at hl
      obtain ⟨i, hi, hg⟩ := hl
      rw [restOf_snoc_drop hi hg]
      obtain ⟨_, x, rfl⟩ := about_noise hr hs (fun c f hm => hG i c f hg (List.mem_append_left _ hm)) hi
      rw [mask_noop (by simp [never, hg])]
      exact ih

/-! ## With it -/

/-- steps that are not about a request do not notice what its handler does -/
theorem Run.masked {ext n rng} {g : Nat → Option Handler} : ∀ {B A A' σ0 σ}, Run ext n rng (A ++ B) σ → Run ext n rng A σ0 →
    (∀ σ1, Run ext n rng A σ1 → Run ext n rng A' (σ1.mask g)) → (∀ l ∈ B, ∀ i, l.about = some i → g i = none) →
    Run ext n rng (A' ++ B) (σ.mask g) := by
  intro B
  induction B using List.reverseRecOn with
  | nil => intro A A' σ0 σ h h0 hA hB; rw [List.append_nil] at h ⊢; exact hA _ h
  | append_singleton B l ih =>
    intro A A' σ0 σ h h0 hA hB
    rw [← List.append_assoc] at h ⊢
    generalize hL : A ++ B ++ [l] = L at h
    cases h with
    | nil => simp at hL
    | snoc hr hc hs =>
      obtain ⟨h1, h2⟩ := List.append_inj' hL rfl
      simp only [List.cons.injEq, and_true] at h2
      subst h1 h2
      exact .snoc (ih hr h0 hA fun l' hl' => hB l' (by simp [hl'])) hc (step_mask hs fun i hi _ => hB l (by simp) i hi)

theorem Run.crashed_iff {ext n rng L σ} (h : Run ext n rng L σ) : σ.crashed = true ↔ ∃ w i p, .crash w i p ∈ L := by
  induction h with
  | nil => simp [Sys.init]
  | @snoc L σ l σ' hr hc hs ih =>
    rw [hc] at ih
    simp only [Bool.false_eq_true, false_iff, not_exists] at ih
    cases hs <;> simp [hc, ih]

/-- nothing happens after a crash -/
theorem Run.crash_last {ext n rng A B σ} (h : Run ext n rng (A ++ B) σ) (hB : B ≠ []) {σ1} (h1 : Run ext n rng A σ1) :
    σ1.crashed = false := by
  by_contra hc
  simp only [Bool.not_eq_false] at hc
  obtain ⟨w, i, p, hm⟩ := h1.crashed_iff.mp hc
  obtain ⟨l, B, rfl⟩ := List.exists_cons_of_ne_nil hB
  obtain ⟨σ2, h2⟩ := Run.prefix (L1 := A ++ [l]) (L2 := B) (by simpa using h)
  generalize hL : A ++ [l] = L at h2
  cases h2 with
  | nil => simp at hL
  | snoc hr hc' hs =>
    obtain ⟨e1, _⟩ := List.append_inj' hL rfl
    subst e1
    rw [hr.crashed_iff.mpr ⟨w, i, p, hm⟩] at hc'
    cases hc'

theorem Run.handler_absent {ext n rng L σ} (h : Run ext n rng L σ) {i : Nat} (hi : ∀ l ∈ L, l.about ≠ some i) : σ.handler i = .absent := by
  have hk := h.inv.handlers i
  have no : ∀ {l : Label}, l ∈ L → l.about = some i → σ.handler i = .absent := fun hl he => absurd he (hi _ hl)
  cases hh : σ.handler i with
  | absent => rfl
  | submitted c f => rw [hh] at hk; exact hh ▸ no hk.1 rfl
  | logged c rec => rw [hh] at hk; obtain ⟨⟨f, _, h1, _⟩, _⟩ := hk; exact hh ▸ no h1 rfl
  | waiting c => rw [hh] at hk; obtain ⟨⟨f, h1⟩, _⟩ := hk; exact hh ▸ no h1 rfl
  | replying c rsp => rw [hh] at hk; obtain ⟨⟨f, h1⟩, _⟩ := hk; exact hh ▸ no h1 rfl
  | ended =>
    rw [hh] at hk
    rcases hk with h1 | ⟨_, h1⟩ | ⟨_, _, h1⟩ <;> exact hh ▸ no h1 rfl

/-- a frame that nothing else is about arrives, and its handler does not get to run -/
theorem Run.arrives {ext n rng A B σ} (h : Run ext n rng (A ++ B) σ) (hc : B ≠ [] ∨ σ.crashed = false) {i : Nat} (c : Nat) (f : Bytes)
    (hi : ∀ l ∈ A ++ B, l.about ≠ some i) :
    ∃ g, Run ext n rng (A ++ .recv i c f :: B) (σ.mask g) := by
  refine ⟨fun j => if j = i then some (.submitted c f) else none, ?_⟩
  obtain ⟨σ0, h0⟩ := h.prefix
  have hcr : ∀ σ1, Run ext n rng A σ1 → σ1.crashed = false := by
    intro σ1 h1
    by_cases hB : B = []
    · subst hB
      rw [List.append_nil] at h
      have hc := hc.resolve_left (by simp)
      by_contra hne
      simp only [Bool.not_eq_false] at hne
      rw [h.crashed_iff.mpr (h1.crashed_iff.mp hne)] at hc
      cases hc
    · exact h.crash_last hB h1
  have : A ++ .recv i c f :: B = (A ++ [.recv i c f]) ++ B := by simp
  rw [this]
  refine Run.masked h h0 (fun σ1 h1 => ?_) fun l hl j hj => ?_
  · have ha : σ1.handler i = .absent := h1.handler_absent fun l hl => hi l (by simp [hl])
    have := Run.snoc h1 (hcr σ1 h1) (.recv σ1 i c f ha)
    have e : σ1.mask (fun j => if j = i then some (.submitted c f) else none) =
        { σ1 with handler := upd σ1.handler i (.submitted c f) } := by
      unfold Sys.mask upd
      congr 1
      funext j
      by_cases hj : j = i <;> simp [hj]
    rw [e]; exact this
  · have : j ≠ i := by rintro rfl; exact hi l (by simp [hl]) hj
    simp [this]

/-! ## C91 -/

/-- It is possible that the clients see `h`, while the server writes this log and has this store, and has crashed or not. -/
def Possible (ext : Ext) (n : Nat) (rng : Rng) (h : List Linear.Ev) (log : List Bytes) (store : Store) (crashed : Bool) : Prop :=
  ∃ L σ, Run ext n rng L σ ∧ visible L = h ∧ σ.log = log ∧ σ.store = store ∧ σ.crashed = crashed

theorem seen_append (A B : List Label) : visible (A ++ B) = visible A ++ visible B := List.filterMap_append

theorem number_visible {L : List Label} {e : Linear.Ev} (h : e ∈ visible L) : ∃ l ∈ L, l.about = some (number e) := by
  obtain ⟨l, hl, he⟩ := List.mem_filterMap.mp h
  refine ⟨l, hl, ?_⟩
  cases l <;> simp only [Option.some.injEq, reduceCtorEq] at he <;> subst he <;> rfl

/-- C91: noise is mute -/
theorem C91_mute {ext n rng L σ} (h : Run ext n rng L σ) : Mute (visible L) := by
  intro h1 h2 i c b e hn ev hev he
  obtain ⟨L1, l, L2, rfl, e1, e2, e3⟩ := visible_split e
  obtain rfl : l = .recv i c b := by
    cases l <;> simp [visible] at e2
    obtain ⟨rfl, rfl, rfl⟩ := e2; rfl
  have hall : ∀ c' f, .recv i c' f ∈ L1 ++ .recv i c b :: L2 → Noise f := by
    intro c' f hm
    obtain ⟨_, rfl⟩ := h.recv_unique hm (by simp : .recv i c b ∈ L1 ++ .recv i c b :: L2)
    exact hn
  rcases List.mem_append.mp hev with hev | hev
  · rw [← e1] at hev
    obtain ⟨l, hl, hl'⟩ := number_visible hev
    exact h.recv_first l hl (he ▸ hl')
  · rw [← e3] at hev
    obtain ⟨l, hl, hv⟩ := List.mem_filterMap.mp hev
    have ha : l.about = some i := by
      cases l <;> simp only [Option.some.injEq, reduceCtorEq] at hv <;> subst hv <;> exact congrArg some he
    obtain ⟨B1, B2, rfl⟩ := List.mem_iff_append.mp hl
    have h' : Run ext n rng ((L1 ++ .recv i c b :: B1) ++ l :: B2) σ := by simpa using h
    obtain ⟨σ1, σ2, r1, r2, _⟩ := h'.at
    rcases (about_noise r1 r2 (fun c' f hm => hall c' f (by simp at hm ⊢; tauto)) ha).1 with ⟨c', f, rfl⟩ | rfl | ⟨p, rfl⟩
    · exact h'.recv_first (.recv i c b) (by simp) rfl
    · cases hv
    · cases hv

theorem without_append {a a' b b'} (h : Without a a') (h' : Without b b') : Without (a ++ b) (a' ++ b') := by
  induction h with
  | nil => exact h'
  | noise hn _ ih => exact .noise hn ih
  | call hn _ ih => exact .call hn ih
  | ret _ ih => exact .ret ih

theorem without_eq {h a} (ha : Without h a) : ∀ {b}, Without h b → a = b := by
  induction ha with
  | nil => intro b hb; cases hb; rfl
  | noise hn _ ih =>
    intro b hb
    cases hb with
    | noise _ hb => exact ih hb
    | call hn' _ => exact absurd hn hn'
  | call hn _ ih =>
    intro b hb
    cases hb with
    | noise hn' _ => exact absurd hn' hn
    | call _ hb => rw [ih hb]
  | ret _ ih =>
    intro b hb
    cases hb with
    | ret hb => rw [ih hb]

/-- the rest of a run shows what is left without the noise -/
theorem visible_rest {ext n rng L σ} (h : Run ext n rng L σ) {G : Nat → Prop} (hG : ∀ i c f, .recv i c f ∈ L → (G i ↔ Noise f)) :
    Without (visible L) (visible (restOf G L)) := by
  induction h with
  | nil => exact .nil
  | @snoc L σ l σ' hr hc hs ih =>
    have ih := ih fun i c f hm => hG i c f (List.mem_append_left _ hm)
    have hnil : restOf G [] = [] := rfl
    have happ : restOf G (L ++ [l]) = restOf G L ++ restOf G [l] := by
      unfold restOf; rw [List.filter_append]
    rw [happ, seen_append, seen_append]
    refine without_append ih ?_
    by_cases hl : ∀ i, l.about = some i → ¬ G i
    · rw [show [l] = [] ++ [l] from rfl, restOf_snoc_keep hl]
      cases l <;> try exact .nil
      case recv i c f =>
        exact .call (fun hn => hl i rfl ((hG i c f (by simp)).mpr hn)) .nil
      case write i c b => exact .ret .nil
    · simp only [not_forall, not_not] at hl
      obtain ⟨i, hi, hg⟩ := hl
      rw [show [l] = [] ++ [l] from rfl, restOf_snoc_drop hi hg]
      have := (about_noise hr hs (i := i) (fun c f hm => (hG i c f (by simp [hm])).mp hg) hi).1
      rcases this with ⟨c, f, rfl⟩ | rfl | ⟨p, rfl⟩
      · exact .noise ((hG i c f (by simp)).mp hg) .nil
      · exact .nil
      · exact .nil

/-- C91: what happens with the noise can happen without it. -/
theorem C91_removed {ext n rng h h' log store crashed} (hp : Possible ext n rng h log store crashed) (hw : Without h h') :
    Possible ext n rng h' log store crashed := by
  obtain ⟨L, σ, hr, rfl, rfl, rfl, rfl⟩ := hp
  let G : Nat → Prop := fun i => ∃ c f, .recv i c f ∈ L ∧ Noise f
  have hG : ∀ i c f, .recv i c f ∈ L → (G i ↔ Noise f) := by
    intro i c f hm
    constructor
    · rintro ⟨c', f', hm', hn⟩
      obtain ⟨_, rfl⟩ := hr.recv_unique hm hm'
      exact hn
    · exact fun hn => ⟨c, f, hm, hn⟩
  exact ⟨_, _, hr.without fun i c f g hm => (hG i c f hm).mp g, without_eq (visible_rest hr hG) hw, rfl, rfl, rfl⟩

/-- whatever happens to a request happens after it arrived -/
theorem Run.about_recv {ext n rng L σ} (h : Run ext n rng L σ) : ∀ {l i}, l ∈ L → l.about = some i → ∃ c f, .recv i c f ∈ L := by
  induction h with
  | nil => intro l i hl; cases hl
  | @snoc L σ l σ' hr hc hs ih =>
    intro l' i hl hi
    rcases List.mem_append.mp hl with hl | hl
    · obtain ⟨c, f, hm⟩ := ih hl hi
      exact ⟨c, f, List.mem_append_left _ hm⟩
    obtain rfl := List.mem_singleton.mp hl
    suffices (∃ c f, l' = .recv i c f) ∨ ∃ c f, .recv i c f ∈ L by
      rcases this with ⟨c, f, rfl⟩ | ⟨c, f, hm⟩
      · exact ⟨c, f, by simp⟩
      · exact ⟨c, f, List.mem_append_left _ hm⟩
    have hI := hr.inv
    have hH := hI.handlers i
    have good : ∀ {e : Ev}, Good ext L e → e.id = i → (∃ c f, l' = .recv i c f) ∨ ∃ c f, .recv i c f ∈ L := by
      rintro e ⟨_, c, f, _, _, h1, _⟩ rfl
      exact .inr ⟨c, f, h1⟩
    cases hs <;> simp only [Label.about, Option.some.injEq, reduceCtorEq] at hi
    case recv => subst hi; exact .inl ⟨_, _, rfl⟩
    case take w e r k1 k2 k3 _ => exact good (hI.chanGood e (by rw [k3]; simp)).1 hi
    case start w e k1 k2 _ => exact good (hI.pend w e (by rw [k2]; rfl)).1 hi
    case exec w e _ _ _ _ k1 k2 k3 _ => exact good (hI.pend w e (by rw [k2]; rfl)).1 hi
    case crash w e _ _ _ k1 k2 k3 k4 _ => exact good (hI.pend w e (by rw [k2]; rfl)).1 hi
    case publish w e rsp k1 k2 _ => exact good (hI.gotExec w e rsp k2).1 hi
    all_goals
      refine .inr ?_
      subst hi
      simp_all only [HOk]
      first
        | exact ⟨_, _, hH.1⟩
        | (obtain ⟨⟨f, _, h1, _⟩, _⟩ := hH; exact ⟨_, _, h1⟩)
        | (obtain ⟨⟨f, h1⟩, _⟩ := hH; exact ⟨_, _, h1⟩)

/-- one noise arrives -/
theorem possible_insert {ext n rng h1 h2 log store crashed} (hp : Possible ext n rng (h1 ++ h2) log store crashed) {i : Nat} (c : Nat) (f : Bytes)
    (hi : ∀ e ∈ h1 ++ h2, number e ≠ i) : Possible ext n rng (h1 ++ .call i c f :: h2) log store crashed := by
  obtain ⟨L, σ, hr, hv, rfl, rfl, rfl⟩ := hp
  have hno : ∀ l ∈ L, l.about ≠ some i := by
    intro l hl ha
    obtain ⟨c', f', hm⟩ := hr.about_recv hl ha
    exact hi (.call i c' f') (hv ▸ mem_visible_call.mpr hm) rfl
  obtain ⟨A, B, rfl, e1, e2⟩ : ∃ A B, L = A ++ B ∧ visible A = h1 ∧ visible B = h2 := by
    obtain ⟨A, B, e, e1, e2⟩ := List.filterMap_eq_append_iff.mp hv
    exact ⟨A, B, e, e1, e2⟩
  by_cases hc : B ≠ [] ∨ σ.crashed = false
  · obtain ⟨g, hg⟩ := hr.arrives hc c f hno
    refine ⟨_, _, hg, ?_, rfl, rfl, rfl⟩
    rw [seen_append, e1, ← e2]; rfl
  · simp only [not_or, not_not, Bool.not_eq_false] at hc
    obtain ⟨rfl, hc⟩ := hc
    rw [List.append_nil] at hr hno
    -- the noise arrives before the crash
    cases hr with
    | nil => cases hc
    | @snoc L0 σ0 l _ hr0 hc0 hs =>
      have hr : Run ext n rng (L0 ++ [l]) σ := .snoc hr0 hc0 hs
      obtain ⟨g, hg⟩ := hr.arrives (.inl (by simp)) c f hno
      refine ⟨_, _, hg, ?_, rfl, rfl, rfl⟩
      have hl : visible [l] = [] := by
        cases hs <;> first | rfl | simp_all
      have e0 : visible L0 = h1 := by rw [← e1, seen_append, hl, List.append_nil]
      rw [seen_append, e0, ← e2, show (Label.recv i c f :: [l]) = [.recv i c f] ++ [l] from rfl, seen_append, hl]; rfl

theorem mute_tail {h1 h2 i c b} (hm : Mute (h1 ++ .call i c b :: h2)) : Mute (h1 ++ h2) := by
  intro a1 a2 j d x e hn ev hev
  rcases List.append_eq_append_iff.mp e with ⟨t, rfl, e2⟩ | ⟨t, rfl, e2⟩
  · refine hm (h1 ++ .call i c b :: t) a2 j d x (by rw [e2]; simp) hn ev ?_
    simp at hev ⊢; tauto
  · cases t with
    | nil =>
      rw [List.nil_append] at e2
      refine hm (a1 ++ [.call i c b]) a2 j d x (by rw [← e2]; simp) hn ev ?_
      simp at hev ⊢; tauto
    | cons y t =>
      rw [List.cons_append] at e2
      injection e2 with e3 e4
      subst e3
      refine hm a1 (t ++ .call i c b :: h2) j d x (by simp) hn ev ?_
      rw [e4] at hev
      simp at hev ⊢; tauto

/-- C91: what can happen can also happen with any noise. -/
theorem C91_added {ext n rng h h' log store crashed} (hm : Mute h) (hw : Without h h') (hp : Possible ext n rng h' log store crashed) :
    Possible ext n rng h log store crashed := by
  suffices ∀ p : List Linear.Ev, Mute (p ++ h) → Possible ext n rng (p ++ h') log store crashed → Possible ext n rng (p ++ h) log store crashed from
    this [] hm hp
  clear hm hp
  induction hw with
  | nil => intro p _ hp; exact hp
  | @noise i c b h h' hn hw ih =>
    intro p hm hp
    exact possible_insert (ih p (mute_tail hm) hp) c b (hm p h i c b rfl hn)
  | @call i c b h h' hn hw ih =>
    intro p hm hp
    have := ih (p ++ [.call i c b]) (by simpa using hm) (by simpa using hp)
    simpa using this
  | @ret i c b h h' hw ih =>
    intro p hm hp
    have := ih (p ++ [.ret i c b]) (by simpa using hm) (by simpa using hp)
    simpa using this

/-- C91: a history is possible exactly if noise has no answer in it and the rest of it is possible, with the same log, the same store,
and the same end. -/
theorem C91_noise {ext n rng h h' log store crashed} (hw : Without h h') :
    Possible ext n rng h log store crashed ↔ Mute h ∧ Possible ext n rng h' log store crashed :=
  ⟨fun hp => ⟨by obtain ⟨L, σ, hr, rfl, _⟩ := hp; exact C91_mute hr, C91_removed hp hw⟩, fun ⟨hm, hp⟩ => C91_added hm hw hp⟩

/-! ### What is noise -/

/-- noise is what stands for no request -/
theorem noise_iff {b : Bytes} : Noise b ↔ ∀ req, ¬ Decodes b req :=
  ⟨fun h _ ⟨_, _, h1, _⟩ => not_ok_of_noise h h1, fun h => noise_of_err fun rec rest he => h _ ⟨rec, rest, he, rfl⟩⟩

/-- no line end arrived -/
theorem noise_no_line {b : Bytes} (h : 10 ∉ b) : Noise b := ⟨.short, .single (fun h' => absurd h' h) (.noLine h)⟩

/-- the first byte is not one of `$*+-:`, and the bytes do not begin with `PING` and its line end: another protocol -/
theorem noise_other {c : UInt8} {b : Bytes} (h : c ∉ [36, 42, 43, 45, 58]) (hp : ¬ Grammar.pingLine <+: c :: b) : Noise (c :: b) := by
  by_cases h10 : 10 ∈ c :: b
  · obtain ⟨c', l, r, e, hl⟩ := line_split h10
    simp only [List.cons_append, List.cons.injEq] at e
    obtain ⟨rfl, rfl⟩ := e
    refine ⟨.unknown, .single (fun _ he => ?_) (Grammar.Bad.unknown hl h ?_)⟩
    · simp only [List.head?_cons, Option.some.injEq] at he
      subst he; simp at h
    · intro e
      exact hp (by rw [← e, ← List.cons_append]; exact List.prefix_append _ _)
  · exact noise_no_line h10

/-- a number line without carriage return: the decoder panics -/
theorem noise_panic {b rest : Bytes} (h : 10 ∉ b) (h13 : 13 ∉ b) (h1 : b ≠ []) : Noise (42 :: (b ++ [10]) ++ rest) :=
  ⟨.index, .noCR ⟨42 :: b, by simp, by simp [h]⟩ (by
    cases b with
    | nil => exact absurd rfl h1
    | cons => simp) (by simp [h13])⟩

/-- a web browser -/
def httpGet : Bytes := b! "GET / HTTP/1.1\r\nHost: x\r\n\r\n"

/-- Case of `C91_noise`: client 0 sets a register; client 1 is a web browser; client 2 sends a header line without
carriage return, on which the decoder panics; the server answers client 0 what it would have answered. -/
example : Without [.call 0 0 setX5, .call 1 1 httpGet, .ret 0 0 (b! "+OK\r\n"), .call 2 2 (b! "*2\n"), .call 3 0 getX, .ret 3 0 (b! "$1\r\n5\r\n")]
      [.call 0 0 setX5, .ret 0 0 (b! "+OK\r\n"), .call 3 0 getX, .ret 3 0 (b! "$1\r\n5\r\n")] ∧
    ∃ log store, Possible ext0 1 rng0 [.call 0 0 setX5, .ret 0 0 (b! "+OK\r\n"), .call 3 0 getX, .ret 3 0 (b! "$1\r\n5\r\n")] log store false ∧
      Possible ext0 1 rng0 [.call 0 0 setX5, .call 1 1 httpGet, .ret 0 0 (b! "+OK\r\n"), .call 2 2 (b! "*2\n"), .call 3 0 getX, .ret 3 0 (b! "$1\r\n5\r\n")]
        log store false := by
  have n1 : Noise httpGet := noise_other (by decide) (by decide)
  have n2 : Noise (b! "*2\n") := noise_panic (b := [50]) (rest := []) (by decide) (by decide) (by decide)
  have n3 : ¬ Noise setX5 := fun hn => noise_iff.mp hn _ setX5_request
  have n4 : ¬ Noise getX := fun hn => noise_iff.mp hn _ getX_request
  have hw : Without [.call 0 0 setX5, .call 1 1 httpGet, .ret 0 0 (b! "+OK\r\n"), .call 2 2 (b! "*2\n"), .call 3 0 getX, .ret 3 0 (b! "$1\r\n5\r\n")]
      [.call 0 0 setX5, .ret 0 0 (b! "+OK\r\n"), .call 3 0 getX, .ret 3 0 (b! "$1\r\n5\r\n")] :=
    .call n3 (.noise n1 (.ret (.noise n2 (.call n4 (.ret .nil)))))
  have hd : (trySchedule ext0 it0 1 rng0 (whole 0 0 setX5 ++ whole 3 0 getX)).map (fun p => (visible p.1, p.2.crashed)) =
      some ([.call 0 0 setX5, .ret 0 0 (b! "+OK\r\n"), .call 3 0 getX, .ret 3 0 (b! "$1\r\n5\r\n")], false) := by decide +kernel
  obtain ⟨r, hr, hv⟩ := Option.map_eq_some_iff.mp hd
  simp only [Prod.mk.injEq] at hv
  have hp : Possible ext0 1 rng0 _ r.2.log r.2.store false := ⟨r.1, r.2, try_run hr, hv.1, rfl, rfl, hv.2⟩
  refine ⟨hw, _, _, hp, C91_added ?_ hw hp⟩
  intro h1 h2 i c b e hn
  have : (i = 1 ∨ i = 2) := by
    have hm : Linear.Ev.call i c b ∈ h1 ++ .call i c b :: h2 := by simp
    rw [← e] at hm
    simp only [List.mem_cons, Linear.Ev.call.injEq, reduceCtorEq, List.not_mem_nil, or_false, false_or] at hm
    rcases hm with ⟨rfl, _, rfl⟩ | ⟨rfl, _⟩ | ⟨rfl, _⟩ | ⟨rfl, _, rfl⟩
    · exact absurd hn n3
    · exact .inl rfl
    · exact .inr rfl
    · exact absurd hn n4
  have hc := congrArg (fun l => l.countP fun ev => number ev == i) e
  have hone : (Linear.Ev.call i c b :: h2).countP (fun ev => number ev == i) = h2.countP (fun ev => number ev == i) + 1 :=
    List.countP_cons_of_pos (show (number (.call i c b) == i) = true from beq_self_eq_true i)
  rw [List.countP_append, hone] at hc
  have h0 : (h1 ++ h2).countP (fun ev => number ev == i) = 0 := by
    rw [List.countP_append]
    have hl : [Linear.Ev.call 0 0 setX5, .call 1 1 httpGet, .ret 0 0 (b! "+OK\r\n"), .call 2 2 (b! "*2\n"), .call 3 0 getX,
        .ret 3 0 (b! "$1\r\n5\r\n")].countP (fun ev => number ev == i) = 1 := by rcases this with rfl | rfl <;> rfl
    rw [hl] at hc
    omega
  intro ev hev he
  have := List.countP_eq_zero.mp h0 ev hev
  simp [he] at this

end Godis.Event
