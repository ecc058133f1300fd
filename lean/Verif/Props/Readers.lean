import Verif.Props.Delays
import Verif.Props.Keys
import Verif.Props.Crash
import Verif.Spec.Readers
/-!
# Readers cannot be noticed: C94
-/
namespace Godis.Event
open ReadSpec
open StrSpec (lower Ascii)

/-- a read command leaves the store as it is -/
theorem execute_reads {ext it s name args s' rsp} (hn : name ∈ KeySpec.readOnly) (h : execute ext it s name args = .ok (s', rsp)) : s' = s := by
  have hall : ∀ n ∈ KeySpec.readOnly, ∃ c ∈ [Cmd.get, .mget, .keys, .exists, .keyType, .ping, .command, .lLen, .lRange, .lIndex, .sCard, .sDiff,
      .sInter, .sUnion, .sIsMember, .sMembers, .hExists, .hGet, .hGetAll, .hKeys, .hLen, .hMGet, .hVals, .zScore,
      .zRank, .zCard, .zCount, .zRange, .zRangeByScore, .zRevRange], lookupCmd n = some c := by decide
  obtain ⟨c, hc, hl⟩ := hall name hn
  unfold execute at h
  rw [hl] at h
  simp only [bind, Except.bind] at h
  split at h
  · cases h
  · next hf =>
    cases h
    exact read_same c hc hf

/-- the events of `G` are not there -/
noncomputable def keep (G : Nat → Prop) (l : List Ev) : List Ev := open Classical in l.filter fun e => decide (¬ G e.id)

open Classical in
/-- the worker has not taken an event of `G` -/
noncomputable def idleFor (G : Nat → Prop) : Worker → Worker
  | .took e => if G e.id then .idle else .took e
  | .running e s => if G e.id then .idle else .running e s
  | .got e r => if G e.id then .idle else .got e r
  | w => w

open Classical in
/-- the state without the requests of `G` -/
noncomputable def Sys.hide (G : Nat → Prop) (lg : List Bytes) (o : List (Nat × Bytes)) (cr : Bool) (σ : Sys) : Sys :=
  { σ with
    handler := fun i => if G i then .absent else σ.handler i
    chan := keep G σ.chan
    worker := fun w => idleFor G (σ.worker w)
    done := fun i => if G i then none else σ.done i
    log := lg, out := o, crashed := cr }

open Classical in
theorem hide_handler {G : Nat → Prop} (f : Nat → Handler) (i : Nat) (x : Handler) (h : ¬ G i) :
    (fun j => if G j then Handler.absent else upd f i x j) = upd (fun j => if G j then Handler.absent else f j) i x := by
  funext j; unfold upd
  by_cases e : j = i
  · subst e; simp [h]
  · simp [e]

open Classical in
theorem hide_handler' {G : Nat → Prop} (f : Nat → Handler) (i : Nat) (x : Handler) (h : G i) :
    (fun j => if G j then Handler.absent else upd f i x j) = fun j => if G j then Handler.absent else f j := by
  funext j; unfold upd
  by_cases e : j = i
  · subst e; simp [h]
  · simp [e]

open Classical in
theorem hide_done {G : Nat → Prop} (f : Nat → Option Response) (i : Nat) (x : Option Response) (h : ¬ G i) :
    (fun j => if G j then none else upd f i x j) = upd (fun j => if G j then none else f j) i x := by
  funext j; unfold upd
  by_cases e : j = i
  · subst e; simp [h]
  · simp [e]

open Classical in
theorem hide_done' {G : Nat → Prop} (f : Nat → Option Response) (i : Nat) (x : Option Response) (h : G i) :
    (fun j => if G j then none else upd f i x j) = fun j => if G j then none else f j := by
  funext j; unfold upd
  by_cases e : j = i
  · subst e; simp [h]
  · simp [e]

theorem hide_worker (G : Nat → Prop) (f : Nat → Worker) (w : Nat) (x : Worker) :
    (fun v => idleFor G (upd f w x v)) = upd (fun v => idleFor G (f v)) w (idleFor G x) := by
  funext j; unfold upd
  by_cases e : j = w <;> simp [e]

theorem upd_noop {α : Type} (f : Nat → α) (w : Nat) (x : α) (h : f w = x) : upd f w x = f := by
  funext j; unfold upd
  by_cases e : j = w
  · subst e; simp [h]
  · simp [e]

/-- a step about another request, or about none -/
theorem step_hide {ext n σ l σ'} {G : Nat → Prop} (hs : Step ext n σ l σ') (hl : ∀ i, l.about = some i → ¬ G i)
    {lg : List Bytes} (hlg : lg.Sublist σ.log) (o : List (Nat × Bytes)) :
    ∃ lg' o' cr, lg'.Sublist σ'.log ∧ (σ.crashed = false → cr = σ'.crashed) ∧
      Step ext n (σ.hide G lg o false) l (σ'.hide G lg' o' cr) := by
  have hh : ∀ {i x}, ¬ G i → σ.handler i = x → (σ.hide G lg o false).handler i = x := by intro i x h e; simp [Sys.hide, h, e]
  cases hs with
  | recv i c f k =>
    have hi := hl i rfl
    refine ⟨lg, o, false, hlg, fun h => h.symm, ?_⟩
    simp only [Sys.hide, hide_handler _ _ _ hi]
    exact .recv (σ.hide G lg o false) i c f (hh hi k)
  | drop i c f k =>
    have hi := hl i rfl
    refine ⟨lg, o, false, hlg, fun h => h.symm, ?_⟩
    simp only [Sys.hide, hide_handler _ _ _ hi]
    exact .drop (σ.hide G lg o false) i c f (hh hi k)
  | badFrame i c f e r k kd =>
    have hi := hl i rfl
    refine ⟨lg, o, false, hlg, fun h => h.symm, ?_⟩
    simp only [Sys.hide, hide_handler _ _ _ hi]
    exact .badFrame (σ.hide G lg o false) i c f e r (hh hi k) kd
  | decodePanic i c f p k kd =>
    have hi := hl i rfl
    refine ⟨lg, o, false, hlg, fun h => h.symm, ?_⟩
    simp only [Sys.hide, hide_handler _ _ _ hi]
    exact .decodePanic (σ.hide G lg o false) i c f p (hh hi k) kd
  | log i c f rec r k kd =>
    have hi := hl i rfl
    refine ⟨lg ++ [rec.orgStr], o, false, hlg.append (List.Sublist.refl _), fun h => h.symm, ?_⟩
    simp only [Sys.hide, hide_handler _ _ _ hi]
    exact .log (σ.hide G lg o false) i c f rec r (hh hi k) kd
  | noCommand i c rec k kd =>
    have hi := hl i rfl
    refine ⟨lg, o, false, hlg, fun h => h.symm, ?_⟩
    simp only [Sys.hide, hide_handler _ _ _ hi]
    exact .noCommand (σ.hide G lg o false) i c rec (hh hi k) kd
  | enqueue i c rec nm as k k1 k2 k3 =>
    have hi := hl i rfl
    refine ⟨lg, o, false, hlg, fun h => h.symm, ?_⟩
    have hk : keep G (σ.chan ++ [⟨i, nm, as⟩]) = keep G σ.chan ++ [⟨i, nm, as⟩] := by simp [keep, List.filter_append, hi]
    simp only [Sys.hide, hide_handler _ _ _ hi, hk]
    exact .enqueue (σ.hide G lg o false) i c rec nm as (hh hi k) k1 k2 (Nat.lt_of_le_of_lt (List.length_filter_le ..) k3)
  | sendClosed i c rec nm as k k1 k2 =>
    have hi := hl i rfl
    refine ⟨lg, o, false, hlg, fun h => h.symm, ?_⟩
    simp only [Sys.hide, hide_handler _ _ _ hi]
    exact .sendClosed (σ.hide G lg o false) i c rec nm as (hh hi k) k1 k2
  | take w e r k1 k2 k3 =>
    have hi := hl e.id rfl
    refine ⟨lg, o, false, hlg, fun h => h.symm, ?_⟩
    have hx : idleFor G (.took e) = .took e := by simp [idleFor, hi]
    simp only [Sys.hide, hide_worker, hx]
    exact .take (σ.hide G lg o false) w e (keep G r) k1 (by simp [Sys.hide, k2, idleFor]) (by simp [Sys.hide, k3, keep, hi])
  | start w e k1 k2 =>
    have hi := hl e.id rfl
    refine ⟨lg, o, false, hlg, fun h => h.symm, ?_⟩
    have hx : idleFor G (.running e σ.store) = .running e σ.store := by simp [idleFor, hi]
    simp only [Sys.hide, hide_worker, hx]
    exact .start (σ.hide G lg o false) w e k1 (by simp [Sys.hide, k2, idleFor, hi])
  | exec w e sn s' it rsp k1 k2 k3 =>
    have hi := hl e.id rfl
    refine ⟨lg, o, false, hlg, fun h => h.symm, ?_⟩
    have hx : idleFor G (.got e rsp) = .got e rsp := by simp [idleFor, hi]
    simp only [Sys.hide, hide_worker, hx]
    exact .exec (σ.hide G lg o false) w e sn s' it rsp k1 (by simp [Sys.hide, k2, idleFor, hi]) k3
  | crash w e sn it p k1 k2 k3 k4 =>
    have hi := hl e.id rfl
    refine ⟨lg, o, true, hlg, fun _ => rfl, ?_⟩
    exact .crash (σ.hide G lg o false) w e sn it p k1 (by simp [Sys.hide, k2, idleFor, hi]) k3 k4
  | publish w e rsp k1 k2 =>
    have hi := hl e.id rfl
    refine ⟨lg, o, false, hlg, fun h => h.symm, ?_⟩
    have hx : idleFor G .idle = .idle := rfl
    simp only [Sys.hide, hide_worker, hx, hide_done _ _ _ hi]
    exact .publish (σ.hide G lg o false) w e rsp k1 (by simp [Sys.hide, k2, idleFor, hi])
  | timeout i c k =>
    have hi := hl i rfl
    refine ⟨lg, o, false, hlg, fun h => h.symm, ?_⟩
    simp only [Sys.hide, hide_handler _ _ _ hi]
    exact .timeout (σ.hide G lg o false) i c (hh hi k)
  | result i c rsp k k1 =>
    have hi := hl i rfl
    refine ⟨lg, o, false, hlg, fun h => h.symm, ?_⟩
    simp only [Sys.hide, hide_handler _ _ _ hi]
    exact .result (σ.hide G lg o false) i c rsp (hh hi k) (by simp [Sys.hide, hi, k1])
  | write i c rsp b k k1 k2 =>
    have hi := hl i rfl
    refine ⟨lg, o ++ [(c, b)], false, hlg, fun h => h.symm, ?_⟩
    simp only [Sys.hide, hide_handler _ _ _ hi]
    exact .write (σ.hide G lg o false) i c rsp b (hh hi k) k1 k2
  | writeNothing i c rsp k k1 =>
    have hi := hl i rfl
    refine ⟨lg, o, false, hlg, fun h => h.symm, ?_⟩
    simp only [Sys.hide, hide_handler _ _ _ hi]
    exact .writeNothing (σ.hide G lg o false) i c rsp (hh hi k) k1
  | encodePanic i c rsp p k k1 =>
    have hi := hl i rfl
    refine ⟨lg, o, false, hlg, fun h => h.symm, ?_⟩
    simp only [Sys.hide, hide_handler _ _ _ hi]
    exact .encodePanic (σ.hide G lg o false) i c rsp p (hh hi k) k1
  | stop k => exact ⟨lg, o, false, hlg, fun h => h.symm, .stop (σ.hide G lg o false) k⟩
  | signal w k1 k2 => exact ⟨lg, o, false, hlg, fun h => h.symm, .signal (σ.hide G lg o false) w k1 k2⟩
  | exitTold w k1 k2 k3 =>
    refine ⟨lg, o, false, hlg, fun h => h.symm, ?_⟩
    have hx : idleFor G .exited = .exited := rfl
    simp only [Sys.hide, hide_worker, hx]
    exact .exitTold (σ.hide G lg o false) w k1 (by simp [Sys.hide, k2, idleFor]) k3
  | exitClosed w k1 k2 k3 k4 =>
    refine ⟨lg, o, false, hlg, fun h => h.symm, ?_⟩
    have hx : idleFor G .exited = .exited := rfl
    simp only [Sys.hide, hide_worker, hx]
    exact .exitClosed (σ.hide G lg o false) w k1 (by simp [Sys.hide, k2, idleFor]) k3 (by simp [Sys.hide, k4, keep])
  | stopped k1 k2 =>
    exact ⟨lg, o, false, hlg, fun h => h.symm, .stopped (σ.hide G lg o false) k1 fun w hw => by simp [Sys.hide, k2 w hw, idleFor]⟩

/-- a step about a reader changes nothing else -/
theorem step_hidden {ext rng L σ l σ'} {G : Nat → Prop} (hr : Run ext 1 rng L σ) (hs : Step ext 1 σ l σ') {i : Nat} (hi : l.about = some i) (hG : G i)
    (hread : ∀ e, Good ext L e → G e.id → ∀ it s s' rsp, execute ext it s e.name e.args = .ok (s', rsp) → s' = s)
    {lg : List Bytes} (hlg : lg.Sublist σ.log) (o : List (Nat × Bytes)) :
    lg.Sublist σ'.log ∧ σ'.hide G lg o false = σ.hide G lg o false := by
  have hI := hr.inv
  cases hs <;> simp only [Label.about, Option.some.injEq, reduceCtorEq] at hi <;> subst hi
  case log => exact ⟨hlg.trans (List.sublist_append_left ..), by simp only [Sys.hide, hide_handler' _ _ _ hG]⟩
  case enqueue => 
    refine ⟨hlg, ?_⟩
    simp [Sys.hide, hide_handler' _ _ _ hG, keep, List.filter_append, hG]
  case take w e r k1 k2 k3 =>
    refine ⟨hlg, ?_⟩
    have hx : idleFor G (.took e) = .idle := by simp [idleFor, hG]
    simp only [Sys.hide, hide_worker, hx, upd_noop (fun v => idleFor G (σ.worker v)) w .idle (by simp [k2, idleFor])]
    simp [k3, keep, hG]
  case start w e k1 k2 =>
    refine ⟨hlg, ?_⟩
    have hx : idleFor G (.running e σ.store) = .idle := by simp [idleFor, hG]
    simp only [Sys.hide, hide_worker, hx, upd_noop (fun v => idleFor G (σ.worker v)) w .idle (by simp [k2, idleFor, hG])]
  case exec w e sn s' it rsp k1 k2 k3 =>
    refine ⟨hlg, ?_⟩
    have hsn := hr.snapshot.2 w e sn k2
    have hst : s' = σ.store := by rw [← hsn]; exact hread e (hI.pend w e (by rw [k2]; rfl)).1 hG _ _ _ _ k3
    subst hst
    have hx : idleFor G (.got e rsp) = .idle := by simp [idleFor, hG]
    simp only [Sys.hide, hide_worker, hx, upd_noop (fun v => idleFor G (σ.worker v)) w .idle (by simp [k2, idleFor, hG])]
  case crash => exact ⟨hlg, rfl⟩
  case publish w e rsp k1 k2 =>
    refine ⟨hlg, ?_⟩
    have hx : idleFor G .idle = .idle := rfl
    simp only [Sys.hide, hide_worker, hx, hide_done' _ _ _ hG, upd_noop (fun v => idleFor G (σ.worker v)) w .idle (by simp [k2, idleFor, hG])]
  all_goals exact ⟨hlg, by simp only [Sys.hide, hide_handler' _ _ _ hG]⟩

/-- an answered request does what its command does -/
theorem answers_execute {ext it s req m s0 name args s' rsp} (ha : Answers ext it s req m s0) (hn : newCommand ext req = some (name, args))
    (he : execute ext it s name args = .ok (s', rsp)) : s' = s0 := by
  obtain ⟨r, h, _⟩ := ha
  simp only [runRequest, hn, he, bind, Except.bind, Except.ok.injEq, Prod.mk.injEq] at h
  exact h.1

/-- the event of an idle request leaves the store as it is -/
theorem good_reads {ext L e} {P : Nat → Prop} (ho : OthersRead Decodes P (visible L)) (hg : Good ext L e) (hP : ¬ P e.id) :
    ∀ it s s' rsp, execute ext it s e.name e.args = .ok (s', rsp) → s' = s := by
  intro it s s' rsp he
  obtain ⟨_, c, f, rec, rest, h1, h2, _, h4⟩ := hg
  rcases ho _ c f rec.elements (mem_visible_call.mpr h1) hP ⟨rec, rest, h2, rfl⟩ with ⟨name, args, hq, hn⟩ | ⟨name, args, hq, hn⟩
  · have hascii : Ascii name := by
      refine ascii_of_lower rfl ?_
      have : ∀ p ∈ KeySpec.readOnly, Ascii p := by unfold Ascii; decide
      exact this _ hn
    rw [hq] at h4
    simp only [newCommand, lower_eq hascii, Option.some.injEq, Prod.mk.injEq] at h4
    exact execute_reads (h4.1 ▸ hn) he
  · rw [hq] at h4
    rcases hn with ⟨ha, hn⟩ | ⟨n, hn, hm, hlen⟩
    · exact answers_execute (C15_unknown s args ha hn it) h4 he
    · exact answers_execute (C15_arity_partial s args hn hm hlen it) h4 he

/-- a step of a request that does not crash the server -/
theorem step_alive {ext rng L σ l σ'} {G : Nat → Prop} (hr : Run ext 1 rng L σ) (hs : Step ext 1 σ l σ') {i : Nat} (hi : l.about = some i) (hG : G i)
    (hsafe : ∀ e, Good ext L e → G e.id → ∀ it p, execute ext it σ.store e.name e.args ≠ .error p) : σ'.crashed = σ.crashed := by
  cases hs
  case crash w e sn it p k1 k2 k3 k4 =>
    simp only [Label.about, Option.some.injEq] at hi
    subst hi
    have hsn := hr.snapshot.2 w e sn k2
    subst hsn
    exact absurd k3 (hsafe e (hr.inv.pend w e (by rw [k2]; rfl)).1 hG it p)
  all_goals rfl

/-- readers are removed from a run -/
theorem Run.hidden {ext rng L σ} (h : Run ext 1 rng L σ) {P : Nat → Prop} (ho : OthersRead Decodes P (visible L)) :
    ∃ lg o cr, lg.Sublist σ.log ∧ (cr = true → σ.crashed = true) ∧
      ((∀ e s, Good ext L e → ¬ P e.id → Reachable ext s → ∀ it p, execute ext it s e.name e.args ≠ .error p) → cr = σ.crashed) ∧
      Run ext 1 rng (restOf (fun i => ¬ P i) L) (σ.hide (fun i => ¬ P i) lg o cr) := by
  induction h with
  | nil =>
    refine ⟨[], [], false, List.Sublist.refl _, by simp, fun _ => rfl, ?_⟩
    have : (Sys.init rng).hide (fun i => ¬ P i) [] [] false = Sys.init rng := by
      simp [Sys.hide, Sys.init, keep, idleFor]
    rw [this]
    exact .nil
  | @snoc L σ l σ' hr hc hs ih =>
    have ho' : OthersRead Decodes P (visible L) := fun i c b req hm =>
      ho i c b req (by rw [seen_append]; exact List.mem_append_left _ hm)
    obtain ⟨lg, o, cr, h1, h2, _, h3⟩ := ih ho'
    obtain rfl : cr = false := by
      cases cr
      · rfl
      · rw [h2 rfl] at hc; cases hc
    by_cases hl : ∀ i, l.about = some i → ¬ ¬ P i
    · obtain ⟨lg', o', cr', k1, k2, k3⟩ := step_hide hs hl h1 o
      refine ⟨lg', o', cr', k1, fun h => by rw [← k2 hc]; exact h, fun _ => k2 hc, ?_⟩
      rw [restOf_snoc_keep hl]
      exact .snoc h3 rfl k3
    · simp only [not_forall, not_not] at hl
      obtain ⟨i, hi, hg⟩ := hl
      rw [restOf_snoc_drop hi hg]
      obtain ⟨k1, k2⟩ := step_hidden hr hs hi hg (G := fun i => ¬ P i) (fun e he hP => good_reads ho' he hP) h1 o
      refine ⟨lg, o, false, k1, by simp, fun hsafe => ?_, by rw [k2]; exact h3⟩
      rw [step_alive hr hs hi (G := fun i => ¬ P i) hg fun e he hP => hsafe e _ (he.mono l) hP (Event.C43_store_reachable hr), hc]

/-- the event of a calm request does not crash the server -/
theorem good_calm {ext L e} {P : Nat → Prop} (ho : OthersCalm Decodes P (visible L)) (hg : Good ext L e) (hP : ¬ P e.id) {s : Store}
    (hs : Reachable ext s) (it : Iter) (p : Panic) : execute ext it s e.name e.args ≠ .error p := by
  intro he
  obtain ⟨_, c, f, rec, rest, h1, h2, _, h4⟩ := hg
  have hcr : runRequest ext it s rec.elements = .error p := by simp only [runRequest, h4, he, bind, Except.bind]
  have hno : ∀ {m s'}, ¬ Answers ext it s rec.elements m s' := by
    rintro m s' ⟨r, h, _⟩
    rw [hcr] at h; cases h
  rcases ho _ c f rec.elements (mem_visible_call.mpr h1) hP ⟨rec, rest, h2, rfl⟩ with ⟨name, args, hq, hn⟩ | ⟨name, args, hq, hn, hm⟩
  · rw [hq] at hno
    rcases hn with ⟨ha, hn⟩ | ⟨n, hn, hm, hlen⟩
    · exact hno (C15_unknown s args ha hn it)
    · exact hno (C15_arity_partial s args hn hm hlen it)
  · have hascii : Ascii name := by
      refine ascii_of_lower rfl ?_
      have : ∀ p ∈ KeySpec.readOnly, Ascii p := by unfold Ascii; decide
      exact this _ hn
    refine C19_safe_commands_partial hs rec.elements ?_ ⟨p, hcr⟩
    rw [hq, List.headD_cons, lower_eq hascii]
    have : ∀ n ∈ KeySpec.readOnly, n ∉ mayCrash → n ∉ riskyNames := by decide
    exact this _ hn hm

theorem read_of_calm {P h} (ho : OthersCalm Decodes P h) : OthersRead Decodes P h := by
  intro i c b req hm hP hd
  rcases ho i c b req hm hP hd with h | ⟨name, args, h, hn, _⟩
  · exact .inr h
  · exact .inl ⟨name, args, h, hn⟩

theorem only_append {P a a' b b'} (h : Only P a a') (h' : Only P b b') : Only P (a ++ b) (a' ++ b') := by
  induction h with
  | nil => exact h'
  | call hn _ ih => exact .call hn ih
  | ret hn _ ih => exact .ret hn ih
  | noCall hn _ ih => exact .noCall hn ih
  | noRet hn _ ih => exact .noRet hn ih

theorem only_eq {P h a} (ha : Only P h a) : ∀ {b}, Only P h b → a = b := by
  induction ha with
  | nil => intro b hb; cases hb; rfl
  | call hn _ ih =>
    intro b hb
    cases hb with
    | call _ hb => rw [ih hb]
    | noCall hn' _ => exact absurd hn hn'
  | ret hn _ ih =>
    intro b hb
    cases hb with
    | ret _ hb => rw [ih hb]
    | noRet hn' _ => exact absurd hn hn'
  | noCall hn _ ih =>
    intro b hb
    cases hb with
    | call hn' _ => exact absurd hn' hn
    | noCall _ hb => rw [ih hb]
  | noRet hn _ ih =>
    intro b hb
    cases hb with
    | ret hn' _ => exact absurd hn' hn
    | noRet _ hb => rw [ih hb]

/-- the rest of a run shows what happens to the rest of the requests -/
theorem visible_only (P : Nat → Prop) (L : List Label) : Only P (visible L) (visible (restOf (fun i => ¬ P i) L)) := by
  induction L using List.reverseRecOn with
  | nil => exact .nil
  | append_singleton L l ih =>
    have happ : restOf (fun i => ¬ P i) (L ++ [l]) = restOf (fun i => ¬ P i) L ++ restOf (fun i => ¬ P i) [l] := by
      unfold restOf; rw [List.filter_append]
    rw [happ, seen_append, seen_append]
    refine only_append ih ?_
    by_cases hl : ∀ i, l.about = some i → ¬ ¬ P i
    · rw [show [l] = [] ++ [l] from rfl, restOf_snoc_keep hl]
      cases l <;> try exact .nil
      case recv i c f => exact .call (not_not.mp (hl i rfl)) .nil
      case write i c b => exact .ret (not_not.mp (hl i rfl)) .nil
    · simp only [not_forall, not_not] at hl
      obtain ⟨i, hi, hg⟩ := hl
      rw [show [l] = [] ++ [l] from rfl, restOf_snoc_drop hi hg]
      cases l <;> try exact .nil
      case recv j c f => cases hi; exact .noCall hg .nil
      case write j c b => cases hi; exact .noRet hg .nil

/-- C94: readers cannot be noticed.  Take away some requests that only read, or are malformed, with their answers: what is left can happen without them,
with the same store at the end; nothing new is in the log, and the server does not crash if it did not crash with them. -/
theorem C94_readers {ext rng h h' log store crashed} (hp : Possible ext 1 rng h log store crashed) {P : Nat → Prop}
    (ho : OthersRead Decodes P h) (hw : Only P h h') :
    ∃ log' crashed', log'.Sublist log ∧ (crashed' = true → crashed = true) ∧ Possible ext 1 rng h' log' store crashed' := by
  obtain ⟨L, σ, hr, rfl, rfl, rfl, rfl⟩ := hp
  obtain ⟨lg, o, cr, h1, h2, _, h3⟩ := hr.hidden ho
  exact ⟨lg, cr, h1, h2, _, _, h3, only_eq (visible_only P L) hw, rfl, rfl, rfl⟩

/-- C94: if the requests taken away cannot crash the server, either, the end is the same, too. -/
theorem C94_calm {ext rng h h' log store crashed} (hp : Possible ext 1 rng h log store crashed) {P : Nat → Prop}
    (ho : OthersCalm Decodes P h) (hw : Only P h h') : ∃ log', log'.Sublist log ∧ Possible ext 1 rng h' log' store crashed := by
  obtain ⟨L, σ, hr, rfl, rfl, rfl, rfl⟩ := hp
  obtain ⟨lg, o, cr, h1, _, h2, h3⟩ := hr.hidden (read_of_calm ho)
  have hcr := h2 fun e s he hP hs it p => good_calm ho he hP hs it p
  exact ⟨lg, h1, _, _, h3, only_eq (visible_only P L) hw, rfl, rfl, hcr⟩

/-- C94: so the requests of the others are linearizable by themselves, and end in the same store. -/
theorem C94_linearizable {ext rng h h' log store crashed} (hp : Possible ext 1 rng h log store crashed) {P : Nat → Prop}
    (ho : OthersRead Decodes P h) (hw : Only P h h') :
    Linear.Linearizable (fun tr => Trace ext (Store.init rng) tr store) Decodes h' := by
  obtain ⟨_, _, _, _, L, σ, hr, rfl, _, rfl, _⟩ := C94_readers hp ho hw
  exact C43_linearizable hr

/-- Case of the theorems: client 0 sets the register, client 1 reads it; client 1 was never there. -/
example : OthersRead Decodes (· = 0) [.call 0 0 setX5, .ret 0 0 (b! "+OK\r\n"), .call 3 1 getX, .ret 3 1 (b! "$1\r\n5\r\n")] ∧
    OthersCalm Decodes (· = 0) [.call 0 0 setX5, .ret 0 0 (b! "+OK\r\n"), .call 3 1 getX, .ret 3 1 (b! "$1\r\n5\r\n")] ∧
    Only (· = 0) [.call 0 0 setX5, .ret 0 0 (b! "+OK\r\n"), .call 3 1 getX, .ret 3 1 (b! "$1\r\n5\r\n")]
      [.call 0 0 setX5, .ret 0 0 (b! "+OK\r\n")] ∧
    ∃ log store,
      Possible ext0 1 rng0 [.call 0 0 setX5, .ret 0 0 (b! "+OK\r\n"), .call 3 1 getX, .ret 3 1 (b! "$1\r\n5\r\n")] log store false := by
  have hd : (trySchedule ext0 it0 1 rng0 (whole 0 0 setX5 ++ whole 3 1 getX)).map (fun p => (visible p.1, p.2.crashed)) =
      some ([.call 0 0 setX5, .ret 0 0 (b! "+OK\r\n"), .call 3 1 getX, .ret 3 1 (b! "$1\r\n5\r\n")], false) := by decide +kernel
  obtain ⟨r, hr, hv⟩ := Option.map_eq_some_iff.mp hd
  simp only [Prod.mk.injEq] at hv
  suffices hc : OthersCalm Decodes (· = 0) _ from ⟨read_of_calm hc, hc, .call rfl (.ret rfl (.noCall (by decide) (.noRet (by decide) .nil))), _, _, r.1, r.2, try_run hr, hv.1,
    rfl, rfl, hv.2⟩
  intro i c b req hm hP hd
  simp only [List.mem_cons, Linear.Ev.call.injEq, reduceCtorEq, List.not_mem_nil, or_false, false_or] at hm
  rcases hm with ⟨rfl, _⟩ | ⟨_, _, rfl⟩
  · exact absurd rfl hP
  · obtain ⟨_, _, h1, rfl⟩ := hd
    obtain ⟨_, _, h2, h3⟩ := getX_request
    rw [h1] at h2
    cases h2
    rw [h3]
    exact .inr ⟨_, _, rfl, by decide, by decide⟩

/-- Malformed requests: no command has this name; SET needs two arguments. -/
example : Idle [b! "HELLO", b! "3"] ∧ Idle [b! "Set", b! "x"] ∧ ¬ Idle [b! "set", b! "x", b! "5"] := by
  refine ⟨.inr ⟨_, _, rfl, .inl ⟨by unfold Ascii; decide, by decide⟩⟩, .inr ⟨_, _, rfl, .inr ⟨2, by decide, by decide, by decide⟩⟩, ?_⟩
  rintro (⟨_, _, h, hn⟩ | ⟨_, _, h, ⟨_, hn⟩ | ⟨n, hn, _, hl⟩⟩) <;> cases h
  · revert hn; decide
  · revert hn; decide
  · have : ∀ p ∈ KeySpec.minArgs, p.1 = lower (b! "set") → p.2 = 2 := by decide
    have := this _ hn rfl
    simp at this hl
    omega

end Godis.Event

namespace Godis.V1
open Godis.Event ReadSpec

/-- C94, v1 server. -/
theorem C94_v1_readers {ext rng L v h'} (hr : VRun ext rng L v) {P : Nat → Prop}
    (ho : OthersRead Decodes P (visible (sysLabels L))) (hw : Only P (visible (sysLabels L)) h') :
    ∃ log' crashed', log'.Sublist v.sys.log ∧ (crashed' = true → v.sys.crashed = true) ∧ Possible ext 1 rng h' log' v.sys.store crashed' :=
  Event.C94_readers ⟨_, _, hr.run, rfl, rfl, rfl, rfl⟩ ho hw

/-- C94, v1 server. -/
theorem C94_v1_calm {ext rng L v h'} (hr : VRun ext rng L v) {P : Nat → Prop}
    (ho : OthersCalm Decodes P (visible (sysLabels L))) (hw : Only P (visible (sysLabels L)) h') :
    ∃ log', log'.Sublist v.sys.log ∧ Possible ext 1 rng h' log' v.sys.store v.sys.crashed :=
  Event.C94_calm ⟨_, _, hr.run, rfl, rfl, rfl, rfl⟩ ho hw

end Godis.V1
