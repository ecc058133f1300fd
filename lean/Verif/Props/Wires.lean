import Verif.Props.Noise
import Verif.Spec.Wires
/-!
# Connections carry no state: C92
-/
namespace Godis.Event
open WireSpec

/-- the handler serves another connection -/
def Handler.rewire (c : Nat) : Handler → Handler
  | .absent => .absent
  | .submitted _ f => .submitted c f
  | .logged _ r => .logged c r
  | .waiting _ => .waiting c
  | .replying _ r => .replying c r
  | .ended => .ended

/-- the handlers serve other connections -/
def Sys.rewire (κ : Nat → Nat) (o : List (Nat × Bytes)) (σ : Sys) : Sys :=
  { σ with handler := fun i => (σ.handler i).rewire (κ i), out := o }

/-- the step on another connection -/
def Label.rewire (κ : Nat → Nat) : Label → Label
  | .recv i _ f => .recv i (κ i) f
  | .write i _ b => .write i (κ i) b
  | l => l

theorem rewire_upd (κ : Nat → Nat) (f : Nat → Handler) (i : Nat) (x : Handler) :
    (fun j => (upd f i x j).rewire (κ j)) = upd (fun j => (f j).rewire (κ j)) i (x.rewire (κ i)) := by
  funext j
  unfold upd
  by_cases e : j = i
  · subst e; simp
  · simp [e]

theorem step_rewire {ext n σ l σ'} (κ : Nat → Nat) (hs : Step ext n σ l σ') (o : List (Nat × Bytes)) :
    ∃ o', Step ext n (σ.rewire κ o) (l.rewire κ) (σ'.rewire κ o') := by
  have hh : ∀ {i x}, σ.handler i = x → (σ.rewire κ o).handler i = x.rewire (κ i) := by intro i x h; simp [Sys.rewire, h]
  cases hs with
  | recv i c f k =>
    refine ⟨o, ?_⟩
    simp only [Sys.rewire, rewire_upd]
    exact .recv (σ.rewire κ o) i (κ i) f (hh k)
  | drop i c f k =>
    refine ⟨o, ?_⟩
    simp only [Sys.rewire, rewire_upd]
    exact .drop (σ.rewire κ o) i (κ i) f (hh k)
  | badFrame i c f e r k kd =>
    refine ⟨o, ?_⟩
    simp only [Sys.rewire, rewire_upd]
    exact .badFrame (σ.rewire κ o) i (κ i) f e r (hh k) kd
  | decodePanic i c f p k kd =>
    refine ⟨o, ?_⟩
    simp only [Sys.rewire, rewire_upd]
    exact .decodePanic (σ.rewire κ o) i (κ i) f p (hh k) kd
  | log i c f rec r k kd =>
    refine ⟨o, ?_⟩
    simp only [Sys.rewire, rewire_upd]
    exact .log (σ.rewire κ o) i (κ i) f rec r (hh k) kd
  | noCommand i c rec k kd =>
    refine ⟨o, ?_⟩
    simp only [Sys.rewire, rewire_upd]
    exact .noCommand (σ.rewire κ o) i (κ i) rec (hh k) kd
  | enqueue i c rec nm as k k1 k2 k3 =>
    refine ⟨o, ?_⟩
    simp only [Sys.rewire, rewire_upd]
    exact .enqueue (σ.rewire κ o) i (κ i) rec nm as (hh k) k1 k2 k3
  | sendClosed i c rec nm as k k1 k2 =>
    refine ⟨o, ?_⟩
    simp only [Sys.rewire, rewire_upd]
    exact .sendClosed (σ.rewire κ o) i (κ i) rec nm as (hh k) k1 k2
  | take w e r k1 k2 k3 => exact ⟨o, .take (σ.rewire κ o) w e r k1 k2 k3⟩
  | start w e k1 k2 => exact ⟨o, .start (σ.rewire κ o) w e k1 k2⟩
  | exec w e sn s' it rsp k1 k2 k3 => exact ⟨o, .exec (σ.rewire κ o) w e sn s' it rsp k1 k2 k3⟩
  | crash w e sn it p k1 k2 k3 k4 => exact ⟨o, .crash (σ.rewire κ o) w e sn it p k1 k2 k3 k4⟩
  | publish w e rsp k1 k2 => exact ⟨o, .publish (σ.rewire κ o) w e rsp k1 k2⟩
  | timeout i c k =>
    refine ⟨o, ?_⟩
    simp only [Sys.rewire, rewire_upd]
    exact .timeout (σ.rewire κ o) i (κ i) (hh k)
  | result i c rsp k k1 =>
    refine ⟨o, ?_⟩
    simp only [Sys.rewire, rewire_upd]
    exact .result (σ.rewire κ o) i (κ i) rsp (hh k) k1
  | write i c rsp b k k1 k2 =>
    refine ⟨o ++ [(κ i, b)], ?_⟩
    simp only [Sys.rewire, rewire_upd]
    exact .write (σ.rewire κ o) i (κ i) rsp b (hh k) k1 k2
  | writeNothing i c rsp k k1 =>
    refine ⟨o, ?_⟩
    simp only [Sys.rewire, rewire_upd]
    exact .writeNothing (σ.rewire κ o) i (κ i) rsp (hh k) k1
  | encodePanic i c rsp p k k1 =>
    refine ⟨o, ?_⟩
    simp only [Sys.rewire, rewire_upd]
    exact .encodePanic (σ.rewire κ o) i (κ i) rsp p (hh k) k1
  | stop k => exact ⟨o, .stop (σ.rewire κ o) k⟩
  | signal w k1 k2 => exact ⟨o, .signal (σ.rewire κ o) w k1 k2⟩
  | exitTold w k1 k2 k3 => exact ⟨o, .exitTold (σ.rewire κ o) w k1 k2 k3⟩
  | exitClosed w k1 k2 k3 k4 => exact ⟨o, .exitClosed (σ.rewire κ o) w k1 k2 k3 k4⟩
  | stopped k1 k2 => exact ⟨o, .stopped (σ.rewire κ o) k1 k2⟩

theorem Run.rewire {ext n rng L σ} (κ : Nat → Nat) (h : Run ext n rng L σ) :
    ∃ o, Run ext n rng (L.map (Label.rewire κ)) (σ.rewire κ o) := by
  induction h with
  | nil => exact ⟨[], .nil⟩
  | @snoc L σ l σ' hr hc hs ih =>
    obtain ⟨o, ih⟩ := ih
    obtain ⟨o', hs'⟩ := step_rewire κ hs o
    exact ⟨o', by rw [List.map_append]; exact .snoc ih hc hs'⟩

/-- the event on another connection -/
def evRewire (κ : Nat → Nat) : Linear.Ev → Linear.Ev
  | .call i _ b => .call i (κ i) b
  | .ret i _ b => .ret i (κ i) b

theorem visible_rewire (κ : Nat → Nat) (L : List Label) : visible (L.map (Label.rewire κ)) = (visible L).map (evRewire κ) := by
  unfold visible
  rw [List.filterMap_map, List.map_filterMap]
  congr 1
  funext l
  cases l <;> rfl

theorem possible_rewire {ext n rng h log store crashed} (κ : Nat → Nat) (hp : Possible ext n rng h log store crashed) :
    Possible ext n rng (h.map (evRewire κ)) log store crashed := by
  obtain ⟨L, σ, hr, rfl, rfl, rfl, rfl⟩ := hp
  obtain ⟨o, h'⟩ := hr.rewire κ
  exact ⟨_, _, h', visible_rewire κ L, rfl, rfl, rfl⟩

theorem rewire_same (κ : Nat → Nat) {h h'} (hs : SameBut h h') : h.map (evRewire κ) = h'.map (evRewire κ) := by
  induction hs with
  | nil => rfl
  | cons h1 _ ih =>
    rw [List.map_cons, List.map_cons, ih]
    cases h1 <;> rfl

/-- every history with fixed connections is rewired from any other -/
theorem wired_rewire {h} (hw : Wired h) : ∃ κ, h.map (evRewire κ) = h := by
  have : ∀ i, ∃ c, ∀ e ∈ h, number e = i → wire e = c := by
    intro i
    by_cases hi : ∃ e ∈ h, number e = i
    · obtain ⟨e, he, rfl⟩ := hi
      exact ⟨wire e, fun e' he' hn => hw e' he' e he hn⟩
    · exact ⟨0, fun e he hn => absurd ⟨e, he, hn⟩ hi⟩
  choose κ hκ using this
  refine ⟨κ, ?_⟩
  conv => rhs; rw [← List.map_id h]
  refine List.map_congr_left fun e he => ?_
  have := hκ _ e he rfl
  cases e <;> simp only [number, wire] at this <;> simp [evRewire, this]

/-- C92: every request is answered on the connection on which it arrived -/
theorem C92_wired {ext n rng h log store crashed} (hp : Possible ext n rng h log store crashed) : Wired h := by
  obtain ⟨L, σ, hr, rfl, _⟩ := hp
  have arrived : ∀ e ∈ visible L, ∃ f, .recv (number e) (wire e) f ∈ L := by
    intro e he
    cases e with
    | call i c b => exact ⟨b, mem_visible_call.mp he⟩
    | ret i c b => exact (hr.inv.written i c b (mem_visible_ret.mp he)).1
  intro e he e' he' hn
  obtain ⟨f, hf⟩ := arrived e he
  obtain ⟨f', hf'⟩ := arrived e' he'
  rw [← hn] at hf'
  exact (hr.recv_unique hf hf').1

theorem same_symm {h h'} (hs : SameBut h h') : SameBut h' h := by
  induction hs with
  | nil => exact .nil
  | cons h1 _ ih =>
    refine .cons ?_ ih
    cases h1 <;> constructor

/-- C92: connections carry no state.  Take two histories of the sockets that differ only in the connections used.  If in the second
every request is answered where it arrived, what is possible in the first is possible in the second, with the same log, the same store
and the same end. -/
theorem C92_wires {ext n rng h h' log store crashed} (hs : SameBut h h') (hw : Wired h') (hp : Possible ext n rng h log store crashed) :
    Possible ext n rng h' log store crashed := by
  obtain ⟨κ, hκ⟩ := wired_rewire hw
  rw [← hκ, ← rewire_same κ hs]
  exact possible_rewire κ hp

/-- C92, as an equivalence. -/
theorem C92_possible {ext n rng h h' log store crashed} (hs : SameBut h h') (hw : Wired h) (hw' : Wired h') :
    Possible ext n rng h log store crashed ↔ Possible ext n rng h' log store crashed :=
  ⟨C92_wires hs hw', C92_wires (same_symm hs) hw⟩

/-- C92: all clients behind one connection -/
theorem C92_one_wire {ext n rng h log store crashed} (c : Nat) (hp : Possible ext n rng h log store crashed) :
    Possible ext n rng (h.map fun e => match e with | .call i _ b => .call i c b | .ret i _ b => .ret i c b) log store crashed := by
  have := possible_rewire (fun _ => c) hp
  convert this using 2
  funext e
  cases e <;> rfl

/-- Case of `C92_wires`: two clients on two connections, and the same on one. -/
example : ∃ log store,
    Possible ext0 1 rng0 [.call 0 0 setX5, .ret 0 0 (b! "+OK\r\n"), .call 3 1 getX, .ret 3 1 (b! "$1\r\n5\r\n")] log store false ∧
    Possible ext0 1 rng0 [.call 0 7 setX5, .ret 0 7 (b! "+OK\r\n"), .call 3 7 getX, .ret 3 7 (b! "$1\r\n5\r\n")] log store false := by
  have hd : (trySchedule ext0 it0 1 rng0 (whole 0 0 setX5 ++ whole 3 1 getX)).map (fun p => (visible p.1, p.2.crashed)) =
      some ([.call 0 0 setX5, .ret 0 0 (b! "+OK\r\n"), .call 3 1 getX, .ret 3 1 (b! "$1\r\n5\r\n")], false) := by decide +kernel
  obtain ⟨r, hr, hv⟩ := Option.map_eq_some_iff.mp hd
  simp only [Prod.mk.injEq] at hv
  have hp : Possible ext0 1 rng0 _ r.2.log r.2.store false := ⟨r.1, r.2, try_run hr, hv.1, rfl, rfl, hv.2⟩
  refine ⟨_, _, hp, C92_wires (.cons (.call ..) (.cons (.ret ..) (.cons (.call ..) (.cons (.ret ..) .nil)))) ?_ hp⟩
  intro e he e' he' hn
  simp only [List.mem_cons, List.not_mem_nil, or_false] at he he'
  rcases he with rfl | rfl | rfl | rfl <;> rcases he' with rfl | rfl | rfl | rfl <;> rfl

end Godis.Event
