import Verif.Model.ConnV1
/-!
# The v1 connection handler: C47
-/
namespace Godis.ConnV1

/-- the requests in an input -/
def requests (input : List (Option Receive)) : List Receive := input.filterMap id

/-- the request the reader holds -/
def held : Reader → List Receive
  | .hasRequest r => [r]
  | _ => []

theorem invariant {input s} (h : Run input s) :
    s.handled ++ s.receive ++ held s.reader ++ requests s.input = requests input ∧ s.receive.length ≤ 1 := by
  induction h with
  | nil => simp [State.init, held]
  | snoc hr hc hs ih =>
    obtain ⟨h1, h2⟩ := ih
    cases hs with
    | decode r rest k1 k2 =>
      refine ⟨?_, h2⟩
      rw [← h1, k1, k2]
      simp [requests, held]
    | malformed rest k1 k2 =>
      refine ⟨?_, h2⟩
      rw [← h1, k1, k2]
      simp [requests, held]
    | eof k1 k2 => exact ⟨by rw [← h1, k1]; simp [held], h2⟩
    | closedConn k1 k2 => exact ⟨by rw [← h1, k1]; simp [held], h2⟩
    | request r k1 k2 =>
      refine ⟨?_, by rw [List.length_append]; exact Nat.succ_le_of_lt k2⟩
      rw [← h1, k1]
      simp [held]
    | error last k1 k2 => exact ⟨by rw [← h1, k1]; cases last <;> simp [held], h2⟩
    | closeReceive k1 => exact ⟨by rw [← h1, k1]; simp [held], h2⟩
    | closeError k1 => exact ⟨by rw [← h1, k1]; simp [held], h2⟩
    | handle r rest k1 k2 =>
      refine ⟨?_, ?_⟩
      · rw [← h1, k2]; simp
      · rw [k2] at h2; simp at h2 ⊢; simp [h2]
    | handleBroken r rest k1 k2 =>
      refine ⟨?_, ?_⟩
      · rw [← h1, k2]; simp
      · rw [k2] at h2; simp at h2 ⊢; simp [h2]
    | _ => exact ⟨h1, h2⟩

/-- C47, what holds in every schedule: the handled requests are those sent, in order, each once, up to some point; what
is not handled is at most two requests that were decoded, then what was not yet decoded. -/
theorem C47_prefix_partial {input s} (h : Run input s) :
    ∃ waiting, s.handled ++ waiting ++ requests s.input = requests input ∧ waiting.length ≤ 2 := by
  obtain ⟨h1, h2⟩ := invariant h
  refine ⟨s.receive ++ held s.reader, by rw [← h1]; simp, ?_⟩
  have : (held s.reader).length ≤ 1 := by cases s.reader <;> simp [held]
  simp; omega

/-- the reader has left its loop only if all was read or the handler has ended -/
theorem reader_left {input s} (h : Run input s) :
    ((s.reader = .hasError true ∨ s.reader = .returning ∨ s.reader = .closedReceive ∨ s.reader = .gone) → s.input = [] ∨ s.handler = .gone) ∧
    (s.receiveClosed = true → s.reader = .closedReceive ∨ s.reader = .gone) ∧
    (s.errorClosed = true → s.reader = .gone) := by
  induction h with
  | nil => simp [State.init]
  | snoc hr hc hs ih =>
    obtain ⟨ih1, ih2, ih3⟩ := ih
    cases hs with
    | error last k1 k2 => cases last <;> simp_all
    | _ => simp_all

/-- C47, what holds: when the reader has read the end of the input, at most one request was lost. -/
theorem C47_lost_at_most_one_partial {input s} (h : Run input s) (he : s.input = []) (hr : ∀ r, s.reader ≠ .hasRequest r) :
    ∃ lost, s.handled ++ lost = requests input ∧ lost.length ≤ 1 := by
  obtain ⟨h1, h2⟩ := invariant h
  have : held s.reader = [] := by
    cases hx : s.reader with
    | hasRequest r => exact absurd hx (hr r)
    | _ => rfl
  rw [he, this] at h1
  exact ⟨s.receive, by simpa [requests] using h1, h2⟩

/-- C47, what holds: the handler can crash the process only when the peer has closed the connection and every request
was handled. -/
theorem C47_crash_only_at_end_partial {input s} (h : Run input s) (hc : s.crashed = true) :
    s.input = [] ∧ s.handled = requests input := by
  cases h with
  | nil => simp [State.init] at hc
  | snoc hr hc0 hs =>
    obtain ⟨h1, _⟩ := invariant hr
    obtain ⟨k1, k2, _⟩ := reader_left hr
    cases hs with
    | handleNil g1 g2 g3 =>
      have hrd := k2 g3
      rcases k1 (by rcases hrd with h | h <;> simp [h]) with he | he
      · refine ⟨he, ?_⟩
        rcases hrd with h | h <;> rw [g2, he, h] at h1 <;> simpa [requests, held] using h1
      · rw [g1] at he; cases he
    | _ => rw [hc0] at hc; cases hc

/-- Case: two requests, both handled, then the peer closes and the handler ends. -/
example : ∃ s, Run [some ⟨[b! "ping"], []⟩, some ⟨[b! "ping"], []⟩] s ∧ s.handler = .gone ∧ s.handled.length = 2 :=
  ⟨_, .snoc (.snoc (.snoc (.snoc (.snoc (.snoc (.snoc (.snoc (.snoc .nil rfl (.decode _ _ _ rfl rfl)) rfl (.request _ _ rfl Nat.zero_lt_one))
    rfl (.handle _ _ _ rfl rfl)) rfl (.decode _ _ _ rfl rfl)) rfl (.request _ _ rfl Nat.zero_lt_one)) rfl (.eof _ rfl rfl))
    rfl (.error _ _ rfl Nat.zero_lt_one)) rfl (.handle _ _ _ rfl rfl)) rfl (.gotError _ rfl (.inl Nat.zero_lt_one)), rfl, rfl⟩

/-- C47 fails: the peer closes the connection, nothing else; the handler may read the closed `ReceiveChan`, get a nil
request and terminate the process. -/
theorem C47_crash_violated : ∃ s, Run [] s ∧ s.crashed = true :=
  ⟨_, .snoc (.snoc (.snoc (.snoc .nil rfl (.eof _ rfl rfl)) rfl (.error _ _ rfl Nat.zero_lt_one)) rfl (.closeReceive _ rfl))
    rfl (.handleNil _ rfl rfl rfl), rfl⟩

/-- C47 fails: a request that was received before the peer closed is not handled, because the handler may see the end of
file first. -/
theorem C47_lost_violated (r : Receive) : ∃ s, Run [some r] s ∧ s.handler = .gone ∧ s.input = [] ∧ s.handled = [] ∧ s.receive = [r] :=
  ⟨_, .snoc (.snoc (.snoc (.snoc (.snoc .nil rfl (.decode _ _ _ rfl rfl)) rfl (.request _ _ rfl Nat.zero_lt_one)) rfl (.eof _ rfl rfl))
    rfl (.error _ _ rfl Nat.zero_lt_one)) rfl (.gotError _ rfl (.inl Nat.zero_lt_one)), rfl, rfl, rfl, rfl⟩

/-- what can happen from a state on -/
inductive Later (s : State) : State → Prop
  | refl : Later s s
  | step {s' s''} : Later s s' → Step s' s'' → Later s s''

/-- C47 fails: when the server stops, the handler ends, but a reader goroutine that waits for room in `ReceiveChan` never
ends, whatever happens: it is leaked. -/
theorem C47_leak_violated (r r' : Receive) : ∃ s, Run [some r, some r'] s ∧ s.handler = .gone ∧
    ∀ s', Later s s' → s'.reader = .hasRequest r' := by
  refine ⟨_, .snoc (.snoc (.snoc (.snoc (.snoc .nil rfl (.decode _ _ _ rfl rfl)) rfl (.request _ _ rfl Nat.zero_lt_one))
    rfl (.decode _ _ _ rfl rfl)) rfl (.cancel _)) rfl (.quit _ rfl rfl), rfl, ?_⟩
  intro s' h
  have key : s'.reader = .hasRequest r' ∧ s'.handler = .gone ∧ s'.receive.length = 1 := by
    induction h with
    | refl => exact ⟨rfl, rfl, rfl⟩
    | step _ hs ih =>
      obtain ⟨h1, h2, h3⟩ := ih
      cases hs <;> simp_all
  exact key.1

end Godis.ConnV1
