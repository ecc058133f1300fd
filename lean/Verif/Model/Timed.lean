import Verif.Model.Event
/-!
# Time: event/handler.go:22 and the runs of `Model/Event` with a clock

`Model/Event` lets a waiting handler see its timeout at any time.  Here every action of a run has a time (nanoseconds since
the process started), and the timeout is what `context.WithTimeout` makes it.
-/
namespace Godis.Event

/-- event/handler.go:22 `time.Second*10`, in nanoseconds (config/config.go:29-35 `GetDefaultTimeout` is not called by anyone) -/
def tenSeconds : Nat := 10 * 10 ^ 9

/-- The times of a run are possible: the clock does not run backwards, and the context of a request (event/handler.go:22)
expires no earlier than ten seconds after it was made.  Simplification: the context is made after the frame was received
(server/v2/server.go:44-56) and before the text is logged; here it may have been made as early as the frame was received, so
that the model has all runs of the program and more.  When the timer fires after the ten seconds is up to the scheduler. -/
structure Clocked (L : List (Nat × Label)) : Prop where
  order : L.Pairwise (·.1 ≤ ·.1)
  deadline : ∀ t i, (t, Label.timeout i) ∈ L → ∃ t0 c f, (t0, Label.recv i c f) ∈ L ∧ t0 + tenSeconds ≤ t

end Godis.Event
