import Verif.Spec.Resp
/-!
# The text of a command log (specification)

A log is a file of requests, each followed by a line feed.  This file does not use the model.
-/
namespace Resp

/-- The text consists of these requests, each in its wire form and followed by a line feed. -/
inductive IsLog : Str → List (List Str) → Prop
  | nil : IsLog [] []
  | cons {t req rest reqs} : IsRequest t req → IsLog rest reqs → IsLog (t ++ 10 :: rest) (req :: reqs)

/-- The text consists of these requests, each in its wire form and followed by a line feed, and of other lines, which do not
begin with an asterisk. -/
inductive IsMixed : Str → List (List Str) → Prop
  | nil : IsMixed [] []
  | entry {t req rest reqs} : IsRequest t req → IsMixed rest reqs → IsMixed (t ++ 10 :: rest) (req :: reqs)
  | line {x rest reqs} : 10 ∉ x → x.head? ≠ some 42 → IsMixed rest reqs → IsMixed (x ++ 10 :: rest) reqs

end Resp
