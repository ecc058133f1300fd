import Verif.Props.Apart
import Verif.Props.Reference
/-!
# C68: swapping requests, the v1 server, and a concrete schedule
-/
namespace Godis
open Resp (Reply)
open StrSpec (lower Ascii)

/-- C68, order.  Two neighbouring requests of a history that use different keys may be swapped: they then get the same replies
as before, and so do all later requests, if these only use keys that the one or the other group of requests uses alone. -/
theorem C68_swap_partial {ext} (before after : List (Bool × List Bytes × Reply)) (p q : Bool × List Bytes × Reply) (hpq : p.1 ≠ q.1)
    (hkeys : ∀ x ∈ before ++ p :: q :: after, NotKeys x.2.1)
    (hdiff : ∀ x ∈ before ++ p :: q :: after, ∀ y ∈ before ++ p :: q :: after, x.1 ≠ y.1 →
      ∀ k ∈ KeySpec.looksAt (lowered x.2.1), k ∉ KeySpec.looksAt (lowered y.2.1))
    (h : ∃ rng s, Trace ext (Store.init rng) ((before ++ p :: q :: after).map (·.2)) s) :
    ∃ rng s, Trace ext (Store.init rng) ((before ++ q :: p :: after).map (·.2)) s := by
  have mem : ∀ x, x ∈ before ++ q :: p :: after ↔ x ∈ before ++ p :: q :: after := by
    intro x; simp only [List.mem_append, List.mem_cons]; constructor <;> rintro (h | h | h | h) <;> simp [h]
  rw [C68_interleavings_partial _ hkeys hdiff] at h
  rw [C68_interleavings_partial _ (fun x hx => hkeys x ((mem x).mp hx)) (fun x hx y hy => hdiff x ((mem x).mp hx) y ((mem y).mp hy))]
  obtain ⟨a, l⟩ := p
  obtain ⟨b, l'⟩ := q
  cases a <;> cases b <;> first | exact absurd rfl hpq | simpa [List.filter_append, List.filter_cons] using h

namespace Event
open Linear (Linearizable)

/-- Case: connection 0 sends `INCR x`, connection 1 sends `INCR y`, and the requests overlap; the hypotheses of
`C68_schedules_partial` are met for connection 0. -/
def incrY : Bytes := b! "*2\r\n$4\r\nINCR\r\n$1\r\ny\r\n"

theorem decodes_incrX {req} (h : Decodes incrX req) : req = [b! "INCR", b! "x"] := by
  have hr : Resp.IsRequest incrX [b! "INCR", b! "x"] :=
    ⟨b! "2", _, by decide, .cons (d := b! "4") (by decide) (.cons (d := b! "1") (by decide) .nil), by decide⟩
  refine (decodes_request (rest := []) hr (by decide) (by decide)).mp ?_
  rwa [List.append_nil]

theorem decodes_incrY {req} (h : Decodes incrY req) : req = [b! "INCR", b! "y"] := by
  have hr : Resp.IsRequest incrY [b! "INCR", b! "y"] :=
    ⟨b! "2", _, by decide, .cons (d := b! "4") (by decide) (.cons (d := b! "1") (by decide) .nil), by decide⟩
  refine (decodes_request (rest := []) hr (by decide) (by decide)).mp ?_
  rwa [List.append_nil]

example : ∃ L σ, Run ext0 1 rng0 L σ ∧ visible L = [.call 0 0 incrX, .call 1 1 incrY, .ret 0 0 (b! ":1\r\n"), .ret 1 1 (b! ":1\r\n")] ∧
    Linearizable (fun tr => ∃ rng' s', Trace ext0 (Store.init rng') tr s') Decodes [.call 0 0 incrX, .ret 0 0 (b! ":1\r\n")] := by
  have hd : (trySchedule ext0 it0 1 rng0
      [.recv 0 0 incrX, .recv 1 1 incrY, .handle 0, .handle 1, .handle 1, .work 0, .handle 0, .work 0, .work 0, .work 0, .work 0,
        .handle 1, .work 0, .work 0, .work 0, .handle 0, .handle 0, .handle 1]).map (fun p => visible p.1) =
      some [.call 0 0 incrX, .call 1 1 incrY, .ret 0 0 (b! ":1\r\n"), .ret 1 1 (b! ":1\r\n")] := by decide +kernel
  obtain ⟨r, hr, hv⟩ := Option.map_eq_some_iff.mp hd
  have hreq : ∀ i c f req, .call i c f ∈ visible r.1 → Decodes f req →
      (c = 0 ∧ req = [b! "INCR", b! "x"]) ∨ (c = 1 ∧ req = [b! "INCR", b! "y"]) := by
    intro i c f req h1 h2
    rw [hv] at h1
    simp only [List.mem_cons, List.not_mem_nil, or_false, Linear.Ev.call.injEq, reduceCtorEq] at h1
    rcases h1 with ⟨_, rfl, rfl⟩ | ⟨_, rfl, rfl⟩
    · exact .inl ⟨rfl, decodes_incrX h2⟩
    · exact .inr ⟨rfl, decodes_incrY h2⟩
  have hx : NotKeys [b! "INCR", b! "x"] := by unfold NotKeys Ascii; decide +kernel
  have hy : NotKeys [b! "INCR", b! "y"] := by unfold NotKeys Ascii; decide +kernel
  have := C68_schedules_partial (try_run hr) (fun c => c == 0)
    (fun i c f req h1 h2 => by rcases hreq i c f req h1 h2 with ⟨_, rfl⟩ | ⟨_, rfl⟩; exact hx.1; exact hy.1)
    (fun i c f req h1 h2 _ => by rcases hreq i c f req h1 h2 with ⟨_, rfl⟩ | ⟨_, rfl⟩; exact hx; exact hy)
    (fun i c f req i' c' f' req' h1 h2 h3 h4 hm hm' => by
      rcases hreq i c f req h1 h3 with ⟨rfl, rfl⟩ | ⟨rfl, rfl⟩ <;> rcases hreq i' c' f' req' h2 h4 with ⟨rfl, rfl⟩ | ⟨rfl, rfl⟩
      · cases hm'
      · decide +kernel
      · cases hm
      · cases hm)
  rw [hv] at this
  exact ⟨r.1, r.2, try_run hr, hv, this⟩

end Event
end Godis

namespace Godis.V1
open Linear (Linearizable)
open Event (Decodes visible connOf)
open StrSpec (Ascii)

/-- C68, v1 server: what is seen on some of the connections, whose requests look at keys that no request of the other connections
names, is explained by a server of their own. -/
theorem C68_v1_schedules_partial {ext rng L v} (h : VRun ext rng L v) (mine : Nat → Bool)
    (hname : ∀ i c f req, .call i c f ∈ visible (sysLabels L) → Decodes f req → ∀ name ∈ req.head?, Ascii name)
    (hkeys : ∀ i c f req, .call i c f ∈ visible (sysLabels L) → Decodes f req → mine c = true → NotKeys req)
    (hdiff : ∀ i c f req i' c' f' req', .call i c f ∈ visible (sysLabels L) → .call i' c' f' ∈ visible (sysLabels L) →
      Decodes f req → Decodes f' req' →
      mine c = true → mine c' = false → ∀ k ∈ KeySpec.looksAt (lowered req), k ∉ KeySpec.named (lowered req')) :
    Linearizable (fun tr => ∃ rng' s', Trace ext (Store.init rng') tr s') Decodes
      ((visible (sysLabels L)).filter (fun e => mine (connOf e))) :=
  Event.C68_schedules_partial h.run mine hname hkeys hdiff

end Godis.V1
