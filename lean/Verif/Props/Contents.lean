import Verif.Proofs.Contents
import Verif.Props.Reference
import Verif.Proofs.Coord
import Verif.Proofs.Iso5
/-!
# C75: same contents, same answers

What a server answers depends on its history only through what the keys hold and which keys name the same set.
-/
namespace Godis
open Resp (Reply bulks)
open StrSpec (lower)
open RefSpec (SameContents Decided Alike Outcome heard heardAll)
open ZSpec (words)

variable {ext : Ext} {rng rng' : Rng} {s s' : Store} {tr tr' f f' : List (List Bytes × Reply)}

/-- what the keys of a server that started empty hold after the history `tr` -/
abbrev contents (ext : Ext) (tr : List (List Bytes × Reply)) : RefSpec.World := RefSpec.after (libOf ext) (heardAll (libOf ext) tr)

theorem contents_snoc (tr : List (List Bytes × Reply)) (p : List Bytes × Reply) :
    contents ext (tr ++ [p]) = RefSpec.step (libOf ext) (contents ext tr) (lower ((heard (libOf ext) p.1).headD [])) (heard (libOf ext) p.1).tail p.2 := by
  unfold contents heardAll
  rw [List.map_append]
  exact ref_snoc _ _ _

theorem contents_tells (h : Trace ext (Store.init rng) tr s) (hw : words tr < 2 ^ 60) : Tells s (contents ext tr) :=
  ((heard_trace h).reference (heardAll_plain tr) (lt_of_le_of_lt (heard_words tr) hw)).1

theorem contents_fresh (h : Trace ext (Store.init rng) tr s) (hw : words tr < 2 ^ 60) : RefSpec.Fresh (contents ext tr).shared :=
  (contents_tells h hw).shared.fresh

theorem no_tall (hr : ∀ i, rng i ≤ 30) : (∃ i, 30 < rng i) = False := by
  simp only [eq_iff_iff, iff_false, not_exists, not_lt]; exact hr

/-- **C75.**  Two servers, of whatever history, in which every key holds the same and the same keys name one set: a request has the same outcome on both, but for the
order of what the reply lists (if the contents decide the outcome at all: see `Decided`). -/
theorem C75_same_contents (h : Trace ext (Store.init rng) tr s) (h' : Trace ext (Store.init rng') tr' s') (hr : ∀ i, rng i ≤ 30) (hr' : ∀ i, rng' i ≤ 30)
    (hc : SameContents (contents ext tr) (contents ext tr')) {req : List Bytes} (hw : words tr + req.length < 2 ^ 60) (hw' : words tr' + req.length < 2 ^ 60)
    (hd : Decided (libOf ext) (contents ext tr) (heard (libOf ext) req)) {it it' : Iter} {o o' : Outcome} (ho : Ends ext it s req o) (ho' : Ends ext it' s' req o') :
    o.Alike o' := by
  obtain ⟨o1, _, u1, f1⟩ := C65_outcome h it hw
  obtain ⟨o2, _, u2, f2⟩ := C65_outcome h' it' hw'
  cases u1 o ho
  cases u2 o' ho'
  rw [no_tall hr] at f1
  rw [no_tall hr'] at f2
  exact RefSpec.fits_decided hd f1 (hc.symm.fits f2)

/-- the reply to the next request, and the contents afterwards -/
theorem same_next (h : Trace ext (Store.init rng) (tr ++ [p]) s) (h' : Trace ext (Store.init rng') (tr' ++ [q]) s') (hr : ∀ i, rng i ≤ 30)
    (hr' : ∀ i, rng' i ≤ 30) (hc : SameContents (contents ext tr) (contents ext tr')) (hq : p.1 = q.1) (hw : words (tr ++ [p]) < 2 ^ 60)
    (hw' : words (tr' ++ [q]) < 2 ^ 60) (hd : Decided (libOf ext) (contents ext tr) (heard (libOf ext) p.1) ∨ Alike p.2 q.2) :
    Alike p.2 q.2 ∧ SameContents (contents ext (tr ++ [p])) (contents ext (tr' ++ [q])) := by
  obtain ⟨req, m⟩ := p
  obtain ⟨req', m'⟩ := q
  cases (show req = req' from hq)
  have w1 : words tr + req.length < 2 ^ 60 := by simpa [ZSpec.words] using hw
  have w2 : words tr' + req.length < 2 ^ 60 := by simpa [ZSpec.words] using hw'
  obtain ⟨s0, it, h0, ha⟩ := h.last
  obtain ⟨s0', it', h0', ha'⟩ := h'.last
  have e1 : Ends ext it s0 req (.reply m) := ⟨s, ha⟩
  have e2 : Ends ext it' s0' req (.reply m') := ⟨s', ha'⟩
  have hm : Alike m m' := by
    rcases hd with hd | hd
    · exact C75_same_contents h0 h0' hr hr' hc w1 w2 hd e1 e2
    · exact hd
  refine ⟨hm, ?_⟩
  obtain ⟨o1, _, u1, f1⟩ := C65_outcome h0 it w1
  obtain ⟨o2, _, u2, f2⟩ := C65_outcome h0' it' w2
  cases u1 _ e1
  cases u2 _ e2
  rw [contents_snoc, contents_snoc]
  dsimp only
  cases hh : heard (libOf ext) req with
  | nil =>
    rw [hh] at f1
    cases f1
  | cons name args =>
    rw [hh] at f1 f2
    exact hc.step (contents_fresh h0 (by omega)) (contents_fresh h0' (by omega)) hm f1 f2

/-- every request of the list was decided by the contents, or happened to be answered alike -/
def DecidedAll (ext : Ext) (tr : List (List Bytes × Reply)) : List (List Bytes × Reply) → List (List Bytes × Reply) → Prop
  | p :: f, q :: f' => (Decided (libOf ext) (contents ext tr) (heard (libOf ext) p.1) ∨ Alike p.2 q.2) ∧ DecidedAll ext (tr ++ [p]) f f'
  | _, _ => True

/-- **C75**, for the whole future: if the two servers get the same further requests, all replies are alike, and so are the contents afterwards. -/
theorem C75_same_future (h : Trace ext (Store.init rng) (tr ++ f) s) (h' : Trace ext (Store.init rng') (tr' ++ f') s') (hr : ∀ i, rng i ≤ 30)
    (hr' : ∀ i, rng' i ≤ 30) (hc : SameContents (contents ext tr) (contents ext tr')) (hq : f.map (·.1) = f'.map (·.1)) (hw : words (tr ++ f) < 2 ^ 60)
    (hw' : words (tr' ++ f') < 2 ^ 60) (hd : DecidedAll ext tr f f') :
    List.Forall₂ (fun p q => Alike p.2 q.2) f f' ∧ SameContents (contents ext (tr ++ f)) (contents ext (tr' ++ f')) := by
  induction f generalizing tr tr' f' with
  | nil =>
    cases f' with
    | nil => simpa using hc
    | cons q f' => simp at hq
  | cons p f ih =>
    cases f' with
    | nil => simp at hq
    | cons q f' =>
      simp only [List.map_cons, List.cons.injEq] at hq
      rw [show tr ++ p :: f = (tr ++ [p]) ++ f by simp] at h hw ⊢
      rw [show tr' ++ q :: f' = (tr' ++ [q]) ++ f' by simp] at h' hw' ⊢
      obtain ⟨t, ht, _⟩ := h.split
      obtain ⟨t', ht', _⟩ := h'.split
      have wle : ∀ a b : List (List Bytes × Reply), words a ≤ words (a ++ b) := fun a b => by simp [ZSpec.words]
      obtain ⟨hm, hc'⟩ := same_next ht ht' hr hr' hc hq.1 (lt_of_le_of_lt (wle _ _) hw) (lt_of_le_of_lt (wle _ _) hw') hd.1
      obtain ⟨h1, h2⟩ := ih h h' hc' hq.2 hw hw' hd.2
      exact ⟨.cons hm h1, h2⟩

end Godis
