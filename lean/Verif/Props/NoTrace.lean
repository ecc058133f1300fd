import Verif.Proofs.NoTrace
import Verif.Props.Contents
import Verif.Props.Play
import Verif.Props.Batch
/-!
# C76: what has been deleted or overwritten leaves no trace

A client may use scratch keys: once they are deleted, the server answers as if they had never existed.
-/
namespace Godis
open Resp (Reply bulks)
open StrSpec (lower isError)
open RefSpec (SameContents Decided Alike Outcome heard heardAll changedBy reset World Unshared Kept SameOutside)
open ZSpec (words)

variable {ext : Ext} {rng rng' : Rng} {s s' : Store} {tr tr' f d d' : List (List Bytes × Reply)} {K : Bytes → Prop}

/-- requests that change only keys in `K` leave the other keys alone -/
theorem kept_history {O : Nat → Prop} {W0 : World} (h : Kept K O W0 (contents ext tr)) (hf : ∀ p ∈ f, ∀ k ∈ changedBy (heard (libOf ext) p.1), K k) :
    Kept K O W0 (contents ext (tr ++ f)) := by
  induction f generalizing tr with
  | nil => simpa using h
  | cons p f ih =>
    rw [show tr ++ p :: f = (tr ++ [p]) ++ f by simp]
    refine ih ?_ (fun q hq => hf q (by simp [hq]))
    rw [contents_snoc]
    exact h.step (hf p (by simp)) p.2

/-- what `DEL k` or `SET k v` does -/
theorem reset_contents {r : Bytes × Option Bytes} {m : Reply} (h : Trace ext (Store.init rng) (tr ++ [(reset r, m)]) s) :
    contents ext (tr ++ [(reset r, m)]) = (contents ext tr).put r.1 (r.2.elim .absent .text) := by
  rw [contents_snoc]
  obtain ⟨s0, it, h0, ha⟩ := h.last
  rw [← heard_answers] at ha
  match r, ha with
  | (k, none), ha =>
    have hh : heard (libOf ext) (reset (k, none)) = [b! "del", k] := rfl
    rw [hh] at ha
    rw [del_answers] at ha
    rw [show m = _ from ha.1]
    rfl
  | (k, some v), ha =>
    have hh : heard (libOf ext) (reset (k, some v)) = [b! "set", k, v] := rfl
    rw [hh] at ha
    rw [set_answers] at ha
    rw [show m = _ from ha.1]
    rfl

theorem reset_all {rs : List (Bytes × Option Bytes)} (h : Trace ext (Store.init rng) (tr ++ d) s) (h' : Trace ext (Store.init rng') (tr' ++ d') s')
    (hd : d.map (·.1) = rs.map reset) (hd' : d'.map (·.1) = rs.map reset) (ho : SameOutside K (contents ext tr) (contents ext tr')) :
    SameOutside (fun k => K k ∧ k ∉ rs.map (·.1)) (contents ext (tr ++ d)) (contents ext (tr' ++ d')) := by
  induction rs generalizing tr tr' d d' K with
  | nil =>
    simp only [List.map_nil, List.map_eq_nil_iff] at hd hd'
    subst hd hd'
    simp only [List.append_nil]
    exact ho.mono (fun k hk => ⟨hk, by simp⟩)
  | cons r rs ih =>
    match d, d', hd, hd' with
    | (q, m) :: d, (q', m') :: d', hd, hd' =>
      simp only [List.map_cons, List.cons.injEq] at hd hd'
      obtain ⟨rfl, hd⟩ := hd
      obtain ⟨rfl, hd'⟩ := hd'
      rw [show tr ++ (reset r, m) :: d = (tr ++ [(reset r, m)]) ++ d by simp] at h ⊢
      rw [show tr' ++ (reset r, m') :: d' = (tr' ++ [(reset r, m')]) ++ d' by simp] at h' ⊢
      obtain ⟨t, ht, _⟩ := h.split
      obtain ⟨t', ht', _⟩ := h'.split
      have hv : ∀ i, (r.2.elim RefSpec.Holding.absent .text) ≠ .set i := by cases r.2 <;> nofun
      have := ho.put r.1 hv
      rw [← reset_contents ht, ← reset_contents ht'] at this
      refine (ih h h' hd hd' this).mono ?_
      rintro k ⟨⟨h1, h2⟩, h3⟩
      refine ⟨h1, ?_⟩
      simp only [List.map_cons, List.mem_cons, not_or]
      exact ⟨h2, h3⟩

theorem kept_start (h : Trace ext (Store.init rng) tr s) (hw : words tr < 2 ^ 60) (ha : Unshared (contents ext tr) K) :
    Kept K (fun i => ∃ k, ¬ K k ∧ (contents ext tr).holds k = .set i) (contents ext tr) (contents ext tr) := by
  refine ⟨fun _ _ => rfl, fun _ _ => rfl, fun k hk i ⟨j, hj, e⟩ hi => ?_, fun i ⟨j, hj, e⟩ => ?_⟩
  · exact ha k j hk hj ⟨i, by show ((contents ext tr).holds k).setName = _; rw [hi]; rfl, by show ((contents ext tr).holds j).setName = _; rw [e]; rfl⟩
  · exact contents_fresh h hw j i (by show ((contents ext tr).holds j).setName = _; rw [e]; rfl)

/-- **C76.**  If, after a history `tr`, requests `f` change only some keys, which name no set that another key names, and then those keys are deleted or overwritten with texts,
the contents are the same as without `f`. -/
theorem C76_no_trace {rs : List (Bytes × Option Bytes)} (h : Trace ext (Store.init rng) (tr ++ f ++ d) s) (h' : Trace ext (Store.init rng') (tr ++ d') s')
    (hw : words tr < 2 ^ 60) (hf : ∀ p ∈ f, ∀ k ∈ changedBy (heard (libOf ext) p.1), k ∈ rs.map (·.1)) (ha : Unshared (contents ext tr) (· ∈ rs.map (·.1)))
    (hd : d.map (·.1) = rs.map reset) (hd' : d'.map (·.1) = rs.map reset) : SameContents (contents ext (tr ++ f ++ d)) (contents ext (tr ++ d')) := by
  obtain ⟨t, ht, _⟩ := h'.split
  have hk := kept_history (kept_start ht hw ha) hf
  refine (reset_all h h' hd hd' (hk.outside fun k i hk hi => ⟨k, hk, hi⟩)).all ?_
  rintro k ⟨h1, h2⟩
  exact h2 h1

/-- **C76**, for scratch keys: if the keys were absent before and are deleted afterwards, the contents are the same as before. -/
theorem C76_scratch {ks : List Bytes} (h : Trace ext (Store.init rng) (tr ++ f ++ d) s) (hw : words tr < 2 ^ 60)
    (hf : ∀ p ∈ f, ∀ k ∈ changedBy (heard (libOf ext) p.1), k ∈ ks) (ha : ∀ k ∈ ks, (contents ext tr).holds k = .absent)
    (hd : d.map (·.1) = ks.map fun k => [b! "DEL", k]) : SameContents (contents ext (tr ++ f ++ d)) (contents ext tr) := by
  obtain ⟨t1, h1, -⟩ := h.split
  obtain ⟨t, ht, -⟩ := h1.split
  have hap : Unshared (contents ext tr) (· ∈ ks) := by
    rintro k j hk hj ⟨i, e, _⟩
    have e : ((contents ext tr).holds k).setName = .here i := e
    rw [ha k hk] at e; cases e
  have hk := kept_history (kept_start ht hw hap) hf
  have ho : SameOutside (· ∈ ks) (contents ext (tr ++ f)) (contents ext tr) := hk.outside fun k i hk hi => ⟨k, hk, hi⟩
  clear hk hf hap h1 ht hw
  generalize tr ++ f = tr1 at *
  have : SameOutside (fun k => k ∈ ks ∧ k ∉ ks) (contents ext (tr1 ++ d)) (contents ext tr) := by
    generalize hK : (fun k => k ∈ ks) = K at ho
    suffices hh : SameOutside (fun k => K k ∧ k ∉ ks) (contents ext (tr1 ++ d)) (contents ext tr) by
      subst hK; exact hh
    clear hK
    induction ks generalizing tr1 d K with
    | nil =>
      simp only [List.map_nil, List.map_eq_nil_iff] at hd
      subst hd
      simp only [List.append_nil]
      exact ho.mono (fun k hk => ⟨hk, by simp⟩)
    | cons k ks ih =>
      match d, hd with
      | (q, m) :: d, hd =>
        simp only [List.map_cons, List.cons.injEq] at hd
        obtain ⟨rfl, hd⟩ := hd
        rw [show tr1 ++ ([b! "DEL", k], m) :: d = (tr1 ++ [([b! "DEL", k], m)]) ++ d by simp] at h ⊢
        obtain ⟨t, ht, _⟩ := h.split
        have := ho.del (ha k (by simp))
        rw [← show contents ext (tr1 ++ [([b! "DEL", k], m)]) = (contents ext tr1).put k .absent from reset_contents (r := (k, none)) ht] at this
        refine (ih (fun j hj => ha j (by simp [hj])) hd _ h _ this).mono ?_
        rintro j ⟨⟨h1, h2⟩, h3⟩
        refine ⟨h1, ?_⟩
        simp only [List.mem_cons, not_or]
        exact ⟨h2, h3⟩
  exact this.all fun k hk => hk.2 hk.1

/-- **C76**, observably: a server on which the scratch keys were used and deleted, and one on which they never were, give the same outcome for every request (that the
contents decide). -/
theorem C76_nobody_can_tell {ks : List Bytes} (h : Trace ext (Store.init rng) (tr ++ f ++ d) s) (h' : Trace ext (Store.init rng') tr s') (hr : ∀ i, rng i ≤ 30)
    (hr' : ∀ i, rng' i ≤ 30) {req : List Bytes} (hw : words (tr ++ f ++ d) + req.length < 2 ^ 60)
    (hf : ∀ p ∈ f, ∀ k ∈ changedBy (heard (libOf ext) p.1), k ∈ ks) (ha : ∀ k ∈ ks, (contents ext tr).holds k = .absent)
    (hd : d.map (·.1) = ks.map fun k => [b! "DEL", k]) (hq : Decided (libOf ext) (contents ext tr) (heard (libOf ext) req)) {it it' : Iter} {o o' : Outcome}
    (ho : Ends ext it s req o) (ho' : Ends ext it' s' req o') : o.Alike o' := by
  have wle : words tr ≤ words (tr ++ f ++ d) := by simp [ZSpec.words]
  have hc := C76_scratch h (by omega) hf ha hd
  exact C75_same_contents h h' hr hr' hc hw (by omega) (hc.symm.decided hq) ho ho'

/-! ## cases -/

theorem absent_of_type {W : World} {k : Bytes} (h : (W.holds k).typeName = b! "none") : W.holds k = .absent := by
  cases hh : W.holds k with
  | absent => rfl
  | _ => rw [hh] at h; cases h

/-- a server in use ... -/
def used : List (List Bytes) :=
  [[b! "SADD", b! "s", b! "a", b! "b"], [b! "SADD", b! "t", b! "b", b! "c"], [b! "RPUSH", b! "l", b! "x"], [b! "SET", b! "n", b! "1"]]
/-- ... on which a client computes with scratch keys ... -/
def scratch : List (List Bytes) :=
  [[b! "SUNIONSTORE", b! "tmp", b! "s", b! "t"], [b! "SADD", b! "tmp", b! "d"], [b! "SMEMBERS", b! "s"], [b! "sunionstore", b! "tmp2", b! "tmp"],
   [b! "SREM", b! "tmp2", b! "a"], [b! "SCARD", b! "tmp"], [b! "LRANGE", b! "l", b! "0", b! "-1"]]
/-- ... and deletes them. -/
def cleanUp : List (List Bytes) := [[b! "DEL", b! "tmp"], [b! "DEL", b! "tmp2"]]

/-- a history, cut into parts -/
theorem play_parts {reqs : List (List Bytes)} {a b : Nat} {tr : List (List Bytes × Reply)} {s : Store} (h : play ext0 it0 (Store.init rng0) reqs = some (tr, s)) :
    Trace ext0 (Store.init rng0) (tr.take a ++ (tr.drop a).take b ++ (tr.drop a).drop b) s := by
  rw [List.append_assoc, List.take_append_drop, List.take_append_drop]
  exact play_trace h

/-- Case: the hypotheses of `C76_scratch` and `C76_nobody_can_tell` are met by `used`, `scratch`, `cleanUp` and the request SMEMBERS s. -/
theorem scratch_case : ∃ tr f d s, Trace ext0 (Store.init rng0) (tr ++ f ++ d) s ∧ tr.map (·.1) = used ∧ f.map (·.1) = scratch ∧
    (∀ p ∈ f, ∀ k ∈ changedBy (heard (libOf ext0) p.1), k ∈ [b! "tmp", b! "tmp2"]) ∧ (∀ k ∈ [b! "tmp", b! "tmp2"], (contents ext0 tr).holds k = .absent) ∧
    d.map (·.1) = [b! "tmp", b! "tmp2"].map (fun k => [b! "DEL", k]) ∧ words (tr ++ f ++ d) + 2 < 2 ^ 60 ∧
    Decided (libOf ext0) (contents ext0 tr) (heard (libOf ext0) [b! "SMEMBERS", b! "s"]) := by
  have hd : (play ext0 it0 (Store.init rng0) (used ++ scratch ++ cleanUp)).isSome = true := by decide +kernel
  obtain ⟨⟨tr, s⟩, h⟩ := Option.isSome_iff_exists.mp hd
  have hf := play_fst h
  have hm : ∀ n, (tr.take n).map (·.1) = (used ++ scratch ++ cleanUp).take n := fun n => by rw [← hf, List.map_take]
  have hm' : ∀ n, (tr.drop n).map (·.1) = (used ++ scratch ++ cleanUp).drop n := fun n => by rw [← hf, List.map_drop]
  refine ⟨tr.take 4, (tr.drop 4).take 7, (tr.drop 4).drop 7, s, play_parts h, hm 4, ?_, ?_, ?_, ?_, ?_, ?_⟩
  · rw [List.map_take, hm']; rfl
  · have : ∀ q ∈ ((tr.drop 4).take 7).map (·.1), ∀ k ∈ changedBy (heard (libOf ext0) q), k ∈ [b! "tmp", b! "tmp2"] := by
      rw [List.map_take, hm']; decide +kernel
    exact fun p hp => this p.1 (List.mem_map_of_mem hp)
  · have : (play ext0 it0 (Store.init rng0) (used ++ scratch ++ cleanUp)).all (fun p => [b! "tmp", b! "tmp2"].all fun k =>
        decide (((contents ext0 (p.1.take 4)).holds k).typeName = b! "none")) = true := by decide +kernel
    rw [h] at this
    simp only [Option.all_some, List.all_eq_true, decide_eq_true_eq] at this
    exact fun k hk => absent_of_type (this k hk)
  · rw [List.map_drop, hm']; rfl
  · rw [List.append_assoc, List.take_append_drop, List.take_append_drop]
    have : words tr = ((used ++ scratch ++ cleanUp).map List.length).sum := by rw [← hf]; simp [ZSpec.words, Function.comp_def]
    rw [this]; decide +kernel
  · refine ⟨fun e => absurd e (by decide +kernel), fun e => absurd e (by decide +kernel)⟩

/-- C76 needs that a scratch set has two sources: SUNIONSTORE with one source makes the scratch key another name of the source, and what is done to it stays (a defect of the
server, see C28). -/
theorem C76_alias_violated : replies [[b! "SADD", b! "s", b! "a"], [b! "SUNIONSTORE", b! "tmp", b! "s"], [b! "SADD", b! "tmp", b! "b"], [b! "DEL", b! "tmp"], [b! "SCARD", b! "s"],
      [b! "SISMEMBER", b! "s", b! "b"]] = some [.int 1, .int 1, .int 1, .int 1, .int 2, .int 1] := by decide +kernel

end Godis
