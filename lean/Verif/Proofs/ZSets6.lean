import Verif.Proofs.ZSets5
import Verif.Proofs.Lists3
/-! Sorted sets: the last score given, and what the flags of ZADD mean. -/
namespace Godis
open Resp (Reply bulks)
open ZSpec
open ListSpec (OnlyUses)
open StrSpec (int64 lower isError Ascii setStores)
open KeySpec (KView foreign keyArgs readOnly)

variable {s s' : Store} {k : Bytes} {ext : Ext} {it : Iter} {args : List Bytes} {m : Reply} {w : Bytes → ZView} {N : Num}
  {tr : List (List Bytes × Reply)} {z : ZVal}

theorem foreign_unnamed {α : Type} {v : KView α} {name : Bytes} (h : k ∉ keyArgs name args) : foreign k v name args m = v := by
  unfold KeySpec.foreign
  split
  · rfl
  · split
    · next hn => subst hn; rw [if_neg (fun h' => h (msetKeys_evens _ h'))]
    · split
      · next hn =>
        subst hn
        rw [if_neg (fun h' => h ?_)]
        rcases args with _ | ⟨a, _ | ⟨b, r⟩⟩
        · cases h'
        · cases h'
        · have : b = k := by simpa using h'
          subst this; show b ∈ [a, b]; simp
      · next h1 h2 =>
        split
        · rfl
        · next hh =>
          simp only [ne_eq, not_not] at hh
          have hk : name ∈ KeySpec.noKeys := by
            by_contra hno
            apply h
            unfold keyArgs
            rw [if_neg hno]
            have h1' : ¬ name = s!! "mset" := h1
            have h2' : ¬ name = s!! "smove" := h2
            rw [if_neg h1', if_neg h2']
            cases args with
            | nil => simp at hh
            | cons a r => simp at hh; subst hh; split <;> simp
          simp only [KeySpec.noKeys, List.mem_cons, List.not_mem_nil, or_false] at hk
          rcases hk with rfl | rfl | rfl <;> rfl

theorem foreign_readOnly {α : Type} {v : KView α} {name : Bytes} (h : name ∈ readOnly) : foreign k v name args m = v := by
  have : ∀ n ∈ readOnly, n ∉ [b! "mset", b! "smove", b! "del"] ++ ListSpec.stringWriters ++ KeySpec.collCreators ++ setStores := by decide
  exact foreign_same (this _ h)

theorem addOne_dict {f : Flags} {sc : F64} {x : Bytes} {z' : ZVal} {n : Nat} (hz : Closed z) (h : addOne N f z sc x = some (z', n)) (y : Bytes) :
    z'.dict y = rescore N f y (z.dict y) (sc, x) := by
  unfold rescore
  by_cases hy : x = y
  · subst hy
    rw [if_neg (by simp)]
    unfold addOne at h
    cases hd : z.dict x with
    | none =>
      rw [hd] at h
      simp only at h ⊢
      by_cases hx : f.xx = true
      · rw [if_pos hx] at h ⊢; cases h; exact hd
      · rw [if_neg hx] at h ⊢
        split at h
        · cases h
        · cases h; simp [assign]
    | some old =>
      rw [hd] at h
      simp only at h ⊢
      generalize (if f.incr then N.add sc old else sc) = sc' at h ⊢
      by_cases hx : f.nx = true
      · rw [if_pos hx] at h ⊢; cases h; exact hd
      · rw [if_neg hx] at h ⊢
        by_cases he : sc'.eq old = true
        · rw [if_pos he] at h ⊢; cases h; exact hd
        · rw [if_neg he] at h ⊢
          rw [if_neg (not_not.mpr (hz x old hd))] at h
          split at h
          · cases h
          · cases h; simp [assign]
  · rw [if_pos (by simpa using hy)]
    rcases addOne_cases h with ⟨rfl, _⟩ | ⟨sc', rfl, _⟩
    · rfl
    · simp [assign, Ne.symm hy]

theorem addAll_dict {f : Flags} : ∀ (es : List Entry) {z z' : ZVal} {n : Nat}, Closed z → addAll N f es z = some (z', n) → ∀ y,
    z'.dict y = es.foldl (rescore N f y) (z.dict y)
  | [], _, _, _, _, h, _ => by cases h; rfl
  | (sc, x) :: es, z, z', n, hz, h, y => by
    have h' := h
    unfold addAll at h
    cases h1 : addOne N f z sc x with
    | none => rw [h1] at h; cases h
    | some r =>
      rw [h1, Option.bind_some] at h
      cases h2 : addAll N f es r.1 with
      | none => rw [h2] at h; cases h
      | some r' =>
        rw [h2] at h; cases h
        have hc : Closed r.1 := hz.addAll (es := [(sc, x)]) (n := r.2) (by unfold addAll addAll; rw [h1]; simp)
        rw [List.foldl_cons, addAll_dict es hc h2 y, addOne_dict hz h1 y]

theorem removeAll_dict : ∀ (xs : List Bytes) {z z' : ZVal} {n : Nat}, removeAll xs z = some (z', n) → ∀ y,
    z'.dict y = if y ∈ xs then none else z.dict y
  | [], _, _, _, h, _ => by cases h; simp
  | x :: xs, z, z', n, h, y => by
    unfold removeAll at h
    cases h1 : removeOne z x with
    | none => rw [h1] at h; cases h
    | some r =>
      rw [h1, Option.bind_some] at h
      cases h2 : removeAll xs r.1 with
      | none => rw [h2] at h; cases h
      | some r' =>
        rw [h2] at h; cases h
        rw [removeAll_dict xs h2 y]
        have : r.1.dict y = if y = x then none else z.dict y := by
          rcases removeOne_cases h1 with ⟨h0, h3, _⟩ | ⟨_, _, h3, _⟩
          · rw [h3]; split
            · next e => rw [e, h0]
            · rfl
          · rw [h3]
        rw [this]
        by_cases e1 : y = x
        · simp [e1]
        · by_cases e2 : y ∈ xs <;> simp [e1, e2]

/-- the dictionary of the sorted set at a key, unless it is damaged -/
def Knows (v : ZView) (o : Bytes → Option F64) : Prop := v ≠ .other ∧ (v ≠ .here none → Closed (seen v) ∧ ∀ x, (seen v).dict x = o x)

theorem Knows.added {v : ZView} {o : Bytes → Option F64} (h : Knows v o) (f : Flags) (es : List Entry) :
    Knows (added N f es v) (fun x => es.foldl (rescore N f x) (o x)) := by
  obtain ⟨h1, h2⟩ := h
  rcases v with _ | _ | _ | z
  · refine ⟨nofun, fun hd => ?_⟩
    obtain ⟨_, h3⟩ := h2 nofun
    simp only [ZSpec.added] at hd ⊢
    cases ha : addAll N f es empty with
    | none => rw [ha] at hd; exact absurd rfl hd
    | some r =>
      exact ⟨closed_empty.addAll ha, fun x => by rw [← h3]; exact addAll_dict es closed_empty ha x⟩
  · exact absurd rfl h1
  · exact ⟨nofun, fun hd => absurd rfl hd⟩
  · refine ⟨nofun, fun hd => ?_⟩
    obtain ⟨h4, h3⟩ := h2 nofun
    simp only [ZSpec.added, Option.bind_some] at hd ⊢
    cases ha : addAll N f es z with
    | none => rw [ha] at hd; exact absurd rfl hd
    | some r =>
      exact ⟨h4.addAll ha, fun x => by rw [← h3]; exact addAll_dict es h4 ha x⟩

theorem Knows.removed {v : ZView} {o : Bytes → Option F64} (h : Knows v o) (xs : List Bytes) :
    Knows (change (fun z => (removeAll xs z).map (·.1)) v) (fun x => if x ∈ xs then none else o x) := by
  obtain ⟨h1, h2⟩ := h
  rcases v with _ | _ | _ | z
  · refine ⟨nofun, fun hd => ?_⟩
    obtain ⟨h4, h3⟩ := h2 nofun
    exact ⟨h4, fun x => by
      show (seen (.absent : ZView)).dict x = if x ∈ xs then none else o x
      rw [← h3 x]; split <;> rfl⟩
  · exact absurd rfl h1
  · exact ⟨nofun, fun hd => absurd rfl hd⟩
  · refine ⟨nofun, fun hd => ?_⟩
    obtain ⟨h4, h3⟩ := h2 nofun
    simp only [change] at hd ⊢
    have h4 : Closed z := h4
    have h3 : ∀ x, z.dict x = o x := h3
    by_cases h0 : z.order = []
    · rw [if_pos h0]
      refine ⟨h4, fun x => ?_⟩
      show z.dict x = _
      have hn : ∀ x, z.dict x = none := by
        intro x
        cases hx : z.dict x with
        | none => rfl
        | some sc => have := h4 x sc hx; rw [h0] at this; cases this
      rw [hn, ← h3, hn, ite_self]
    · rw [if_neg h0] at hd ⊢
      cases ha : removeAll xs z with
      | none => rw [ha] at hd; exact absurd rfl hd
      | some r => exact ⟨h4.removeAll ha, fun x => by rw [← h3]; exact removeAll_dict xs ha x⟩

/-- one step of `lastScore` -/
def lastStep (N : Num) (k x : Bytes) (o : Option F64) (p : List Bytes × Reply) : Option F64 :=
  match p.1 with
  | name :: k' :: rest =>
    if k' ≠ k then o
    else if lower name = s!! "zadd" ∧ 2 ≤ rest.length then
      match addArgs N rest {} with
      | some (es, f) => es.foldl (rescore N f x) o
      | none => o
    else if lower name = s!! "zincr" then
      match rest with
      | d :: y :: _ =>
        match N.parse d with
        | some sc => rescore N { incr := true } x o (sc, y)
        | none => o
      | _ => o
    else if lower name = s!! "zrem" ∧ x ∈ rest then none
    else o
  | _ => o

theorem lastScore_snoc (x : Bytes) (p : List Bytes × Reply) : lastScore N k x (tr ++ [p]) = lastStep N k x (lastScore N k x tr) p := by
  unfold lastScore
  rw [List.foldl_append]
  rfl

theorem last_idle {x : Bytes} {o : Option F64} {req : List Bytes}
    (h : lower (req.headD []) ∈ [b! "zadd", b! "zincr", b! "zrem"] → k ∉ keyArgs (lower (req.headD [])) req.tail) : lastStep N k x o (req, m) = o := by
  rcases req with _ | ⟨name, _ | ⟨k', rest⟩⟩
  · rfl
  · rfl
  unfold lastStep
  simp only
  by_cases hk : k' = k
  · subst hk
    rw [if_neg (by simp)]
    have hn : lower name ∉ [b! "zadd", b! "zincr", b! "zrem"] := by
      intro hc
      apply h hc
      show k' ∈ keyArgs (lower name) (k' :: rest)
      simp only [List.mem_cons, List.not_mem_nil, or_false] at hc
      rcases hc with e | e | e <;> (rw [e]; show k' ∈ [k']; simp)
    simp only [List.mem_cons, List.not_mem_nil, or_false, not_or] at hn
    obtain ⟨n1, n2, n3⟩ := hn
    rw [if_neg (fun hh => n1 hh.1), if_neg n2, if_neg (fun hh => n3 hh.1)]
  · rw [if_pos hk]

theorem zstep_knows {req : List Bytes} {o : Bytes → Option F64} (h : Knows (w k) o)
    (hu : k ∈ keyArgs (lower (req.headD [])) req.tail → lower (req.headD []) ∈ [b! "zadd", b! "zincr", b! "zrem"] ∨ lower (req.headD []) ∈ readOnly) :
    Knows (step N w (lower (req.headD [])) req.tail m k) (fun x => lastStep N k x (o x) (req, m)) := by
  have hread : ∀ n ∈ readOnly, n ∉ [b! "zadd", b! "zincr", b! "zrem"] := by decide
  rcases req with _ | ⟨name, args⟩
  · rw [zstep_foreign (by decide)]
    show Knows (foreign k (w k) [] [] m) o
    rw [foreign_unnamed (by show k ∉ ([] : List Bytes); simp)]
    exact h
  show Knows (step N w (lower name) args m k) (fun x => lastStep N k x (o x) (name :: args, m))
  have hu : k ∈ keyArgs (lower name) args → lower name ∈ [b! "zadd", b! "zincr", b! "zrem"] ∨ lower name ∈ readOnly := hu
  by_cases hz : lower name ∈ [b! "zadd", b! "zincr", b! "zrem"]
  · simp only [List.mem_cons, List.not_mem_nil, or_false] at hz
    have hidle : ∀ k' rest, args = k' :: rest → k' ≠ k → (fun x => lastStep N k x (o x) (name :: args, m)) = o := by
      rintro k' rest rfl hk
      funext x
      unfold lastStep
      simp only
      rw [if_pos hk]
    rcases args with _ | ⟨k', rest⟩
    · have e : (fun x => lastStep N k x (o x) ([name], m)) = o := rfl
      rw [e]
      rcases hz with hz | hz | hz <;> (rw [hz]; exact h)
    by_cases hk : k' = k
    · subst hk
      rcases hz with hz | hz | hz
      · rw [hz]
        rcases rest with _ | ⟨a, _ | ⟨b, rest⟩⟩
        · have e : (fun x => lastStep N k' x (o x) ([name, k'], m)) = o := by
            funext x; unfold lastStep; simp only; rw [if_neg (by simp), if_neg (by simp), if_neg (by rw [hz]; decide), if_neg (by simp)]
          rw [e]; exact h
        · have e : (fun x => lastStep N k' x (o x) ([name, k', a], m)) = o := by
            funext x; unfold lastStep; simp only; rw [if_neg (by simp), if_neg (by simp), if_neg (by rw [hz]; decide), if_neg (by rw [hz]; exact fun hh => absurd hh.1 (by decide))]
          rw [e]; exact h
        · have hs : step N w (s!! "zadd") (k' :: a :: b :: rest) m = match addArgs N (a :: b :: rest) {} with
            | none => w
            | some (es, f) => put w k' (ZSpec.added N f es (w k')) := rfl
          have e : (fun x => lastStep N k' x (o x) (name :: k' :: a :: b :: rest, m)) = fun x => match addArgs N (a :: b :: rest) {} with
            | some (es, f) => es.foldl (rescore N f x) (o x)
            | none => o x := by
            funext x; unfold lastStep; simp only; rw [if_neg (by simp), if_pos ⟨hz, by simp⟩]
          rw [hs, e]
          cases ha : addArgs N (a :: b :: rest) {} with
          | none => exact h
          | some r =>
            simp only [put, if_true]
            exact h.added r.2 r.1
      · rw [hz]
        rcases rest with _ | ⟨d, _ | ⟨y, rest⟩⟩
        · have e : (fun x => lastStep N k' x (o x) ([name, k'], m)) = o := by
            funext x; unfold lastStep; simp only; rw [if_neg (by simp), if_neg (by rw [hz]; decide), if_pos hz]
          rw [e]; exact h
        · have e : (fun x => lastStep N k' x (o x) ([name, k', d], m)) = o := by
            funext x; unfold lastStep; simp only; rw [if_neg (by simp), if_neg (by rw [hz]; simp), if_pos hz]
          rw [e]; exact h
        · have hs : step N w (s!! "zincr") (k' :: d :: y :: rest) m = match N.parse d with
            | none => w
            | some sc => put w k' (ZSpec.added N { incr := true } [(sc, y)] (w k')) := rfl
          have e : (fun x => lastStep N k' x (o x) (name :: k' :: d :: y :: rest, m)) = fun x => match N.parse d with
            | some sc => rescore N { incr := true } x (o x) (sc, y)
            | none => o x := by
            funext x; unfold lastStep; simp only; rw [if_neg (by simp), if_neg (by rw [hz]; simp), if_pos hz]
          rw [hs, e]
          cases ha : N.parse d with
          | none => exact h
          | some sc =>
            simp only [put, if_true]
            exact h.added { incr := true } [(sc, y)]
      · rw [hz]
        rcases rest with _ | ⟨y, rest⟩
        · have e : (fun x => lastStep N k' x (o x) ([name, k'], m)) = o := by
            funext x; unfold lastStep; simp only; rw [if_neg (by simp), if_neg (by simp), if_neg (by rw [hz]; decide), if_neg (by simp)]
          rw [e]; exact h
        · have e : (fun x => lastStep N k' x (o x) (name :: k' :: y :: rest, m)) = fun x => if x ∈ y :: rest then none else o x := by
            funext x; unfold lastStep; simp only; rw [if_neg (by simp), if_neg (by rw [hz]; simp), if_neg (by rw [hz]; simp)]
            simp only [hz, true_and]
          rw [e]
          have hs : step N w (s!! "zrem") (k' :: y :: rest) m = put w k' (change (fun z => (removeAll (y :: rest) z).map (·.1)) (w k')) := rfl
          rw [hs]
          simp only [put, if_true]
          exact h.removed (y :: rest)
    · rw [hidle k' rest rfl hk]
      have : step N w (lower name) (k' :: rest) m k = w k := by
        refine zstep_cases (P := fun v => v = w k) rfl ?_ ?_ ?_ ?_ ?_ ?_
        · intro _ a b r es f he; cases he; exact absurd rfl hk
        · intro _ d x r sc he; cases he; exact absurd rfl hk
        · intro _ x xs he; cases he; exact absurd rfl hk
        · intro _ r n he; cases he; exact absurd rfl hk
        · intro _ r n he; cases he; exact absurd rfl hk
        · intro hn; rcases hz with hz | hz | hz <;> (rw [hz] at hn; exact absurd (by decide) hn)
      rw [this]; exact h
  · have e : (fun x => lastStep N k x (o x) (name :: args, m)) = o := by
      funext x; exact last_idle (fun h => absurd h hz)
    rw [e]
    have : step N w (lower name) args m k = w k := by
      have hpop : ∀ n ∈ [b! "zpopmin", b! "zpopmax"], ∀ rest, k ∈ keyArgs n (k :: rest) := by
        intro n hn rest
        simp only [List.mem_cons, List.not_mem_nil, or_false] at hn
        rcases hn with rfl | rfl <;> (show k ∈ [k]; simp)
      have hno : ∀ n ∈ [b! "zpopmin", b! "zpopmax"], n ∉ [b! "zadd", b! "zincr", b! "zrem"] ∧ n ∉ readOnly := by decide
      refine zstep_cases (P := fun v => v = w k) rfl ?_ ?_ ?_ ?_ ?_ ?_
      · intro hn; rw [hn] at hz; exact absurd (by decide) hz
      · intro hn; rw [hn] at hz; exact absurd (by decide) hz
      · intro hn; rw [hn] at hz; exact absurd (by decide) hz
      · intro hn r n he
        rw [hn, he] at hu
        rcases hu (hpop _ (by decide) _) with hc | hc
        · exact absurd hc (hno _ (by decide)).1
        · exact absurd hc (hno _ (by decide)).2
      · intro hn r n he
        rw [hn, he] at hu
        rcases hu (hpop _ (by decide) _) with hc | hc
        · exact absurd hc (hno _ (by decide)).1
        · exact absurd hc (hno _ (by decide)).2
      · intro _
        by_cases hk : k ∈ keyArgs (lower name) args
        · exact foreign_readOnly ((hu hk).resolve_left hz)
        · exact foreign_unnamed hk
    rw [this]; exact h

theorem after_knows (hu : OnlyUses k [b! "zadd", b! "zincr", b! "zrem"] tr) : Knows (after N tr k) (fun x => lastScore N k x tr) := by
  induction tr using List.reverseRecOn with
  | nil => exact ⟨nofun, fun _ => ⟨closed_empty, fun x => rfl⟩⟩
  | append_singleton tr p ih =>
    rw [zsets_snoc]
    have e : (fun x => lastScore N k x (tr ++ [p])) = fun x => lastStep N k x (lastScore N k x tr) (p.1, p.2) := by
      funext x; exact lastScore_snoc x p
    rw [e]
    exact zstep_knows (ih (fun q hq => hu q (by simp [hq]))) (hu p (by simp))

/-! ## the entries are determined by the scores -/

theorem entries_unique {l l' : List Entry} (h : Entries l) (h' : Entries l') (hm : ∀ e, e ∈ l ↔ e ∈ l') : l = l' := by
  have n1 : l.Nodup := List.Nodup.of_map _ h.once
  have n2 : l'.Nodup := List.Nodup.of_map _ h'.once
  have hp : l.Perm l' := (List.perm_ext_iff_of_nodup n1 n2).mpr hm
  refine List.Perm.eq_of_pairwise (le := fun a b => before a b = true) ?_ h.ascending h'.ascending hp
  intro a b _ _ h1 h2
  exfalso
  obtain ⟨_, _, c1⟩ := before_iff.mp h1
  obtain ⟨_, _, c2⟩ := before_iff.mp h2
  rcases c1 with c1 | ⟨c1, d1⟩ <;> rcases c2 with c2 | ⟨c2, d2⟩
  · omega
  · omega
  · omega
  · rw [← bytesLt_iff] at d1 d2
    rw [bytesLt_asymm d1] at d2; cases d2

theorem entry_iff {l : List Entry} {d : Bytes → Option F64} (hl : Entries l) (h1 : ∀ e ∈ l, d e.2 = some e.1)
    (h2 : ∀ x sc, d x = some sc → x ∈ members l) (e : Entry) : e ∈ l ↔ d e.2 = some e.1 := by
  refine ⟨h1 e, fun h => ?_⟩
  have := h2 _ _ h
  unfold members at this
  obtain ⟨f, hf, he⟩ := List.mem_map.mp this
  have h3 := h1 f hf
  rw [he, h] at h3
  have : e = f := by
    exact Prod.ext (Option.some.inj h3) he.symm
  rw [this]; exact hf

end Godis
