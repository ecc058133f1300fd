import Verif.Proofs.ZSets6
/-! Sorted sets: lemmas for the property theorems. -/
namespace Godis
open Resp (Reply bulks)
open ZSpec
open ListSpec (OnlyUses errType errArgs errRange window)
open StrSpec (int64 lower isError Ascii setStores)
open KeySpec (KView foreign keyArgs readOnly)

variable {s s' : Store} {k : Bytes} {ext : Ext} {it : Iter} {args : List Bytes} {m : Reply} {w : Bytes → ZView} {N : Num}
  {tr : List (List Bytes × Reply)} {z : ZVal}

theorem History.nil (ext : Ext) (rng : Rng) : History ext [] (Store.init rng) := ⟨⟨rng, .nil⟩, nofun, by decide⟩

theorem History.last {req : List Bytes} (h : History ext (tr ++ [(req, m)]) s') :
    ∃ s it, History ext tr s ∧ Answers ext it s req m s' := by
  obtain ⟨⟨rng, h1⟩, h2, h3⟩ := h
  generalize ht : tr ++ [(req, m)] = tr' at h1
  cases h1 with
  | nil => simp at ht
  | @snoc tr0 s it req0 m0 s'0 hprev ha =>
    obtain ⟨rfl, hh⟩ := List.append_inj' ht rfl
    cases hh
    refine ⟨s, it, ⟨⟨rng, hprev⟩, fun p hp => h2 p (by simp [hp]), ?_⟩, ha⟩
    rw [words_snoc] at h3
    omega

theorem History.fits {name : Bytes} (h : History ext (tr ++ [(name :: args, m)]) s') (hc : lower name ∈ commands) :
    Fits (numOf ext) (after (numOf ext) tr) (lower name) args m := by
  obtain ⟨s, it, ⟨⟨rng, h1⟩, h2, h3⟩, ha⟩ := h.last
  obtain ⟨-, h4, h5⟩ := h
  rw [words_snoc] at h5
  simp only [List.length_cons] at h5
  exact h1.zfits h2 (by omega) (h4 (name :: args, m) (by simp) name rfl) hc ha

theorem History.shown' (h : History ext tr s) (hk : Sane (numOf ext) tr k) : Shown ext s k (contents (numOf ext) tr k) :=
  h.shown hk.1 hk.2

theorem History.entries (h : History ext tr s) (k : Bytes) : Entries (contents (numOf ext) tr k) := (h.zgood.seen_entries k).1

theorem digits_ascii : ∀ (cs : List UInt8) (o : Option Nat), (cs.foldl Resp.digit o).isSome → ∀ c ∈ cs, 48 ≤ c.toNat ∧ c.toNat ≤ 57
  | [], _, _, _, hc => by cases hc
  | a :: cs, o, h, c, hc => by
    rw [List.foldl_cons] at h
    have hnone : ∀ cs : List UInt8, cs.foldl Resp.digit none = none := by
      intro cs; induction cs with
      | nil => rfl
      | cons a cs ih => rw [List.foldl_cons]; exact ih
    have ha : (Resp.digit o a).isSome := by
      cases hd : Resp.digit o a with
      | none => rw [hd, hnone] at h; cases h
      | some _ => rfl
    rcases List.mem_cons.mp hc with rfl | hc
    · unfold Resp.digit at ha
      split at ha
      · cases ha
      · split at ha
        · next h => exact h
        · cases ha
    · exact digits_ascii cs _ h c hc

theorem int64_chars {a : Bytes} {i : Int} (h : int64 a = some i) : ∀ c ∈ a, c = 45 ∨ c = 43 ∨ 48 ≤ c.toNat ∧ c.toNat ≤ 57 := by
  unfold int64 at h
  cases hs : StrSpec.signed a with
  | none => rw [hs] at h; cases h
  | some i =>
    have key : ∀ cs : List UInt8, (Resp.dec cs).isSome → ∀ c ∈ cs, 48 ≤ c.toNat ∧ c.toNat ≤ 57 := by
      intro cs hd
      unfold Resp.dec at hd
      split at hd
      · cases hd
      · exact digits_ascii cs _ hd
    have hsome : ∀ {α β : Type} {o : Option α} {f : α → β} {b : β}, o.map f = some b → o.isSome := by
      intro α β o f b h; cases o with | none => cases h | some _ => rfl
    unfold StrSpec.signed at hs
    intro c hc
    split at hs
    · rcases List.mem_cons.mp hc with rfl | hc
      · exact .inl rfl
      · exact .inr (.inr (key _ (hsome hs) c hc))
    · rcases List.mem_cons.mp hc with rfl | hc
      · exact .inr (.inl rfl)
      · exact .inr (.inr (key _ (hsome hs) c hc))
    · exact .inr (.inr (key _ (hsome hs) c hc))

theorem int64_lower {a : Bytes} {i : Int} (h : int64 a = some i) : (numOf ext).lower a = a := by
  have hc := int64_chars h
  have h1 : (numOf ext).lower a = lower a := lower_eq (uni := ext.lowerUni) (s := a) (by
    intro c hca
    rcases hc c hca with rfl | rfl | h <;> first | decide | omega)
  rw [h1]
  unfold lower
  conv => rhs; rw [← List.map_id a]
  apply List.map_congr_left
  intro c hca
  rw [if_neg]; rfl
  rcases hc c hca with rfl | rfl | h
  · decide
  · decide
  · omega

theorem int64_no_flag {a : Bytes} {i : Int} (h : int64 a = some i) :
    (numOf ext).lower a ≠ s!! "byscore" ∧ (numOf ext).lower a ≠ s!! "withscores" := by
  rw [int64_lower h]
  constructor
  · rintro rfl; rw [show int64 (s!! "byscore") = none by decide] at h; cases h
  · rintro rfl; rw [show int64 (s!! "withscores") = none by decide] at h; cases h

/-- order and dictionary are the same information -/
structure Agree (z : ZVal) : Prop where
  dict : ∀ e ∈ z.order, z.dict e.2 = some e.1
  closed : Closed z

theorem Agree.empty : Agree empty := ⟨nofun, closed_empty⟩

theorem mem_assign {z : ZVal} {sc : F64} {x : Bytes} {e : Entry} (h : e ∈ (assign z sc x).order) : e = (sc, x) ∨ e ∈ z.order ∧ e.2 ≠ x := by
  unfold assign place at h
  simp only [List.mem_append, List.mem_cons] at h
  have hw : ∀ {e}, e ∈ without x z.order → e ∈ z.order ∧ e.2 ≠ x := by
    intro e h; unfold without at h; simpa using h
  rcases h with h | h | h
  · exact .inr (hw (List.takeWhile_subset _ h))
  · exact .inl h
  · exact .inr (hw (List.dropWhile_subset _ h))

theorem Agree.assign (h : Agree z) (sc : F64) (x : Bytes) : Agree (assign z sc x) := by
  refine ⟨fun e he => ?_, h.closed.assign sc x⟩
  show (if e.2 = x then some sc else z.dict e.2) = some e.1
  rcases mem_assign he with rfl | ⟨h1, h2⟩
  · simp
  · rw [if_neg h2]; exact h.dict e h1

theorem Agree.lookup (h : Agree z) (x : Bytes) : z.dict x = scoreIn z.order x := by
  unfold scoreIn
  cases hf : z.order.find? (fun e => decide (e.2 = x)) with
  | none =>
    cases hd : z.dict x with
    | none => rfl
    | some sc =>
      have := h.closed x sc hd
      unfold members at this
      obtain ⟨f, h3, h4⟩ := List.mem_map.mp this
      have := List.find?_eq_none.mp hf f h3
      simp [h4] at this
  | some e =>
    have h3 := List.mem_of_find?_eq_some hf
    have h4 := List.find?_some hf
    simp only [decide_eq_true_eq] at h4
    rw [← h4]; exact h.dict e h3

theorem scoreIn_none {l : List Entry} {x : Bytes} (h : scoreIn l x = none) : without x l = l := by
  unfold scoreIn at h
  unfold without
  rw [List.filter_eq_self]
  intro e he
  simp only [Option.map_eq_none_iff, List.find?_eq_none, decide_eq_true_eq] at h
  simpa using h e he

theorem Agree.addOne (h : Agree z) {f : Flags} {sc : F64} {x : Bytes} {z' : ZVal} {n n0 : Nat} (ha : addOne N f z sc x = some (z', n)) :
    Agree z' ∧ (z'.order, n0 + n) = addEntry N f (z.order, n0) (sc, x) := by
  have hl := h.lookup x
  unfold ZSpec.addOne at ha
  unfold addEntry
  cases hd : z.dict x with
  | none =>
    rw [hd] at ha hl
    rw [← hl]
    simp only at ha ⊢
    by_cases hx : f.xx = true
    · rw [if_pos hx] at ha ⊢; cases ha; exact ⟨h, rfl⟩
    · rw [if_neg hx] at ha ⊢
      split at ha
      · cases ha
      · cases ha
        refine ⟨h.assign sc x, ?_⟩
        show (place (sc, x) (without x z.order), n0 + 1) = _
        rw [scoreIn_none hl.symm]
  | some old =>
    rw [hd] at ha hl
    rw [← hl]
    simp only at ha ⊢
    generalize (if f.incr then N.add sc old else sc) = sc' at ha ⊢
    by_cases hx : f.nx = true
    · rw [if_pos hx] at ha ⊢; cases ha; exact ⟨h, rfl⟩
    · rw [if_neg hx] at ha ⊢
      by_cases he : sc'.eq old = true
      · rw [if_pos he] at ha ⊢; cases ha; exact ⟨h, rfl⟩
      · rw [if_neg he] at ha ⊢
        rw [if_neg (not_not.mpr (h.closed x old hd))] at ha
        split at ha
        · cases ha
        · cases ha
          exact ⟨h.assign sc' x, rfl⟩

theorem Agree.addAll {f : Flags} : ∀ (es : List Entry) {z z' : ZVal} {n n0 : Nat}, Agree z → addAll N f es z = some (z', n) →
    Agree z' ∧ (z'.order, n0 + n) = es.foldl (addEntry N f) (z.order, n0)
  | [], _, _, _, _, h, ha => by cases ha; exact ⟨h, rfl⟩
  | (sc, x) :: es, z, z', n, n0, h, ha => by
    unfold ZSpec.addAll at ha
    cases h1 : ZSpec.addOne N f z sc x with
    | none => rw [h1] at ha; cases ha
    | some r =>
      rw [h1, Option.bind_some] at ha
      cases h2 : ZSpec.addAll N f es r.1 with
      | none => rw [h2] at ha; cases ha
      | some r' =>
        rw [h2] at ha; cases ha
        obtain ⟨a1, a2⟩ := h.addOne (n0 := n0) h1
        obtain ⟨b1, b2⟩ := Agree.addAll es (n0 := n0 + r.2) a1 h2
        refine ⟨b1, ?_⟩
        rw [List.foldl_cons, ← a2, ← b2, Nat.add_assoc]

theorem History.agree (h : History ext tr s) (hno : NeverPops k tr) : Agree (seen (after (numOf ext) tr k)) :=
  ⟨(h.zgood.seen_entries k).2, closed_seen hno⟩

/-! ## removal near the front -/

theorem without_drop {x : Bytes} {l : List Entry} (y : Bytes) (h : y ∉ members (l.drop 2)) : y ∉ members ((without x l).drop 2) := by
  intro hy
  apply h
  unfold members without at *
  obtain ⟨e, he, rfl⟩ := List.mem_map.mp hy
  refine List.mem_map.mpr ⟨e, ?_, rfl⟩
  have : ∀ (n : Nat) (l : List Entry), e ∈ (l.filter (fun e => decide (e.2 ≠ x))).drop n → e ∈ l.drop n := by
    intro n l
    induction l generalizing n with
    | nil => simp
    | cons a l ih =>
      intro h
      cases n with
      | zero => exact List.mem_of_mem_filter h
      | succ n =>
        rw [List.drop_succ_cons]
        rw [List.filter_cons] at h
        split at h
        · rw [List.drop_succ_cons] at h; exact ih n h
        · have := ih (n + 1) h
          rw [Nat.add_comm, ← List.drop_drop] at this
          exact List.mem_of_mem_drop (by rw [List.drop_drop, Nat.add_comm, ← List.drop_drop] at this; exact this)
  exact this 2 l he

theorem removeAll_front : ∀ (xs : List Bytes) {z : ZVal}, Agree z → (members z.order).Nodup → (∀ x ∈ xs, x ∉ members (z.order.drop 2)) →
    ∃ z', removeAll xs z = some (z', ((members z.order).filter (fun x => decide (x ∈ xs))).length) ∧
      z'.order = z.order.filter (fun e => decide (e.2 ∉ xs)) ∧ Agree z' ∧ ∀ x ∈ xs, z'.dict x = none
  | [], z, h, _, _ => by
    refine ⟨z, by simp [removeAll], by simp, h, nofun⟩
  | x :: xs, z, h, hn, hx => by
    unfold removeAll removeOne
    by_cases hd : (z.dict x).isNone = true
    · rw [if_pos hd, Option.bind_some]
      obtain ⟨z', h1, h2, h3, h4⟩ := removeAll_front xs h hn (fun y hy => hx y (by simp [hy]))
      have hx0 : x ∉ members z.order := by
        intro hm
        unfold members at hm
        obtain ⟨e, he, rfl⟩ := List.mem_map.mp hm
        rw [h.dict e he] at hd; cases hd
      have e1 : ∀ e ∈ z.order, e.2 ≠ x := fun e he hh => hx0 (List.mem_map.mpr ⟨e, he, hh⟩)
      refine ⟨z', ?_, ?_, h3, ?_⟩
      · simp only [h1, Option.map_some, Nat.zero_add]
        congr 3
        apply List.filter_congr
        intro y hy
        have : y ≠ x := fun hh => hx0 (hh ▸ hy)
        simp [this]
      · rw [h2]
        apply List.filter_congr
        intro e he
        simp [e1 e he]
      · intro y hy
        rcases List.mem_cons.mp hy with rfl | hy
        · by_cases hh : y ∈ xs
          · exact h4 y hh
          · rw [removeAll_dict xs h1 y, if_neg hh]; simpa using hd
        · exact h4 y hy
    · rw [if_neg hd, if_neg (hx x (by simp)), Option.bind_some]
      have ha : Agree ⟨without x z.order, fun y => if y = x then none else z.dict y⟩ := by
        constructor
        · intro e he
          have he : e ∈ z.order ∧ e.2 ≠ x := by simpa [without] using he
          show (if e.2 = x then none else z.dict e.2) = some e.1
          rw [if_neg he.2]; exact h.dict e he.1
        · intro y sc hy
          simp only at hy ⊢
          rw [mem_without]
          by_cases hyx : y = x
          · rw [if_pos hyx] at hy; cases hy
          · rw [if_neg hyx] at hy; exact ⟨hyx, h.closed y sc hy⟩
      have hmw : members (without x z.order) = (members z.order).filter (fun y => decide (y ≠ x)) := by
        unfold members without
        rw [List.filter_map]; rfl
      obtain ⟨z', h1, h2, h3, h4⟩ := removeAll_front xs (z := ⟨without x z.order, fun y => if y = x then none else z.dict y⟩) ha
        (by show (members (without x z.order)).Nodup; rw [hmw]; exact hn.filter _)
        (fun y hy => without_drop y (hx y (by simp [hy])))
      refine ⟨z', ?_, ?_, h3, ?_⟩
      · rw [h1]
        simp only [Option.map_some]
        congr 2
        rw [hmw]
        have hm : x ∈ members z.order := by
          cases hd' : z.dict x with
          | none => rw [hd'] at hd; exact absurd rfl hd
          | some sc => exact h.closed x sc hd'
        generalize members z.order = l at hn hm
        clear h1 h2 hmw
        induction l with
        | nil => cases hm
        | cons a l ih =>
          obtain ⟨hn1, hn2⟩ := List.nodup_cons.mp hn
          by_cases hax : a = x
          · subst hax
            have h0 : ∀ y ∈ l, y ≠ a := fun y hy hh => hn1 (hh ▸ hy)
            have e1 : l.filter (fun y => decide (y ≠ a)) = l := by
              rw [List.filter_eq_self]; intro y hy; simpa using h0 y hy
            have e2 : l.filter (fun y => decide (y ∈ a :: xs)) = l.filter (fun y => decide (y ∈ xs)) := by
              apply List.filter_congr; intro y hy; simp [h0 y hy]
            rw [List.filter_cons_of_neg (by simp), e1, List.filter_cons_of_pos (by simp), e2, List.length_cons, Nat.add_comm]
          · rw [List.filter_cons_of_pos (by simpa using hax)]
            have ih := ih hn2 ((List.mem_cons.mp hm).resolve_left (Ne.symm hax))
            by_cases hxs : a ∈ xs
            · rw [List.filter_cons_of_pos (by simpa using hxs), List.filter_cons_of_pos (by simp [hxs]), List.length_cons, List.length_cons, ← ih]
              omega
            · rw [List.filter_cons_of_neg (by simpa using hxs), List.filter_cons_of_neg (by simp [hxs, hax]), ← ih]
      · rw [h2]
        show (without x z.order).filter _ = _
        unfold without
        rw [List.filter_filter]
        apply List.filter_congr
        intro e _
        by_cases e1 : e.2 = x <;> simp [e1]
      · intro y hy
        rcases List.mem_cons.mp hy with rfl | hy
        · by_cases hh : y ∈ xs
          · exact h4 y hh
          · rw [removeAll_dict xs h1 y, if_neg hh]; simp
        · exact h4 y hy

/-! ## no damage -/

theorem addOne_total {f : Flags} {sc : F64} {x : Bytes} (hf : f.incr = false) (hs : sc.isNaN = false) : ∃ r, addOne N f z sc x = some r := by
  unfold addOne
  rw [hf]
  simp only [Bool.false_eq_true, if_false, hs]
  repeat' split
  all_goals exact ⟨_, rfl⟩

theorem addAll_total {f : Flags} (hf : f.incr = false) : ∀ (es : List Entry) (z : ZVal), (∀ e ∈ es, e.1.isNaN = false) →
    ∃ r, addAll N f es z = some r
  | [], z, _ => ⟨_, rfl⟩
  | (sc, x) :: es, z, h => by
    obtain ⟨r, hr⟩ := addOne_total (N := N) (z := z) (x := x) hf (h (sc, x) (by simp))
    obtain ⟨r', hr'⟩ := addAll_total hf es r.1 (fun e he => h e (by simp [he]))
    unfold addAll
    rw [hr, Option.bind_some, hr']
    exact ⟨_, rfl⟩

theorem added_fine {v : ZView} {f : Flags} {es : List Entry} (hv : v ≠ .other ∧ v ≠ .here none) (hf : f.incr = false) (he : ∀ e ∈ es, e.1.isNaN = false) :
    added N f es v ≠ .other ∧ added N f es v ≠ .here none := by
  rcases v with _ | _ | _ | z
  · obtain ⟨r, hr⟩ := addAll_total (N := N) hf es empty he
    simp only [added, hr]
    exact ⟨nofun, nofun⟩
  · exact absurd rfl hv.1
  · exact absurd rfl hv.2
  · obtain ⟨r, hr⟩ := addAll_total (N := N) hf es z he
    simp only [added, Option.bind_some, hr]
    exact ⟨nofun, nofun⟩

theorem calm_sane (h : Calm N k tr) : Sane N tr k := by
  induction tr using List.reverseRecOn with
  | nil => exact ⟨nofun, nofun⟩
  | append_singleton tr p ih =>
    have hv := ih (fun q hq => h q (by simp [hq]))
    have hp := h p (by simp)
    unfold Sane at hv ⊢
    rw [zsets_snoc]
    obtain ⟨req, m⟩ := p
    simp only at hp ⊢
    have hkey : ∀ n ∈ [b! "zadd", b! "zincr", b! "zrem", b! "zpopmax"], ∀ rest, k ∈ keyArgs n (k :: rest) := by
      intro n hn rest
      simp only [List.mem_cons, List.not_mem_nil, or_false] at hn
      rcases hn with rfl | rfl | rfl | rfl <;> (show k ∈ [k]; simp)
    have hro : ∀ n ∈ [b! "zincr", b! "zrem", b! "zpopmax"], n ∉ readOnly ∧ n ∉ [b! "zpopmin"] ∧ n ≠ b! "zadd" := by decide
    refine zstep_cases (P := fun v => v ≠ .other ∧ v ≠ .here none) hv ?_ ?_ ?_ ?_ ?_ ?_
    · intro hn a b rest es f he ha
      rw [hn, he] at hp
      rcases hp (hkey _ (by decide) _) with hc | hc | ⟨_, hc⟩
      · exact absurd hc (by decide)
      · exact absurd hc (by decide)
      · have hreq : req.drop 2 = a :: b :: rest := by
          rcases req with _ | ⟨n0, r⟩
          · cases he
          · simp only [List.tail_cons] at he; subst he; rfl
        obtain ⟨h1, h2⟩ := hc es f (by rw [hreq]; exact ha)
        exact added_fine hv h1 h2
    · intro hn d x rest sc he _
      rw [hn, he] at hp
      obtain ⟨h1, h2, h3⟩ := hro (b! "zincr") (by decide)
      rcases hp (hkey _ (by decide) _) with hc | hc | ⟨hc, _⟩
      · exact absurd hc h2
      · exact absurd hc h1
      · exact absurd hc h3
    · intro hn x xs he
      rw [hn, he] at hp
      obtain ⟨h1, h2, h3⟩ := hro (b! "zrem") (by decide)
      rcases hp (hkey _ (by decide) _) with hc | hc | ⟨hc, _⟩
      · exact absurd hc h2
      · exact absurd hc h1
      · exact absurd hc h3
    · intro hn rest n he _
      rcases hw : after N tr k with _ | _ | _ | z
      · exact ⟨nofun, nofun⟩
      · exact absurd hw hv.1
      · exact absurd hw hv.2
      · simp only [change]
        split <;> exact ⟨nofun, nofun⟩
    · intro hn rest n he _
      rw [hn, he] at hp
      obtain ⟨h1, h2, h3⟩ := hro (b! "zpopmax") (by decide)
      rcases hp (hkey _ (by decide) _) with hc | hc | ⟨hc, _⟩
      · exact absurd hc h2
      · exact absurd hc h1
      · exact absurd hc h3
    · intro hn
      have : foreign k (after N tr k) (lower (req.headD [])) req.tail m = after N tr k := by
        by_cases hk : k ∈ keyArgs (lower (req.headD [])) req.tail
        · rcases hp hk with hc | hc | ⟨hc, _⟩
          · simp only [List.mem_cons, List.not_mem_nil, or_false] at hc
            rw [hc] at hn; exact absurd (by decide) hn
          · exact foreign_readOnly hc
          · rw [hc] at hn; exact absurd (by decide) hn
        · exact foreign_unnamed hk
      rw [this]; exact hv

end Godis
