import Verif.Proofs.SkipQuery
import Verif.Proofs.ShardMap
import Verif.Spec.ZSets
import Verif.Props.ZDefs
/-! The sorted-set object (dictionary and skip list) holds what `ZSpec` says. -/
namespace Godis
namespace ZSL
variable {z : ZSL} {q : List Elem}

theorem Tall.mono' {i j : Nat} {A : List Elem} (h : Tall i A) (hij : j ≤ i) : Tall j A :=
  fun e he => Nat.lt_of_le_of_lt hij (h e he)

/-- the search of `delete` ends somewhere -/
theorem deleteDescent_ok (R : Rep z q) (score : F64) (value : Bytes) : ∀ (k : Nat) (A B : List Elem) (u : Nat → Option Nat),
    k ≤ z.level → q = A ++ B → Tall (k - 1) A → ∃ A' B' u', deleteDescent z.nodes score value k (cur A) u = .ok (cur A', u') ∧ q = A' ++ B'
  | 0, A, B, u, _, hq, _ => ⟨A, B, u, rfl, hq⟩
  | k + 1, A, B, u, hk, hq, hT => by
    simp only [Nat.add_sub_cancel] at hT
    have hlev := R.links A B hq k (by omega) hT
    rcases short_or k B with hs | ⟨M, e, X, hB, hMs, he⟩
    · obtain ⟨A', B', u', h1, h2⟩ := deleteDescent_ok R score value k A B (upd u k (some (cur A))) (by omega) hq (hT.mono' (by omega))
      refine ⟨A', B', u', ?_, h2⟩
      conv => lhs; unfold deleteDescent
      simp only [level?_eq hlev, nxt_nil_of_short hs, bind, Except.bind, h1]
    · have hqe : q = (A ++ M) ++ e :: X := by rw [hq, hB]; simp
      obtain ⟨nd, n1, n2, n3, _⟩ := R.load hqe
      rw [hB, nxt_tall hMs he] at hlev
      by_cases hb : before nd score value = true
      · obtain ⟨A', B', u', h1, h2⟩ := deleteDescent_ok R score value k (A ++ M ++ [e]) X (upd u k (some e.a)) (by omega)
          (by rw [hqe]; simp) (tall_concat.mpr (by omega))
        refine ⟨A', B', u', ?_, h2⟩
        rw [cur_concat] at h1
        conv => lhs; unfold deleteDescent
        simp only [level?_eq hlev, n1, bind, Except.bind, hb, if_true, h1]
      · obtain ⟨A', B', u', h1, h2⟩ := deleteDescent_ok R score value k A B (upd u k (some (cur A))) (by omega) hq (hT.mono' (by omega))
        refine ⟨A', B', u', ?_, h2⟩
        conv => lhs; unfold deleteDescent
        simp only [level?_eq hlev, n1, bind, Except.bind, hb, Bool.false_eq_true, if_false, h1]

/-- deleting a value that is not there does nothing -/
theorem delete_absent (R : Rep z q) (score : F64) {value : Bytes} (hno : ∀ e ∈ q, e.v ≠ value) : z.delete score value = .ok (z, 0) := by
  obtain ⟨A, B, u, h1, h2⟩ := deleteDescent_ok R score value z.level [] q (fun _ => none) (Nat.le_refl _) rfl (tall_nil _)
  obtain ⟨l, l1, l2⟩ := R.next0 h2
  rw [cur_nil] at h1
  unfold delete
  simp only [h1, l1, l2, bind, Except.bind]
  cases B with
  | nil => rfl
  | cons s S =>
    obtain ⟨nd, n1, n2, n3, _⟩ := R.load h2
    have : s.v ≠ value := hno s (by rw [h2]; simp)
    simp only [List.head?_cons, Option.map_some, n1, n2]
    rw [if_neg (by simp [this])]

end ZSL

open ZSL ZSpec
open ListSpec (window)

def entry (e : Elem) : Entry := (e.sc, e.v)

/-- a sorted-set object and what it holds -/
structure ZRep (zs : ZObj) (z : ZVal) (q : List Elem) : Prop where
  rep : Rep zs.zsl q
  ord : Ordered q
  wf : zs.m.WF
  order : z.order = q.map entry
  live : ∀ e ∈ q, zs.m.get e.v = some e.a
  known : ∀ v a, zs.m.get v = some a → ∃ sc, vs zs.zsl.nodes a = some (v, sc)
  dict : ∀ v, z.dict v = (zs.m.get v).bind (fun a => (vs zs.zsl.nodes a).map (·.2))

variable {zs zs' : ZObj} {z : ZVal} {q : List Elem} {ext : Ext}

theorem zrep_empty : ZRep ZObj.empty ZSpec.empty [] :=
  ⟨rep_empty, ⟨by simp, by simp [Sorted], by simp⟩, SMap.WF.empty, rfl, by simp, (fun v a h => by cases h), fun v => rfl⟩

theorem before_entry (e : Elem) (sc : F64) (x : Bytes) : ZSpec.before (entry e) (sc, x) = bf sc x e := by
  unfold ZSpec.before bf entry
  congr 2
  cases h : bytesLt e.v x with
  | true => exact decide_eq_true ((bytesLt_iff _ _).mp h)
  | false => exact decide_eq_false (fun h' => by rw [(bytesLt_iff _ _).mpr h'] at h; cases h)

theorem takeWhile_cut {α : Type} {p : α → Bool} : ∀ {P S : List α}, (∀ e ∈ P, p e = true) → (∀ e ∈ S, p e = false) →
    (P ++ S).takeWhile p = P ∧ (P ++ S).dropWhile p = S
  | [], [], _, _ => ⟨rfl, rfl⟩
  | [], s :: S, _, h => by simp [h s (by simp)]
  | a :: P, S, h1, h2 => by
    obtain ⟨h3, h4⟩ := takeWhile_cut (P := P) (S := S) (fun e he => h1 e (by simp [he])) h2
    simp [h1 a (by simp), h3, h4]

theorem place_eq {P S : List Elem} {sc : F64} {x : Bytes} (h1 : ∀ e ∈ P, bf sc x e = true) (h2 : ∀ e ∈ S, bf sc x e = false) :
    place (sc, x) ((P ++ S).map entry) = P.map entry ++ (sc, x) :: S.map entry := by
  unfold place
  rw [List.map_append]
  obtain ⟨h3, h4⟩ := takeWhile_cut (p := (ZSpec.before · (sc, x))) (P := P.map entry) (S := S.map entry)
    (by intro e he; obtain ⟨f, hf, rfl⟩ := List.mem_map.mp he; rw [before_entry]; exact h1 f hf)
    (by intro e he; obtain ⟨f, hf, rfl⟩ := List.mem_map.mp he; rw [before_entry]; exact h2 f hf)
  rw [h3, h4]

theorem without_eq (x : Bytes) (q : List Elem) : without x (q.map entry) = (q.filter (fun e => decide (e.v ≠ x))).map entry := by
  unfold without
  rw [List.filter_map]; rfl

theorem without_none {x : Bytes} (h : ∀ e ∈ q, e.v ≠ x) : without x (q.map entry) = q.map entry := by
  rw [without_eq, List.filter_eq_self.mpr (fun e he => by simpa using h e he)]

theorem Ordered.others {P S : List Elem} {e : Elem} (O : Ordered (P ++ e :: S)) : ∀ f ∈ P ++ S, f.v ≠ e.v := by
  have ho := O.once
  simp only [List.map_append, List.map_cons, List.nodup_append, List.nodup_cons] at ho
  intro f hf hc
  rcases List.mem_append.mp hf with h | h
  · exact ho.2.2 f.v (List.mem_map_of_mem h) e.v (by simp) hc
  · exact ho.2.1.1 (hc ▸ List.mem_map_of_mem h)

theorem without_mid {P S : List Elem} {e : Elem} (O : Ordered (P ++ e :: S)) : without e.v ((P ++ e :: S).map entry) = (P ++ S).map entry := by
  have h := Ordered.others O
  rw [without_eq]
  congr 1
  rw [List.filter_append, List.filter_cons, if_neg (by simp)]
  rw [List.filter_eq_self.mpr (fun e he => by simpa using h e (by simp [he])), List.filter_eq_self.mpr (fun e he => by simpa using h e (by simp [he]))]

theorem members_eq (q : List Elem) : members (q.map entry) = q.map (·.v) := by
  unfold members; rw [List.map_map]; rfl

theorem ZRep.mem (h : ZRep zs z q) (x : Bytes) : x ∈ members z.order ↔ ∃ e ∈ q, e.v = x := by
  rw [h.order, members_eq, List.mem_map]

theorem vs_load {h : List ZNode} {y : Nat} {v : Bytes} {sc : F64} (hy : vs h y = some (v, sc)) :
    ∃ n, ZSL.load h y = .ok n ∧ n.value = v ∧ n.score = sc := by
  unfold vs at hy
  cases hn : h[y]? with
  | none => rw [hn] at hy; cases hy
  | some n => rw [hn] at hy; cases hy; exact ⟨n, by simp [ZSL.load, hn], rfl, rfl⟩

theorem vs_elem (R : Rep zs.zsl q) {e : Elem} (he : e ∈ q) : vs zs.zsl.nodes e.a = some (e.v, e.sc) := by
  obtain ⟨P, S, rfl⟩ := List.append_of_mem he
  rw [vs_stat, R.node P e S rfl]; rfl

theorem ZRep.dict_live (h : ZRep zs z q) {e : Elem} (he : e ∈ q) : z.dict e.v = some e.sc := by
  rw [h.dict, h.live e he, Option.bind_some, vs_elem h.rep he]; rfl

theorem ZRep.dict_none (h : ZRep zs z q) {x : Bytes} (hx : z.dict x = none) : zs.m.get x = none := by
  rw [h.dict] at hx
  cases hg : zs.m.get x with
  | none => rfl
  | some a =>
    obtain ⟨n, h2⟩ := h.known x a hg
    rw [hg, Option.bind_some, h2] at hx
    cases hx

theorem ZRep.dict_some (h : ZRep zs z q) {x : Bytes} {sc} (hx : z.dict x = some sc) :
    ∃ a n, zs.m.get x = some a ∧ vs zs.zsl.nodes a = some (x, sc) ∧ ZSL.load zs.zsl.nodes a = .ok n ∧ n.score = sc := by
  rw [h.dict] at hx
  cases hg : zs.m.get x with
  | none => rw [hg] at hx; cases hx
  | some a =>
    obtain ⟨sc', h2⟩ := h.known x a hg
    rw [hg, Option.bind_some, h2] at hx
    cases hx
    obtain ⟨n, h3, h4, h5⟩ := vs_load h2
    exact ⟨a, n, rfl, h2, h3, h5⟩

theorem ZRep.length (h : ZRep zs z q) : z.order.length = q.length := by rw [h.order, List.length_map]

/-- a set whose member `x` gets the score `sc` -/
theorem ZRep.assign (h : ZRep zs z q) {zl' : ZSL} {P S : List Elem} {a ht : Nat} {sc : F64} {x : Bytes}
    (hw : without x z.order = (P ++ S).map entry) (R : Rep zl' (P ++ ⟨a, x, sc, ht⟩ :: S))
    (O : Ordered (P ++ ⟨a, x, sc, ht⟩ :: S)) (h1 : ∀ f ∈ P, bf sc x f = true) (h2 : ∀ f ∈ S, bf sc x f = false)
    (hsub : ∀ f ∈ P ++ S, f ∈ q)
    (hv : ∀ v y, zs.m.get v = some y → v ≠ x → vs zl'.nodes y = vs zs.zsl.nodes y) :
    ZRep ⟨zs.m.set x a, zl'⟩ (ZSpec.assign z sc x) (P ++ ⟨a, x, sc, ht⟩ :: S) := by
  have hnew : vs zl'.nodes a = some (x, sc) := by rw [vs_stat, R.node P _ S rfl]; rfl
  have hoth := Ordered.others O
  refine ⟨R, O, h.wf.set .., ?_, ?_, ?_, ?_⟩
  · show place (sc, x) (without x z.order) = _
    rw [hw, place_eq h1 h2, List.map_append, List.map_cons]; rfl
  · intro e he
    show (zs.m.set x a).get e.v = _
    rw [SMap.get_set]
    rcases List.mem_append.mp he with he | he
    · rw [if_neg (hoth e (by simp [he]))]; exact h.live e (hsub e (by simp [he]))
    · rcases List.mem_cons.mp he with rfl | he
      · rw [if_pos rfl]
      · rw [if_neg (hoth e (by simp [he]))]; exact h.live e (hsub e (by simp [he]))
  · intro v y
    show (zs.m.set x a).get v = _ → _
    rw [SMap.get_set]
    by_cases e : v = x
    · subst e
      rw [if_pos rfl]
      intro hy; cases hy
      exact ⟨sc, hnew⟩
    · rw [if_neg e]
      intro hy
      obtain ⟨sc', h3⟩ := h.known v y hy
      exact ⟨sc', by rw [← h3]; exact hv v y hy e⟩
  · intro v
    show (if v = x then some sc else z.dict v) = ((zs.m.set x a).get v).bind (fun a => (vs zl'.nodes a).map (·.2))
    rw [SMap.get_set]
    by_cases e : v = x
    · subst e
      rw [if_pos rfl, if_pos rfl, Option.bind_some, hnew]; rfl
    · rw [if_neg e, if_neg e, h.dict]
      cases hg : zs.m.get v with
      | none => rfl
      | some y => simp only [Option.bind_some]; rw [hv v y hg e]

/-- the flags -/
def fl (f : ZAddFlags) : Flags := ⟨f.nx, f.xx, f.incr⟩

/-- one step of ZADD -/
theorem ZRep.zAdd (h : ZRep zs z q) (hsm : q.length + 1 < 2 ^ 63) {f : ZAddFlags} {sc : F64} {x : Bytes} {rng rng' : Rng} {node : Option Nat}
    (hr : zs.zAdd ext sc x f rng = .ok (zs', node, rng')) {z' : ZVal} {n : Nat}
    (hs : addOne (numOf ext) (fl f) z sc x = some (z', n)) :
    (∃ q', ZRep zs' z' q' ∧ q'.length ≤ q.length + 1) ∧ n = (if node.isSome then 1 else 0) ∧
      (∀ y, node = some y → ∃ nd sc', ZSL.load zs'.zsl.nodes y = .ok nd ∧ z'.dict x = some sc' ∧ nd.score = sc') := by
  unfold addOne at hs
  unfold ZObj.zAdd at hr
  cases hd : z.dict x with
  | none =>
    have hg := h.dict_none hd
    rw [hd] at hs
    simp only [hg, bind, Except.bind] at hr hs
    have hno : ∀ e ∈ q, e.v ≠ x := by
      rintro e he rfl
      rw [h.dict_live he] at hd; cases hd
    by_cases hxx : f.xx = true
    · rw [if_pos hxx] at hr
      rw [if_pos (show (fl f).xx = true from hxx)] at hs
      cases hr; cases hs
      exact ⟨⟨q, h, by omega⟩, rfl, by simp⟩
    · rw [if_neg hxx] at hr
      rw [if_neg (show ¬ (fl f).xx = true from hxx)] at hs
      by_cases hn : sc.isNaN = true
      · rw [if_pos hn] at hs; cases hs
      · rw [if_neg hn] at hs
        cases hs
        obtain ⟨c1, c2, c3⟩ := cut_bf h.ord.sorted sc x
        by_cases hlv : zs.zsl.level < 32
        · obtain ⟨zl, i1, i2, i3, i4, _⟩ := insert_eq h.rep hlv c1 (score := sc) (value := x) c2 c3 hsm (rng 0)
          simp only [i1] at hr
          cases hr
          have O : Ordered (q.takeWhile (bf sc x) ++ ⟨zs.zsl.nodes.length, x, sc, zslRandomLevel (rng 0)⟩ :: q.dropWhile (bf sc x)) :=
            Ordered.place (n := ⟨zs.zsl.nodes.length, x, sc, zslRandomLevel (rng 0)⟩) (c1 ▸ h.ord) (by simpa using hn) (by rw [← c1]; exact hno) c2 c3
          have hA := h.assign (zl' := zl) (P := q.takeWhile (bf sc x)) (S := q.dropWhile (bf sc x)) (a := zs.zsl.nodes.length)
            (by rw [h.order, without_none hno, ← c1]) i2 O c2 c3 (by rw [← c1]; exact fun _ h => h) (by
              intro v y hy hv
              obtain ⟨sc', h3⟩ := h.known v y hy
              rw [i4, if_neg]
              rintro rfl
              simp [vs] at h3)
          refine ⟨⟨_, hA, ?_⟩, rfl, ?_⟩
          · have := congrArg List.length c1
            simp only [List.length_append, List.length_cons] at this ⊢
            omega
          · intro y hy; cases hy
            obtain ⟨nd, l1, l2, l3⟩ := vs_load (h := zl.nodes) (y := zs.zsl.nodes.length) (by rw [i4, if_pos rfl])
            exact ⟨nd, sc, l1, by simp [ZSpec.assign], l3⟩
        · exfalso
          have := h.rep.level
          have h32 : zs.zsl.level = 32 := by omega
          unfold ZSL.insert at hr
          rw [insertDescent_full h32] at hr
          simp only [bind, Except.bind] at hr
          cases hr
  | some old =>
    obtain ⟨a, nd, hg, hva, hld, hsc⟩ := h.dict_some hd
    rw [hd] at hs
    simp only [hg, bind, Except.bind] at hr hs
    by_cases hnx : f.nx = true
    · rw [if_pos hnx] at hr
      rw [if_pos (show (fl f).nx = true from hnx)] at hs
      cases hr; cases hs
      exact ⟨⟨q, h, by omega⟩, rfl, by simp⟩
    · rw [if_neg hnx] at hr
      rw [if_neg (show ¬ (fl f).nx = true from hnx)] at hs
      simp only [hld, hsc] at hr
      rw [show (if (fl f).incr = true then (numOf ext).add sc old else sc) = if f.incr = true then ext.fadd sc old else sc from rfl] at hs
      generalize (if f.incr = true then ext.fadd sc old else sc) = new at hr hs
      cases heq : new.eq old with
      | true =>
        simp only [heq] at hr
        rw [if_pos heq] at hs
        cases hs
        simp only [Bool.not_true, Bool.false_eq_true, if_false] at hr
        cases hr
        exact ⟨⟨q, h, by omega⟩, rfl, by simp⟩
      | false =>
        simp only [heq] at hr
        rw [if_neg (by simp [heq])] at hs
        simp only [Bool.not_false, if_true] at hr
        by_cases hm : x ∈ members z.order
        · rw [if_neg (by simpa using hm)] at hs
          by_cases hn : new.isNaN = true
          · rw [if_pos hn] at hs; cases hs
          · rw [if_neg hn] at hs
            cases hs
            obtain ⟨e, he, rfl⟩ := (h.mem x).mp hm
            have hold : old = e.sc := by rw [h.dict_live he] at hd; exact (Option.some.inj hd).symm
            subst hold
            have hae : a = e.a := by rw [h.live e he] at hg; exact (Option.some.inj hg).symm
            subst hae
            obtain ⟨P, S, rfl⟩ := List.append_of_mem he
            cases hu : zs.zsl.updateScore e.sc new e.v rng with
            | error err => rw [hu] at hr; cases hr
            | ok r =>
              obtain ⟨zl, b, ht, P', S', rng'', r1, r2, r3, r4, r5, r6, r7, r8, r9⟩ := updateScore_eq h.rep h.ord new (by simpa using hn) rng hu (by simp)
              cases r1
              simp only [hu] at hr
              cases hr
              have hA := h.assign (zl' := zl) (P := P') (S := S') (a := b) (ht := ht) (sc := new) (x := e.v)
                (by rw [h.order, without_mid h.ord, r2]) r3 r4 r5 r6 (by
                  rw [← r2]; intro f hf
                  rcases List.mem_append.mp hf with hf | hf <;> simp [hf]) (by
                  intro v y hy hv
                  obtain ⟨sc', h3⟩ := h.known v y hy
                  refine r9 y ?_ ?_
                  · rintro rfl
                    rw [vs_elem h.rep he] at h3
                    cases h3
                    exact hv rfl
                  · by_contra hc
                    simp [vs, List.getElem?_eq_none (show zs.zsl.nodes.length ≤ y by omega)] at h3)
              refine ⟨⟨_, hA, ?_⟩, rfl, ?_⟩
              · have := congrArg List.length r2
                simp only [List.length_append, List.length_cons] at this ⊢
                omega
              · intro y hy; cases hy
                obtain ⟨nd, l1, l2, l3⟩ := vs_load (vs_elem (zs := ⟨zs.m, zl⟩) r3 (e := ⟨b, e.v, new, ht⟩) (by simp))
                exact ⟨nd, new, l1, by simp [ZSpec.assign], l3⟩
        · rw [if_pos hm] at hs
          cases hs
          have hno : ∀ e ∈ q, e.v ≠ x := fun e he hx => hm ((h.mem x).mpr ⟨e, he, hx⟩)
          rw [updateScore_none h.rep h.ord hno] at hr
          simp only at hr
          cases hr
          exact ⟨⟨q, h, by omega⟩, rfl, by simp⟩

/-- ZADD -/
theorem ZRep.zAddAll {f : ZAddFlags} : ∀ {ms : List (F64 × Bytes)} {zs zs' : ZObj} {z : ZVal} {q : List Elem} {rng rng' : Rng} {cnt : Int},
    ZRep zs z q → q.length + ms.length < 2 ^ 63 → zs.zAddAll ext f ms rng = .ok (zs', cnt, rng') → ∀ {z' : ZVal} {n : Nat},
    addAll (numOf ext) (fl f) ms z = some (z', n) → (∃ q', ZRep zs' z' q') ∧ cnt = n
  | [], zs, zs', z, q, rng, rng', cnt, h, _, hr, z', n, hs => by
    simp only [ZObj.zAddAll, Except.ok.injEq, Prod.mk.injEq] at hr
    obtain ⟨rfl, rfl, rfl⟩ := hr
    cases hs
    exact ⟨⟨q, h⟩, rfl⟩
  | (sc, x) :: ms, zs, zs', z, q, rng, rng', cnt, h, hsm, hr, z', n, hs => by
    simp only [List.length_cons] at hsm
    simp only [ZObj.zAddAll, bind, Except.bind] at hr
    simp only [addAll] at hs
    cases h1 : addOne (numOf ext) (fl f) z sc x with
    | none => rw [h1] at hs; cases hs
    | some r =>
      obtain ⟨z1, n1⟩ := r
      rw [h1, Option.bind_some] at hs
      cases h2 : zs.zAdd ext sc x f rng with
      | error e => rw [h2] at hr; cases hr
      | ok r =>
        obtain ⟨zs1, node, rng1⟩ := r
        simp only [h2] at hr
        obtain ⟨⟨q1, hq1, hl1⟩, hn1, _⟩ := h.zAdd (by omega) h2 h1
        cases h3 : zs1.zAddAll ext f ms rng1 with
        | error e => rw [h3] at hr; cases hr
        | ok r =>
          obtain ⟨zs2, cnt2, rng2⟩ := r
          simp only [h3] at hr
          cases h4 : addAll (numOf ext) (fl f) ms z1 with
          | none => rw [h4] at hs; cases hs
          | some r =>
            obtain ⟨z2, n2⟩ := r
            rw [h4, Option.map_some] at hs
            obtain ⟨hq2, rfl⟩ := hq1.zAddAll (by omega) h3 h4
            simp only [Except.ok.injEq, Prod.mk.injEq] at hr
            obtain ⟨rfl, rfl, rfl⟩ := hr
            cases hs
            refine ⟨hq2, ?_⟩
            rw [hn1]
            cases node <;> simp; omega

theorem mem_drop2 {P S : List Elem} {e : Elem} (h : e.v ∉ members (((P ++ e :: S).map entry).drop 2)) : P.length ≤ 1 := by
  by_contra hc
  apply h
  rw [← List.map_drop, members_eq, List.drop_append_of_le_length (by omega)]
  simp

/-- the dictionary entry of `x` is dropped, and its element if there is one -/
theorem ZRep.drop (h : ZRep zs z q) {zl' : ZSL} {q' : List Elem} {x : Bytes} (R : Rep zl' q') (O : Ordered q')
    (hq : without x z.order = q'.map entry) (hsub : ∀ f ∈ q', f ∈ q ∧ f.v ≠ x) (hv : ∀ y, vs zl'.nodes y = vs zs.zsl.nodes y) :
    ZRep ⟨(zs.m.loadAndDelete x).1, zl'⟩ ⟨without x z.order, fun y => if y = x then none else z.dict y⟩ q' := by
  refine ⟨R, O, h.wf.loadAndDelete .., hq, ?_, ?_, ?_⟩
  · intro e he
    show (zs.m.loadAndDelete x).1.get e.v = _
    rw [SMap.get_loadAndDelete _ h.wf, if_neg (hsub e he).2]
    exact h.live e (hsub e he).1
  · intro v y
    show (zs.m.loadAndDelete x).1.get v = _ → ∃ sc, vs zl'.nodes y = _
    rw [SMap.get_loadAndDelete _ h.wf, hv]
    split
    · intro h; cases h
    · exact h.known v y
  · intro v
    show (if v = x then none else z.dict v) = ((zs.m.loadAndDelete x).1.get v).bind (fun a => (vs zl'.nodes a).map (·.2))
    rw [SMap.get_loadAndDelete _ h.wf]
    split
    · rfl
    · rw [h.dict]; congr 1; funext a; rw [hv]

theorem loadAndDelete_none {m : SMap Nat} {x : Bytes} (h : m.get x = none) : m.loadAndDelete x = (m, none) := by
  simp [SMap.loadAndDelete, h]

theorem loadAndDelete_snd (m : SMap Nat) (x : Bytes) : (m.loadAndDelete x).2 = m.get x := by
  unfold SMap.loadAndDelete; cases m.get x <;> rfl

theorem mem_sub {P S : List Elem} {e : Elem} (O : Ordered (P ++ e :: S)) : ∀ f ∈ P ++ S, f ∈ P ++ e :: S ∧ f.v ≠ e.v := by
  intro f hf
  refine ⟨?_, Ordered.others O f hf⟩
  rcases List.mem_append.mp hf with hf | hf <;> simp [hf]

/-- ZREM -/
theorem ZRep.zRemAll : ∀ {xs : List Bytes} {zs zs' : ZObj} {z : ZVal} {q : List Elem} {cnt : Int},
    ZRep zs z q → zs.zRemAll xs = .ok (zs', cnt) → ∀ {z' : ZVal} {n : Nat},
    removeAll xs z = some (z', n) → (∃ q', ZRep zs' z' q') ∧ cnt = n
  | [], zs, zs', z, q, cnt, h, hr, z', n, hs => by
    simp only [ZObj.zRemAll, Except.ok.injEq, Prod.mk.injEq] at hr
    obtain ⟨rfl, rfl⟩ := hr
    cases hs
    exact ⟨⟨q, h⟩, rfl⟩
  | x :: xs, zs, zs', z, q, cnt, h, hr, z', n, hs => by
    simp only [ZObj.zRemAll, bind, Except.bind, loadAndDelete_snd] at hr
    simp only [removeAll] at hs
    unfold removeOne at hs
    cases hd : z.dict x with
    | none =>
      have hg := h.dict_none hd
      simp only [hg, loadAndDelete_none hg] at hr
      rw [hd, Option.isNone_none, if_pos rfl, Option.bind_some] at hs
      cases h4 : removeAll xs z with
      | none => rw [h4] at hs; cases hs
      | some r =>
        rw [h4, Option.map_some] at hs
        cases hs
        obtain ⟨h5, h6⟩ := h.zRemAll hr h4
        exact ⟨h5, by simpa using h6⟩
    | some old =>
      obtain ⟨a, nd, hg, hva, hld, hsc⟩ := h.dict_some hd
      rw [hd, Option.isNone_some, if_neg (by simp)] at hs
      simp only [hg, hld, hsc] at hr
      by_cases hm2 : x ∈ members (z.order.drop 2)
      · rw [if_pos hm2] at hs; cases hs
      · rw [if_neg hm2, Option.bind_some] at hs
        have key : ∃ zl q', zs.zsl.delete old x = .ok (zl, q') ∧ ∃ q', ZRep ⟨(zs.m.loadAndDelete x).1, zl⟩ ⟨without x z.order, fun y => if y = x then none else z.dict y⟩ q' := by
          by_cases hm : x ∈ members z.order
          · obtain ⟨e, he, rfl⟩ := (h.mem x).mp hm
            obtain rfl : old = e.sc := by rw [h.dict_live he] at hd; exact (Option.some.inj hd).symm
            obtain ⟨P, S, rfl⟩ := List.append_of_mem he
            obtain ⟨zl, d1, d2, d3, d4, d5⟩ := delete_eq h.rep h.ord (mem_drop2 (by rw [← h.order]; exact hm2))
            refine ⟨zl, 1, d1, P ++ S, h.drop d2 (h.ord.sub (List.Sublist.append_left (List.sublist_cons_self _ _) _)) ?_ (mem_sub h.ord) d4⟩
            rw [h.order, without_mid h.ord]
          · have hno : ∀ e ∈ q, e.v ≠ x := fun e he hx => hm ((h.mem x).mpr ⟨e, he, hx⟩)
            refine ⟨zs.zsl, 0, delete_absent h.rep old hno, q, h.drop h.rep h.ord ?_ (fun f hf => ⟨hf, hno f hf⟩) (fun _ => rfl)⟩
            rw [h.order, without_none hno]
        obtain ⟨zl, b, d1, q1, hz1⟩ := key
        simp only [d1] at hr
        cases h3 : ZObj.zRemAll ⟨(zs.m.loadAndDelete x).1, zl⟩ xs with
        | error e => rw [h3] at hr; cases hr
        | ok r =>
          obtain ⟨zs2, cnt2⟩ := r
          simp only [h3] at hr
          cases h4 : removeAll xs ⟨without x z.order, fun y => if y = x then none else z.dict y⟩ with
          | none => rw [h4] at hs; cases hs
          | some r =>
            obtain ⟨z2, n2⟩ := r
            rw [h4, Option.map_some] at hs
            obtain ⟨hq2, rfl⟩ := hz1.zRemAll h3 h4
            simp only [Except.ok.injEq, Prod.mk.injEq] at hr
            obtain ⟨rfl, rfl⟩ := hr
            cases hs
            exact ⟨hq2, by push_cast; omega⟩

/-- the same dictionary with fewer elements in the list -/
theorem ZRep.pop (h : ZRep zs z q) {zl' : ZSL} {q' : List Elem} (R : Rep zl' q') (hq : q'.Sublist q) (hv : ∀ y, vs zl'.nodes y = vs zs.zsl.nodes y) :
    ZRep ⟨zs.m, zl'⟩ ⟨q'.map entry, z.dict⟩ q' := by
  refine ⟨R, h.ord.sub hq, h.wf, rfl, fun e he => h.live e (hq.subset he), ?_, ?_⟩
  · intro v y hy
    show ∃ sc, vs zl'.nodes y = _
    rw [hv]; exact h.known v y hy
  · intro v
    show z.dict v = (zs.m.get v).bind (fun a => (vs zl'.nodes a).map (·.2))
    rw [h.dict]; congr 1; funext a; rw [hv]

def pairs (N : Num) (l : List Entry) : List Bytes := l.flatMap (fun e => e.2 :: if true then [N.fmt e.1] else [])

theorem listing_pairs (N : Num) (l : List Entry) : listing N true l = Resp.bulks (pairs N l) := rfl

/-- ZPOPMIN -/
theorem zPopMinLoop_eq : ∀ (k : Nat) {zl : ZSL} {q : List Elem}, Rep zl q → Ordered q →
    ∃ zl', ZObj.zPopMinLoop ext k zl = .ok (zl', pairs (numOf ext) ((q.map entry).take k)) ∧ Rep zl' (q.drop k) ∧ (∀ y, vs zl'.nodes y = vs zl.nodes y)
  | 0, zl, q, R, _ => ⟨zl, by simp [ZObj.zPopMinLoop, pairs], by simpa using R, fun _ => rfl⟩
  | k + 1, zl, [], R, _ => by
    have hf := findElementByRank_none R (r := 1) (by simp)
    exact ⟨zl, by simp [ZObj.zPopMinLoop, hf, bind, Except.bind, pairs], by simpa using R, fun _ => rfl⟩
  | k + 1, zl, e :: q, R, O => by
    have hf := findElementByRank_eq R (P := []) (e := e) (S := q) rfl
    obtain ⟨nd, n1, n2, n3, _⟩ := R.load (A := []) (e := e) (B := q) rfl
    obtain ⟨zl1, d1, d2, d3, d4, _⟩ := delete_eq (P := []) (S := q) (e := e) R O (by simp)
    simp only [List.nil_append] at d2
    obtain ⟨zl2, l1, l2, l3⟩ := zPopMinLoop_eq k d2 (O.sub (List.sublist_cons_self _ _))
    refine ⟨zl2, ?_, by simpa using l2, fun y => (l3 y).trans (d4 y)⟩
    simp only [List.length_nil, Nat.zero_add] at hf
    simp only [ZObj.zPopMinLoop, hf, bind, Except.bind, n1, n2, n3, d1, l1]
    simp [pairs, entry, numOf]

theorem len_uint {zl : ZSL} (R : Rep zl q) : toUint zl.length = q.length := by
  rw [R.len, toUint_small (by omega) (by have := R.small; omega)]; simp

/-- ZPOPMAX on at most two elements -/
theorem zPopMaxLoop_eq : ∀ (k : Nat) {zl : ZSL} {q : List Elem}, Rep zl q → Ordered q → q.length ≤ 2 →
    ∃ zl', ZObj.zPopMaxLoop ext k zl =
        .ok (zl', pairs (numOf ext) ((q.map entry).reverse.take k ++ List.replicate (k - q.length) (0, []))) ∧
      Rep zl' (q.reverse.drop k).reverse ∧ (∀ y, vs zl'.nodes y = vs zl.nodes y)
  | 0, zl, q, R, _, _ => ⟨zl, by simp [ZObj.zPopMaxLoop, pairs], by simpa using R, fun _ => rfl⟩
  | k + 1, zl, q, R, O, h2 => by
    have hu := len_uint R
    rcases nil_or_snoc q with rfl | ⟨P, e, rfl⟩
    · obtain ⟨zl2, l1, l2, l3⟩ := zPopMaxLoop_eq k R O h2
      have hf := findElementByRank_zero R
      have hd := delete_absent R 0 (value := []) (by simp)
      obtain ⟨n, n1, n2, n3⟩ := vs_load (h := zl.nodes) (y := 0) (v := []) (sc := 0) (by rw [vs_stat, R.head]; rfl)
      refine ⟨zl2, ?_, by simpa using l2, l3⟩
      simp only [ZObj.zPopMaxLoop, hu, List.length_nil, hf, bind, Except.bind, n1, n2, n3, hd, l1]
      simp [pairs, numOf, List.replicate_succ]
    · have hf := findElementByRank_eq R (P := P) (e := e) (S := []) rfl
      obtain ⟨nd, n1, n2, n3, _⟩ := R.load (A := P) (e := e) (B := []) rfl
      obtain ⟨zl1, d1, d2, d3, d4, _⟩ := delete_eq (P := P) (S := []) (e := e) R O (by simp at h2; omega)
      rw [List.append_nil] at d2
      obtain ⟨zl2, l1, l2, l3⟩ := zPopMaxLoop_eq k d2 (O.sub (List.sublist_append_left _ _)) (by simp at h2; omega)
      refine ⟨zl2, ?_, by simpa using l2, fun y => (l3 y).trans (d4 y)⟩
      have hu' : toUint zl.length = P.length + 1 := by rw [hu]; simp
      simp only [ZObj.zPopMaxLoop, hu', hf, bind, Except.bind, n1, n2, n3, d1, l1]
      simp [pairs, entry, numOf]

/-- ZPOPMAX on more: the first pair is right -/
theorem zPopMaxLoop_first {k : Nat} {zl zl' : ZSL} {P : List Elem} {e : Elem} (R : Rep zl (P ++ [e])) {l : List Bytes}
    (h : ZObj.zPopMaxLoop ext (k + 1) zl = .ok (zl', l)) : ∃ more, l = e.v :: ext.formatFloat e.sc :: more ∧ (k = 0 → more = []) := by
  have hu := len_uint R
  have hf := findElementByRank_eq R (P := P) (e := e) (S := []) rfl
  obtain ⟨nd, n1, n2, n3, _⟩ := R.load (A := P) (e := e) (B := []) rfl
  have hu' : toUint zl.length = P.length + 1 := by rw [hu]; simp
  simp only [ZObj.zPopMaxLoop, hu', hf, bind, Except.bind, n1, n2, n3] at h
  cases hd : zl.delete e.sc e.v with
  | error e => rw [hd] at h; cases h
  | ok r =>
    obtain ⟨zl1, b⟩ := r
    simp only [hd] at h
    cases hr : ZObj.zPopMaxLoop ext k zl1 with
    | error e => rw [hr] at h; cases h
    | ok r =>
      obtain ⟨zl2, rest⟩ := r
      simp only [hr] at h
      cases h
      refine ⟨rest, rfl, ?_⟩
      rintro rfl
      simp [ZObj.zPopMaxLoop] at hr
      exact hr.2.symm ▸ rfl

/-! ## queries -/

theorem flatMap_show (ws : Bool) (q : List Elem) :
    q.flatMap (show1 ext ws) = (q.map entry).flatMap (fun e => e.2 :: if ws then [(numOf ext).fmt e.1] else []) := by
  induction q with
  | nil => rfl
  | cons e q ih => simp only [List.flatMap_cons, List.map_cons, ih]; rfl

theorem filter_entry (p : Entry → Bool) (q : List Elem) : ((q.map entry).filter p).length = (q.filter (fun e => p (entry e))).length := by
  rw [List.filter_map, List.length_map]; rfl

theorem less_eq (q : List Elem) (sc : F64) : less (q.map entry) sc = (q.filter (·.sc.lt sc)).length := filter_entry _ _
theorem equal_eq (q : List Elem) (sc : F64) : equal (q.map entry) sc = (q.filter (·.sc.eq sc)).length := filter_entry _ _
theorem atMost_eq (q : List Elem) (sc : F64) : atMost (q.map entry) sc = (q.filter (·.sc.le sc)).length := filter_entry _ _

theorem cut_of {d : Int} {b : F64 × Bool} {f : F64 → Bool → Go Int} (hinf : b.1.isInf = true → f b.1 b.2 = .ok (-1))
    (hfin : b.1.isInf = false → (f b.1 b.2 = .ok ((q.filter (·.sc.le b.1)).length : Int) ∧ (b.2 = true → ∀ e ∈ q, e.sc.eq b.1 = false)) ∨
      (b.2 = true ∧ ∃ j : Nat, 1 ≤ j ∧ j ≤ (q.filter (·.sc.eq b.1)).length ∧ f b.1 b.2 = .ok (((q.filter (·.sc.lt b.1)).length : Int) + j + d))) :
    ∃ r, f b.1 b.2 = .ok r ∧ Cut d (q.map entry) b r := by
  unfold Cut
  rw [less_eq, equal_eq, atMost_eq]
  cases hi : b.1.isInf with
  | true => exact ⟨-1, hinf hi, by simp⟩
  | false =>
    rcases hfin hi with ⟨h1, h2⟩ | ⟨h1, j, h2, h3, h4⟩
    · refine ⟨_, h1, ?_⟩
      rw [if_neg (by simp), if_neg]
      rintro ⟨h3, h4⟩
      apply h4
      rw [List.length_eq_zero_iff, List.filter_eq_nil_iff]
      intro e he; simp [h2 h3 e he]
    · refine ⟨_, h4, ?_⟩
      rw [if_neg (by simp), if_pos ⟨h1, by omega⟩]
      exact ⟨j, h2, h3, rfl⟩

theorem minCut {zl : ZSL} (R : Rep zl q) (O : Ordered q) (hsm : q.length + 1 < 2 ^ 63) (b : F64 × Bool) :
    ∃ r, zl.minScoreRank b.1 b.2 = .ok r ∧ Cut 1 (q.map entry) b r := by
  refine cut_of (f := zl.minScoreRank) (fun h => by simp [minScoreRank, h]) (fun h => ?_)
  rcases minScoreRank_eq R O hsm b.1 b.2 h with h | ⟨h1, j, h2⟩
  · exact .inl h
  · exact .inr ⟨h1, j, h2⟩

theorem maxCut {zl : ZSL} (R : Rep zl q) (O : Ordered q) (b : F64 × Bool) :
    ∃ r, zl.maxScoreRank b.1 b.2 = .ok r ∧ Cut (-1) (q.map entry) b r := by
  refine cut_of (f := zl.maxScoreRank) (fun h => by simp [maxScoreRank, h]) (fun h => ?_)
  rcases maxScoreRank_eq R O b.1 b.2 h with h | ⟨h1, j, h2⟩
  · exact .inl h
  · exact .inr ⟨h1, j, h2⟩

theorem everything_iff (lo hi : F64 × Bool) : (lo.1.isNegInf && hi.1.isPosInf) = true ↔ everything lo hi := by
  simp [F64.isNegInf, F64.isPosInf, everything]

theorem count_eq {zl : ZSL} (R : Rep zl q) (O : Ordered q) (hsm : q.length + 1 < 2 ^ 63) (lo hi : F64 × Bool) :
    ∃ n, zl.count lo.1 lo.2 hi.1 hi.2 = .ok n ∧
      if everything lo hi then n = (q.map entry).length
      else ∃ r1 r2, Cut 1 (q.map entry) lo r1 ∧ Cut (-1) (q.map entry) hi r2 ∧ n = countOf (q.map entry).length r1 r2 := by
  unfold ZSL.count
  by_cases he : everything lo hi
  · rw [if_pos ((everything_iff lo hi).mpr he), R.len]
    exact ⟨_, rfl, by rw [if_pos he]; simp⟩
  · rw [if_neg (fun h => he ((everything_iff lo hi).mp h)), R.len]
    obtain ⟨r1, h1, h2⟩ := minCut R O hsm lo
    obtain ⟨r2, h3, h4⟩ := maxCut R O hi
    simp only [h1, h3, bind, Except.bind]
    refine ⟨countOf q.length r1 r2, ?_, ?_⟩
    · unfold countOf; split <;> [rfl; (split <;> rfl)]
    · rw [if_neg he]; exact ⟨r1, r2, h2, h4, by simp⟩

theorem slice_window {α : Type} (l : List α) (start stop : Int) :
    window l start stop = match normRange l.length start stop with
      | none => []
      | some (a, b) => (l.drop a.toNat).take (b - a + 1).toNat := by
  have key : ∀ (l : List α) (n : Nat) (A B : Int), ((l.zipIdx n).filter (fun p => decide (A ≤ p.2 ∧ (p.2 : Int) ≤ B))).map (·.1) =
      (l.drop (A - n).toNat).take (B + 1 - max A n).toNat := by
    intro l
    induction l with
    | nil => intro n A B; simp
    | cons e l ih =>
      intro n A B
      rw [List.zipIdx_cons, List.filter_cons]
      by_cases h1 : A ≤ n
      · have e1 : (A - n).toNat = 0 := by omega
        have e2 : (A - ((n + 1 : Nat) : Int)).toNat = 0 := by omega
        by_cases h2 : (n : Int) ≤ B
        · rw [if_pos (by simp; omega), List.map_cons, ih, e1, e2, List.drop_zero, List.drop_zero,
            show (B + 1 - max A n).toNat = (B + 1 - max A ((n + 1 : Nat) : Int)).toNat + 1 by omega, List.take_succ_cons]
        · rw [if_neg (by simp; omega), ih, show (B + 1 - max A n).toNat = 0 by omega,
            show (B + 1 - max A ((n + 1 : Nat) : Int)).toNat = 0 by omega]
          simp
      · rw [if_neg (by simp; omega), ih, show (A - n).toNat = (A - ((n + 1 : Nat) : Int)).toNat + 1 by omega, List.drop_succ_cons,
          show max A ((n + 1 : Nat) : Int) = max A n by omega]
  unfold window
  rw [key l 0]
  unfold ListSpec.position normRange
  simp only
  generalize hA : (if start < 0 then start + l.length else start) = A
  generalize hA' : (if start < 0 then if start + (l.length : Int) < 0 then 0 else start + l.length else start) = A'
  generalize hB : (if stop < 0 then stop + (l.length : Int) else stop) = B
  have hAA : A' = max A 0 := by
    rw [← hA, ← hA']; split <;> (try split) <;> omega
  by_cases h : A' > B ∨ A' ≥ l.length
  · rw [if_pos h]
    rcases h with h | h
    · rw [show (B + 1 - max A ((0 : Nat) : Int)).toNat = 0 by omega]; simp
    · rw [List.drop_eq_nil_of_le (by omega)]; simp
  · rw [if_neg h]
    have e1 : (A - ((0 : Nat) : Int)).toNat = A'.toNat := by omega
    rw [e1]
    by_cases hb : B ≥ l.length
    · simp only [if_pos hb]
      rw [List.take_of_length_le (by simp; omega), List.take_of_length_le (by simp; omega)]
    · simp only [if_neg hb]
      rw [show (B + 1 - max A ((0 : Nat) : Int)).toNat = (B - A' + 1).toNat by omega]

theorem map_slice (q : List Elem) (a b : Int) : (slice q a b).map entry = ((q.map entry).drop a.toNat).take (b - a + 1).toNat := by
  unfold slice; rw [List.map_take, List.map_drop]

theorem zRange_win {zl : ZSL} (R : Rep zl q) (start stop : Int) (ws : Bool) :
    zl.zRange ext start stop ws = .ok ((window (q.map entry) start stop).flatMap (fun e => e.2 :: if ws then [(numOf ext).fmt e.1] else [])) := by
  rw [zRange_eq ext R, slice_window, List.length_map]
  cases hn : normRange q.length start stop with
  | none => rfl
  | some ab => simp only; rw [flatMap_show, map_slice]

theorem zRevRange_win {zl : ZSL} (R : Rep zl q) (start stop : Int) (ws : Bool) :
    zl.zRevRange ext start stop ws = .ok ((window (q.map entry) start stop).reverse.flatMap (fun e => e.2 :: if ws then [(numOf ext).fmt e.1] else [])) := by
  rw [zRevRange_eq ext R, slice_window, List.length_map]
  cases hn : normRange q.length start stop with
  | none => rfl
  | some ab => simp only; rw [flatMap_show, List.map_reverse, map_slice]

theorem window_whole (l : List Entry) : window l 0 l.length = l := by
  rw [slice_window]
  unfold normRange
  simp only [Int.lt_irrefl, if_false]
  rw [if_neg (show ¬ (l.length : Int) < 0 by omega)]
  by_cases h : (0 : Int) > l.length ∨ (0 : Int) ≥ l.length
  · rw [if_pos h]
    have : l.length = 0 := by omega
    rw [List.length_eq_zero_iff.mp this]
  · rw [if_neg h]
    simp only [ge_iff_le, Int.le_refl, if_true]
    rw [Int.toNat_zero, List.drop_zero, List.take_of_length_le (by omega)]

theorem zRangeByScore_eq {zl : ZSL} (R : Rep zl q) (O : Ordered q) (hsm : q.length + 1 < 2 ^ 63) (lo hi : F64 × Bool) (ws : Bool) :
    ∃ l, zl.zRangeByScore ext lo.1 lo.2 hi.1 hi.2 ws = .ok (l.flatMap (fun e => e.2 :: if ws then [(numOf ext).fmt e.1] else [])) ∧
      if everything lo hi then l = q.map entry
      else ∃ r1 r2, Cut 1 (q.map entry) lo r1 ∧ Cut (-1) (q.map entry) hi r2 ∧
        l = window (q.map entry) (windowOf (q.map entry).length r1 r2).1 (windowOf (q.map entry).length r1 r2).2 := by
  unfold ZSL.zRangeByScore
  by_cases he : everything lo hi
  · rw [if_pos ((everything_iff lo hi).mpr he), R.len, zRange_win R]
    refine ⟨_, rfl, ?_⟩
    rw [if_pos he]
    have := window_whole (q.map entry)
    rwa [List.length_map] at this
  · rw [if_neg (fun h => he ((everything_iff lo hi).mp h)), R.len]
    obtain ⟨r1, h1, h2⟩ := minCut R O hsm lo
    obtain ⟨r2, h3, h4⟩ := maxCut R O hi
    simp only [h1, h3, bind, Except.bind, zRange_win R]
    refine ⟨window (q.map entry) (windowOf (q.map entry).length r1 r2).1 (windowOf (q.map entry).length r1 r2).2, ?_, ?_⟩
    · rw [List.length_map]
      unfold windowOf; split <;> [rfl; (split <;> rfl)]
    · rw [if_neg he]; exact ⟨r1, r2, h2, h4, rfl⟩

theorem rank_entry {zl : ZSL} (R : Rep zl q) (O : Ordered q) (sc : F64) (x : Bytes) :
    zl.rank sc x = .ok ((q.map entry).filter (fun e => e.1.lt sc || (e.1.eq sc && !decide (x < e.2)))).length := by
  rw [rank_eq R O, filter_entry]
  congr 3
  funext e
  unfold boa entry
  simp only
  congr 3
  cases h : bytesLt x e.v with
  | true => exact (decide_eq_true ((bytesLt_iff _ _).mp h)).symm
  | false => exact (decide_eq_false (fun h' => by rw [(bytesLt_iff _ _).mpr h'] at h; cases h)).symm

end Godis
