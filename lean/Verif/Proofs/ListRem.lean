import Verif.Proofs.ListObj
import Verif.Spec.Rows
/-! # LREM on the linked list object -/
set_option linter.unusedSimpArgs false
namespace Godis
namespace LObj
open ListSpec (removeFirst removeLast)
open RowSpec.Row (beyond)

/-- State of the LREM loop: `d` is the dummy head, `dn` the nodes kept so far, `rest` the nodes still to visit. -/
structure RemInv (h : List LNode) (d : Nat) (dn rest : List (Nat × Bytes)) : Prop where
  dumb : h[d]? = some ⟨first (dn ++ rest) none, none, []⟩
  seg : ∃ p0, Seg h p0 (dn ++ rest) none
  nodup : (addrs (dn ++ rest)).Nodup
  notin : d ∉ addrs (dn ++ rest)

theorem removeFirst_zero (v : Bytes) (l : List Bytes) : removeFirst v 0 l = l := by cases l <;> rfl

/-- `P.next = q` where `P` is the last node of `dn`, or the dummy -/
theorem unlink_next {h : List LNode} {d : Nat} {dn rest : List (Nat × Bytes)} {c : Nat} {w : Bytes} {p0}
    (hd : h[d]? = some ⟨first (dn ++ (c, w) :: rest) none, none, []⟩)
    (hs : Seg h p0 dn (first ((c, w) :: rest) none)) (hnd : (addrs (dn ++ (c, w) :: rest)).Nodup)
    (hnot : d ∉ addrs (dn ++ (c, w) :: rest)) :
    ∃ P h1, last (some d) dn = some P ∧ setNext h (some P) (first rest none) = .ok h1 ∧
      h1[d]? = some ⟨first (dn ++ rest) none, none, []⟩ ∧ Seg h1 p0 dn (first rest none) ∧
      (∀ a, a ≠ d → a ∉ addrs dn → h1[a]? = h[a]?) := by
  have hdlt := (List.getElem?_eq_some_iff.mp hd).1
  cases dn using List.reverseRecOn with
  | nil =>
    refine ⟨d, _, rfl, setNext_some hd _, ?_, trivial, fun a ha _ => ?_⟩
    · rw [List.getElem?_set_self hdlt]; rfl
    · rw [List.getElem?_set_ne (Ne.symm ha)]
  | append_singleton dn z =>
    obtain ⟨a, v⟩ := z
    have hs' := (seg_append _ _ _ _ _).mp hs
    have ha := hs'.2.1
    have halt := (List.getElem?_eq_some_iff.mp ha).1
    have had : a ≠ d := fun e => hnot (by simp [e])
    rw [addrs_append, List.nodup_append', addrs_append, List.nodup_append'] at hnd
    refine ⟨a, _, last_concat _ _ _, setNext_some ha _, ?_, ?_, fun b hb hb' => ?_⟩
    · rw [List.getElem?_set_ne had, hd]
      simp only [first_append, first_cons]
    · rw [seg_append]
      refine ⟨seg_congr hs'.1 fun b hb => ?_, ?_, trivial⟩
      · have : a ≠ b := fun e => hnd.1.2.2 hb (by simp [e])
        rw [List.getElem?_set_ne this]
      · rw [List.getElem?_set_self halt]; rfl
    · have : a ≠ b := fun e => hb' (by simp [e])
      rw [List.getElem?_set_ne this]

/-- the `prev` of the first node of a chain is redirected -/
theorem relink_prev {h : List LNode} {r p} (hs : Seg h p r none) (hnd : (addrs r).Nodup) (p') :
    ∃ h2, setPrevIf h (first r none) p' = .ok h2 ∧ Seg h2 p' r none ∧ (∀ a, a ∉ addrs r → h2[a]? = h[a]?) := by
  cases r with
  | nil => exact ⟨h, rfl, trivial, fun _ _ => rfl⟩
  | cons x r =>
    obtain ⟨a, w⟩ := x
    simp only [addrs, List.map_cons, List.nodup_cons] at hnd
    refine ⟨_, setPrev_some hs.1 _, ⟨?_, seg_congr hs.2 fun b hb => ?_⟩, fun b hb => ?_⟩
    · rw [List.getElem?_set_self (List.getElem?_eq_some_iff.mp hs.1).1]
    · have : a ≠ b := fun e => hnd.1 (by subst e; exact hb)
      rw [List.getElem?_set_ne this]
    · have : a ≠ b := fun e => hb (by simp [e])
      rw [List.getElem?_set_ne this]

theorem lRemHeadLoop_spec (value : Bytes) (d : Nat) : ∀ (fuel : Nat) (h : List LNode) (dn rest : List (Nat × Bytes))
    (n cnt : Int), RemInv h d dn rest → rest.length ≤ fuel →
    ∃ h' dn' rest' k, lRemHeadLoop value fuel h (last (some d) dn) (first rest none) (first rest.tail none) n cnt =
        .ok (h', last (some d) dn', cnt + (k : Nat)) ∧ RemInv h' d dn' rest' ∧
      (dn' ++ rest').map (·.2) = dn.map (·.2) ++ removeFirst value n.toNat (rest.map (·.2)) ∧
      rest' <:+ rest ∧ (dn' ++ rest').length + k = (dn ++ rest).length ∧
      rest'.map (·.2) = RowSpec.Row.beyond value n.toNat (rest.map (·.2)) := by
  intro fuel
  induction fuel with
  | zero =>
    intro h dn rest n cnt hi hf
    have : rest = [] := List.length_eq_zero_iff.mp (by omega)
    subst this
    refine ⟨h, dn, [], 0, ?_, hi, ?_, List.suffix_refl _, by simp, ?_⟩
    · simp [lRemHeadLoop, first]
    · cases n.toNat <;> simp [removeFirst]
    · cases n.toNat <;> rfl
  | succ fuel ih =>
    intro h dn rest n cnt hi hf
    by_cases hstop : rest = [] ∨ n ≤ 0
    · refine ⟨h, dn, rest, 0, ?_, hi, ?_, List.suffix_refl _, by simp, ?_⟩
      · rw [lRemHeadLoop, if_pos (by rw [first_eq_none]; exact hstop)]; simp
      · rcases hstop with rfl | hn
        · cases n.toNat <;> simp [removeFirst]
        · rw [Int.toNat_of_nonpos hn, removeFirst_zero, List.map_append]
      · rcases hstop with rfl | hn
        · cases n.toNat <;> rfl
        · rw [Int.toNat_of_nonpos hn]; cases rest.map (·.2) <;> rfl
    · have hstop : rest ≠ [] ∧ ¬ n ≤ 0 := by
        constructor
        · intro e; exact hstop (.inl e)
        · intro e; exact hstop (.inr e)
      obtain ⟨hr, hn⟩ := hstop
      cases rest with
      | nil => exact absurd rfl hr
      | cons x rest =>
        obtain ⟨c, w⟩ := x
        obtain ⟨hd, ⟨p0, hseg⟩, hnd, hnot⟩ := hi
        have hseg' := (seg_append _ _ _ _ _).mp hseg
        have hc := hseg'.2.1
        have hmid := nodup_mid hnd
        have hlt := seg_lt hseg
        have hcd : c ≠ d := fun e => hnot (by simp [e])
        have hclt := (List.getElem?_eq_some_iff.mp hc).1
        have hdlt := (List.getElem?_eq_some_iff.mp hd).1
        have hbody : rest.length ≤ fuel := by simpa using hf
        rw [lRemHeadLoop, if_neg (by simp [first_cons, hn])]
        simp only [first_cons, load_some hc, bind, Except.bind, List.tail_cons]
        by_cases hw : w = value
        · -- unlink `c`
          rw [if_pos hw]
          obtain ⟨P, h1, eP, e1, f1d, f1s, f1f⟩ := unlink_next (rest := rest) (c := c) (w := w) hd hseg'.1 hnd hnot
          have hcin : ∀ b ∈ addrs rest, b ∉ addrs dn := fun b hb hb' => hmid.2.2 b hb' hb
          have hdrest : d ∉ addrs rest := fun hm => hnot (by
            rw [addrs_append]; simp only [addrs, List.map_cons, List.mem_append, List.mem_cons]; exact .inr (.inr hm))
          have hddn : d ∉ addrs dn := fun hm => hnot (by
            rw [addrs_append]; simp only [List.mem_append]; exact .inl hm)
          have hrest1 : Seg h1 (some c) rest none := seg_congr hseg'.2.2 fun b hb =>
            f1f b (fun e => hdrest (by subst e; exact hb)) (hcin b hb)
          have hnd' := hnd
          rw [addrs_append, List.nodup_append'] at hnd'
          have hndrest : (addrs rest).Nodup := (List.nodup_cons.mp hnd'.2.1).2
          obtain ⟨h2, e2, f2s, f2f⟩ := relink_prev hrest1 hndrest (some P)
          have hc2 : h2[c]? = some ⟨first rest none, last p0 dn, w⟩ := by
            rw [f2f c hmid.2.1, f1f c hcd hmid.1]; exact hc
          have hclt2 := (List.getElem?_eq_some_iff.mp hc2).1
          have hc3 : (h2.set c { (⟨first rest none, last p0 dn, w⟩ : LNode) with prev := none })[c]? =
              some ⟨first rest none, none, w⟩ := by rw [List.getElem?_set_self hclt2]
          set h4 := (h2.set c { (⟨first rest none, last p0 dn, w⟩ : LNode) with prev := none }).set c
            { (⟨first rest none, none, w⟩ : LNode) with next := none } with hh4
          have f4 : ∀ b, b ≠ c → h4[b]? = h2[b]? := fun b hb => by
            rw [hh4, List.getElem?_set_ne (Ne.symm hb), List.getElem?_set_ne (Ne.symm hb)]
          have hi' : RemInv h4 d dn rest := by
            refine ⟨?_, ⟨if dn = [] then some P else p0, ?_⟩, ?_, ?_⟩
            · rw [f4 d (Ne.symm hcd), f2f d hdrest]; exact f1d
            · rw [seg_append]
              have hlast : last (if dn = [] then some P else p0) dn = some P := by
                by_cases hdn : dn = []
                · subst hdn; rfl
                · rw [← eP]; exact last_ne_nil hdn _ _
              refine ⟨seg_congr (h := h1) ?_ fun b hb => ?_, ?_⟩
              · by_cases hdn : dn = []
                · subst hdn; trivial
                · rw [if_neg hdn]; exact f1s
              · rw [f4 b (fun e => hmid.1 (by subst e; exact hb)), f2f b (fun hm => hmid.2.2 b hb hm)]
              · rw [hlast]
                exact seg_congr f2s fun b hb => f4 b (fun e => hmid.2.1 (by subst e; exact hb))
            · rw [addrs_append, List.nodup_append']
              exact ⟨hnd'.1, hndrest, fun b hb hb' => hmid.2.2 b hb hb'⟩
            · rw [addrs_append]; simp only [List.mem_append, not_or]; exact ⟨hddn, hdrest⟩
          obtain ⟨h', dn', rest', k, e, hi2, hv, hsuf, hlen, hbe⟩ := ih h4 dn rest (n - 1) (cnt + 1) hi' hbody
          refine ⟨h', dn', rest', k + 1, ?_, hi2, ?_, hsuf.trans (List.suffix_cons _ _), ?_, ?_⟩
          · simp only [eP, e1, e2, setPrev_some hc2, setNext_some hc3]
            rw [← hh4]
            rw [eP] at e
            have ek : cnt + 1 + (k : Int) = cnt + ((k + 1 : Nat) : Int) := by push_cast; omega
            rw [ek] at e
            cases rest with
            | nil => exact e
            | cons y r =>
              obtain ⟨b, z⟩ := y
              have hb : b ≠ c := fun e => hmid.2.1 (by simp [e])
              have hbn : h4[b]? = some ⟨first r none, some P, z⟩ := by rw [f4 b hb]; exact f2s.1
              simp only [first_cons, load_some hbn]
              exact e
          · rw [hv, List.map_cons]
            have : n.toNat = (n - 1).toNat + 1 := by omega
            rw [this, removeFirst, if_pos hw]
          · simp only [List.length_append, List.length_cons] at hlen ⊢; omega
          · rw [hbe, List.map_cons]
            have : n.toNat = (n - 1).toNat + 1 := by omega
            rw [this, beyond, if_pos hw]
        · rw [if_neg hw]
          have hi' : RemInv h d (dn ++ [(c, w)]) rest := by
            refine ⟨?_, ⟨p0, ?_⟩, ?_, ?_⟩ <;> simp only [List.append_assoc, List.cons_append, List.nil_append]
            · exact hd
            · exact hseg
            · exact hnd
            · exact hnot
          have hP : ∃ P y, last (some d) dn = some P ∧ h[P]? = some y ∧ y.next = some c := by
            cases dn using List.reverseRecOn with
            | nil => exact ⟨d, _, rfl, hd, rfl⟩
            | append_singleton dn x =>
              have := ((seg_append _ _ _ _ _).mp hseg'.1).2.1
              exact ⟨x.1, _, last_concat _ _ _, this, rfl⟩
          obtain ⟨P, y, eP, hP1, hP2⟩ := hP
          obtain ⟨h', dn', rest', k, e, hi2, hv, hsuf, hlen, hbe⟩ := ih h (dn ++ [(c, w)]) rest n cnt hi' hbody
          refine ⟨h', dn', rest', k, ?_, hi2, ?_, hsuf.trans (List.suffix_cons _ _), ?_, ?_⟩
          · simp only [eP, load_some hP1, hP2]
            rw [last_concat] at e
            cases rest with
            | nil => exact e
            | cons y r =>
              simp only [first_cons, load_some hseg'.2.2.1]
              exact e
          · rw [hv, List.map_cons]
            have : n.toNat = (n - 1).toNat + 1 := by omega
            rw [this, removeFirst, if_neg hw]; simp
          · simp only [List.length_append, List.length_cons, List.length_nil] at hlen ⊢; omega
          · rw [hbe, List.map_cons]
            have : n.toNat = (n - 1).toNat + 1 := by omega
            rw [this, beyond, if_neg hw]

/-- emptied by LREM from the head: only `LPUSH` works -/
def HollowL (l : LObj) : Prop := l.length = 0 ∧ l.head = none ∧ ∃ t, l.tail = some t ∧ t < l.nodes.length
/-- emptied by LREM from the tail: only `RPUSH` works -/
def HollowR (l : LObj) : Prop := l.length = 0 ∧ l.tail = none ∧ ∃ t, l.head = some t ∧ t < l.nodes.length

theorem hollow_flip {l : LObj} : HollowL l.flip ↔ HollowR l := by
  simp [HollowL, HollowR, LObj.flip]

/-- LREM from the head, for a chain whose head is known; nothing is asked of the tail and the length -/
theorem lRemHead_core {l : LObj} {r : List (Nat × Bytes)} (hs : Seg l.nodes none r none) (hndr : (addrs r).Nodup) (hr : r ≠ [])
    (hhead : l.head = first r none) (v : Bytes) (n : Int) :
    ∃ h2 dn' rest', l.lRemCountFromHead v n = .ok (⟨l.length - ((r.length : Int) - (dn' ++ rest').length), first (dn' ++ rest') none,
        if rest' = [] then last (some l.nodes.length) dn' else l.tail, h2⟩, (r.length : Int) - (dn' ++ rest').length) ∧
      Seg h2 none (dn' ++ rest') none ∧ (addrs (dn' ++ rest')).Nodup ∧
      (dn' ++ rest').map (·.2) = removeFirst v n.toNat (r.map (·.2)) ∧ rest' <:+ r ∧
      rest'.map (·.2) = beyond v n.toNat (r.map (·.2)) ∧
      (dn' ++ rest' = [] → h2[l.nodes.length]? = some ⟨none, none, []⟩) := by
  have hlt := seg_lt hs
  have hrl : r.length ≤ l.nodes.length := by simpa using nodup_length_le hndr hlt
  set h0 := l.nodes ++ [(⟨first r none, none, []⟩ : LNode)] with hh0
  have hs0 : Seg h0 none r none := seg_congr hs fun a ha => by
    rw [hh0, List.getElem?_append_left (hlt a ha)]
  have hinv : RemInv h0 l.nodes.length [] r := by
    refine ⟨by simp [hh0], ⟨none, hs0⟩, hndr, fun hm => absurd (hlt _ hm) (by omega)⟩
  have hfuel : r.length ≤ h0.length := by simp [hh0]; omega
  obtain ⟨h', dn', rest', k, e, ⟨hd, ⟨p0, hseg⟩, hnd, hnot⟩, hv, hsuf, hlen, hbe⟩ :=
    lRemHeadLoop_spec v l.nodes.length h0.length h0 [] r n 0 hinv hfuel
  simp only [last, List.map_nil, List.nil_append] at e hv hlen
  have hk : (k : Int) = (r.length : Int) - (dn' ++ rest').length := by omega
  -- head.next
  have hhd : ∃ nd, load h0 (first r none) = .ok nd ∧ nd.next = first r.tail none := by
    cases r with
    | nil => exact absurd rfl hr
    | cons z r => exact ⟨_, load_some hs0.1, rfl⟩
  obtain ⟨nd, hnd1, hnd2⟩ := hhd
  -- prev
  have hprev : ∃ P y, last (some l.nodes.length) dn' = some P ∧ h'[P]? = some y ∧ y.next = first rest' none := by
    cases dn' using List.reverseRecOn with
    | nil => exact ⟨_, _, rfl, hd, rfl⟩
    | append_singleton dn z =>
      have := ((seg_append _ _ _ _ _).mp ((seg_append _ _ _ _ _).mp hseg).1).2.1
      exact ⟨z.1, _, last_concat _ _ _, this, rfl⟩
  obtain ⟨P, yP, eP, hP1, hP2⟩ := hprev
  obtain ⟨h2, e2, f2s, f2f⟩ := relink_prev hseg hnd none
  refine ⟨h2, dn', rest', ?_, f2s, hnd, hv, hsuf, hbe, fun he => ?_⟩
  · unfold lRemCountFromHead
    simp only [hhead, ← hh0, hnd1, bind, Except.bind, hnd2, e, eP, load_some hP1, hP2, load_some hd, e2]
    rw [← hk]; simp [first_eq_none]
  · rw [f2f _ hnot, hd, he]; rfl

theorem lRemHead_is {l : LObj} {vs} (h : l.Is vs) (hne : vs ≠ []) (v : Bytes) (n : Int) :
    ∃ l', l.lRemCountFromHead v n = .ok (l', (vs.length : Int) - (removeFirst v n.toNat vs).length) ∧
      (removeFirst v n.toNat vs ≠ [] → l'.Is (removeFirst v n.toNat vs)) ∧
      (removeFirst v n.toNat vs = [] → HollowL l') := by
  obtain ⟨r, h, rfl⟩ := h
  have hr : r ≠ [] := by simpa using hne
  obtain ⟨h2, dn', rest', e, hs, hnd, hv, hsuf, _, hdumb⟩ := lRemHead_core h.seg h.nodup hr h.head v n
  have hk : ((r.map (·.2)).length : Int) - (removeFirst v n.toNat (r.map (·.2))).length = (r.length : Int) - (dn' ++ rest').length := by
    rw [← hv]; simp
  refine ⟨_, by rw [e, hk], fun hne' => ?_, fun he => ?_⟩
  · refine ⟨dn' ++ rest', ⟨hs, hnd, ?_, rfl, ?_⟩, hv⟩
    · simp only [h.length]; omega
    · have hne'' : dn' ++ rest' ≠ [] := fun e => hne' (by rw [← hv, e]; rfl)
      by_cases hrest : rest' = []
      · subst hrest
        rw [List.append_nil] at hne'' ⊢
        simp only [if_true]
        exact last_ne_nil hne'' _ _
      · simp only [if_neg hrest, h.tail]
        obtain ⟨pre, rfl⟩ := hsuf
        rw [last_append, last_append]
        exact last_ne_nil hrest _ _
  · have hnil : dn' ++ rest' = [] := by
      have : (dn' ++ rest').map (·.2) = [] := by rw [hv, he]
      simpa using this
    have hdn : dn' = [] := (List.append_eq_nil_iff.mp hnil).1
    have hre : rest' = [] := (List.append_eq_nil_iff.mp hnil).2
    have hd := hdumb hnil
    subst hdn hre
    refine ⟨?_, rfl, l.nodes.length, by simp [last], (List.getElem?_eq_some_iff.mp hd).1⟩
    simp [h.length]

/-! ## from the tail, by symmetry -/

theorem lRemTailLoop_flip (value : Bytes) : ∀ (fuel : Nat) (h : List LNode) (prev cur next : Option Nat) (n cnt : Int),
    lRemTailLoop value fuel h prev cur next n cnt =
      (lRemHeadLoop value fuel (h.map LNode.flip) prev cur next n cnt).map (fun p => (p.1.map LNode.flip, p.2)) := by
  intro fuel
  induction fuel with
  | zero =>
    intro h prev cur next n cnt
    rw [lRemTailLoop, lRemHeadLoop]
    split
    · simp [Except.map]
    · rfl
  | succ fuel ih =>
    intro h prev cur next n cnt
    rw [lRemTailLoop, lRemHeadLoop]
    split
    · simp [Except.map]
    · simp only [bind, Except.bind, load_flip]
      cases load h cur with
      | error e => rfl
      | ok c =>
        simp only [Except.map, LNode.flip]
        split
        · simp only [setNext_flip]
          cases setPrev h prev next with
          | error e => rfl
          | ok h =>
            simp only [Except.map, setPrevIf_flip]
            cases setNextIf h next prev with
            | error e => rfl
            | ok h =>
              simp only [Except.map, setPrev_flip]
              -- the two resets of `cur` commute
              have key : (match setPrev h cur none with
                  | .error e => (.error e : Go (List LNode))
                  | .ok h => setNext h cur none) =
                  (match setNext h cur none with
                  | .error e => (.error e : Go (List LNode))
                  | .ok h => setPrev h cur none) := by
                cases cur with
                | none => rfl
                | some a =>
                  cases ha : h[a]? with
                  | none => simp [setPrev, setNext, ha]
                  | some nd =>
                    have hlt := (List.getElem?_eq_some_iff.mp ha).1
                    rw [setPrev_some ha, setNext_some ha]
                    simp only
                    rw [setNext_some (List.getElem?_set_self hlt), setPrev_some (List.getElem?_set_self hlt)]
                    simp
              cases hp : setPrev h cur none with
              | error e =>
                rw [hp] at key
                cases hq : setNext h cur none with
                | error e' => rw [hq] at key; simp only at key; cases key; rfl
                | ok h' =>
                  rw [hq] at key
                  simp only [Except.map, setNext_flip]
                  simp only at key
                  rw [← key]
              | ok h1 =>
                rw [hp] at key
                simp only at key ⊢
                cases hq : setNext h cur none with
                | error e' => rw [hq] at key; simp only at key; rw [key]
                | ok h' =>
                  rw [hq] at key
                  simp only at key
                  rw [key]
                  simp only [Except.map, setNext_flip]
                  cases setPrev h' cur none with
                  | error e => rfl
                  | ok h3 =>
                    simp only [Except.map]
                    cases next with
                    | none => exact ih _ _ _ _ _ _
                    | some b =>
                      simp only [load_flip]
                      cases load h3 (some b) with
                      | error e => rfl
                      | ok nd => exact ih _ _ _ _ _ _
        · cases load h prev with
          | error e => rfl
          | ok p =>
            simp only [Except.map]
            cases next with
            | none => exact ih _ _ _ _ _ _
            | some b =>
              simp only [load_flip]
              cases load h (some b) with
              | error e => rfl
              | ok nd => exact ih _ _ _ _ _ _

theorem lRemTail_flip (l : LObj) (v : Bytes) (n : Int) :
    l.lRemCountFromTail v n = (l.flip.lRemCountFromHead v n).map (fun p => (p.1.flip, p.2)) := by
  unfold lRemCountFromTail lRemCountFromHead
  simp only [LObj.flip, List.length_map]
  have e0 : l.nodes.map LNode.flip ++ [(⟨l.tail, none, []⟩ : LNode)] =
      (l.nodes ++ [(⟨none, l.tail, []⟩ : LNode)]).map LNode.flip := by simp [LNode.flip]
  rw [e0]
  generalize l.nodes ++ [(⟨none, l.tail, []⟩ : LNode)] = h0
  simp only [bind, Except.bind, load_flip, List.length_map]
  cases load h0 l.tail with
  | error e => rfl
  | ok tl =>
    simp only [Except.map, lRemTailLoop_flip, LNode.flip]
    cases lRemHeadLoop v h0.length (h0.map LNode.flip) (some l.nodes.length) l.tail tl.prev n 0 with
    | error e => rfl
    | ok p =>
      obtain ⟨h', prev, cnt⟩ := p
      simp only [Except.map]
      have el : ∀ p, load (h'.map LNode.flip) p = (load h' p).map LNode.flip := load_flip h'
      simp only [el]
      cases load h' prev with
      | error e => rfl
      | ok p =>
        simp only [Except.map]
        cases load h' (some l.nodes.length) with
        | error e => rfl
        | ok d =>
          simp only [Except.map, setNextIf_flip, LNode.flip]
          cases setPrevIf h' d.next none with
          | error e => rfl
          | ok h2 => rfl

theorem lRemTail_is {l : LObj} {vs} (h : l.Is vs) (hne : vs ≠ []) (v : Bytes) (n : Int) :
    ∃ l', l.lRemCountFromTail v n = .ok (l', (vs.length : Int) - (removeLast v n.toNat vs).length) ∧
      (removeLast v n.toNat vs ≠ [] → l'.Is (removeLast v n.toNat vs)) ∧
      (removeLast v n.toNat vs = [] → HollowR l') := by
  obtain ⟨l', h1, h2, h3⟩ := lRemHead_is h.flip (by simpa using hne) v n
  refine ⟨l'.flip, ?_, fun hne' => ?_, fun he => ?_⟩
  · rw [lRemTail_flip, h1]; simp [Except.map, removeLast]
  · rw [is_flip_iff, removeLast, List.reverse_reverse]
    exact h2 (by simpa [removeLast] using hne')
  · rw [← hollow_flip, flip_flip]
    exact h3 (by simpa [removeLast] using he)

theorem removeFirst_all (v : Bytes) (l : List Bytes) (n : Nat) (h : l.length ≤ n) :
    removeFirst v n l = l.filter (· ≠ v) := by
  induction l generalizing n with
  | nil => cases n <;> rfl
  | cons x l ih =>
    cases n with
    | zero => simp at h
    | succ n =>
      have h' : l.length ≤ n := by simpa using h
      rw [removeFirst, List.filter_cons]
      by_cases hx : x = v
      · rw [if_pos hx, if_neg (by simp [hx]), ih n h']
      · rw [if_neg hx, if_pos (by simpa using hx), ih (n + 1) (by omega)]

end LObj
end Godis
