import Verif.Proofs.ZObj
import Verif.Proofs.Foreign
import Verif.Proofs.Share
/-! The sorted-set commands do what `ZSpec` says. -/
namespace Godis
open Resp (Reply bulks)
open ZSpec
open ZSL (Elem)
open ListSpec (errType errArgs errNil errRange window)
open StrSpec (int64 lower isError Ascii setStores)
open KeySpec (KView foreign)

variable {s s' : Store} {k : Bytes} {ext : Ext} {it : Iter} {c : Cmd} {args : List Bytes} {m : Reply} {w : Bytes → ZView}

/-- an object that holds a sorted set, or is damaged -/
def ZIs (zs : ZObj) : Option ZVal → Prop
  | none => True
  | some z => ∃ q, ZRep zs z q

/-- what the model holds and what the specification says -/
def ZRel : KView Obj → ZView → Prop
  | .absent, .absent => True
  | .other, .other => True
  | .here (.zset zs), .here v => ZIs zs v
  | _, _ => False

def ZAll (s : Store) (w : Bytes → ZView) : Prop := ∀ k, ZRel (kview .sortedSet s k) (w k)

theorem ZRel.createOther {a : KView Obj} {b : ZView} (h : ZRel a b) : ZRel a.createOther b.createOther := by
  rcases a with _ | _ | (_ | _ | _ | _) <;> cases b <;> first | exact h | exact trivial | exact False.elim h

theorem ZRel.foreign {a : KView Obj} {b : ZView} (h : ZRel a b) (k name : Bytes) (args : List Bytes) (m : Reply) :
    ZRel (foreign k a name args m) (KeySpec.foreign k b name args m) := by
  unfold KeySpec.foreign
  repeat' split
  all_goals first | exact h | exact trivial | exact h.createOther

/-- the outcomes of loading a sorted set, by the view -/
inductive ZLoad (s : Store) (k : Bytes) : ZView → Prop
  | absent (hg : s.keys.get k = none) (h : ∀ b, s.loadZSet k b = .ok (.error .nil)) : ZLoad s k .absent
  | other (h : ∀ b, s.loadZSet k b = .ok (.error .keyAndCommandNotMatch)) : ZLoad s k .other
  | here {r zs v} (hg : s.keys.get k = some ⟨.sortedSet, .ref r⟩) (ho : s.heap[r]? = some (.zset zs)) (hi : ZIs zs v)
      (h : ∀ b, s.loadZSet k b = if b && zs.zsl.length == 0 then .ok (.error .nil) else .ok (.ok (r, zs))) : ZLoad s k (.here v)

theorem zload (ht : Typed s) {v : ZView} (hv : ZRel (kview .sortedSet s k) v) : ZLoad s k v := by
  have hc : ∀ b, _ := fun b => loadZSet_cases ht k b
  rcases hc false with ⟨hg, _⟩ | ⟨info, hg, hi, _⟩ | ⟨r, zs, hg, ho, h0⟩
  · rw [kview_absent hg] at hv
    cases v <;> try exact hv.elim
    refine .absent hg (fun b => ?_)
    rcases hc b with ⟨_, h⟩ | ⟨info, h, _⟩ | ⟨_, _, h, _⟩
    · exact h
    · rw [hg] at h; cases h
    · rw [hg] at h; cases h
  · have hk : kview .sortedSet s k = .other := by
      rcases ht.kind _ _ hg with ⟨v, rfl⟩ | ⟨r, o, rfl, ho, _⟩
      · exact kview_str hg
      · rw [kview_ref hg ho, if_neg hi]
    rw [hk] at hv
    cases v <;> try exact hv.elim
    refine .other (fun b => ?_)
    rcases hc b with ⟨h, _⟩ | ⟨info, _, _, h⟩ | ⟨_, _, h, _⟩
    · rw [hg] at h; cases h
    · exact h
    · rw [hg] at h; cases h; exact absurd rfl hi
  · rw [kview_ref hg ho, if_pos (show (Obj.zset zs).kind = .sortedSet from rfl)] at hv
    cases v with
    | absent => exact hv.elim
    | other => exact hv.elim
    | here v =>
      refine .here hg ho hv (fun b => ?_)
      rcases hc b with ⟨h, _⟩ | ⟨info, h, hne, _⟩ | ⟨r', o', h, ho', h1⟩
      · rw [hg] at h; cases h
      · rw [hg] at h; cases h; exact absurd rfl hne
      · rw [hg] at h; cases h
        rw [ho] at ho'; cases ho'
        exact h1

theorem ZAll.write (ht : Typed s) (hn : ShareSets s) (hw : ZAll s w) {r zs zs' v} (hg : s.keys.get k = some ⟨.sortedSet, .ref r⟩)
    (ho : s.heap[r]? = some (.zset zs)) (hi : ZIs zs' v) (rng : Rng) :
    ZAll { s.write r (.zset zs') with rng := rng } (put w k (.here v)) := by
  intro k'
  have hr : r < s.heap.length := ht.ref_lt hg
  unfold put
  by_cases hk : k' = k
  · subst hk
    rw [if_pos rfl, kview_ref (s := { s.write r (.zset zs') with rng := rng }) (t := .sortedSet) (r := r) (o := .zset zs') hg (by simp [Store.write, hr]),
      if_pos (show (Obj.zset zs').kind = .sortedSet from rfl)]
    exact hi
  · rw [if_neg hk]
    have := hw k'
    have he : kview .sortedSet { s.write r (.zset zs') with rng := rng } k' = kview .sortedSet s k' := by
      cases hg' : s.keys.get k' with
      | none => rw [kview_absent hg', kview_absent (s := { s.write r (.zset zs') with rng := rng }) hg']
      | some info =>
        rcases ht.kind _ _ hg' with ⟨v, rfl⟩ | ⟨r', o1, rfl, ho1, _⟩
        · rw [kview_str hg', kview_str (s := { s.write r (.zset zs') with rng := rng }) hg']
        · have hne : r ≠ r' := by
            rintro rfl
            rcases hn _ _ _ _ _ hg hg' with h | h
            · exact hk h.symm
            · cases h
          rw [kview_ref hg' ho1, kview_ref (s := { s.write r (.zset zs') with rng := rng }) (o := o1) hg' (by
            simp only [Store.write]; rw [List.getElem?_set_ne hne]; exact ho1)]
    rw [he]; exact this

theorem ZAll.putNew (ht : Typed s) (hw : ZAll s w) {zs v} (hi : ZIs zs v) (k : Bytes) (rng : Rng) :
    ZAll { s.putNew k .sortedSet (.zset zs) with rng := rng } (put w k (.here v)) := by
  intro k'
  unfold put
  by_cases hk : k' = k
  · subst hk
    rw [if_pos rfl, kview_ref (t := .sortedSet) (r := s.heap.length) (o := .zset zs) (by simp [Store.putNew]) (by simp [Store.putNew]),
      if_pos (show (Obj.zset zs).kind = .sortedSet from rfl)]
    exact hi
  · rw [if_neg hk]
    have he : kview .sortedSet { s.putNew k .sortedSet (.zset zs) with rng := rng } k' = kview .sortedSet s k' := by
      have hgg : ({ s.putNew k .sortedSet (.zset zs) with rng := rng } : Store).keys.get k' = s.keys.get k' := by
        simp [Store.putNew, SMap.get_set, hk]
      cases hg' : s.keys.get k' with
      | none => rw [kview_absent hg', kview_absent (hgg.trans hg')]
      | some info =>
        rcases ht.kind _ _ hg' with ⟨v, rfl⟩ | ⟨r', o1, rfl, ho1, _⟩
        · rw [kview_str hg', kview_str (hgg.trans hg')]
        · rw [kview_ref hg' ho1, kview_ref (o := o1) (hgg.trans hg') (by
            simp only [Store.putNew]; rw [List.getElem?_append_left (ht.ref_lt hg')]; exact ho1)]
    rw [he]; exact hw k'

theorem zput_self (w : Bytes → ZView) (k : Bytes) {v : ZView} (h : v = w k) : put w k v = w := by
  funext k'; unfold put; split
  · next e => rw [h, e]
  · rfl

/-- the number of entries of an undamaged sorted set -/
def zlen : ZView → Nat
  | .here (some z) => z.order.length
  | _ => 0

/-- every reply to the sorted-set command fits -/
def ZFits (c : Cmd) (ext : Ext) (it : Iter) (s : Store) (args : List Bytes) (w : Bytes → ZView) : Prop :=
  ∀ s' o m, c.fn ext it s args = .ok (s', o) → (setRsp o).reply = some m → Fits (numOf ext) w c.name args m

/-- … and the keys hold what they should afterwards -/
def ZRuns (c : Cmd) (ext : Ext) (it : Iter) (s : Store) (args : List Bytes) (w : Bytes → ZView) : Prop :=
  ∀ s' o m, c.fn ext it s args = .ok (s', o) → (setRsp o).reply = some m →
    Fits (numOf ext) w c.name args m ∧ ZAll s' (step (numOf ext) w c.name args m)

theorem ZIs.zero {zs : ZObj} {z : ZVal} (h : ZIs zs (some z)) : (zs.zsl.length == 0) = true ↔ z.order = [] := by
  obtain ⟨q, h⟩ := h
  rw [h.rep.len, h.order]
  simp

theorem zload_true {zs : ZObj} {z : ZVal} {r : Nat} (hi : ZIs zs (some z))
    (h : ∀ b, s.loadZSet k b = if b && zs.zsl.length == 0 then .ok (.error .nil) else .ok (.ok (r, zs))) :
    (z.order = [] ∧ s.loadZSet k true = .ok (.error .nil)) ∨ (z.order ≠ [] ∧ s.loadZSet k true = .ok (.ok (r, zs))) := by
  have h1 := h true
  rw [Bool.true_and] at h1
  by_cases h0 : z.order = []
  · exact .inl ⟨h0, by rw [h1, if_pos (hi.zero.mpr h0)]⟩
  · exact .inr ⟨h0, by rw [h1, if_neg (fun hh => h0 (hi.zero.mp hh))]⟩

/-! ## readers -/

theorem fits_zscore (ht : Typed s) (hw : ZAll s w) : ZFits .zScore ext it s args w := by
  intro s' o m h hm
  rcases args with _ | ⟨k, _ | ⟨x, rest⟩⟩
  · cases h; cases hm; rfl
  · cases h; cases hm; rfl
  show onKey (w k) m (fun z => m = scoreOf (numOf ext) x z)
  have hl := zload ht (hw k)
  generalize w k = v at hl
  simp only [Cmd.fn, cmdZScore, Store.zScore] at h
  cases hl with
  | absent hg hl => simp only [hl, bind, Except.bind] at h; cases h; cases hm; rfl
  | other hl => simp only [hl, bind, Except.bind] at h; cases h; cases hm; rfl
  | @here r zs v hg ho hi hl =>
    cases v with
    | none => trivial
    | some z =>
      show m = scoreOf (numOf ext) x z
      unfold scoreOf
      rcases zload_true hi hl with ⟨h0, hl⟩ | ⟨h0, hl⟩
      · rw [if_pos h0]
        simp only [hl, bind, Except.bind] at h; cases h; cases hm; rfl
      · rw [if_neg h0]
        obtain ⟨q, hi⟩ := hi
        simp only [hl, bind, Except.bind] at h
        cases hd : z.dict x with
        | none => simp only [hi.dict_none hd] at h; cases h; cases hm; rfl
        | some sc =>
          obtain ⟨a, n, h1, h2, h3, h4⟩ := hi.dict_some hd
          simp only [h1, h3, h4] at h; cases h; cases hm; rfl

theorem fits_zrank (ht : Typed s) (hw : ZAll s w) : ZFits .zRank ext it s args w := by
  intro s' o m h hm
  rcases args with _ | ⟨k, _ | ⟨x, rest⟩⟩
  · cases h; cases hm; rfl
  · cases h; cases hm; rfl
  show onKey (w k) m (fun z => m = rankOf x z)
  have hl := zload ht (hw k)
  generalize w k = v at hl
  simp only [Cmd.fn, cmdZRank, Store.zRank] at h
  cases hl with
  | absent hg hl => simp only [hl, bind, Except.bind] at h; cases h; cases hm; rfl
  | other hl => simp only [hl, bind, Except.bind] at h; cases h; cases hm; rfl
  | @here r zs v hg ho hi hl =>
    cases v with
    | none => trivial
    | some z =>
      show m = rankOf x z
      unfold rankOf
      rcases zload_true hi hl with ⟨h0, hl⟩ | ⟨h0, hl⟩
      · simp only [hl, bind, Except.bind] at h; cases h; cases hm
        cases z.dict x <;> simp [h0]
      · obtain ⟨q, hi⟩ := hi
        simp only [hl, bind, Except.bind] at h
        cases hd : z.dict x with
        | none => simp only [hi.dict_none hd] at h; cases h; cases hm; rfl
        | some sc =>
          obtain ⟨a, n, h1, h2, h3, h4⟩ := hi.dict_some hd
          simp only [h1, h3, h4, rank_entry hi.rep hi.ord] at h; cases h
          simp only
          rw [if_neg h0]
          simp only [setRsp_ok, reply_int, Option.some.injEq] at hm
          rw [← hm, ← hi.order, ZSL.ofUint_small]
          have := hi.rep.small
          have hl := List.length_filter_le (fun e : Entry => e.1.lt sc || (e.1.eq sc && !decide (x < e.2))) z.order
          rw [hi.length] at hl
          omega

theorem fits_zcard (ht : Typed s) (hw : ZAll s w) : ZFits .zCard ext it s args w := by
  intro s' o m h hm
  rcases args with _ | ⟨k, rest⟩
  · cases h; cases hm; rfl
  show onKey (w k) m (fun z => m = .int z.order.length)
  have hl := zload ht (hw k)
  generalize w k = v at hl
  simp only [Cmd.fn, cmdZCard, Store.zCard] at h
  cases hl with
  | absent hg hl => simp only [hl, bind, Except.bind] at h; cases h; cases hm; rfl
  | other hl => simp only [hl, bind, Except.bind] at h; cases h; cases hm; rfl
  | @here r zs v hg ho hi hl =>
    cases v with
    | none => trivial
    | some z =>
      show m = .int z.order.length
      rcases zload_true hi hl with ⟨h0, hl⟩ | ⟨h0, hl⟩
      · simp only [hl, bind, Except.bind] at h; cases h; cases hm
        rw [h0]; rfl
      · obtain ⟨q, hi⟩ := hi
        simp only [hl, bind, Except.bind] at h; cases h; cases hm
        rw [hi.rep.len, hi.length]

theorem bound_aux (t : Bytes) : (if t = b! "-inf" then .ok (F64.negInf, false)
    else if t = b! "+inf" then .ok (F64.posInf, false)
    else match ext.parseFloat (trimPrefix t (b! "(")) with
      | none => .error .notFloat
      | some f => .ok (f, trimPrefix t (b! "(") ≠ t) : Except Err (F64 × Bool)) =
    (if t = s!! "-inf" then some (F64.negInf, false)
      else if t = s!! "+inf" then some (F64.posInf, false)
      else if t.head? = some 40 then (ext.parseFloat t.tail).map (fun f => (f, true))
      else (ext.parseFloat t).map (fun f => (f, false)) : Option (F64 × Bool)).elim (.error .notFloat) .ok := by
  by_cases h1 : t = b! "-inf"
  · rw [if_pos h1, if_pos h1]; rfl
  · rw [if_neg h1, if_neg h1]
    by_cases h2 : t = b! "+inf"
    · rw [if_pos h2, if_pos h2]; rfl
    · rw [if_neg h2, if_neg h2]
      cases t with
      | nil =>
        rw [show trimPrefix [] (b! "(") = [] from rfl, if_neg (by simp)]
        cases ext.parseFloat [] <;> simp
      | cons c t =>
        by_cases hc : c = 40
        · subst hc
          have : trimPrefix (40 :: t) (b! "(") = t := by simp [trimPrefix, List.isPrefixOf]
          rw [this]
          simp only [List.head?_cons, List.tail_cons, if_true]
          cases ext.parseFloat t <;> simp
        · have : trimPrefix (c :: t) (b! "(") = c :: t := by
            simp [trimPrefix, List.isPrefixOf, Ne.symm hc]
          rw [this, List.head?_cons, if_neg (by simpa using hc)]
          cases ext.parseFloat (c :: t) <;> simp

theorem bound_eq (a : Bytes) : Store.handleFloatScoreStr ext a = (bound (numOf ext) a).elim (.error .notFloat) .ok :=
  bound_aux (ext := ext) (toLower ext.lowerUni a)

theorem fits_zcount (ht : Typed s) (hw : ZAll s w) (hsm : ∀ k, zlen (w k) + args.length + 1 < 2 ^ 63) : ZFits .zCount ext it s args w := by
  intro s' o m h hm
  rcases args with _ | ⟨k, _ | ⟨a, _ | ⟨b, rest⟩⟩⟩
  · cases h; cases hm; rfl
  · cases h; cases hm; rfl
  · cases h; cases hm; rfl
  show onKey (w k) m (fun z => if z.order = [] then m = .int 0 else CountByScore (numOf ext) z.order (toLower ext.lowerUni a) (toLower ext.lowerUni b) m)
  have hl := zload ht (hw k)
  have hsm := hsm k
  generalize w k = v at hl hsm
  simp only [Cmd.fn, cmdZCount, Store.zCount] at h
  cases hl with
  | absent hg hl => simp only [hl, bind, Except.bind] at h; cases h; cases hm; rfl
  | other hl => simp only [hl, bind, Except.bind] at h; cases h; cases hm; rfl
  | @here r zs v hg ho hi hl =>
    cases v with
    | none => trivial
    | some z =>
      show if z.order = [] then _ else _
      rcases zload_true hi hl with ⟨h0, hl⟩ | ⟨h0, hl⟩
      · rw [if_pos h0]
        simp only [hl, bind, Except.bind] at h; cases h; cases hm; rfl
      · rw [if_neg h0]
        obtain ⟨q, hi⟩ := hi
        simp only [hl, bind, Except.bind, bound_eq] at h
        unfold CountByScore
        cases h1 : bound (numOf ext) (toLower ext.lowerUni a) with
        | none => simp only [h1, Option.elim] at h; cases h; cases hm; rfl
        | some lo =>
          cases h2 : bound (numOf ext) (toLower ext.lowerUni b) with
          | none => simp only [h1, h2, Option.elim] at h; cases h; cases hm; rfl
          | some hi' =>
            simp only [zlen, hi.length] at hsm
            obtain ⟨n, c1, c2⟩ := count_eq hi.rep hi.ord (by omega) lo hi'
            simp only [h1, h2, c1, Option.elim] at h; cases h; cases hm
            simp only
            rw [hi.order]
            split
            · next he => rw [if_pos he] at c2; rw [c2]
            · next he =>
              rw [if_neg he] at c2
              obtain ⟨r1, r2, c3, c4, c5⟩ := c2
              exact ⟨r1, r2, c3, c4, by rw [c5]⟩

/-- the reply to a range by score -/
theorem range_byscore {zs : ZObj} {z : ZVal} {q : List Elem} (hi : ZRep zs z q) (hsm : q.length + 1 < 2 ^ 63) {a b : Bytes} {ws : Bool} {r : Ret (List Bytes)}
    (h : (match Store.handleFloatScoreStr ext a with
      | .error e => (Except.ok ([], some e) : Go (Ret (List Bytes)))
      | .ok (mn, mnO) =>
        match Store.handleFloatScoreStr ext b with
        | .error e => (Except.ok ([], some e) : Go (Ret (List Bytes)))
        | .ok (mx, mxO) => (do
          let vs ← zs.zsl.zRangeByScore ext mn mnO mx mxO ws
          .ok (vs, none) : Go (Ret (List Bytes)))) = .ok r) {o} (ha : arrReply s newResponseWithNilBulk r = .ok (s', o))
    (hm : (setRsp o).reply = some m) : RangeByScore (numOf ext) z.order a b ws m := by
  unfold RangeByScore
  simp only [bound_eq] at h
  cases h1 : bound (numOf ext) a with
  | none => simp only [h1, Option.elim] at h; cases h; cases ha; cases hm; rfl
  | some lo =>
    cases h2 : bound (numOf ext) b with
    | none => simp only [h1, h2, Option.elim] at h; cases h; cases ha; cases hm; rfl
    | some hi' =>
      obtain ⟨l, c1, c2⟩ := zRangeByScore_eq (ext := ext) hi.rep hi.ord hsm lo hi' ws
      simp only [h1, h2, c1, bind, Except.bind, Option.elim] at h; cases h
      simp only [arrReply, retOk, Except.ok.injEq, Prod.mk.injEq] at ha
      obtain ⟨rfl, rfl⟩ := ha
      simp only [setRsp_ok, reply_bulks, Option.some.injEq] at hm
      simp only
      rw [hi.order]
      split
      · next he => rw [if_pos he] at c2; rw [← hm, c2]; rfl
      · next he =>
        rw [if_neg he] at c2
        obtain ⟨r1, r2, c3, c4, c5⟩ := c2
        exact ⟨r1, r2, c3, c4, by rw [← hm, c5]; rfl⟩

theorem hasWord_eq (word : Bytes) (l : List Bytes) : Godis.hasWord ext word l = ZSpec.hasWord (numOf ext) word l := rfl

theorem fits_zrangebyscore (ht : Typed s) (hw : ZAll s w) (hsm : ∀ k, zlen (w k) + args.length + 1 < 2 ^ 63) : ZFits .zRangeByScore ext it s args w := by
  intro s' o m h hm
  rcases args with _ | ⟨k, _ | ⟨a, _ | ⟨b, rest⟩⟩⟩
  · cases h; cases hm; rfl
  · cases h; cases hm; rfl
  · cases h; cases hm; rfl
  show onKey (w k) m (fun z => if z.order = [] then m = .bulk none else RangeByScore (numOf ext) z.order a b false m)
  have hl := zload ht (hw k)
  have hsm := hsm k
  generalize w k = v at hl hsm
  simp only [Cmd.fn, cmdZRangeByScore, Store.zRange] at h
  cases hl with
  | absent hg hl => simp only [hl, bind, Except.bind] at h; cases h; cases hm; rfl
  | other hl => simp only [hl, bind, Except.bind] at h; cases h; cases hm; rfl
  | @here r zs v hg ho hi hl =>
    cases v with
    | none => trivial
    | some z =>
      show if z.order = [] then _ else _
      rcases zload_true hi hl with ⟨h0, hl⟩ | ⟨h0, hl⟩
      · rw [if_pos h0]
        simp only [hl, bind, Except.bind] at h; cases h; cases hm; rfl
      · rw [if_neg h0]
        obtain ⟨q, hi⟩ := hi
        simp only [zlen, hi.length] at hsm
        rw [hl] at h
        simp only [bind, Except.bind, if_true] at h
        split at h
        · cases h
        · next r hr => exact range_byscore hi (by omega) hr h hm

theorem fits_zrange (ht : Typed s) (hw : ZAll s w) (hsm : ∀ k, zlen (w k) + args.length + 1 < 2 ^ 63) : ZFits .zRange ext it s args w := by
  intro s' o m h hm
  rcases args with _ | ⟨k, _ | ⟨a, _ | ⟨b, rest⟩⟩⟩
  · cases h; cases hm; rfl
  · cases h; cases hm; rfl
  · cases h; cases hm; rfl
  show onKey (w k) m (RangeFits (numOf ext) a b (b :: rest) m)
  have hl := zload ht (hw k)
  have hsm := hsm k
  generalize w k = v at hl hsm
  simp only [Cmd.fn, cmdZRange, Store.zRange] at h
  cases hl with
  | absent hg hl => simp only [hl, bind, Except.bind] at h; cases h; cases hm; rfl
  | other hl => simp only [hl, bind, Except.bind] at h; cases h; cases hm; rfl
  | @here r zs v hg ho hi hl =>
    cases v with
    | none => trivial
    | some z =>
      show if z.order = [] then _ else _
      rcases zload_true hi hl with ⟨h0, hl⟩ | ⟨h0, hl⟩
      · rw [if_pos h0]
        simp only [hl, bind, Except.bind] at h; cases h; cases hm; rfl
      · rw [if_neg h0]
        obtain ⟨q, hi⟩ := hi
        simp only [zlen, hi.length] at hsm
        rw [hl] at h
        simp only [bind, Except.bind, hasWord_eq] at h
        rw [show b! "byscore" = s!! "byscore" from rfl, show b! "withscores" = s!! "withscores" from rfl] at h
        by_cases hb : ZSpec.hasWord (numOf ext) (s!! "byscore") (b :: rest) = true
        · rw [if_pos hb]
          simp only [hb, if_true] at h
          split at h
          · cases h
          · next r hr => exact range_byscore hi (by omega) hr h hm
        · rw [if_neg hb]
          simp only [hb, Bool.false_eq_true, if_false] at h
          unfold RangeByPosition
          rw [int64_eq, int64_eq]
          cases h1 : parseInt a with
          | none => simp only [atoi, h1] at h; cases h; cases hm; rfl
          | some start =>
            cases h2 : parseInt b with
            | none => simp only [atoi, h1, h2] at h; cases h; cases hm; rfl
            | some stop =>
              simp only [atoi, h1, h2, zRange_win hi.rep] at h
              simp only [arrReply, retOk, Except.ok.injEq, Prod.mk.injEq] at h
              obtain ⟨rfl, rfl⟩ := h
              simp only [setRsp_ok, reply_bulks, Option.some.injEq] at hm
              simp only
              rw [← hm, hi.order]; rfl

theorem fits_zrevrange (ht : Typed s) (hw : ZAll s w) : ZFits .zRevRange ext it s args w := by
  intro s' o m h hm
  rcases args with _ | ⟨k, _ | ⟨a, _ | ⟨b, rest⟩⟩⟩
  · cases h; cases hm; rfl
  · cases h; cases hm; rfl
  · cases h; cases hm; rfl
  show onKey (w k) m (fun z => if z.order = [] then m = .bulk none else RangeByPosition (numOf ext) true z.order a b (ZSpec.hasWord (numOf ext) (s!! "withscores") (b :: rest)) m)
  have hl := zload ht (hw k)
  generalize w k = v at hl
  simp only [Cmd.fn, cmdZRevRange, Store.zRevRange] at h
  cases hl with
  | absent hg hl => simp only [hl, bind, Except.bind] at h; cases h; cases hm; rfl
  | other hl => simp only [hl, bind, Except.bind] at h; cases h; cases hm; rfl
  | @here r zs v hg ho hi hl =>
    cases v with
    | none => trivial
    | some z =>
      show if z.order = [] then _ else _
      rcases zload_true hi hl with ⟨h0, hl⟩ | ⟨h0, hl⟩
      · rw [if_pos h0]
        simp only [hl, bind, Except.bind] at h; cases h; cases hm; rfl
      · rw [if_neg h0]
        obtain ⟨q, hi⟩ := hi
        rw [hl] at h
        simp only [bind, Except.bind, hasWord_eq] at h
        rw [show b! "withscores" = s!! "withscores" from rfl] at h
        unfold RangeByPosition
        rw [int64_eq, int64_eq]
        cases h1 : parseInt a with
        | none => simp only [atoi, h1] at h; cases h; cases hm; rfl
        | some start =>
          cases h2 : parseInt b with
          | none => simp only [atoi, h1, h2] at h; cases h; cases hm; rfl
          | some stop =>
            simp only [atoi, h1, h2, zRevRange_win hi.rep] at h
            simp only [arrReply, retOk, Except.ok.injEq, Prod.mk.injEq] at h
            obtain ⟨rfl, rfl⟩ := h
            simp only [setRsp_ok, reply_bulks, Option.some.injEq] at hm
            simp only
            rw [← hm, hi.order]; rfl

end Godis
