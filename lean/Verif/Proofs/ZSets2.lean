import Verif.Proofs.ZSets
import Verif.Proofs.Strings2
import Verif.Props.Defs
/-! Sorted-set commands that write, and histories. -/
namespace Godis
open Resp (Reply bulks)
open ZSpec
open ZSL (Elem)
open ListSpec (errType errArgs errNil errRange window)
open StrSpec (int64 lower isError Ascii setStores)
open KeySpec (KView foreign)

variable {s s' : Store} {k : Bytes} {ext : Ext} {it : Iter} {c : Cmd} {args : List Bytes} {m : Reply} {w : Bytes → ZView}

theorem zAddArgs_eq (ext : Ext) : ∀ (n : Nat) (l : List Bytes) (f : ZAddFlags), l.length ≤ n →
    addArgs (numOf ext) l (fl f) = (zAddArgs ext l f).map (fun r => (r.1, fl r.2)) ∧
      ∀ r, zAddArgs ext l f = some r → r.1.length ≤ l.length := by
  intro n
  induction n with
  | zero =>
    intro l f hl
    obtain rfl := List.length_eq_zero_iff.mp (Nat.le_zero.mp hl)
    unfold addArgs zAddArgs
    exact ⟨rfl, by rintro r ⟨⟩; simp⟩
  | succ n ih =>
    intro l f hl
    rcases l with _ | ⟨a, _ | ⟨b, rest⟩⟩
    · unfold addArgs zAddArgs
      exact ⟨rfl, by rintro r ⟨⟩; simp⟩
    · unfold addArgs zAddArgs
      exact ⟨rfl, by rintro r ⟨⟩; simp⟩
    · simp only [List.length_cons] at hl
      unfold addArgs zAddArgs
      simp only
      rw [show (numOf ext).lower a = toLower ext.lowerUni a from rfl, show (numOf ext).parse a = ext.parseFloat a from rfl]
      have h1 : ∀ f, _ := fun f => ih (b :: rest) f (by simp; omega)
      have h2 : ∀ f, _ := fun f => ih rest f (by omega)
      by_cases c1 : toLower ext.lowerUni a = b! "xx"
      · rw [if_pos c1, if_pos c1]
        obtain ⟨h3, h4⟩ := h1 { f with xx := true }
        exact ⟨h3, fun r hr => by have := h4 r hr; simp at this ⊢; omega⟩
      rw [if_neg c1, if_neg c1]
      by_cases c2 : toLower ext.lowerUni a = b! "nx"
      · rw [if_pos c2, if_pos c2]
        obtain ⟨h3, h4⟩ := h1 { f with nx := true }
        exact ⟨h3, fun r hr => by have := h4 r hr; simp at this ⊢; omega⟩
      rw [if_neg c2, if_neg c2]
      by_cases c3 : toLower ext.lowerUni a = b! "incr"
      · rw [if_pos c3, if_pos c3]
        obtain ⟨h3, h4⟩ := h1 { f with incr := true }
        exact ⟨h3, fun r hr => by have := h4 r hr; simp at this ⊢; omega⟩
      rw [if_neg c3, if_neg c3]
      obtain ⟨h3, h4⟩ := h2 f
      cases hp : ext.parseFloat a with
      | none => exact ⟨rfl, by simp⟩
      | some sc =>
        simp only [Option.bind_some, h3]
        cases hz : zAddArgs ext rest f with
        | none => exact ⟨rfl, by simp⟩
        | some r =>
          refine ⟨rfl, ?_⟩
          intro r' hr'
          cases hr'
          have := h4 r hz
          simp; omega

/-- the object after ZADD -/
theorem zis_added {zs zs' : ZObj} {z : ZVal} {f : ZAddFlags} {ms : List (F64 × Bytes)} {rng rng' : Rng} {cnt : Int} (hi : ZIs zs (some z))
    (hsm : z.order.length + ms.length < 2 ^ 63) (h : zs.zAddAll ext f ms rng = .ok (zs', cnt, rng')) :
    ZIs zs' ((addAll (numOf ext) (fl f) ms z).map (·.1)) ∧ Counted (addAll (numOf ext) (fl f) ms z) (.int cnt) := by
  obtain ⟨q, hi⟩ := hi
  rw [hi.length] at hsm
  cases ha : addAll (numOf ext) (fl f) ms z with
  | none => exact ⟨trivial, rfl, by rintro _ _ ⟨⟩⟩
  | some r =>
    obtain ⟨z', n⟩ := r
    obtain ⟨h1, h2⟩ := hi.zAddAll hsm h ha
    refine ⟨h1, rfl, ?_⟩
    rintro _ _ ⟨⟩
    rw [h2]

theorem zis_empty : ZIs ZObj.empty (some ZSpec.empty) := ⟨[], zrep_empty⟩

theorem runs_zadd (ht : Typed s) (hn : ShareSets s) (hw : ZAll s w) (hsm : ∀ k, zlen (w k) + args.length + 1 < 2 ^ 63) : ZRuns .zAdd ext it s args w := by
  intro s' o m h hm
  rcases args with _ | ⟨k, _ | ⟨a, _ | ⟨b, rest⟩⟩⟩
  · cases h; cases hm; exact ⟨rfl, hw⟩
  · cases h; cases hm; exact ⟨rfl, hw⟩
  · cases h; cases hm; exact ⟨rfl, hw⟩
  simp only [Cmd.fn, cmdZAdd] at h
  obtain ⟨ha, hlen⟩ := zAddArgs_eq ext _ (a :: b :: rest) {} (Nat.le_refl _)
  have hF : Fits (numOf ext) w (Cmd.name .zAdd) (k :: a :: b :: rest) m = match addArgs (numOf ext) (a :: b :: rest) (fl {}) with
      | none => m = errRange
      | some (es, f) => onKey (w k) m (fun z => Counted (addAll (numOf ext) f es z) m) := rfl
  have hS : step (numOf ext) w (Cmd.name .zAdd) (k :: a :: b :: rest) m = match addArgs (numOf ext) (a :: b :: rest) (fl {}) with
      | none => w
      | some (es, f) => put w k (added (numOf ext) f es (w k)) := rfl
  rw [hF, hS, ha]
  cases hz : zAddArgs ext (a :: b :: rest) {} with
  | none => rw [hz] at h; cases h; cases hm; exact ⟨rfl, hw⟩
  | some r =>
    obtain ⟨ms, f⟩ := r
    have hlen := hlen _ hz
    have hsm := hsm k
    simp only [List.length_cons] at hlen hsm
    simp only [Option.map_some]
    rw [hz] at h
    simp only [Store.zAdd] at h
    have hl := zload ht (hw k)
    generalize hv : w k = v at hl hsm
    cases hl with
    | absent hg hl =>
      simp only [hl, bind, Except.bind] at h
      cases hr : ZObj.empty.zAddAll ext f ms s.rng with
      | error e => rw [hr] at h; cases h
      | ok r =>
        obtain ⟨zs', cnt, rng'⟩ := r
        rw [hr] at h
        cases h; cases hm
        obtain ⟨h1, h2⟩ := zis_added zis_empty (by simp [ZSpec.empty]; omega) hr
        exact ⟨h2, hw.putNew ht h1 k rng'⟩
    | other hl =>
      simp only [hl, bind, Except.bind] at h; cases h; cases hm
      exact ⟨rfl, by rw [zput_self w k (by rw [hv]; rfl)]; exact hw⟩
    | @here r zs v hg ho hi hl =>
      have hl := hl false
      simp only [Bool.false_and, Bool.false_eq_true, if_false] at hl
      simp only [hl, bind, Except.bind] at h
      cases hr : zs.zAddAll ext f ms s.rng with
      | error e => rw [hr] at h; cases h
      | ok r =>
        obtain ⟨zs', cnt, rng'⟩ := r
        rw [hr] at h
        cases h; cases hm
        cases v with
        | none => exact ⟨trivial, ZAll.write (v := none) ht hn hw hg ho trivial rng'⟩
        | some z =>
          simp only [zlen] at hsm
          obtain ⟨h1, h2⟩ := zis_added hi (by omega) hr
          exact ⟨h2, hw.write ht hn hg ho h1 rng'⟩

/-- the object after ZINCR -/
theorem zis_incr {zs zs' : ZObj} {z : ZVal} {x : Bytes} {sc : F64} {rng rng' : Rng} {node : Option Nat} (hi : ZIs zs (some z))
    (hsm : z.order.length + 1 < 2 ^ 63) (h : zs.zAdd ext sc x { incr := true } rng = .ok (zs', node, rng')) :
    ZIs zs' ((addAll (numOf ext) { incr := true } [(sc, x)] z).map (·.1)) ∧
      (node = none → IncrFits (numOf ext) sc x (.int 0) z) ∧
      (∀ y n, node = some y → ZSL.load zs'.zsl.nodes y = .ok n → IncrFits (numOf ext) sc x (.bulk (some (ext.formatFloat n.score))) z) := by
  obtain ⟨q, hi⟩ := hi
  rw [hi.length] at hsm
  simp only [addAll]
  cases ha : addOne (numOf ext) (fl { incr := true }) z sc x with
  | none =>
    have ha' : addOne (numOf ext) { incr := true } z sc x = none := ha
    rw [ha']
    refine ⟨trivial, fun _ => ?_, fun _ _ _ _ => ?_⟩ <;> (refine ⟨rfl, ?_⟩; intro z' n h; rw [ha'] at h; cases h)
  | some r =>
    obtain ⟨z', n⟩ := r
    have ha' : addOne (numOf ext) { incr := true } z sc x = some (z', n) := ha
    obtain ⟨⟨q', h1, _⟩, h2, h3⟩ := hi.zAdd hsm h ha
    rw [ha']
    refine ⟨⟨q', h1⟩, fun hn => ?_, fun y nd hn hld => ?_⟩
    · refine ⟨rfl, ?_⟩
      intro z1 n1 h4
      rw [ha'] at h4; cases h4
      rw [hn] at h2
      simp only [Option.isSome_none, Bool.false_eq_true, if_false] at h2
      rw [h2]; rfl
    · refine ⟨rfl, ?_⟩
      intro z1 n1 h4
      rw [ha'] at h4; cases h4
      rw [hn] at h2
      simp only [Option.isSome_some, if_true] at h2
      obtain ⟨nd', sc', l1, l2, l3⟩ := h3 y hn
      rw [hld] at l1; cases l1
      rw [h2, l2, l3]; rfl

theorem runs_zincr (ht : Typed s) (hn : ShareSets s) (hw : ZAll s w) (hsm : ∀ k, zlen (w k) + args.length + 1 < 2 ^ 63) : ZRuns .zIncr ext it s args w := by
  intro s' o m h hm
  rcases args with _ | ⟨k, _ | ⟨d, _ | ⟨x, rest⟩⟩⟩
  · cases h; cases hm; exact ⟨rfl, hw⟩
  · cases h; cases hm; exact ⟨rfl, hw⟩
  · cases h; cases hm; exact ⟨rfl, hw⟩
  simp only [Cmd.fn, cmdZIncr] at h
  have hF : Fits (numOf ext) w (Cmd.name .zIncr) (k :: d :: x :: rest) m = match ext.parseFloat d with
      | none => m = errRange
      | some sc => onKey (w k) m (IncrFits (numOf ext) sc x m) := rfl
  have hS : step (numOf ext) w (Cmd.name .zIncr) (k :: d :: x :: rest) m = match ext.parseFloat d with
      | none => w
      | some sc => put w k (added (numOf ext) { incr := true } [(sc, x)] (w k)) := rfl
  rw [hF, hS]
  cases hz : ext.parseFloat d with
  | none => rw [hz] at h; cases h; cases hm; exact ⟨rfl, hw⟩
  | some sc =>
    have hsm := hsm k
    simp only [List.length_cons] at hsm
    simp only
    rw [hz] at h
    simp only [Store.zIncr] at h
    have hl := zload ht (hw k)
    generalize hv : w k = v at hl hsm
    cases hl with
    | absent hg hl =>
      simp only [hl, bind, Except.bind] at h
      cases hr : ZObj.empty.zAdd ext sc x { incr := true } s.rng with
      | error e => rw [hr] at h; cases h
      | ok r =>
        obtain ⟨zs', node, rng'⟩ := r
        simp only [hr] at h
        obtain ⟨h1, h2, h3⟩ := zis_incr zis_empty (by simp [ZSpec.empty]) hr
        cases node with
        | none => cases h; cases hm; exact ⟨h2 rfl, hw.putNew ht h1 k rng'⟩
        | some y =>
          simp only at h
          cases hld : ZSL.load zs'.zsl.nodes y with
          | error e => rw [hld] at h; cases h
          | ok n =>
            rw [hld] at h
            cases h; cases hm
            exact ⟨h3 y n rfl hld, hw.putNew ht h1 k rng'⟩
    | other hl =>
      simp only [hl, bind, Except.bind] at h; cases h; cases hm
      exact ⟨rfl, by rw [zput_self w k (by rw [hv]; rfl)]; exact hw⟩
    | @here r zs v hg ho hi hl =>
      have hl := hl false
      simp only [Bool.false_and, Bool.false_eq_true, if_false] at hl
      simp only [hl, bind, Except.bind] at h
      cases hr : zs.zAdd ext sc x { incr := true } s.rng with
      | error e => rw [hr] at h; cases h
      | ok r =>
        obtain ⟨zs', node, rng'⟩ := r
        simp only [hr] at h
        cases v with
        | none =>
          cases node with
          | none => cases h; cases hm; exact ⟨trivial, ZAll.write (v := none) ht hn hw hg ho trivial rng'⟩
          | some y =>
            simp only at h
            cases hld : ZSL.load zs'.zsl.nodes y with
            | error e => rw [hld] at h; cases h
            | ok n => rw [hld] at h; cases h; cases hm; exact ⟨trivial, ZAll.write (v := none) ht hn hw hg ho trivial rng'⟩
        | some z =>
          simp only [zlen] at hsm
          obtain ⟨h1, h2, h3⟩ := zis_incr hi (by omega) hr
          cases node with
          | none => cases h; cases hm; exact ⟨h2 rfl, hw.write ht hn hg ho h1 rng'⟩
          | some y =>
            simp only at h
            cases hld : ZSL.load zs'.zsl.nodes y with
            | error e => rw [hld] at h; cases h
            | ok n => rw [hld] at h; cases h; cases hm; exact ⟨h3 y n rfl hld, hw.write ht hn hg ho h1 rng'⟩

theorem runs_zrem (ht : Typed s) (hn : ShareSets s) (hw : ZAll s w) : ZRuns .zRem ext it s args w := by
  intro s' o m h hm
  rcases args with _ | ⟨k, _ | ⟨x, xs⟩⟩
  · cases h; cases hm; exact ⟨rfl, hw⟩
  · cases h; cases hm; exact ⟨rfl, hw⟩
  simp only [Cmd.fn, cmdZRem, Store.zRem] at h
  show onKey (w k) m (fun z => if z.order = [] then m = .int 0 else Counted (removeAll (x :: xs) z) m) ∧
    ZAll s' (put w k (change (fun z => (removeAll (x :: xs) z).map (·.1)) (w k)))
  have hl := zload ht (hw k)
  generalize hv : w k = v at hl
  cases hl with
  | absent hg hl =>
    simp only [hl, bind, Except.bind] at h; cases h; cases hm
    refine ⟨rfl, ?_⟩
    rw [zput_self w k (by rw [hv]; rfl)]; exact hw
  | other hl =>
    simp only [hl, bind, Except.bind] at h; cases h; cases hm
    refine ⟨rfl, ?_⟩
    rw [zput_self w k (by rw [hv]; rfl)]; exact hw
  | @here r zs v hg ho hi hl =>
    cases v with
    | none =>
      refine ⟨trivial, ?_⟩
      have hl := hl true
      split at hl
      · simp only [hl, bind, Except.bind] at h; cases h
        rw [zput_self w k (by rw [hv]; rfl)]; exact hw
      · simp only [hl, bind, Except.bind] at h
        cases hr : zs.zRemAll (x :: xs) with
        | error e => rw [hr] at h; cases h
        | ok r => rw [hr] at h; cases h; exact ZAll.write (v := none) ht hn hw hg ho trivial s.rng
    | some z =>
      show (if z.order = [] then _ else _) ∧ ZAll s' (put w k (.here (if z.order = [] then some z else (removeAll (x :: xs) z).map (·.1))))
      rcases zload_true hi hl with ⟨h0, hl⟩ | ⟨h0, hl⟩
      · rw [if_pos h0, if_pos h0]
        simp only [hl, bind, Except.bind] at h; cases h; cases hm
        refine ⟨rfl, ?_⟩
        rw [zput_self w k hv.symm]; exact hw
      · rw [if_neg h0, if_neg h0]
        simp only [hl, bind, Except.bind] at h
        cases hr : zs.zRemAll (x :: xs) with
        | error e => rw [hr] at h; cases h
        | ok r =>
          obtain ⟨zs', cnt⟩ := r
          rw [hr] at h; cases h; cases hm
          obtain ⟨q, hi⟩ := hi
          cases ha : removeAll (x :: xs) z with
          | none => exact ⟨⟨rfl, by rintro _ _ ⟨⟩⟩, ZAll.write (v := none) ht hn hw hg ho trivial s.rng⟩
          | some r =>
            obtain ⟨z', n⟩ := r
            obtain ⟨h1, h2⟩ := hi.zRemAll hr ha
            refine ⟨⟨rfl, ?_⟩, ZAll.write (v := some z') ht hn hw hg ho h1 s.rng⟩
            rintro _ _ ⟨⟩
            rw [h2]

/-- the reply of the pop commands -/
theorem pop_reply {l : List Bytes} {o} (h : zPopReply s (l, none) = .ok (s', o)) (hm : (setRsp o).reply = some m) : s' = s ∧ m = bulks l := by
  unfold zPopReply at h
  by_cases hl : l = []
  · rw [if_pos (.inr hl)] at h
    cases h; cases hm; rw [hl]; exact ⟨rfl, rfl⟩
  · rw [if_neg (by simp [hl])] at h
    cases h
    simp only [setRsp_ok, reply_bulks, Option.some.injEq] at hm
    exact ⟨rfl, hm.symm⟩

theorem zpopmin_args (it : Iter) (rest : List Bytes) : cmdZPopMin ext it s (k :: rest) = match ZSpec.popCount rest with
    | none => retErr s .notInteger
    | some cnt => (s.zPopMin ext k cnt >>= fun p => zPopReply p.1 p.2) := by
  cases rest with
  | nil => rfl
  | cons c _ => show _ = (match int64 c with | none => _ | some cnt => _); rw [int64_eq]; rfl

theorem zpopmax_args (it : Iter) (rest : List Bytes) : cmdZPopMax ext it s (k :: rest) = match ZSpec.popCount rest with
    | none => retErr s .notInteger
    | some cnt => (s.zPopMax ext k cnt >>= fun p => zPopReply p.1 p.2) := by
  cases rest with
  | nil => rfl
  | cons c _ => show _ = (match int64 c with | none => _ | some cnt => _); rw [int64_eq]; rfl

theorem runs_zpopmin (ht : Typed s) (hn : ShareSets s) (hw : ZAll s w) : ZRuns .zPopMin ext it s args w := by
  intro s' o m h hm
  rcases args with _ | ⟨k, rest⟩
  · cases h; cases hm; exact ⟨rfl, hw⟩
  simp only [Cmd.fn, zpopmin_args, Store.zPopMin] at h
  have hF : Fits (numOf ext) w (Cmd.name .zPopMin) (k :: rest) m = match ZSpec.popCount rest with
      | none => m = errInt
      | some n => onPop (w k) m (fun l => m = listing (numOf ext) true (l.take n.toNat)) := rfl
  have hS : step (numOf ext) w (Cmd.name .zPopMin) (k :: rest) m = match ZSpec.popCount rest with
      | none => w
      | some n => put w k (change (fun z => some ⟨z.order.drop n.toNat, z.dict⟩) (w k)) := rfl
  rw [hF, hS]
  cases hp : ZSpec.popCount rest with
  | none => rw [hp] at h; cases h; cases hm; exact ⟨rfl, hw⟩
  | some n =>
    rw [hp] at h
    simp only at h ⊢
    have hl := zload ht (hw k)
    generalize hv : w k = v at hl
    cases hl with
    | absent hg hl =>
      simp only [hl, bind, Except.bind] at h; cases h; cases hm
      exact ⟨rfl, by rw [zput_self w k (by rw [hv]; rfl)]; exact hw⟩
    | other hl =>
      simp only [hl, bind, Except.bind] at h; cases h; cases hm
      exact ⟨rfl, by rw [zput_self w k (by rw [hv]; rfl)]; exact hw⟩
    | @here r zs v hg ho hi hl =>
      cases v with
      | none =>
        refine ⟨trivial, ?_⟩
        have hl := hl true
        split at hl
        · simp only [hl, bind, Except.bind] at h; cases h
          rw [zput_self w k (by rw [hv]; rfl)]; exact hw
        · simp only [hl, bind, Except.bind] at h
          cases hr : ZObj.zPopMinLoop ext n.toNat zs.zsl with
          | error e => rw [hr] at h; cases h
          | ok r =>
            rw [hr] at h
            obtain ⟨rfl, _⟩ := pop_reply h hm
            exact ZAll.write (v := none) ht hn hw hg ho trivial s.rng
      | some z =>
        show m = listing (numOf ext) true (z.order.take n.toNat) ∧ ZAll s' (put w k (.here (if z.order = [] then some z else some ⟨z.order.drop n.toNat, z.dict⟩)))
        rcases zload_true hi hl with ⟨h0, hl⟩ | ⟨h0, hl⟩
        · rw [if_pos h0]
          simp only [hl, bind, Except.bind] at h; cases h; cases hm
          refine ⟨by rw [h0]; simp [listing, bulks], ?_⟩
          rw [zput_self w k hv.symm]; exact hw
        · rw [if_neg h0]
          simp only [hl, bind, Except.bind] at h
          obtain ⟨q, hi⟩ := hi
          obtain ⟨zl, p1, p2, p3⟩ := zPopMinLoop_eq (ext := ext) n.toNat hi.rep hi.ord
          rw [p1] at h
          obtain ⟨rfl, rfl⟩ := pop_reply h hm
          rw [hi.order, listing_pairs]
          refine ⟨rfl, hw.write ht hn hg ho (v := some ⟨(q.map entry).drop n.toNat, z.dict⟩) ?_ s.rng⟩
          rw [← List.map_drop]
          exact ⟨_, hi.pop p2 (List.drop_sublist _ _) p3⟩

theorem runs_zpopmax (ht : Typed s) (hn : ShareSets s) (hw : ZAll s w) : ZRuns .zPopMix ext it s args w := by
  intro s' o m h hm
  rcases args with _ | ⟨k, rest⟩
  · cases h; cases hm; exact ⟨rfl, hw⟩
  simp only [Cmd.fn, zpopmax_args, Store.zPopMax] at h
  have hF : Fits (numOf ext) w (Cmd.name .zPopMix) (k :: rest) m = match ZSpec.popCount rest with
      | none => m = errInt
      | some n => onPop (w k) m (fun l => PopMaxFits (numOf ext) n l m) := rfl
  have hS : step (numOf ext) w (Cmd.name .zPopMix) (k :: rest) m = match ZSpec.popCount rest with
      | none => w
      | some n => put w k (change (fun z =>
          if n ≤ 0 then some z
          else if z.order.length ≤ 2 then some ⟨(z.order.reverse.drop n.toNat).reverse, z.dict⟩
          else none) (w k)) := rfl
  rw [hF, hS]
  cases hp : ZSpec.popCount rest with
  | none => rw [hp] at h; cases h; cases hm; exact ⟨rfl, hw⟩
  | some n =>
    rw [hp] at h
    simp only at h ⊢
    have hl := zload ht (hw k)
    generalize hv : w k = v at hl
    cases hl with
    | absent hg hl =>
      simp only [hl, bind, Except.bind] at h; cases h; cases hm
      exact ⟨rfl, by rw [zput_self w k (by rw [hv]; rfl)]; exact hw⟩
    | other hl =>
      simp only [hl, bind, Except.bind] at h; cases h; cases hm
      exact ⟨rfl, by rw [zput_self w k (by rw [hv]; rfl)]; exact hw⟩
    | @here r zs v hg ho hi hl =>
      cases v with
      | none =>
        refine ⟨trivial, ?_⟩
        have hl := hl true
        split at hl
        · simp only [hl, bind, Except.bind] at h; cases h
          rw [zput_self w k (by rw [hv]; rfl)]; exact hw
        · simp only [hl, bind, Except.bind] at h
          cases hr : ZObj.zPopMaxLoop ext n.toNat zs.zsl with
          | error e => rw [hr] at h; cases h
          | ok r =>
            rw [hr] at h
            obtain ⟨rfl, _⟩ := pop_reply h hm
            exact ZAll.write (v := none) ht hn hw hg ho trivial s.rng
      | some z =>
        show PopMaxFits (numOf ext) n z.order m ∧ ZAll s' (put w k (.here (if z.order = [] then some z else
          if n ≤ 0 then some z
          else if z.order.length ≤ 2 then some ⟨(z.order.reverse.drop n.toNat).reverse, z.dict⟩
          else none)))
        unfold PopMaxFits
        rcases zload_true hi hl with ⟨h0, hl⟩ | ⟨h0, hl⟩
        · rw [if_pos h0, if_pos (.inl h0)]
          simp only [hl, bind, Except.bind] at h; cases h; cases hm
          refine ⟨rfl, ?_⟩
          rw [zput_self w k hv.symm]; exact hw
        · rw [if_neg h0]
          simp only [hl, bind, Except.bind] at h
          by_cases hn0 : n ≤ 0
          · rw [if_pos (.inr hn0), if_pos hn0]
            rw [Int.toNat_of_nonpos hn0] at h
            simp only [ZObj.zPopMaxLoop] at h
            obtain ⟨rfl, rfl⟩ := pop_reply h hm
            exact ⟨rfl, hw.write ht hn hg ho hi s.rng⟩
          · rw [if_neg (by simp [h0, hn0]), if_neg hn0]
            obtain ⟨q, hi⟩ := hi
            by_cases h2 : z.order.length ≤ 2
            · rw [if_pos h2, if_pos h2]
              rw [hi.length] at h2
              obtain ⟨zl, p1, p2, p3⟩ := zPopMaxLoop_eq (ext := ext) n.toNat hi.rep hi.ord h2
              rw [p1] at h
              obtain ⟨rfl, rfl⟩ := pop_reply h hm
              rw [listing_pairs, hi.order, List.length_map]
              refine ⟨rfl, hw.write ht hn hg ho (v := some ⟨((q.map entry).reverse.drop n.toNat).reverse, z.dict⟩) ?_ s.rng⟩
              rw [← List.map_reverse, ← List.map_drop, ← List.map_reverse]
              refine ⟨_, hi.pop p2 ?_ p3⟩
              have : ((q.reverse.drop n.toNat).reverse).Sublist q.reverse.reverse := (List.drop_sublist _ _).reverse
              rwa [List.reverse_reverse] at this
            · rw [if_neg h2, if_neg h2]
              obtain ⟨j, hj⟩ : ∃ j, n.toNat = j + 1 := ⟨n.toNat - 1, by omega⟩
              rw [hj] at h
              cases hr : ZObj.zPopMaxLoop ext (j + 1) zs.zsl with
              | error e => rw [hr] at h; cases h
              | ok r =>
                obtain ⟨zl, l⟩ := r
                rw [hr] at h
                obtain ⟨rfl, rfl⟩ := pop_reply h hm
                refine ⟨?_, ZAll.write (v := none) ht hn hw hg ho trivial s.rng⟩
                rcases ZSL.nil_or_snoc q with rfl | ⟨P, e, rfl⟩
                · rw [hi.order] at h0; exact absurd rfl h0
                · obtain ⟨more, l1, l2⟩ := zPopMaxLoop_first hi.rep hr
                  refine ⟨more, ?_, fun h1 => l2 (by omega)⟩
                  rw [hi.order, l1]
                  simp [entry, numOf]

end Godis
