import Verif.Proofs.Texts2
/-! # Where the texts of the replies come from: the commands -/
namespace Godis

variable {W P R : Bytes → Prop} {ext : Ext} {it : Iter} {s : Store} {k : Bytes} {args : List Bytes}
open ZSL (Seen)

/-- the texts a command may answer with -/
def Cmd.Says (ext : Ext) (W P : Bytes → Prop) : Cmd → Bytes → Prop
  | .get | .mget => P
  | .keys | .sDiff | .sInter | .sUnion | .sMembers | .sPop => W
  | .lPop | .rPop | .lRange | .lIndex => fun t => W t ∨ t = []
  | .zRange | .zRangeByScore | .zRevRange | .zPopMin | .zPopMix => Seen ext W
  | .zScore | .zIncr | .hIncrByFloat => fun t => ∃ f, t = ext.formatFloat f
  | _ => fun _ => False

theorem txt_keys (H : s.All W P) : Wp (cmdKeys ext it s args) (TPost W P W) := by
  unfold cmdKeys
  split
  · unfold Store.keysMatching
    split
    · exact Wp.error
    · refine post_bulks H (fun t ht => ?_) _
      unfold SMap.range at ht
      have : ∀ (f : Bytes → Bool) (es : List (Bytes × KeyInfo)) (acc : List Bytes), (∀ e ∈ es, W e.1) → (∀ x ∈ acc, W x) →
          ∀ x ∈ es.foldl (fun ks e => if f e.1 then ks ++ [e.1] else ks) acc, W x := by
        intro f es
        induction es with
        | nil => intro acc _ ha; exact ha
        | cons e es ih =>
          intro acc he ha
          rw [List.foldl_cons]
          refine ih _ (fun e' h => he e' (by simp [h])) fun x hx => ?_
          split at hx
          · rcases List.mem_append.mp hx with hx | hx
            · exact ha x hx
            · rw [List.mem_singleton.mp hx]; exact he e (by simp)
          · exact ha x hx
      exact this _ _ [] (fun e he => (H.keys.entries it he).1) (fun _ h => by cases h) t ht
  · exact post_short H

theorem zAddArgs_mem (l : List Bytes) (f : ZAddFlags) : ∀ ms f', zAddArgs ext l f = some (ms, f') → ∀ m ∈ ms, m.2 ∈ l := by
  fun_induction zAddArgs ext l f <;> intro ms f' h m hm
  case case1 ih => exact List.mem_cons_of_mem _ (ih _ _ h m hm)
  case case2 ih => exact List.mem_cons_of_mem _ (ih _ _ h m hm)
  case case3 ih => exact List.mem_cons_of_mem _ (ih _ _ h m hm)
  case case4 => cases h
  case case5 => cases h
  case case6 hz ih =>
    cases h
    rcases List.mem_cons.mp hm with rfl | hm
    · simp
    · exact List.mem_cons_of_mem _ (List.mem_cons_of_mem _ (ih _ _ hz m hm))
  case case7 => cases h; cases hm

/-- hash commands answer like on a key without value -/
theorem wp_hash {α β : Type} {b : Bool} (H : s.All W P) {f : Except Err (Nat × HObj) → Go α} {g : α → Go β} {Q : β → Prop}
    (h : ∀ e, Wp (f (.error e) >>= g) Q) : Wp ((s.loadHash k b >>= f) >>= g) Q := by
  rw [bind_assoc]
  exact (no_loadHash H k b).bind fun r _ ⟨e, he⟩ => by rw [he]; exact h e

theorem fn_texts (G : Grows W P) (c : Cmd) (H : s.All W P) (ha : ∀ a ∈ args, W a) : Wp (c.fn ext it s args) (TPost W P (c.Says ext W P)) := by
  have hp : ∀ q : Store × Ret Int, q.1.All W P → Wp (intReply q.1 q.2) (TPost W P (c.Says ext W P)) := fun q h => post_intReply h _
  cases c
  case set =>
    dsimp only [Cmd.fn]
    unfold cmdSet
    split
    · exact post_line (H.setStr (ha _ (by simp)) (G.word (ha _ (by simp))) rfl) (by decide)
    · exact post_short H
  case mSet =>
    dsimp only [Cmd.fn]
    unfold cmdMSet
    split
    · exact post_short H
    · exact post_line (all_mSet G _ H ha) (by decide)
  case get =>
    dsimp only [Cmd.fn]
    unfold cmdGet
    split
    · refine (all_get H _).bind fun q _ hq => ?_
      split
      · exact post_nil H
      · exact post_err H _
      · refine post_ok H fun i hi => ?_
        rw [List.mem_singleton.mp hi]
        exact hq rfl
    · exact post_short H
  case mget =>
    dsimp only [Cmd.fn]
    unfold cmdMGet
    split
    · refine (all_mGet H _).bind fun vs _ hv => ?_
      refine post_ok H fun i hi => ?_
      obtain ⟨x, hx, rfl⟩ := List.mem_map.mp hi
      obtain ⟨y, hy, rfl⟩ := List.mem_map.mp hx
      cases y with
      | nil => trivial
      | err e => trivial
      | str t => exact hv t hy
    · exact post_short H
  case incr =>
    dsimp only [Cmd.fn]
    unfold cmdIncr
    split
    · exact (all_incrBy G H (ha _ (by simp)) (by omega)).bind fun q _ h => hp q h
    · exact post_short H
  case incrBy =>
    dsimp only [Cmd.fn]
    unfold cmdIncrBy
    split
    · split
      · exact post_err H _
      · next hi => exact (all_incrBy G H (ha _ (by simp)) (parseInt_range hi)).bind fun q _ h => hp q h
    · exact post_short H
  case decr =>
    dsimp only [Cmd.fn]
    unfold cmdDecr
    split
    · exact (all_incrBy G H (ha _ (by simp)) (by omega)).bind fun q _ h => hp q h
    · exact post_short H
  case decrBy =>
    dsimp only [Cmd.fn]
    unfold cmdDecrBy
    split
    · split
      · exact post_err H _
      · exact (all_incrBy G H (ha _ (by simp)) (wrap64_range _)).bind fun q _ h => hp q h
    · exact post_short H
  case stringAppend =>
    dsimp only [Cmd.fn]
    unfold cmdAppend
    split
    · exact (all_append G H (ha _ (by simp)) (ha _ (by simp))).bind fun q _ h => hp q h
    · exact post_short H
  case keys => exact txt_keys H
  case «exists» =>
    dsimp only [Cmd.fn]
    unfold cmdExists
    split
    · exact post_int H _
    · exact post_short H
  case del =>
    dsimp only [Cmd.fn]
    unfold cmdDel
    split
    · exact post_int (s := (s.del _).1) ⟨H.keys.deleteIfExists _, H.heap⟩ _
    · exact post_short H
  case keyType =>
    dsimp only [Cmd.fn]
    unfold cmdType
    split
    · split
      · exact post_line H (by decide)
      · next t hty =>
        unfold Store.type at hty
        obtain ⟨i, hi, rfl⟩ := Option.map_eq_some_iff.mp hty
        have := (H.keys.get hi).2.1
        refine post_line H ?_
        cases ht : i.type <;> first | exact absurd ht this | decide
    · exact post_short H
  case ping => exact post_line H (by decide)
  case command => exact post_line H (by decide)
  case lPush =>
    dsimp only [Cmd.fn]
    unfold cmdLPush
    split
    · exact (all_lPushS H (ha _ (by simp)) fun a h => ha a (by simp only [List.mem_cons] at h ⊢; tauto)).bind fun q _ h => hp q h
    · exact post_short H
  case rPush =>
    dsimp only [Cmd.fn]
    unfold cmdRPush
    split
    · exact (all_rPushS H (ha _ (by simp)) fun a h => ha a (by simp only [List.mem_cons] at h ⊢; tauto)).bind fun q _ h => hp q h
    · exact post_short H
  case lPop =>
    dsimp only [Cmd.fn]
    unfold cmdLPop
    split
    · split
      · exact post_err H _
      · exact (all_lPopS H _).bind fun q _ ⟨h1, h2⟩ => post_arrReply h1 h2 rfl
    · exact post_short H
  case rPop =>
    dsimp only [Cmd.fn]
    unfold cmdRPop
    split
    · split
      · exact post_err H _
      · exact (all_rPopS H _).bind fun q _ ⟨h1, h2⟩ => post_arrReply h1 h2 rfl
    · exact post_short H
  case lLen =>
    dsimp only [Cmd.fn]
    unfold cmdLLen
    split
    · exact (Wp.triv _).bind fun r _ _ => post_intReplyNilOk H r
    · exact post_short H
  case lRange =>
    dsimp only [Cmd.fn]
    unfold cmdLRange
    split
    · split
      · exact post_err H _
      · split
        · exact post_err H _
        · refine (all_lRangeS H _ _).bind fun q _ h => ?_
          split
          · exact post_empty H
          · exact post_err H _
          · exact post_empty H
          · exact post_bulks H h _
    · exact post_short H
  case lRem =>
    dsimp only [Cmd.fn]
    unfold cmdLRem
    split
    · split
      · exact post_err H _
      · exact (all_lRemS H _ _).bind fun q _ h => post_intReplyNilOk h _
    · exact post_short H
  case lIndex =>
    dsimp only [Cmd.fn]
    unfold cmdLIndex
    split
    · split
      · exact post_err H _
      · refine (all_lIndexS H _).bind fun q _ h => ?_
        split
        · exact post_nil H
        · exact post_err H _
        · exact post_bulk H h
    · exact post_short H
  case lSet =>
    dsimp only [Cmd.fn]
    unfold cmdLSet
    split
    · split
      · exact post_err H _
      · refine (all_lSetS H _ (ha _ (by simp))).bind fun q _ h => ?_
        split
        · exact post_err h _
        · exact post_line h (by decide)
    · exact post_short H
  case lInsert =>
    dsimp only [Cmd.fn]
    unfold cmdLInsert
    split
    · dsimp only
      split
      · exact (all_lInsertS H _ _ (ha _ (by simp))).bind fun q _ h => hp q h
      · split
        · exact (all_lInsertS H _ _ (ha _ (by simp))).bind fun q _ h => hp q h
        · exact post_short H
    · exact post_short H
  case sAdd =>
    dsimp only [Cmd.fn]
    unfold cmdSAdd
    split
    · exact (all_sAddS H (ha _ (by simp)) fun a h => ha a (by simp only [List.mem_cons] at h ⊢; tauto)).bind fun q _ h => hp q h
    · exact post_short H
  case sCard =>
    dsimp only [Cmd.fn]
    unfold cmdSCard
    split
    · exact (Wp.triv _).bind fun r _ _ => post_intReplyNilOk H r
    · exact post_short H
  case sDiff =>
    dsimp only [Cmd.fn]
    unfold cmdSOp
    split
    · exact post_short H
    · exact post_empty H
    · exact (all_sOp H _ _).bind fun r _ h => post_arrReply H h rfl
  case sInter =>
    dsimp only [Cmd.fn]
    unfold cmdSOp
    split
    · exact post_short H
    · exact post_empty H
    · exact (all_sOp H _ _).bind fun r _ h => post_arrReply H h rfl
  case sUnion =>
    dsimp only [Cmd.fn]
    unfold cmdSOp
    split
    · exact post_short H
    · exact post_empty H
    · exact (all_sOp H _ _).bind fun r _ h => post_arrReply H h rfl
  case sDiffStore =>
    dsimp only [Cmd.fn]
    unfold cmdSOpStore
    split
    · exact (all_sOpStore H _ (ha _ (by simp)) _).bind fun q _ h => hp q h
    · exact post_short H
  case sInterStore =>
    dsimp only [Cmd.fn]
    unfold cmdSOpStore
    split
    · exact (all_sOpStore H _ (ha _ (by simp)) _).bind fun q _ h => hp q h
    · exact post_short H
  case sUnionStore =>
    dsimp only [Cmd.fn]
    unfold cmdSOpStore
    split
    · exact (all_sOpStore H _ (ha _ (by simp)) _).bind fun q _ h => hp q h
    · exact post_short H
  case sIsMember =>
    dsimp only [Cmd.fn]
    unfold cmdSIsMember
    split
    · exact (Wp.triv _).bind fun r _ _ => post_intReplyNilOk H r
    · exact post_short H
  case sMembers =>
    dsimp only [Cmd.fn]
    unfold cmdSMembers
    split
    · refine (all_sMembers H).bind fun q _ h => ?_
      split
      · exact post_err H _
      · exact post_bulks H h _
    · exact post_short H
  case sMove =>
    dsimp only [Cmd.fn]
    unfold cmdSMove
    split
    · exact (all_sMove H (ha _ (by simp)) (ha _ (by simp))).bind fun q _ h => hp q h
    · exact post_short H
  case sRem =>
    dsimp only [Cmd.fn]
    unfold cmdSRem
    split
    · exact (all_sRemS H _).bind fun q _ h => post_intReplyNilOk h _
    · exact post_short H
  case sPop =>
    dsimp only [Cmd.fn]
    unfold cmdSPop
    split
    · dsimp only
      split
      · exact post_err H _
      · exact (all_sPopS H _).bind fun q _ ⟨h1, h2⟩ => post_arrReply h1 h2 rfl
    · exact post_short H
  case hDel =>
    dsimp only [Cmd.fn]
    unfold cmdHDel Store.hDel
    split
    · refine wp_hash H fun e => ?_
      exact (Wp.pure H : Wp (.ok (s, (0, some e))) fun q : Store × Ret Int => Store.All W P q.1).bind fun q _ h => post_intReplyNilOk h _
    · exact post_short H
  case hExists =>
    dsimp only [Cmd.fn]
    unfold cmdHExists
    split
    · exact (Wp.triv _).bind fun r _ _ => post_intReplyNilOk H r
    · exact post_short H
  case hGet =>
    dsimp only [Cmd.fn]
    unfold cmdHGet Store.hGet
    split
    · refine wp_hash H fun e => ?_
      refine (Wp.pure ⟨e, rfl⟩ : Wp (.ok (.error e)) fun r => ∃ e : Err, r = (.error e : Except Err HVal)).bind fun r _ ⟨e, he⟩ => ?_
      subst he
      split
      · exact post_nil H
      · exact post_err H _
      · next he => cases he
    · exact post_short H
  case hGetAll =>
    dsimp only [Cmd.fn]
    unfold cmdHGetAll Store.hGetAll
    split
    · refine wp_hash H fun e => ?_
      refine (Wp.pure rfl : Wp (.ok (([] : List (Bytes × HVal)), some e)) fun r => r.1 = []).bind fun r _ he => ?_
      dsimp only
      rw [if_pos (.inr he)]
      exact post_nil H
    · exact post_short H
  case hIncrBy =>
    dsimp only [Cmd.fn]
    unfold cmdHIncrBy Store.hIncrBy
    split
    · split
      · exact post_err H _
      · refine wp_hash H fun e => ?_
        refine Wp.bind (Q := fun q => Store.All W P q.1) ?_ fun q _ h => hp q h
        split
        · split <;> exact Wp.pure H
        · exact Wp.pure H
        · next he => cases he
    · exact post_short H
  case hIncrByFloat =>
    dsimp only [Cmd.fn]
    unfold cmdHIncrByFloat Store.hIncrByFloat
    split
    · split
      · exact post_err H _
      · refine wp_hash H fun e => ?_
        refine Wp.bind (Q := fun q => Store.All W P q.1) ?_ fun q _ h => ?_
        · split
          · split <;> exact Wp.pure H
          · exact Wp.pure H
          · next he => cases he
        · split
          · exact post_err h _
          · exact post_bulk h ⟨_, rfl⟩
    · exact post_short H
  case hKeys =>
    dsimp only [Cmd.fn]
    unfold cmdHKeys Store.hKeys
    split
    · refine wp_hash H fun e => ?_
      exact (Wp.pure rfl : Wp (.ok (([] : List Bytes), some e)) fun r => r.1 = []).bind fun r _ he => post_arrReply H (by rw [he]; simp) rfl
    · exact post_short H
  case hLen =>
    dsimp only [Cmd.fn]
    unfold cmdHLen
    split
    · exact (Wp.triv _).bind fun r _ _ => post_intReplyNilOk H r
    · exact post_short H
  case hMGet =>
    dsimp only [Cmd.fn]
    unfold cmdHMGet Store.hMGet
    split
    · refine wp_hash H fun e => ?_
      refine (Wp.pure rfl : Wp (.ok (([] : List (Option Bytes)), some e)) fun r => r.1 = []).bind fun r _ he => ?_
      split
      · refine post_ok H fun i hi => ?_
        obtain ⟨x, hx, rfl⟩ := List.mem_map.mp hi
        obtain ⟨y, hy, rfl⟩ := List.mem_map.mp hx
        trivial
      · exact post_err H _
      · refine post_ok H fun i hi => ?_
        dsimp only at he
        rw [he] at hi
        cases hi
    · exact post_short H
  case hMSet =>
    dsimp only [Cmd.fn]
    unfold cmdHMSet Store.hSet
    split
    · refine wp_hash H fun e => ?_
      refine Wp.bind (Q := fun q => Store.All W P q.1) ?_ fun q _ h => ?_
      · split
        · exact Wp.pure H
        · exact Wp.pure H
        · next he => cases he
      · split
        · exact post_err h _
        · exact post_line h (by decide)
    · exact post_short H
  case hSet =>
    dsimp only [Cmd.fn]
    unfold cmdHSet Store.hSet
    split
    · refine wp_hash H fun e => ?_
      refine Wp.bind (Q := fun q => Store.All W P q.1) ?_ fun q _ h => hp q h
      split
      · exact Wp.pure H
      · exact Wp.pure H
      · next he => cases he
    · exact post_short H
  case hSetNx =>
    dsimp only [Cmd.fn]
    unfold cmdHSetNx Store.hSet
    split
    · refine wp_hash H fun e => ?_
      refine Wp.bind (Q := fun q => Store.All W P q.1) ?_ fun q _ h => hp q h
      split
      · exact Wp.pure H
      · exact Wp.pure H
      · next he => cases he
    · exact post_short H
  case hVals =>
    dsimp only [Cmd.fn]
    unfold cmdHVals Store.hVals
    split
    · refine wp_hash H fun e => ?_
      exact (Wp.pure rfl : Wp (.ok (([] : List Bytes), some e)) fun r => r.1 = []).bind fun r _ he => post_arrReply H (by rw [he]; simp) rfl
    · exact post_short H
  case zAdd =>
    dsimp only [Cmd.fn]
    unfold cmdZAdd
    split
    · split
      · exact post_err H _
      · next hz => exact (all_zAddS H (ha _ (by simp)) (fun m hm => ha _ (List.mem_cons_of_mem _ (zAddArgs_mem _ _ _ _ hz m hm))) _).bind fun q _ h => hp q h
    · exact post_short H
  case zScore =>
    dsimp only [Cmd.fn]
    unfold cmdZScore
    split
    · refine (Wp.triv _).bind fun r _ _ => ?_
      split
      · exact post_nil H
      · exact post_err H _
      · exact post_bulk H ⟨_, rfl⟩
    · exact post_short H
  case zRank =>
    dsimp only [Cmd.fn]
    unfold cmdZRank
    split
    · refine (Wp.triv _).bind fun r _ _ => ?_
      split
      · exact post_nil H
      · exact post_err H _
      · exact post_int H _
    · exact post_short H
  case zRem =>
    dsimp only [Cmd.fn]
    unfold cmdZRem
    split
    · exact (all_zRemS H _).bind fun q _ h => post_intReplyNilOk h _
    · exact post_short H
  case zCard =>
    dsimp only [Cmd.fn]
    unfold cmdZCard
    split
    · exact (Wp.triv _).bind fun r _ _ => post_intReplyNilOk H r
    · exact post_short H
  case zCount =>
    dsimp only [Cmd.fn]
    unfold cmdZCount
    split
    · exact (Wp.triv _).bind fun r _ _ => post_intReplyNilOk H r
    · exact post_short H
  case zIncr =>
    dsimp only [Cmd.fn]
    unfold cmdZIncr
    split
    · split
      · exact post_err H _
      · refine (all_zIncr H (ha _ (by simp)) _ (ha _ (by simp))).bind fun q _ h => ?_
        split
        · exact post_int h _
        · exact post_err h _
        · exact post_bulk h ⟨_, rfl⟩
    · exact post_short H
  case zRange =>
    dsimp only [Cmd.fn]
    unfold cmdZRange
    split
    · exact (all_zRangeS H _ _ _).bind fun q _ h => post_arrReply H h rfl
    · exact post_short H
  case zRangeByScore =>
    dsimp only [Cmd.fn]
    unfold cmdZRangeByScore
    split
    · exact (all_zRangeS H _ _ _).bind fun q _ h => post_arrReply H h rfl
    · exact post_short H
  case zRevRange =>
    dsimp only [Cmd.fn]
    unfold cmdZRevRange
    split
    · exact (all_zRevRangeS H _ _ _).bind fun q _ h => post_arrReply H h rfl
    · exact post_short H
  case zPopMin =>
    dsimp only [Cmd.fn]
    unfold cmdZPopMin
    split
    · dsimp only
      split
      · exact post_err H _
      · refine (all_zPopMinS H _).bind fun q _ ⟨h1, h2⟩ => ?_
        unfold zPopReply
        split
        · exact post_empty h1
        · split
          · exact post_err h1 _
          · exact post_bulks h1 h2 _
    · exact post_short H
  case zPopMix =>
    dsimp only [Cmd.fn]
    unfold cmdZPopMax
    split
    · dsimp only
      split
      · exact post_err H _
      · refine (all_zPopMaxS H _).bind fun q _ ⟨h1, h2⟩ => ?_
        unfold zPopReply
        split
        · exact post_empty h1
        · split
          · exact post_err h1 _
          · exact post_bulks h1 h2 _
    · exact post_short H

end Godis
