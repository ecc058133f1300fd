import Verif.Proofs.Replies
/-! Commands that cannot panic on a well-typed store. -/
namespace Godis

/-- the computation does not panic -/
def NP {α : Type} (x : Go α) : Prop := ∃ a, x = .ok a

theorem NP.ok {α : Type} (a : α) : NP (.ok a : Go α) := ⟨a, rfl⟩

theorem NP.bind {α β : Type} {x : Go α} {f : α → Go β} (h : NP x) (hf : ∀ a, NP (f a)) : NP (x >>= f) := by
  obtain ⟨a, rfl⟩ := h; exact hf a

theorem NP.of_bind {α β : Type} {x : Go α} {f : α → Go β} (h : NP (x >>= f)) : ∃ a, x = .ok a ∧ NP (f a) := by
  cases x with
  | error e => obtain ⟨b, hb⟩ := h; cases hb
  | ok a => exact ⟨a, rfl, h⟩

variable {s : Store}

theorem np_intReply (s : Store) (r : Ret Int) : NP (intReply s r) := by
  unfold intReply; split <;> exact .ok _
theorem np_intReplyNilOk (s : Store) (r : Ret Int) : NP (intReplyNilOk s r) := by
  unfold intReplyNilOk; split <;> exact .ok _
theorem np_arrReply (s : Store) (n : Response) (r : Ret (List Bytes)) : NP (arrReply s n r) := by
  unfold arrReply; split <;> exact .ok _
theorem np_zPopReply (s : Store) (r : Ret (List Bytes)) : NP (zPopReply s r) := by
  unfold zPopReply; split
  · exact .ok _
  · split <;> exact .ok _

theorem np_loadSet (ht : Typed s) (k : Bytes) (b : Bool) : NP (s.loadSet k b) := by
  rcases loadSet_cases ht k b with ⟨_, h⟩ | ⟨_, _, _, h⟩ | ⟨_, _, _, _, h⟩ <;> rw [h]
  · exact .ok _
  · exact .ok _
  · split <;> exact .ok _

theorem np_loadHash (ht : Typed s) (k : Bytes) (b : Bool) : NP (s.loadHash k b) := by
  rcases loadHash_cases ht k b with ⟨_, h⟩ | ⟨_, _, _, h⟩ <;> rw [h] <;> exact .ok _

theorem np_loadList (ht : Typed s) (k : Bytes) (b : Bool) : NP (s.loadList k b) := by
  rcases loadList_cases ht k b with ⟨_, h⟩ | ⟨_, _, _, h⟩ | ⟨_, _, _, _, h⟩ <;> rw [h]
  · exact .ok _
  · exact .ok _
  · split <;> exact .ok _

theorem np_loadZSet (ht : Typed s) (k : Bytes) (b : Bool) : NP (s.loadZSet k b) := by
  rcases loadZSet_cases ht k b with ⟨_, h⟩ | ⟨_, _, _, h⟩ | ⟨_, _, _, _, h⟩ <;> rw [h]
  · exact .ok _
  · exact .ok _
  · split <;> exact .ok _

theorem np_get (ht : Typed s) (k : Bytes) : NP (s.get k) := by
  rcases get_cases ht k with ⟨_, h⟩ | ⟨_, h⟩ | ⟨_, _, h⟩ <;> rw [h] <;> exact .ok _

theorem np_mGet (ht : Typed s) (ks : List Bytes) : NP (s.mGet ks) := by
  obtain ⟨vs, h, _⟩ := mGet_items ht ks; exact ⟨vs, h⟩

theorem typed_str (ht : Typed s) {k : Bytes} {info : KeyInfo} (hg : s.keys.get k = some info) (hty : info.type = .string) :
    ∃ v, info.value = .str v := by
  rcases ht.kind _ _ hg with ⟨v, rfl⟩ | ⟨r, o, rfl, ho, _⟩
  · exact ⟨v, rfl⟩
  · exact absurd hty o.kind_ne_string

theorem np_append (ht : Typed s) (k v : Bytes) : NP (s.append k v) := by
  unfold Store.append
  split
  · exact .ok _
  · next info hg =>
    split
    · exact .ok _
    · next hty =>
      obtain ⟨v, hv⟩ := typed_str ht hg (not_not.mp hty)
      rw [hv]; exact .ok _

theorem np_incrBy (ht : Typed s) (k : Bytes) (d : Int) : NP (s.incrBy k d) := by
  unfold Store.incrBy
  split
  · exact .ok _
  · next info hg =>
    split
    · exact .ok _
    · next hty =>
      obtain ⟨v, hv⟩ := typed_str ht hg (not_not.mp hty)
      rw [hv]; dsimp only; split <;> exact .ok _

/-- split until the computation is finished -/
local macro "np_done" : tactic => `(tactic| repeat' (first | exact NP.ok _ | split))

theorem np_sAdd (ht : Typed s) (k : Bytes) (vs) : NP (s.sAdd k vs) := by
  unfold Store.sAdd; refine (np_loadSet ht _ _).bind (fun a => ?_); np_done
theorem np_sCard (ht : Typed s) (k : Bytes) : NP (s.sCard k) := by
  unfold Store.sCard; refine (np_loadSet ht _ _).bind (fun a => ?_); np_done
theorem np_sRem (ht : Typed s) (k : Bytes) (vs) : NP (s.sRem k vs) := by
  unfold Store.sRem; refine (np_loadSet ht _ _).bind (fun a => ?_); np_done
theorem np_sIsMember (ht : Typed s) (k v : Bytes) : NP (s.sIsMember k v) := by
  unfold Store.sIsMember; refine (np_loadSet ht _ _).bind (fun a => ?_); np_done
theorem np_sMembers (ht : Typed s) (it) (k : Bytes) : NP (Store.sMembers it s k) := by
  unfold Store.sMembers; refine (np_loadSet ht _ _).bind (fun a => ?_); np_done
theorem np_sPop (ht : Typed s) (it) (k : Bytes) (n) : NP (Store.sPop it s k n) := by
  unfold Store.sPop; refine (np_loadSet ht _ _).bind (fun a => ?_); np_done

theorem np_sMove (ht : Typed s) (k t v : Bytes) : NP (s.sMove k t v) := by
  unfold Store.sMove
  rcases loadSet_cases ht k true with ⟨_, h⟩ | ⟨_, _, _, h⟩ | ⟨r, o, hg, ho, h⟩ <;> rw [h]
  · exact .ok _
  · exact .ok _
  · split
    · exact .ok _
    · show NP (if _ then _ else _)
      split
      · exact .ok _
      · refine np_sAdd ?_ t [v]
        refine ⟨ht.wf, fun k' i hh => ?_⟩
        exact (ht.kind k' i hh).set ho rfl

theorem np_setOpLoop (ht : Typed s) (it op) : ∀ ks res, NP (Store.setOpLoop it op s ks res)
  | [], res => .ok _
  | k :: ks, res => by
    unfold Store.setOpLoop
    refine (np_loadSet ht _ _).bind (fun a => ?_)
    split
    · exact .ok _
    · split
      · exact np_setOpLoop ht it op ks _
      · exact np_setOpLoop ht it op ks _

theorem np_sOp (ht : Typed s) (it op) (ks) : NP (Store.sOp it op s ks) := by
  unfold Store.sOp; refine (np_setOpLoop ht _ _ _ _).bind (fun a => ?_); np_done
theorem np_sOpStore (ht : Typed s) (it op) (k ks) : NP (Store.sOpStore it op s k ks) := by
  unfold Store.sOpStore; refine (np_setOpLoop ht _ _ _ _).bind (fun a => ?_); np_done

theorem np_hDel (ht : Typed s) (k f : Bytes) : NP (s.hDel k f) := by
  unfold Store.hDel; refine (np_loadHash ht _ _).bind (fun a => ?_); np_done
theorem np_hExists (ht : Typed s) (k f : Bytes) : NP (s.hExists k f) := by
  unfold Store.hExists; refine (np_loadHash ht _ _).bind (fun a => ?_); np_done
theorem np_hGet (ht : Typed s) (k f : Bytes) : NP (s.hGet k f) := by
  unfold Store.hGet; refine (np_loadHash ht _ _).bind (fun a => ?_); np_done
theorem np_hGetAll (ht : Typed s) (it) (k : Bytes) : NP (Store.hGetAll it s k) := by
  unfold Store.hGetAll; refine (np_loadHash ht _ _).bind (fun a => ?_); np_done
theorem np_hIncrBy (ht : Typed s) (k f : Bytes) (i) : NP (s.hIncrBy k f i) := by
  unfold Store.hIncrBy; refine (np_loadHash ht _ _).bind (fun a => ?_); np_done
theorem np_hIncrByFloat (ht : Typed s) (ext) (k f : Bytes) (i) : NP (s.hIncrByFloat ext k f i) := by
  unfold Store.hIncrByFloat; refine (np_loadHash ht _ _).bind (fun a => ?_); np_done
theorem np_hKeys (ht : Typed s) (it) (k : Bytes) : NP (Store.hKeys it s k) := by
  unfold Store.hKeys; refine (np_loadHash ht _ _).bind (fun a => ?_); np_done
theorem np_hLen (ht : Typed s) (k : Bytes) : NP (s.hLen k) := by
  unfold Store.hLen; refine (np_loadHash ht _ _).bind (fun a => ?_); np_done
theorem np_hMGet (ht : Typed s) (ext) (k : Bytes) (fs) : NP (s.hMGet ext k fs) := by
  unfold Store.hMGet; refine (np_loadHash ht _ _).bind (fun a => ?_); np_done
theorem np_hSet (ht : Typed s) (k : Bytes) (b kvs) : NP (s.hSet k b kvs) := by
  unfold Store.hSet; refine (np_loadHash ht _ _).bind (fun a => ?_); np_done
theorem np_hVals (ht : Typed s) (ext it) (k : Bytes) : NP (Store.hVals ext it s k) := by
  unfold Store.hVals; refine (np_loadHash ht _ _).bind (fun a => ?_); np_done
theorem np_lLen (ht : Typed s) (k : Bytes) : NP (s.lLen k) := by
  unfold Store.lLen; refine (np_loadList ht _ _).bind (fun a => ?_); np_done
theorem np_zCard (ht : Typed s) (k : Bytes) : NP (s.zCard k) := by
  unfold Store.zCard; refine (np_loadZSet ht _ _).bind (fun a => ?_); np_done

/-- one step through a command's code -/
local macro "np_step" ht:ident : tactic => `(tactic| first
  | with_reducible exact NP.ok _ | with_reducible exact np_intReply _ _ | with_reducible exact np_intReplyNilOk _ _ | with_reducible exact np_arrReply _ _ _ | with_reducible exact np_zPopReply _ _
  | (with_reducible refine (np_get $ht _).bind (fun _ => ?_)) | (with_reducible refine (np_mGet $ht _).bind (fun _ => ?_))
  | (with_reducible refine (np_append $ht _ _).bind (fun _ => ?_)) | (with_reducible refine (np_incrBy $ht _ _).bind (fun _ => ?_))
  | (with_reducible refine (np_sAdd $ht _ _).bind (fun _ => ?_)) | (with_reducible refine (np_sCard $ht _).bind (fun _ => ?_))
  | (with_reducible refine (np_sRem $ht _ _).bind (fun _ => ?_)) | (with_reducible refine (np_sIsMember $ht _ _).bind (fun _ => ?_))
  | (with_reducible refine (np_sMembers $ht _ _).bind (fun _ => ?_)) | (with_reducible refine (np_sPop $ht _ _ _).bind (fun _ => ?_))
  | (with_reducible refine (np_sMove $ht _ _ _).bind (fun _ => ?_)) | (with_reducible refine (np_sOp $ht _ _ _).bind (fun _ => ?_))
  | (with_reducible refine (np_sOpStore $ht _ _ _ _).bind (fun _ => ?_))
  | (with_reducible refine (np_hDel $ht _ _).bind (fun _ => ?_)) | (with_reducible refine (np_hExists $ht _ _).bind (fun _ => ?_))
  | (with_reducible refine (np_hGet $ht _ _).bind (fun _ => ?_)) | (with_reducible refine (np_hGetAll $ht _ _).bind (fun _ => ?_))
  | (with_reducible refine (np_hIncrBy $ht _ _ _).bind (fun _ => ?_)) | (with_reducible refine (np_hIncrByFloat $ht _ _ _ _).bind (fun _ => ?_))
  | (with_reducible refine (np_hKeys $ht _ _).bind (fun _ => ?_)) | (with_reducible refine (np_hLen $ht _).bind (fun _ => ?_))
  | (with_reducible refine (np_hMGet $ht _ _ _).bind (fun _ => ?_)) | (with_reducible refine (np_hSet $ht _ _ _).bind (fun _ => ?_))
  | (with_reducible refine (np_hVals $ht _ _ _).bind (fun _ => ?_)) | (with_reducible refine (np_lLen $ht _).bind (fun _ => ?_))
  | (with_reducible refine (np_zCard $ht _).bind (fun _ => ?_))
  | split)

/-- the commands that can panic on some reachable store -/
def Cmd.risky : Cmd → Bool
  | .keys | .lPush | .lPop | .rPush | .rPop | .lRange | .lRem | .lIndex | .lSet | .lInsert
  | .zAdd | .zScore | .zRank | .zRem | .zCount | .zIncr | .zRange | .zRangeByScore | .zRevRange | .zPopMin | .zPopMix => true
  | _ => false

theorem fn_np (c : Cmd) (hc : c.risky = false) (ht : Typed s) (ext it args) : NP (c.fn ext it s args) := by
  cases c
  all_goals first | (exfalso; revert hc; decide) | skip
  all_goals
    clear hc
    simp only [Cmd.fn, cmdSet, cmdMSet, cmdGet, cmdMGet, cmdIncr, cmdIncrBy, cmdDecr, cmdDecrBy, cmdAppend, cmdExists,
      cmdDel, cmdType, cmdPing, cmdCommand, cmdLLen, cmdSAdd, cmdSCard, cmdSOp, cmdSOpStore, cmdSIsMember, cmdSMembers, cmdSMove,
      cmdSRem, cmdSPop, cmdHDel, cmdHExists, cmdHGet, cmdHGetAll, cmdHIncrBy, cmdHIncrByFloat, cmdHKeys, cmdHLen, cmdHMGet,
      cmdHMSet, cmdHSet, cmdHSetNx, cmdHVals, cmdZCard, retOk, retErr, notEnough]
    repeat' np_step ht

end Godis
