import Verif.Props.ZSets2
/-! # C40: the size of the reply of ZPOPMAX -/
namespace Godis
open ZSpec
open Resp (Reply bulks)
open StrSpec (int64)

/-- the store after `ZADD z 1 a` -/
def oneMember : Store := ((play ext0 it0 (Store.init rng0) [[b! "zadd", b! "z", b! "1", b! "a"]]).map (·.2)).getD (Store.init rng0)

theorem oneMember_play : play ext0 it0 (Store.init rng0) [[b! "zadd", b! "z", b! "1", b! "a"]] =
    some ([([b! "zadd", b! "z", b! "1", b! "a"], .int 1)], oneMember) := by
  have h : (play ext0 it0 (Store.init rng0) [[b! "zadd", b! "z", b! "1", b! "a"]]).map (·.1) =
    some [([b! "zadd", b! "z", b! "1", b! "a"], .int 1)] := by decide +kernel
  obtain ⟨⟨tr, s⟩, hp, h2⟩ := Option.map_eq_some_iff.mp h
  have : oneMember = s := by unfold oneMember; rw [hp]; rfl
  rw [hp, this, ← h2]

/-- its sorted set -/
def oneMemberZ : Nat × ZObj := match oneMember.loadZSet (b! "z") true with | .ok (.ok x) => x | _ => (0, ZObj.empty)

/-- its skip list after removing the member -/
def noMemberZ : ZSL := match oneMemberZ.2.zsl.delete (smallF64 1) (b! "a") with | .ok x => x.1 | _ => oneMemberZ.2.zsl

theorem except_map_ok {ε α β : Type} {x : Except ε α} {f : α → β} {b : β} (h : x.map f = .ok b) : ∃ a, x = .ok a ∧ f a = b := by
  cases x with
  | error e => cases h
  | ok a => exact ⟨a, rfl, by simpa [Except.map] using h⟩

theorem popMax_padding (k : Nat) :
    ZObj.zPopMaxLoop ext0 k noMemberZ = .ok (noMemberZ, (List.replicate k [[], b! "0"]).flatten) := by
  induction k with
  | zero => rfl
  | succ k ih =>
    have h1 : noMemberZ.findElementByRank (toUint noMemberZ.length) = .ok (some 0) := by decide +kernel
    have h2 : (ZSL.load noMemberZ.nodes 0).map (fun n => (n.score, n.value)) = .ok (0#64, []) := by decide +kernel
    have h3 : (noMemberZ.delete 0#64 []).map (·.1) = .ok noMemberZ := by decide +kernel
    obtain ⟨n, h2, h4⟩ := except_map_ok h2
    obtain ⟨v, h3, h5⟩ := except_map_ok h3
    simp only [Prod.mk.injEq] at h4
    unfold ZObj.zPopMaxLoop
    rw [h1]
    simp only [bind, Except.bind, h2, h4.1, h4.2, h3, h5, ih]
    have : ext0.formatFloat 0#64 = b! "0" := by decide +kernel
    rw [this]
    rfl

theorem popMax_one (k : Nat) :
    ZObj.zPopMaxLoop ext0 (k + 1) oneMemberZ.2.zsl = .ok (noMemberZ, [b! "a", b! "1"] ++ (List.replicate k [[], b! "0"]).flatten) := by
  have h1 : oneMemberZ.2.zsl.findElementByRank (toUint oneMemberZ.2.zsl.length) = .ok (some 1) := by decide +kernel
  have h2 : (ZSL.load oneMemberZ.2.zsl.nodes 1).map (fun n => (n.score, n.value)) = .ok (smallF64 1, b! "a") := by decide +kernel
  have h3 : (oneMemberZ.2.zsl.delete (smallF64 1) (b! "a")).map (·.1) = .ok noMemberZ := by decide +kernel
  obtain ⟨n, h2, h4⟩ := except_map_ok h2
  obtain ⟨v, h3, h5⟩ := except_map_ok h3
  simp only [Prod.mk.injEq] at h4
  unfold ZObj.zPopMaxLoop
  rw [h1]
  simp only [bind, Except.bind, h2, h4.1, h4.2, h3, h5, popMax_padding]
  have : ext0.formatFloat (smallF64 1) = b! "1" := by decide +kernel
  rw [this]
  rfl

/-- C40 fails for ZPOPMAX in the size of the reply: for any count, a request of a few bytes to a sorted set of one
member is answered with that many entries, all but the first of which never existed. -/
theorem C40_zpopmax_padding_violated : ∃ s,
    play ext0 it0 (Store.init rng0) [[b! "zadd", b! "z", b! "1", b! "a"]] = some ([([b! "zadd", b! "z", b! "1", b! "a"], .int 1)], s) ∧
    ∀ (t : Bytes) (n : Nat), 0 < n → int64 t = some (n : Int) → ∃ s',
      Answers ext0 it0 s [b! "zpopmax", b! "z", t] (bulks ([b! "a", b! "1"] ++ (List.replicate (n - 1) [[], b! "0"]).flatten)) s' := by
  refine ⟨oneMember, oneMember_play, ?_⟩
  intro t n h0 ht
  obtain ⟨k, rfl⟩ : ∃ k, n = k + 1 := ⟨n - 1, by omega⟩
  have hl : oneMember.loadZSet (b! "z") true = .ok (.ok oneMemberZ) := by
    have : (match oneMember.loadZSet (b! "z") true with | .ok (.ok _) => true | _ => false) = true := by decide +kernel
    unfold oneMemberZ
    revert this
    rcases oneMember.loadZSet (b! "z") true with _ | _ | x <;> simp
  have hr : cmdZPopMax ext0 it0 oneMember [b! "z", t] = .ok (oneMember.write oneMemberZ.1 (.zset ⟨oneMemberZ.2.m, noMemberZ⟩),
      .ok (bulkStrings true ([b! "a", b! "1"] ++ (List.replicate k [[], b! "0"]).flatten))) := by
    rw [zpopmax_args]
    simp only [ZSpec.popCount, ht, Store.zPopMax, hl, bind, Except.bind]
    have e : ((k + 1 : Nat) : Int).toNat = k + 1 := by omega
    rw [e, popMax_one]
    rfl
  refine ⟨oneMember.write oneMemberZ.1 (.zset ⟨oneMemberZ.2.m, noMemberZ⟩),
    bulkStrings true ([b! "a", b! "1"] ++ (List.replicate k [[], b! "0"]).flatten), ?_, ?_⟩
  · have hq : runRequest ext0 it0 oneMember [b! "zpopmax", b! "z", t] =
        (execute ext0 it0 oneMember (b! "zpopmax") [b! "z", t]).map (fun p => (p.1, some p.2)) := rfl
    have he : execute ext0 it0 oneMember (b! "zpopmax") [b! "z", t] =
        (cmdZPopMax ext0 it0 oneMember [b! "z", t]).map (fun p => (p.1, setRsp p.2)) := rfl
    rw [hq, he, hr]
    rfl
  · rw [reply_bulks]; rfl

/-- Case: a request of 40 bytes, a reply of nine thousand million million million entries. -/
example : int64 (b! "9223372036854775807") = some ((9223372036854775807 : Nat) : Int) := by decide +kernel

end Godis
