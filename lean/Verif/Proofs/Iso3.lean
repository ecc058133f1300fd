import Verif.Proofs.Iso2
/-!
# Stores that agree on some keys: the commands
-/
namespace Godis
open Same (G)
namespace IsoB
variable {K : Bytes → Prop} {B : Nat → Nat → Prop} {s t : Store} {g g' : Rng}

theorem ri (h : IsoB K B s t) {α : Type} (a : α) : RI K s.rng t.rng (s, a) (t, a) := ⟨⟨⟨_, h⟩, rfl, rfl⟩, rfl⟩

/-- a reply computed from a result -/
theorem G.answer {α : Type} {x y : Go (Store × α)} {f : Store → α → CmdRes} (h : G (RI K g g') x y)
    (hf : ∀ {s t : Store} a, Iso K g g' s t → G (RI K g g') (f s a) (f t a)) :
    G (RI K g g') (x >>= fun p => f p.1 p.2) (y >>= fun p => f p.1 p.2) :=
  Same.G.bind h (by rintro ⟨a, b⟩ ⟨a', b'⟩ ⟨h1, h2⟩; cases h2; exact hf _ h1)

theorem iErr (h : Iso K g g' s t) (e) : G (RI K g g') (retErr s e) (retErr t e) := .ok ⟨h, rfl⟩
theorem iOk (h : Iso K g g' s t) (e) : G (RI K g g') (retOk s e) (retOk t e) := .ok ⟨h, rfl⟩
theorem iNot (h : Iso K g g' s t) : G (RI K g g') (notEnough s) (notEnough t) := .ok ⟨h, rfl⟩
theorem iInt (h : Iso K g g' s t) (r) : G (RI K g g') (intReply s r) (intReply t r) := by
  unfold intReply; split <;> exact .ok ⟨h, rfl⟩
theorem iIntN (h : Iso K g g' s t) (r) : G (RI K g g') (intReplyNilOk s r) (intReplyNilOk t r) := by
  unfold intReplyNilOk; split <;> exact .ok ⟨h, rfl⟩
theorem iArr (h : Iso K g g' s t) (o r) : G (RI K g g') (arrReply s o r) (arrReply t o r) := by
  unfold arrReply; split <;> exact .ok ⟨h, rfl⟩
theorem iPop (h : Iso K g g' s t) (r) : G (RI K g g') (zPopReply s r) (zPopReply t r) := by
  unfold zPopReply
  split
  · exact .ok ⟨h, rfl⟩
  · split <;> exact .ok ⟨h, rfl⟩

/-- The keys a command really looks at: LINDEX uses the text of the index as a key. -/
def keysOf (c : Cmd) (args : List Bytes) : List Bytes :=
  if c = .lIndex then args.take 2 else KeySpec.keyArgs c.name args

/-- commands that draw random heights -/
def draws (c : Cmd) : Prop := c = .zAdd ∨ c = .zIncr

theorem fn_iso (h : IsoB K B s t) (ext it) (c : Cmd) (hc : c ≠ .keys) (hd : ¬ draws c) (args : List Bytes)
    (hK : ∀ k ∈ keysOf c args, K k) : G (RI K s.rng t.rng) (c.fn ext it s args) (c.fn ext it t args) := by
  have hi : Iso K s.rng t.rng s t := ⟨⟨_, h⟩, rfl, rfl⟩
  have one : (∀ args, keysOf c args = args.take 1) → ∀ k rest, args = k :: rest → K k := by
    intro h2 k rest e
    refine hK k ?_
    rw [h2, e]; simp
  cases c <;> first | (exact absurd rfl hc) | (exact absurd (.inl rfl) hd) | (exact absurd (.inr rfl) hd) | skip
  all_goals simp only [Cmd.fn]
  case set =>
    unfold cmdSet; split
    · exact .ok ⟨⟨⟨_, h.set (one (fun _ => rfl) _ _ rfl) _⟩, rfl, rfl⟩, rfl⟩
    · exact iNot hi
  case mSet =>
    unfold cmdMSet; split
    · exact iNot hi
    · obtain ⟨h1, h2, h3⟩ := mSet args h hK
      exact .ok ⟨⟨⟨_, h1⟩, h2, h3⟩, rfl⟩
  case get =>
    unfold cmdGet; split
    · exact Same.G.look (h.get (one (fun _ => rfl) _ _ rfl)) (fun a => by split <;> exact .ok ⟨hi, rfl⟩)
    · exact iNot hi
  case mget =>
    unfold cmdMGet; split
    · exact Same.G.look (h.mGet _ hK) (fun a => .ok ⟨hi, rfl⟩)
    · exact iNot hi
  case incr => unfold cmdIncr; split; exact G.answer (h.incrBy (one (fun _ => rfl) _ _ rfl) _) (fun a h => iInt h a); exact iNot hi
  case decr => unfold cmdDecr; split; exact G.answer (h.incrBy (one (fun _ => rfl) _ _ rfl) _) (fun a h => iInt h a); exact iNot hi
  case incrBy =>
    unfold cmdIncrBy; split
    · split
      · exact iErr hi _
      · exact G.answer (h.incrBy (one (fun _ => rfl) _ _ rfl) _) (fun a h => iInt h a)
    · exact iNot hi
  case decrBy =>
    unfold cmdDecrBy; split
    · split
      · exact iErr hi _
      · exact G.answer (h.incrBy (one (fun _ => rfl) _ _ rfl) _) (fun a h => iInt h a)
    · exact iNot hi
  case stringAppend => unfold cmdAppend; split; exact G.answer (h.append (one (fun _ => rfl) _ _ rfl) _) (fun a h => iInt h a); exact iNot hi
  case «exists» =>
    unfold cmdExists; split
    · rw [h.exists (one (fun _ => rfl) _ _ rfl)]; exact iOk hi _
    · exact iNot hi
  case del =>
    unfold cmdDel; split
    · next k _ =>
      obtain ⟨h1, h2, h3, h4⟩ := h.del (k := k) (one (fun _ => rfl) _ _ rfl)
      generalize s.del k = p at h1 h2 h3 ⊢
      generalize t.del k = q at h1 h2 h4 ⊢
      obtain ⟨p1, p2⟩ := p; obtain ⟨q1, q2⟩ := q
      cases h2
      exact .ok ⟨⟨⟨_, h1⟩, h3, h4⟩, rfl⟩
    · exact iNot hi
  case keyType =>
    unfold cmdType; split
    · rw [h.type (one (fun _ => rfl) _ _ rfl)]; split <;> exact .ok ⟨hi, rfl⟩
    · exact iNot hi
  case ping => exact .ok ⟨hi, rfl⟩
  case command => exact .ok ⟨hi, rfl⟩
  case lPush => unfold cmdLPush; split; exact G.answer (h.lPush (one (fun _ => rfl) _ _ rfl) _) (fun a h => iInt h a); exact iNot hi
  case rPush => unfold cmdRPush; split; exact G.answer (h.rPush (one (fun _ => rfl) _ _ rfl) _) (fun a h => iInt h a); exact iNot hi
  case lPop =>
    unfold cmdLPop; split
    · split
      · exact iErr hi _
      · exact G.answer (h.lPop (one (fun _ => rfl) _ _ rfl) _) (fun a h => iArr h _ a)
    · exact iNot hi
  case rPop =>
    unfold cmdRPop; split
    · split
      · exact iErr hi _
      · exact G.answer (h.rPop (one (fun _ => rfl) _ _ rfl) _) (fun a h => iArr h _ a)
    · exact iNot hi
  case lLen => unfold cmdLLen; split; exact Same.G.look (h.lLen (one (fun _ => rfl) _ _ rfl)) (fun a => iIntN hi a); exact iNot hi
  case lRange =>
    unfold cmdLRange; split
    · split
      · exact iErr hi _
      · split
        · exact iErr hi _
        · exact Same.G.look (h.lRange (one (fun _ => rfl) _ _ rfl) _ _) (fun a => by split <;> exact .ok ⟨hi, rfl⟩)
    · exact iNot hi
  case lRem =>
    unfold cmdLRem; split
    · split
      · exact iErr hi _
      · exact G.answer (h.lRem (one (fun _ => rfl) _ _ rfl) _ _) (fun a h => iIntN h a)
    · exact iNot hi
  case lIndex =>
    unfold cmdLIndex; split
    · next k i rest =>
      have hk : K i := hK i (by simp [keysOf])
      split
      · exact iErr hi _
      · exact Same.G.look (h.lIndex hk _) (fun a => by split <;> exact .ok ⟨hi, rfl⟩)
    · exact iNot hi
  case lSet =>
    unfold cmdLSet; split
    · split
      · exact iErr hi _
      · refine Same.G.bind (h.lSet (one (fun _ => rfl) _ _ rfl) _ _) ?_
        rintro ⟨a, _ | b⟩ ⟨a', b'⟩ ⟨h1, h2⟩ <;> cases h2 <;> exact .ok ⟨h1, rfl⟩
    · exact iNot hi
  case lInsert =>
    unfold cmdLInsert; split
    · simp only
      split
      · exact G.answer (h.lInsert (one (fun _ => rfl) _ _ rfl) _ _ _) (fun a h => iInt h a)
      · split
        · exact G.answer (h.lInsert (one (fun _ => rfl) _ _ rfl) _ _ _) (fun a h => iInt h a)
        · exact iNot hi
    · exact iNot hi
  case sAdd => unfold cmdSAdd; split; exact G.answer (h.sAdd (one (fun _ => rfl) _ _ rfl) _) (fun a h => iInt h a); exact iNot hi
  case sCard => unfold cmdSCard; split; exact Same.G.look (h.sCard (one (fun _ => rfl) _ _ rfl)) (fun a => iIntN hi a); exact iNot hi
  case sDiff | sInter | sUnion =>
    unfold cmdSOp; split
    · exact iNot hi
    · exact iOk hi _
    · exact Same.G.look (h.sOp _ _ hK) (fun a => iArr hi _ a)
  case sDiffStore | sInterStore | sUnionStore =>
    unfold cmdSOpStore; split
    · next d k ks =>
      have hK' : ∀ x ∈ d :: k :: ks, K x := hK
      exact G.answer (h.sOpStore _ _ (hK' d (by simp)) (fun x hx => hK' x (List.mem_cons_of_mem _ hx))) (fun a h => iInt h a)
    · exact iNot hi
  case sIsMember => unfold cmdSIsMember; split; exact Same.G.look (h.sIsMember (one (fun _ => rfl) _ _ rfl) _) (fun a => iIntN hi a); exact iNot hi
  case sMembers => unfold cmdSMembers; split; exact Same.G.look (h.sMembers (one (fun _ => rfl) _ _ rfl) _) (fun a => by split <;> exact .ok ⟨hi, rfl⟩); exact iNot hi
  case sMove =>
    unfold cmdSMove; split
    · next a b v rest =>
      have hK' : ∀ x ∈ [a, b], K x := hK
      exact G.answer (h.sMove (hK' a (by simp)) (hK' b (by simp)) _) (fun a h => iInt h a)
    · exact iNot hi
  case sRem => unfold cmdSRem; split; exact G.answer (h.sRem (one (fun _ => rfl) _ _ rfl) _) (fun a h => iIntN h a); exact iNot hi
  case sPop =>
    unfold cmdSPop; split
    · simp only
      split
      · exact iErr hi _
      · exact G.answer (h.sPop (one (fun _ => rfl) _ _ rfl) _ _) (fun a h => iArr h _ a)
    · exact iNot hi
  case hDel => unfold cmdHDel; split; exact G.answer (h.hDel (one (fun _ => rfl) _ _ rfl) _) (fun a h => iIntN h a); exact iNot hi
  case hExists => unfold cmdHExists; split; exact Same.G.look (h.hExists (one (fun _ => rfl) _ _ rfl) _) (fun a => iIntN hi a); exact iNot hi
  case hGet => unfold cmdHGet; split; exact Same.G.look (h.hGet (one (fun _ => rfl) _ _ rfl) _) (fun a => by split <;> exact .ok ⟨hi, rfl⟩); exact iNot hi
  case hGetAll =>
    unfold cmdHGetAll; split
    · refine Same.G.look (h.hGetAll (one (fun _ => rfl) _ _ rfl) _) (fun a => ?_)
      simp only
      split
      · exact iOk hi _
      · split <;> exact .ok ⟨hi, rfl⟩
    · exact iNot hi
  case hIncrBy =>
    unfold cmdHIncrBy; split
    · split
      · exact iErr hi _
      · exact G.answer (h.hIncrBy (one (fun _ => rfl) _ _ rfl) _ _) (fun a h => iInt h a)
    · exact iNot hi
  case hIncrByFloat =>
    unfold cmdHIncrByFloat; split
    · split
      · exact iErr hi _
      · refine Same.G.bind (h.hIncrByFloat (one (fun _ => rfl) _ _ rfl) _ _ _) ?_
        rintro ⟨a, b, _ | c⟩ ⟨a', b', c'⟩ ⟨h1, h2⟩ <;> cases h2 <;> exact .ok ⟨h1, rfl⟩
    · exact iNot hi
  case hKeys => unfold cmdHKeys; split; exact Same.G.look (h.hKeys (one (fun _ => rfl) _ _ rfl) _) (fun a => iArr hi _ a); exact iNot hi
  case hLen => unfold cmdHLen; split; exact Same.G.look (h.hLen (one (fun _ => rfl) _ _ rfl)) (fun a => iIntN hi a); exact iNot hi
  case hMGet => unfold cmdHMGet; split; exact Same.G.look (h.hMGet (one (fun _ => rfl) _ _ rfl) _ _) (fun a => by split <;> exact .ok ⟨hi, rfl⟩); exact iNot hi
  case hMSet =>
    unfold cmdHMSet; split
    · refine Same.G.bind (h.hSet (one (fun _ => rfl) _ _ rfl) _ _) ?_
      rintro ⟨a, b, _ | c⟩ ⟨a', b', c'⟩ ⟨h1, h2⟩ <;> cases h2 <;> exact .ok ⟨h1, rfl⟩
    · exact iNot hi
  case hSet => unfold cmdHSet; split; exact G.answer (h.hSet (one (fun _ => rfl) _ _ rfl) _ _) (fun a h => iInt h a); exact iNot hi
  case hSetNx => unfold cmdHSetNx; split; exact G.answer (h.hSet (one (fun _ => rfl) _ _ rfl) _ _) (fun a h => iInt h a); exact iNot hi
  case hVals => unfold cmdHVals; split; exact Same.G.look (h.hVals (one (fun _ => rfl) _ _ rfl) _ _) (fun a => iArr hi _ a); exact iNot hi
  case zScore => unfold cmdZScore; split; exact Same.G.look (h.zScore (one (fun _ => rfl) _ _ rfl) _) (fun a => by split <;> exact .ok ⟨hi, rfl⟩); exact iNot hi
  case zRank => unfold cmdZRank; split; exact Same.G.look (h.zRank (one (fun _ => rfl) _ _ rfl) _) (fun a => by split <;> exact .ok ⟨hi, rfl⟩); exact iNot hi
  case zRem => unfold cmdZRem; split; exact G.answer (h.zRem (one (fun _ => rfl) _ _ rfl) _) (fun a h => iIntN h a); exact iNot hi
  case zCard => unfold cmdZCard; split; exact Same.G.look (h.zCard (one (fun _ => rfl) _ _ rfl)) (fun a => iIntN hi a); exact iNot hi
  case zCount => unfold cmdZCount; split; exact Same.G.look (h.zCount (one (fun _ => rfl) _ _ rfl) _ _ _) (fun a => iIntN hi a); exact iNot hi
  case zRange => unfold cmdZRange; split; exact Same.G.look (h.zRange (one (fun _ => rfl) _ _ rfl) _ _ _ _) (fun a => iArr hi _ a); exact iNot hi
  case zRangeByScore => unfold cmdZRangeByScore; split; exact Same.G.look (h.zRange (one (fun _ => rfl) _ _ rfl) _ _ _ _) (fun a => iArr hi _ a); exact iNot hi
  case zRevRange => unfold cmdZRevRange; split; exact Same.G.look (h.zRevRange (one (fun _ => rfl) _ _ rfl) _ _ _ _) (fun a => iArr hi _ a); exact iNot hi
  case zPopMin =>
    unfold cmdZPopMin; split
    · simp only
      split
      · exact iErr hi _
      · exact G.answer (h.zPopMin (one (fun _ => rfl) _ _ rfl) _ _) (fun a h => iPop h a)
    · exact iNot hi
  case zPopMix =>
    unfold cmdZPopMax; split
    · simp only
      split
      · exact iErr hi _
      · exact G.answer (h.zPopMax (one (fun _ => rfl) _ _ rfl) _ _) (fun a h => iPop h a)
    · exact iNot hi

end IsoB
end Godis
