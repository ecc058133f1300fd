import Verif.Proofs.Rename
/-!
# Stores with renamed keys: the commands
-/
namespace Godis
open Same (G)
namespace Ren
variable {f : Bytes → Bytes} {s t : Store}

theorem answer {α : Type} {x y : Go (Store × α)} {g : Store → α → CmdRes} (h : G (RR f) x y)
    (hf : ∀ {s t : Store} a, Ren f s t → G (RR f) (g s a) (g t a)) :
    G (RR f) (x >>= fun p => g p.1 p.2) (y >>= fun p => g p.1 p.2) :=
  Same.G.bind h (by rintro ⟨a, b⟩ ⟨a', b'⟩ ⟨h1, h2⟩; cases h2; exact hf _ h1)

theorem rInt (h : Ren f s t) (r) : G (RR f) (intReply s r) (intReply t r) := by
  unfold intReply; split <;> exact .ok ⟨h, rfl⟩
theorem rIntN (h : Ren f s t) (r) : G (RR f) (intReplyNilOk s r) (intReplyNilOk t r) := by
  unfold intReplyNilOk; split <;> exact .ok ⟨h, rfl⟩
theorem rArr (h : Ren f s t) (o r) : G (RR f) (arrReply s o r) (arrReply t o r) := by
  unfold arrReply; split <;> exact .ok ⟨h, rfl⟩
theorem rPopReply (h : Ren f s t) (r) : G (RR f) (zPopReply s r) (zPopReply t r) := by
  unfold zPopReply
  split
  · exact .ok ⟨h, rfl⟩
  · split <;> exact .ok ⟨h, rfl⟩

/-- the arguments of a command with its keys renamed -/
def args (f : Bytes → Bytes) (c : Cmd) (as : List Bytes) : List Bytes := KeySpec.renameArgs f c.name as

theorem fn_ren (hf : Function.Injective f) (h : Ren f s t) (ext it) (c : Cmd) (hc : c ≠ .keys) (hl : c ≠ .lIndex) (as : List Bytes) :
    G (RR f) (c.fn ext it s as) (c.fn ext it t (args f c as)) := by
  have no : ∀ {s t : Store}, Ren f s t → G (RR f) (notEnough s) (notEnough t) := fun h => .ok ⟨h, rfl⟩
  have er : ∀ e, G (RR f) (retErr s e) (retErr t e) := fun _ => .ok ⟨h, rfl⟩
  have ok : ∀ r, G (RR f) (retOk s r) (retOk t r) := fun _ => .ok ⟨h, rfl⟩
  cases c <;> first | (exact absurd rfl hc) | (exact absurd rfl hl) | skip
  case ping => exact ok _
  case command => exact ok _
  case mSet =>
    have e : ∀ as : List Bytes, (KeySpec.renameEvens f as).length = as.length := by
      intro as
      induction as using KeySpec.renameEvens.induct with
      | case1 => rfl
      | case2 => rfl
      | case3 k v rest ih => simp only [KeySpec.renameEvens, List.length_cons, ih]
    show G (RR f) (cmdMSet ext it s as) (cmdMSet ext it t (KeySpec.renameEvens f as))
    unfold cmdMSet
    rw [e]
    split
    · exact no h
    · exact .ok ⟨mSet hf as h, rfl⟩
  case mget =>
    show G (RR f) (cmdMGet ext it s as) (cmdMGet ext it t (as.map f))
    cases as with
    | nil => exact no h
    | cons k ks => exact Same.G.look (h.mGet hf (k :: ks)) (fun a => ok _)
  case sDiff | sInter | sUnion =>
    show G (RR f) (cmdSOp _ ext it s as) (cmdSOp _ ext it t (as.map f))
    rcases as with _ | ⟨a, _ | ⟨b, l⟩⟩
    · exact no h
    · exact ok _
    · exact Same.G.look (h.sOp hf it _ (a :: b :: l)) (fun a => rArr h _ a)
  case sDiffStore | sInterStore | sUnionStore =>
    show G (RR f) (cmdSOpStore _ ext it s as) (cmdSOpStore _ ext it t (as.map f))
    rcases as with _ | ⟨a, _ | ⟨b, l⟩⟩
    · exact no h
    · exact no h
    · exact answer (h.sOpStore hf a it _ (b :: l)) (fun a h => rInt h a)
  case sMove =>
    show G (RR f) (cmdSMove ext it s as) (cmdSMove ext it t ((as.take 2).map f ++ as.drop 2))
    rcases as with _ | ⟨a, _ | ⟨b, _ | ⟨v, l⟩⟩⟩
    · exact no h
    · exact no h
    · exact no h
    · exact answer (h.sMove hf a b v) (fun a h => rInt h a)
  all_goals
    rcases as with _ | ⟨k, l⟩
    · exact no h
  case get => exact Same.G.look (h.get hf k) (fun a => by split <;> exact .ok ⟨h, rfl⟩)
  case incr => exact answer (h.incrBy hf k _) (fun a h => rInt h a)
  case decr => exact answer (h.incrBy hf k _) (fun a h => rInt h a)
  case «exists» =>
    show G (RR f) (cmdExists ext it s (k :: l)) (cmdExists ext it t (f k :: l))
    unfold cmdExists; simp only; rw [h.exists hf]; exact ok _
  case keyType =>
    show G (RR f) (cmdType ext it s (k :: l)) (cmdType ext it t (f k :: l))
    unfold cmdType; simp only; rw [h.type hf]; split <;> exact .ok ⟨h, rfl⟩
  case del =>
    obtain ⟨h1, h2⟩ := h.del hf k
    refine .ok ⟨h1, ?_⟩
    show Except.ok (newResponseWithInteger (s.del k).2) = Except.ok (newResponseWithInteger (t.del (f k)).2)
    rw [h2]
  case lPop =>
    show G (RR f) (cmdLPop ext it s (k :: l)) (cmdLPop ext it t (f k :: l))
    unfold cmdLPop; simp only
    split
    · exact er _
    · exact answer (h.lPop hf k _) (fun a h => rArr h _ a)
  case rPop =>
    show G (RR f) (cmdRPop ext it s (k :: l)) (cmdRPop ext it t (f k :: l))
    unfold cmdRPop; simp only
    split
    · exact er _
    · exact answer (h.rPop hf k _) (fun a h => rArr h _ a)
  case lLen => exact Same.G.look (h.lLen hf k) (fun a => rIntN h a)
  case sCard => exact Same.G.look (h.sCard hf k) (fun a => rIntN h a)
  case zCard => exact Same.G.look (h.zCard hf k) (fun a => rIntN h a)
  case hLen => exact Same.G.look (h.hLen hf k) (fun a => rIntN h a)
  case sMembers => exact Same.G.look (h.sMembers hf k it) (fun a => by split <;> exact .ok ⟨h, rfl⟩)
  case hKeys => exact Same.G.look (h.hKeys hf k it) (fun a => rArr h _ a)
  case hVals => exact Same.G.look (h.hVals hf k ext it) (fun a => rArr h _ a)
  case hGetAll =>
    refine Same.G.look (h.hGetAll hf k it) (fun a => ?_)
    simp only
    split
    · exact ok _
    · split <;> exact .ok ⟨h, rfl⟩
  case sPop =>
    show G (RR f) (cmdSPop ext it s (k :: l)) (cmdSPop ext it t (f k :: l))
    unfold cmdSPop; simp only
    split
    · exact er _
    · exact answer (h.sPop hf k it _) (fun a h => rArr h _ a)
  case zPopMin =>
    show G (RR f) (cmdZPopMin ext it s (k :: l)) (cmdZPopMin ext it t (f k :: l))
    unfold cmdZPopMin; simp only
    split
    · exact er _
    · exact answer (h.zPopMin hf k ext _) (fun a h => rPopReply h a)
  case zPopMix =>
    show G (RR f) (cmdZPopMax ext it s (k :: l)) (cmdZPopMax ext it t (f k :: l))
    unfold cmdZPopMax; simp only
    split
    · exact er _
    · exact answer (h.zPopMax hf k ext _) (fun a h => rPopReply h a)
  all_goals
    rcases l with _ | ⟨a, l⟩
    · exact no h
  case set => exact .ok ⟨h.set hf k a, rfl⟩
  case stringAppend => exact answer (h.append hf k _) (fun a h => rInt h a)
  case incrBy =>
    show G (RR f) (cmdIncrBy ext it s (k :: a :: l)) (cmdIncrBy ext it t (f k :: a :: l))
    unfold cmdIncrBy; simp only
    split
    · exact er _
    · exact answer (h.incrBy hf k _) (fun a h => rInt h a)
  case decrBy =>
    show G (RR f) (cmdDecrBy ext it s (k :: a :: l)) (cmdDecrBy ext it t (f k :: a :: l))
    unfold cmdDecrBy; simp only
    split
    · exact er _
    · exact answer (h.incrBy hf k _) (fun a h => rInt h a)
  case lPush => exact answer (h.lPush hf k _) (fun a h => rInt h a)
  case rPush => exact answer (h.rPush hf k _) (fun a h => rInt h a)
  case sAdd => exact answer (h.sAdd hf k _) (fun a h => rInt h a)
  case sRem => exact answer (h.sRem hf k _) (fun a h => rIntN h a)
  case zRem => exact answer (h.zRem hf k _) (fun a h => rIntN h a)
  case hDel => exact answer (h.hDel hf k _) (fun a h => rIntN h a)
  case sIsMember => exact Same.G.look (h.sIsMember hf k _) (fun a => rIntN h a)
  case hExists => exact Same.G.look (h.hExists hf k _) (fun a => rIntN h a)
  case hGet => exact Same.G.look (h.hGet hf k _) (fun a => by split <;> exact .ok ⟨h, rfl⟩)
  case hMGet => exact Same.G.look (h.hMGet hf k ext _) (fun a => by split <;> exact .ok ⟨h, rfl⟩)
  case zScore => exact Same.G.look (h.zScore hf k _) (fun a => by split <;> exact .ok ⟨h, rfl⟩)
  case zRank => exact Same.G.look (h.zRank hf k _) (fun a => by split <;> exact .ok ⟨h, rfl⟩)
  all_goals
    rcases l with _ | ⟨b, l⟩
    · exact no h
  case lRange =>
    show G (RR f) (cmdLRange ext it s (k :: a :: b :: l)) (cmdLRange ext it t (f k :: a :: b :: l))
    unfold cmdLRange; simp only
    split
    · exact er _
    · split
      · exact er _
      · exact Same.G.look (h.lRange hf k _ _) (fun a => by split <;> exact .ok ⟨h, rfl⟩)
  case lRem =>
    show G (RR f) (cmdLRem ext it s (k :: a :: b :: l)) (cmdLRem ext it t (f k :: a :: b :: l))
    unfold cmdLRem; simp only
    split
    · exact er _
    · exact answer (h.lRem hf k _ _) (fun a h => rIntN h a)
  case lSet =>
    show G (RR f) (cmdLSet ext it s (k :: a :: b :: l)) (cmdLSet ext it t (f k :: a :: b :: l))
    unfold cmdLSet; simp only
    split
    · exact er _
    · refine Same.G.bind (h.lSet hf k _ _) ?_
      rintro ⟨a, _ | b⟩ ⟨a', b'⟩ ⟨h1, h2⟩ <;> cases h2 <;> exact .ok ⟨h1, rfl⟩
  case lInsert =>
    rcases l with _ | ⟨c, l⟩
    · exact no h
    show G (RR f) (cmdLInsert ext it s (k :: a :: b :: c :: l)) (cmdLInsert ext it t (f k :: a :: b :: c :: l))
    unfold cmdLInsert; simp only
    split
    · exact answer (h.lInsert hf k _ _ _) (fun a h => rInt h a)
    · split
      · exact answer (h.lInsert hf k _ _ _) (fun a h => rInt h a)
      · exact no h
  case hIncrBy =>
    show G (RR f) (cmdHIncrBy ext it s (k :: a :: b :: l)) (cmdHIncrBy ext it t (f k :: a :: b :: l))
    unfold cmdHIncrBy; simp only
    split
    · exact er _
    · exact answer (h.hIncrBy hf k _ _) (fun a h => rInt h a)
  case hIncrByFloat =>
    show G (RR f) (cmdHIncrByFloat ext it s (k :: a :: b :: l)) (cmdHIncrByFloat ext it t (f k :: a :: b :: l))
    unfold cmdHIncrByFloat; simp only
    split
    · exact er _
    · refine Same.G.bind (h.hIncrByFloat hf k _ _ _) ?_
      rintro ⟨a, b, _ | c⟩ ⟨a', b', c'⟩ ⟨h1, h2⟩ <;> cases h2 <;> exact .ok ⟨h1, rfl⟩
  case hMSet =>
    refine Same.G.bind (h.hSet hf k _ _) ?_
    rintro ⟨a, b, _ | c⟩ ⟨a', b', c'⟩ ⟨h1, h2⟩ <;> cases h2 <;> exact .ok ⟨h1, rfl⟩
  case hSet => exact answer (h.hSet hf k _ _) (fun a h => rInt h a)
  case hSetNx => exact answer (h.hSet hf k _ _) (fun a h => rInt h a)
  case zAdd =>
    show G (RR f) (cmdZAdd ext it s (k :: a :: b :: l)) (cmdZAdd ext it t (f k :: a :: b :: l))
    unfold cmdZAdd; simp only
    split
    · exact er _
    · exact answer (h.zAdd hf k _ _ _) (fun a h => rInt h a)
  case zIncr =>
    show G (RR f) (cmdZIncr ext it s (k :: a :: b :: l)) (cmdZIncr ext it t (f k :: a :: b :: l))
    unfold cmdZIncr; simp only
    split
    · exact er _
    · refine Same.G.bind (h.zIncr hf k _ _ _) ?_
      rintro ⟨a, b, c⟩ ⟨a', b', c'⟩ ⟨h1, h2⟩
      cases h2
      rcases c with _ | _ | _ | _ | _ | _ | _ | _ <;> exact .ok ⟨h1, rfl⟩
  case zCount => exact Same.G.look (h.zCount hf k _ _ _) (fun a => rIntN h a)
  case zRange => exact Same.G.look (h.zRange hf k _ _ _ _) (fun a => rArr h _ a)
  case zRangeByScore => exact Same.G.look (h.zRange hf k _ _ _ _) (fun a => rArr h _ a)
  case zRevRange => exact Same.G.look (h.zRevRange hf k _ _ _ _) (fun a => rArr h _ a)

end Ren
end Godis
