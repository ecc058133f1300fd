import Verif.Proofs.Strings2
/-! Key commands, wrong types, missing arguments, frames. -/
namespace Godis
open Resp (Reply bulks)
open StrSpec (lower Ascii)

section
variable {ext : Ext} {it : Iter} {s s' : Store} {m : Reply} {k : Bytes} {rest : List Bytes}

theorem answers_det {req : List Bytes} (h : ∃ o, runRequest ext it s req = .ok (s', some o) ∧ o.reply = some m)
    {m1 : Reply} {s1 : Store} : Answers ext it s req m1 s1 ↔ m1 = m ∧ s1 = s' := by
  obtain ⟨o, h1, h2⟩ := h
  constructor
  · rintro ⟨o', h1', h2'⟩
    rw [h1] at h1'; cases h1'
    rw [h2] at h2'; cases h2'
    exact ⟨rfl, rfl⟩
  · rintro ⟨rfl, rfl⟩; exact ⟨o, h1, h2⟩

theorem exists_answers : Answers ext it s (b! "exists" :: k :: rest) m s' ↔
    m = .int (if (s.keys.get k).isSome then 1 else 0) ∧ s' = s :=
  answers_det ⟨_, rfl, rfl⟩

/-- the reply of TYPE -/
def typeText (s : Store) (k : Bytes) : Bytes :=
  match s.keys.get k with
  | none => b! "none"
  | some info => info.type.text

theorem type_answers : Answers ext it s (b! "type" :: k :: rest) m s' ↔ m = .simple (typeText s k) ∧ s' = s := by
  apply answers_det
  have : runRequest ext it s (b! "type" :: k :: rest) = (cmdType ext it s (k :: rest)).map (fun p => (p.1, some (setRsp p.2))) := by
    show (do let (s, r) ← (do let (s, r) ← cmdType ext it s (k :: rest); .ok (s, setRsp r)); .ok (s, some r) : Go _) = _
    cases cmdType ext it s (k :: rest) <;> rfl
  rw [this]
  simp only [cmdType, Store.type, typeText]
  cases hg : s.keys.get k with
  | none => exact ⟨_, rfl, rfl⟩
  | some info => 
    obtain ⟨t, v⟩ := info
    exact ⟨_, rfl, by cases t <;> rfl⟩

theorem del_answers : Answers ext it s (b! "del" :: k :: rest) m s' ↔
    m = .int (if (s.keys.get k).isSome then 1 else 0) ∧ s' = ⟨(s.keys.deleteIfExists k).1, s.heap, s.rng⟩ := by
  apply answers_det
  refine ⟨_, rfl, ?_⟩
  show some (Reply.int (if (s.keys.deleteIfExists k).2 then 1 else 0)) = _
  rw [SMap.deleteIfExists_snd]; rfl

theorem foldl_filter {σ : Type} (l : List (Bytes × σ)) (p : Bytes → Bool) (acc : List Bytes) :
    l.foldl (fun ks (kv : Bytes × σ) => if p kv.1 then ks ++ [kv.1] else ks) acc = acc ++ (l.map (·.1)).filter p := by
  induction l generalizing acc with
  | nil => simp
  | cons a l ih =>
    simp only [List.foldl_cons, List.map_cons, List.filter_cons]
    by_cases h : p a.1
    · simp [h, ih]
    · simp [h, ih]

theorem keys_answers {p : Bytes} {g : Bytes → Bool} (hg : ext.glob p = some g) :
    Answers ext it s (b! "keys" :: p :: rest) m s' ↔ m = bulks ((s.keys.keys it).filter g) ∧ s' = s := by
  apply answers_det
  have h1 : s.keysMatching ext it p = .ok ((s.keys.keys it).filter g) := by
    simp only [Store.keysMatching, hg, SMap.range, SMap.keys]
    rw [foldl_filter]; rfl
  have : cmdKeys ext it s (p :: rest) = .ok (s, .ok (bulkStrings true ((s.keys.keys it).filter g))) := by
    simp only [cmdKeys, h1, bind, Except.bind, retOk]
  refine ⟨bulkStrings true ((s.keys.keys it).filter g), ?_, reply_bulks _⟩
  show (do let (s, r) ← (do let (s, r) ← cmdKeys ext it s (p :: rest); .ok (s, setRsp r)); .ok (s, some r) : Go _) = _
  rw [this]; rfl

end

/-! ## frame on values -/

/-- no two keys share an object -/
def NoShare (s : Store) : Prop :=
  ∀ k1 k2 t1 t2 r, s.keys.get k1 = some ⟨t1, .ref r⟩ → s.keys.get k2 = some ⟨t2, .ref r⟩ → k1 = k2

theorem noShare_init (rng : Rng) : NoShare (Store.init rng) := by
  intro k1 k2 t1 t2 r h; cases h

/-- the key's reference is inside the heap -/
theorem Typed.ref_lt {s : Store} (ht : Typed s) {k t r} (h : s.keys.get k = some ⟨t, .ref r⟩) : r < s.heap.length := by
  rcases ht.kind _ _ h with ⟨v, h⟩ | ⟨r', o, h, ho, _⟩
  · cases h
  · cases h; exact (List.getElem?_eq_some_iff.mp ho).1

theorem Change.noShare {ext c args N} {s s' : Store} (h : Change ext c args N s s') (ht : Typed s) (hn : NoShare s)
    (hna : ¬ (c.isStoreOp ∧ args.length = 2)) : NoShare s' := by
  cases h with
  | @str k v _ _ =>
    intro k1 k2 t1 t2 r h1 h2
    simp only [SMap.get_set] at h1 h2
    split at h1
    · cases h1
    · split at h2
      · cases h2
      · exact hn _ _ _ _ _ h1 h2
  | @del k _ _ =>
    intro k1 k2 t1 t2 r h1 h2
    simp only [SMap.get_del _ _ _ ht.wf] at h1 h2
    split at h1
    · cases h1
    · split at h2
      · cases h2
      · exact hn _ _ _ _ _ h1 h2
  | @new k o rng _ _ _ _ =>
    intro k1 k2 t1 t2 r h1 h2
    simp only [SMap.get_set] at h1 h2
    split at h1
    · next e1 =>
      split at h2
      · next e2 => rw [e1, e2]
      · cases h1
        exact absurd (ht.ref_lt h2) (by simp)
    · split at h2
      · cases h2
        exact absurd (ht.ref_lt h1) (by simp)
      · exact hn _ _ _ _ _ h1 h2
  | write => exact hn
  | «alias» hc ha => exact absurd ⟨hc, by rw [ha]; rfl⟩ hna

theorem Change.value_frame {ext c args N} {s s' : Store} (h : Change ext c args N s s') (ht : Typed s) (hn : NoShare s)
    {k : Bytes} (hk : k ∉ N) : s'.valueAt k = s.valueAt k := by
  have hf := h.keys_frame ht hk
  unfold Store.valueAt
  rw [hf]
  cases hg : s.keys.get k with
  | none => rfl
  | some info =>
    obtain ⟨t, v⟩ := info
    cases v with
    | str v => rfl
    | ref r =>
      have hr := ht.ref_lt hg
      cases h with
      | str => rfl
      | del => rfl
      | new =>
        simp only
        rw [List.getElem?_append_left hr]
      | @write k' r' o o' rng hk' hg' ho hs _ =>
        simp only
        have : r' ≠ r := by
          rintro rfl
          exact hk (hn _ _ _ _ _ hg hg' ▸ hk')
        rw [List.getElem?_set_ne this]
      | «alias» => rfl

theorem Eff.noShare {ext c args N} {s s' : Store} (h : Eff ext c args N s s') (ht : Typed s) (hn : NoShare s)
    (hna : ¬ (c.isStoreOp ∧ args.length = 2)) : NoShare s' := by
  induction h with
  | refl => exact hn
  | step h _ ih => exact ih (h.typed ht) (h.noShare ht hn hna)

theorem OStep.not_store {ext c args rng o o'} (h : OStep ext c args rng o o') : ¬ c.isStoreOp := by
  rintro (rfl | rfl | rfl) <;> cases h <;> simp_all

theorem Change.alias_value {ext c args N} {s s' : Store} (h : Change ext c args N s s') (ht : Typed s)
    (hs : c.isStoreOp) {k : Bytes} (hk : k ∉ N) : s'.valueAt k = s.valueAt k := by
  have hf := h.keys_frame ht hk
  unfold Store.valueAt
  rw [hf]
  cases hg : s.keys.get k with
  | none => rfl
  | some info =>
    obtain ⟨t, v⟩ := info
    cases v with
    | str v => rfl
    | ref r =>
      have hr := ht.ref_lt hg
      cases h with
      | str => rfl
      | del => rfl
      | new => simp only; rw [List.getElem?_append_left hr]
      | write _ _ _ hos _ => exact absurd hs hos.not_store
      | «alias» => rfl

theorem Eff.value_frame {ext c args N} {s s' : Store} (h : Eff ext c args N s s') (ht : Typed s) (hn : NoShare s)
    {k : Bytes} (hk : k ∉ N) : s'.valueAt k = s.valueAt k := by
  by_cases hs : c.isStoreOp
  · induction h with
    | refl => rfl
    | @step s s1 s2 h h2 ih =>
      have key : ∀ {a b}, Eff ext c args N a b → Typed a → b.valueAt k = a.valueAt k := by
        intro a b hab
        induction hab with
        | refl => intro _; rfl
        | step h _ ih => intro ht; rw [ih (h.typed ht), h.alias_value ht hs hk]
      exact key (.step h h2) ht
  · induction h with
    | refl => rfl
    | step h _ ih => rw [ih (h.typed ht) (h.noShare ht hn (fun h => hs h.1)), h.value_frame ht hn hk]

/-! ## wrong types -/

/-- refused: an error, nothing changed; the type error, or an error whatever the store -/
def Refused (ext : Ext) (it : Iter) (s : Store) (f : CmdFn) (args : List Bytes) : Prop :=
  ∃ e, f ext it s args = .ok (s, .error e) ∧
    (e = .keyAndCommandNotMatch ∨ ∀ s2, f ext it s2 args = .ok (s2, .error e))

/-- the type tag of a kind of value -/
def kindTag : KeySpec.Kind → KeyType
  | .string => .string | .list => .list | .set => .set | .hash => .hashTable | .zset => .sortedSet

section
variable {ext : Ext} {it : Iter} {s : Store} {k : Bytes} {info : KeyInfo}

theorem loadList_ne (hg : s.keys.get k = some info) (h : info.type ≠ .list) (b) :
    s.loadList k b = .ok (.error .keyAndCommandNotMatch) := by simp [Store.loadList, loadKeyInfo_ne hg h]
theorem loadSet_ne (hg : s.keys.get k = some info) (h : info.type ≠ .set) (b) :
    s.loadSet k b = .ok (.error .keyAndCommandNotMatch) := by simp [Store.loadSet, loadKeyInfo_ne hg h]
theorem loadHash_ne (hg : s.keys.get k = some info) (h : info.type ≠ .hashTable) (b) :
    s.loadHash k b = .ok (.error .keyAndCommandNotMatch) := by simp [Store.loadHash, loadKeyInfo_ne hg h]
theorem loadZSet_ne (hg : s.keys.get k = some info) (h : info.type ≠ .sortedSet) (b) :
    s.loadZSet k b = .ok (.error .keyAndCommandNotMatch) := by simp [Store.loadZSet, loadKeyInfo_ne hg h]

macro "refuse" : tactic => `(tactic| first
  | exact ⟨_, rfl, .inr fun _ => rfl⟩
  | exact ⟨_, rfl, .inl rfl⟩)

theorem wrongType_list (c : Cmd) (hc : c ∈ [Cmd.lPush, .lPop, .rPush, .rPop, .lLen, .lRange, .lRem, .lSet, .lInsert])
    (hg : s.keys.get k = some info) (h : info.type ≠ .list) (rest : List Bytes) : Refused ext it s c.fn (k :: rest) := by
  have hl := loadList_ne hg h
  unfold Refused
  simp only [List.mem_cons, List.not_mem_nil, or_false] at hc
  rcases hc with rfl | rfl | rfl | rfl | rfl | rfl | rfl | rfl | rfl <;>
  rcases rest with _ | ⟨a, _ | ⟨b, _ | ⟨d, r⟩⟩⟩ <;>
  simp only [Cmd.fn, cmdLPush, cmdLPop, cmdRPush, cmdRPop, cmdLLen, cmdLRange, cmdLRem, cmdLSet, cmdLInsert,
    Store.lPush, Store.lPop, Store.rPush, Store.rPop, Store.lLen, Store.lRange, Store.lRem, Store.lSet, Store.lInsert,
    hl, bind, Except.bind, notEnough, popCount] <;>
  first
  | refuse
  | (cases ha : atoi a with
     | none => refuse
     | some n =>
       dsimp only
       first
       | refuse
       | (by_cases hn : n ≤ 0
          · simp only [if_pos hn]; refuse
          · simp only [if_neg hn]; refuse)
       | (cases hb : atoi b <;> refuse))
  | (by_cases h1 : toLower ext.lowerUni a = b! "after"
     · simp only [if_pos h1]; refuse
     · by_cases h2 : toLower ext.lowerUni a = b! "before"
       · simp only [if_neg h1, if_pos h2]; refuse
       · simp only [if_neg h1, if_neg h2]; refuse)

theorem wrongType_set (c : Cmd) (hc : c ∈ [Cmd.sAdd, .sCard, .sIsMember, .sMembers, .sMove, .sRem, .sPop])
    (hg : s.keys.get k = some info) (h : info.type ≠ .set) (rest : List Bytes) : Refused ext it s c.fn (k :: rest) := by
  have hl := loadSet_ne hg h
  unfold Refused
  simp only [List.mem_cons, List.not_mem_nil, or_false] at hc
  rcases hc with rfl | rfl | rfl | rfl | rfl | rfl | rfl <;>
  rcases rest with _ | ⟨a, _ | ⟨b, r⟩⟩ <;>
  simp only [Cmd.fn, cmdSAdd, cmdSCard, cmdSIsMember, cmdSMembers, cmdSMove, cmdSRem, cmdSPop,
    Store.sAdd, Store.sCard, Store.sIsMember, Store.sMembers, Store.sMove, Store.sRem, Store.sPop,
    hl, bind, Except.bind, notEnough] <;>
  first
  | refuse
  | (cases ha : atoi a with
     | none => refuse
     | some n => refuse)

theorem wrongType_sop (c : Cmd) (hc : c ∈ [Cmd.sDiff, .sInter, .sUnion])
    (hg : s.keys.get k = some info) (h : info.type ≠ .set) (rest : List Bytes) (hr : rest ≠ []) :
    Refused ext it s c.fn (k :: rest) := by
  have hl := loadSet_ne hg h
  unfold Refused
  simp only [List.mem_cons, List.not_mem_nil, or_false] at hc
  rcases rest with _ | ⟨a, r⟩
  · exact absurd rfl hr
  rcases hc with rfl | rfl | rfl <;>
  simp only [Cmd.fn, cmdSOp, Store.sOp, Store.setOpLoop, hl, bind, Except.bind] <;> refuse

theorem wrongType_hash (c : Cmd) (hc : c ∈ [Cmd.hDel, .hExists, .hGet, .hIncrBy, .hIncrByFloat, .hKeys, .hLen, .hMGet,
      .hMSet, .hSet, .hSetNx, .hVals])
    (hg : s.keys.get k = some info) (h : info.type ≠ .hashTable) (rest : List Bytes) :
    Refused ext it s c.fn (k :: rest) := by
  have hl := loadHash_ne hg h
  unfold Refused
  simp only [List.mem_cons, List.not_mem_nil, or_false] at hc
  rcases hc with rfl | rfl | rfl | rfl | rfl | rfl | rfl | rfl | rfl | rfl | rfl | rfl <;>
  rcases rest with _ | ⟨a, _ | ⟨b, r⟩⟩ <;>
  simp only [Cmd.fn, cmdHDel, cmdHExists, cmdHGet, cmdHIncrBy, cmdHIncrByFloat, cmdHKeys, cmdHLen, cmdHMGet, cmdHMSet,
    cmdHSet, cmdHSetNx, cmdHVals, Store.hDel, Store.hExists, Store.hGet, Store.hIncrBy, Store.hIncrByFloat,
    Store.hKeys, Store.hLen, Store.hMGet, Store.hSet, Store.hVals, hl, bind, Except.bind, notEnough] <;>
  first
  | refuse
  | (cases ha : parseInt b with
     | none => refuse
     | some n => refuse)
  | (cases ha : ext.parseFloat b with
     | none => refuse
     | some n => refuse)

theorem wrongType_zset (c : Cmd) (hc : c ∈ [Cmd.zAdd, .zScore, .zRank, .zRem, .zCard, .zCount, .zIncr, .zRange,
      .zRangeByScore, .zRevRange])
    (hg : s.keys.get k = some info) (h : info.type ≠ .sortedSet) (rest : List Bytes) :
    Refused ext it s c.fn (k :: rest) := by
  have hl := loadZSet_ne hg h
  unfold Refused
  simp only [List.mem_cons, List.not_mem_nil, or_false] at hc
  rcases hc with rfl | rfl | rfl | rfl | rfl | rfl | rfl | rfl | rfl | rfl <;>
  rcases rest with _ | ⟨a, _ | ⟨b, r⟩⟩ <;>
  simp only [Cmd.fn, cmdZAdd, cmdZScore, cmdZRank, cmdZRem, cmdZCard, cmdZCount, cmdZIncr, cmdZRange, cmdZRangeByScore,
    cmdZRevRange, Store.zAdd, Store.zScore, Store.zRank, Store.zRem, Store.zCard, Store.zCount, Store.zIncr,
    Store.zRange, Store.zRevRange, hl, bind, Except.bind, notEnough] <;>
  first
  | refuse
  | (cases ha : ext.parseFloat a with
     | none => refuse
     | some n => refuse)
  | (cases ha : zAddArgs ext (a :: b :: r) {} with
     | none => refuse
     | some n => obtain ⟨n1, n2⟩ := n; refuse)

theorem wrongType_string (c : Cmd) (hc : c ∈ [Cmd.get, .incr, .incrBy, .decr, .decrBy, .stringAppend])
    (hg : s.keys.get k = some info) (h : info.type ≠ .string) (rest : List Bytes) :
    Refused ext it s c.fn (k :: rest) := by
  unfold Refused
  simp only [List.mem_cons, List.not_mem_nil, or_false] at hc
  rcases hc with rfl | rfl | rfl | rfl | rfl | rfl <;>
  rcases rest with _ | ⟨a, r⟩ <;>
  simp only [Cmd.fn, cmdGet, cmdIncr, cmdIncrBy, cmdDecr, cmdDecrBy, cmdAppend, Store.get, Store.incrBy, Store.append,
    hg, ne_eq, h, not_false_eq_true, if_true, bind, Except.bind, notEnough] <;>
  first
  | refuse
  | (cases ha : parseInt a with
     | none => refuse
     | some n => refuse)

end
/-! ## reads depend only on the values of the named keys -/

section
variable {ext : Ext} {it : Iter} {s s' : Store} {k : Bytes}

theorem valueAt_none (h : s.keys.get k = none) : s.valueAt k = none := by simp [Store.valueAt, h]
theorem valueAt_str {t v} (h : s.keys.get k = some ⟨t, .str v⟩) : s.valueAt k = some (.text v) := by
  simp [Store.valueAt, h]
theorem valueAt_ref {t r o} (h : s.keys.get k = some ⟨t, .ref r⟩) (ho : s.heap[r]? = some o) :
    s.valueAt k = some (.coll o) := by simp [Store.valueAt, h, ho]

/-- the value determines the type tag -/
theorem valueAt_cases (ht : Typed s) (k : Bytes) :
    (s.keys.get k = none ∧ s.valueAt k = none) ∨
    (∃ v, s.keys.get k = some ⟨.string, .str v⟩ ∧ s.valueAt k = some (.text v)) ∨
    (∃ r o, s.keys.get k = some ⟨o.kind, .ref r⟩ ∧ s.heap[r]? = some o ∧ o.kind ≠ .hashTable ∧
      s.valueAt k = some (.coll o)) := by
  cases hg : s.keys.get k with
  | none => exact .inl ⟨rfl, valueAt_none hg⟩
  | some info =>
    rcases ht.kind _ _ hg with ⟨v, rfl⟩ | ⟨r, o, rfl, ho, hk⟩
    · exact .inr (.inl ⟨v, rfl, valueAt_str hg⟩)
    · exact .inr (.inr ⟨r, o, rfl, ho, hk, valueAt_ref hg ho⟩)

theorem keyInfo_congr (ht : Typed s) (ht' : Typed s') (hv : s.valueAt k = s'.valueAt k) :
    (s.keys.get k = none ∧ s'.keys.get k = none) ∨
    (∃ v, s.keys.get k = some ⟨.string, .str v⟩ ∧ s'.keys.get k = some ⟨.string, .str v⟩) ∨
    (∃ r r' o, s.keys.get k = some ⟨o.kind, .ref r⟩ ∧ s'.keys.get k = some ⟨o.kind, .ref r'⟩ ∧
      s.heap[r]? = some o ∧ s'.heap[r']? = some o) := by
  rcases valueAt_cases ht k with ⟨h, h2⟩ | ⟨v, h, h2⟩ | ⟨r, o, h, ho, hk, h2⟩ <;>
  rcases valueAt_cases ht' k with ⟨h', h2'⟩ | ⟨v', h', h2'⟩ | ⟨r', o', h', ho', hk', h2'⟩ <;>
  rw [h2, h2'] at hv <;> cases hv
  · exact .inl ⟨h, h'⟩
  · exact .inr (.inl ⟨_, h, h'⟩)
  · exact .inr (.inr ⟨r, r', o, h, h', ho, ho'⟩)

/-- the outcome of a load, without the reference -/
def LoadAgree {α : Type} (x y : Go (Except Err (Nat × α))) : Prop :=
  (∃ e, x = .ok (.error e) ∧ y = .ok (.error e)) ∨ ∃ r r' l, x = .ok (.ok (r, l)) ∧ y = .ok (.ok (r', l))

theorem loadList_congr (ht : Typed s) (ht' : Typed s') (hv : s.valueAt k = s'.valueAt k) (b) :
    LoadAgree (s.loadList k b) (s'.loadList k b) := by
  rcases keyInfo_congr ht ht' hv with ⟨h, h'⟩ | ⟨v, h, h'⟩ | ⟨r, r', o, h, h', ho, ho'⟩
  · exact .inl ⟨.nil, by simp [Store.loadList, Store.loadKeyInfo, h], by simp [Store.loadList, Store.loadKeyInfo, h']⟩
  · exact .inl ⟨_, by simp [Store.loadList, Store.loadKeyInfo, h]; rfl, by simp [Store.loadList, Store.loadKeyInfo, h']⟩
  · cases o with
    | list l =>
      by_cases hb : (b && l.length == 0) = true
      · exact .inl ⟨.nil, by simp [Store.loadList, Store.loadKeyInfo, h, Obj.kind, ho]; simpa using hb,
          by simp [Store.loadList, Store.loadKeyInfo, h', Obj.kind, ho']; simpa using hb⟩
      · exact .inr ⟨r, r', l, by simp [Store.loadList, Store.loadKeyInfo, h, Obj.kind, ho]; simpa using hb,
          by simp [Store.loadList, Store.loadKeyInfo, h', Obj.kind, ho']; simpa using hb⟩
    | _ => exact .inl ⟨.keyAndCommandNotMatch, by simp [Store.loadList, Store.loadKeyInfo, h, Obj.kind],
        by simp [Store.loadList, Store.loadKeyInfo, h', Obj.kind]⟩

theorem loadSet_congr (ht : Typed s) (ht' : Typed s') (hv : s.valueAt k = s'.valueAt k) (b) :
    LoadAgree (s.loadSet k b) (s'.loadSet k b) := by
  rcases keyInfo_congr ht ht' hv with ⟨h, h'⟩ | ⟨v, h, h'⟩ | ⟨r, r', o, h, h', ho, ho'⟩
  · exact .inl ⟨.nil, by simp [Store.loadSet, Store.loadKeyInfo, h], by simp [Store.loadSet, Store.loadKeyInfo, h']⟩
  · exact .inl ⟨_, by simp [Store.loadSet, Store.loadKeyInfo, h]; rfl, by simp [Store.loadSet, Store.loadKeyInfo, h']⟩
  · cases o with
    | set l =>
      by_cases hb : (b && l.length == 0) = true
      · exact .inl ⟨.nil, by simp [Store.loadSet, Store.loadKeyInfo, h, Obj.kind, ho]; simpa using hb,
          by simp [Store.loadSet, Store.loadKeyInfo, h', Obj.kind, ho']; simpa using hb⟩
      · exact .inr ⟨r, r', l, by simp [Store.loadSet, Store.loadKeyInfo, h, Obj.kind, ho]; simpa using hb,
          by simp [Store.loadSet, Store.loadKeyInfo, h', Obj.kind, ho']; simpa using hb⟩
    | _ => exact .inl ⟨.keyAndCommandNotMatch, by simp [Store.loadSet, Store.loadKeyInfo, h, Obj.kind],
        by simp [Store.loadSet, Store.loadKeyInfo, h', Obj.kind]⟩

theorem loadZSet_congr (ht : Typed s) (ht' : Typed s') (hv : s.valueAt k = s'.valueAt k) (b) :
    LoadAgree (s.loadZSet k b) (s'.loadZSet k b) := by
  rcases keyInfo_congr ht ht' hv with ⟨h, h'⟩ | ⟨v, h, h'⟩ | ⟨r, r', o, h, h', ho, ho'⟩
  · exact .inl ⟨.nil, by simp [Store.loadZSet, Store.loadKeyInfo, h], by simp [Store.loadZSet, Store.loadKeyInfo, h']⟩
  · exact .inl ⟨_, by simp [Store.loadZSet, Store.loadKeyInfo, h]; rfl, by simp [Store.loadZSet, Store.loadKeyInfo, h']⟩
  · cases o with
    | zset l =>
      by_cases hb : (b && l.zsl.length == 0) = true
      · exact .inl ⟨.nil, by simp [Store.loadZSet, Store.loadKeyInfo, h, Obj.kind, ho]; simpa using hb,
          by simp [Store.loadZSet, Store.loadKeyInfo, h', Obj.kind, ho']; simpa using hb⟩
      · exact .inr ⟨r, r', l, by simp [Store.loadZSet, Store.loadKeyInfo, h, Obj.kind, ho]; simpa using hb,
          by simp [Store.loadZSet, Store.loadKeyInfo, h', Obj.kind, ho']; simpa using hb⟩
    | _ => exact .inl ⟨.keyAndCommandNotMatch, by simp [Store.loadZSet, Store.loadKeyInfo, h, Obj.kind],
        by simp [Store.loadZSet, Store.loadKeyInfo, h', Obj.kind]⟩

theorem loadHash_congr (ht : Typed s) (ht' : Typed s') (hv : s.valueAt k = s'.valueAt k) (b) :
    ∃ e, s.loadHash k b = .ok (.error e) ∧ s'.loadHash k b = .ok (.error e) := by
  rcases loadHash_cases ht k b with ⟨h, hl⟩ | ⟨i, h, _, hl⟩ <;>
  rcases loadHash_cases ht' k b with ⟨h', hl'⟩ | ⟨i', h', _, hl'⟩
  · exact ⟨_, hl, hl'⟩
  · rcases keyInfo_congr ht ht' hv with ⟨g, g'⟩ | ⟨v, g, g'⟩ | ⟨r, r', o, g, g', _⟩ <;> simp_all
  · rcases keyInfo_congr ht ht' hv with ⟨g, g'⟩ | ⟨v, g, g'⟩ | ⟨r, r', o, g, g', _⟩ <;> simp_all
  · exact ⟨_, hl, hl'⟩

theorem get_congr (ht : Typed s) (ht' : Typed s') (hv : s.valueAt k = s'.valueAt k) : s.get k = s'.get k := by
  rcases keyInfo_congr ht ht' hv with ⟨h, h'⟩ | ⟨v, h, h'⟩ | ⟨r, r', o, h, h', ho, ho'⟩
  · simp [Store.get, h, h']
  · simp [Store.get, h, h']
  · simp [Store.get, h, h', Obj.kind_ne_string]

theorem mGet_congr (ht : Typed s) (ht' : Typed s') : ∀ (ks : List Bytes),
    (∀ k ∈ ks, s.valueAt k = s'.valueAt k) → s.mGet ks = s'.mGet ks
  | [], _ => rfl
  | k :: ks, h => by
    simp only [Store.mGet]
    rw [get_congr ht ht' (h k (by simp)), mGet_congr ht ht' ks (fun k hk => h k (by simp [hk]))]

theorem setOpLoop_congr {op : Store.SetOp} (ht : Typed s) (ht' : Typed s') : ∀ (ks : List Bytes) (p p' : Option Store.SPtr),
    (∀ k ∈ ks, s.valueAt k = s'.valueAt k) → p.map (·.2) = p'.map (·.2) →
    (Store.setOpLoop it op s ks p).map (fun r => r.map (fun o => o.map (·.2))) =
      (Store.setOpLoop it op s' ks p').map (fun r => r.map (fun o => o.map (·.2)))
  | [], p, p', _, hp => by simp only [Store.setOpLoop, Except.map, hp]
  | k :: ks, p, p', h, hp => by
    simp only [Store.setOpLoop]
    have ih := setOpLoop_congr (op := op) ht ht' ks
    have hk := fun k hk => h k (List.mem_cons_of_mem _ hk)
    rcases loadSet_congr ht ht' (h k (by simp)) true with ⟨e, e1, e2⟩ | ⟨r, r', l, e1, e2⟩
    · simp only [e1, e2, bind, Except.bind]
    · simp only [e1, e2, bind, Except.bind]
      rcases p with _ | ⟨q, a⟩ <;> rcases p' with _ | ⟨q', a'⟩ <;> simp only [Option.map_none, Option.map_some, reduceCtorEq] at hp
      · exact ih _ _ hk rfl
      · cases hp; exact ih _ _ hk rfl

theorem sOp_congr {op : Store.SetOp} (ht : Typed s) (ht' : Typed s') (ks : List Bytes)
    (h : ∀ k ∈ ks, s.valueAt k = s'.valueAt k) : Store.sOp it op s ks = Store.sOp it op s' ks := by
  have := setOpLoop_congr (it := it) (op := op) ht ht' ks none none h rfl
  simp only [Store.sOp]
  cases h1 : Store.setOpLoop it op s ks none with
  | error e =>
    cases h2 : Store.setOpLoop it op s' ks none with
    | error e' => rw [h1, h2] at this; cases this; rfl
    | ok x => rw [h1, h2] at this; cases this
  | ok x =>
    cases h2 : Store.setOpLoop it op s' ks none with
    | error e' => rw [h1, h2] at this; cases this
    | ok y =>
      rw [h1, h2] at this
      simp only [Except.map, Except.ok.injEq] at this
      rcases x with e | _ | ⟨p, o⟩ <;> rcases y with e' | _ | ⟨p', o'⟩ <;>
        simp only [Option.map_none, Option.map_some, Except.ok.injEq, Except.error.injEq, reduceCtorEq, Option.some.injEq] at this
      · cases this; rfl
      · rfl
      · cases this; rfl

/-- what a read command replies depends only on the values of the keys it names -/
theorem read_congr (c : Cmd) {args : List Bytes}
    (hc : c ∈ [Cmd.get, .mget, .exists, .keyType, .ping, .command, .lLen, .lRange, .sCard, .sDiff,
      .sInter, .sUnion, .sIsMember, .sMembers, .hExists, .hGet, .hGetAll, .hKeys, .hLen, .hMGet, .hVals, .zScore,
      .zRank, .zCard, .zCount, .zRange, .zRangeByScore, .zRevRange])
    (ht : Typed s) (ht' : Typed s') (hv : ∀ k ∈ KeySpec.keyArgs c.name args, s.valueAt k = s'.valueAt k) :
    (c.fn ext it s args).map (·.2) = (c.fn ext it s' args).map (·.2) := by
  have ir : ∀ r, (intReply s r).map (·.2) = (intReply s' r).map (·.2) := by
    rintro ⟨n, _ | e⟩ <;> rfl
  have irn : ∀ r, (intReplyNilOk s r).map (·.2) = (intReplyNilOk s' r).map (·.2) := by
    rintro ⟨n, _ | e⟩
    · rfl
    · cases e <;> rfl
  have ar : ∀ n r, (arrReply s n r).map (·.2) = (arrReply s' n r).map (·.2) := by
    rintro n ⟨_, _ | e⟩
    · rfl
    · cases e <;> rfl
  have one : oneKey c → ∀ k rest, args = k :: rest → s.valueAt k = s'.valueAt k := by
    intro ho k rest he
    exact hv k (he ▸ oneKey_mem ho k rest)
  simp only [List.mem_cons, List.not_mem_nil, or_false] at hc
  rcases hc with rfl | rfl | rfl | rfl | rfl | rfl | rfl | rfl | rfl | rfl | rfl | rfl | rfl | rfl | rfl | rfl | rfl |
    rfl | rfl | rfl | rfl | rfl | rfl | rfl | rfl | rfl | rfl | rfl
  case inr.inl => -- mget
    cases args with
    | nil => rfl
    | cons k ks =>
      simp only [Cmd.fn, cmdMGet, mGet_congr ht ht' (k :: ks) hv, bind, Except.bind]
      cases s'.mGet (k :: ks) <;> rfl
  all_goals try
    (simp only [Cmd.fn, cmdPing, cmdCommand]; rfl)
  all_goals try
    (simp only [Cmd.fn, cmdSOp]
     rcases args with _ | ⟨k, _ | ⟨k2, ks⟩⟩
     · rfl
     · rfl
     · simp only [sOp_congr ht ht' (k :: k2 :: ks) hv, bind, Except.bind]
       cases Store.sOp it _ s' (k :: k2 :: ks) with
       | error e => rfl
       | ok r => exact ar _ _)
  all_goals
    have one := one (by one_key)
    rcases args with _ | ⟨k, rest⟩
    · rfl
    replace one := one k rest rfl
  all_goals try
    (simp only [Cmd.fn, cmdGet, get_congr ht ht' one, bind, Except.bind]
     cases s'.get k with
     | error e => rfl
     | ok r => obtain ⟨v, _ | e⟩ := r
               · rfl
               · cases e <;> rfl)
  all_goals try
    (rcases keyInfo_congr ht ht' one with ⟨h, h'⟩ | ⟨v, h, h'⟩ | ⟨r, r', o, h, h', ho, ho'⟩ <;>
     simp only [Cmd.fn, cmdExists, cmdType, Store.exists, Store.type, SMap.has_eq, h, h', Option.map_some] <;> rfl)
  all_goals try
    (obtain ⟨e, h1, h1'⟩ := loadHash_congr ht ht' one true
     rcases rest with _ | ⟨a, rest⟩ <;>
     simp only [Cmd.fn, cmdHExists, cmdHGet, cmdHGetAll, cmdHKeys, cmdHLen, cmdHMGet, cmdHVals, Store.hExists,
       Store.hGet, Store.hGetAll, Store.hKeys, Store.hLen, Store.hMGet, Store.hVals, h1, h1', bind, Except.bind] <;>
     cases e <;> rfl)
  all_goals try
    (rcases loadList_congr ht ht' one true with ⟨e, h1, h1'⟩ | ⟨r, r', l, h1, h1'⟩ <;>
     rcases loadList_congr ht ht' one false with ⟨e2, h2, h2'⟩ | ⟨r2, r2', l2, h2, h2'⟩ <;>
     rcases rest with _ | ⟨a, _ | ⟨b, rest⟩⟩ <;>
     simp only [Cmd.fn, cmdLLen, cmdLRange, Store.lLen, Store.lRange, h1, h1', h2, h2', bind, Except.bind] <;>
     first
     | rfl
     | exact irn _
     | (cases atoi a with
        | none => rfl
        | some i =>
          cases atoi b with
          | none => rfl
          | some j =>
            first
            | (cases e <;> rfl)
            | (simp only
               cases l.lRange i j with
               | error e => rfl
               | ok vs => cases vs <;> rfl)))
  all_goals try
    (rcases loadSet_congr ht ht' one true with ⟨e, h1, h1'⟩ | ⟨r, r', l, h1, h1'⟩ <;>
     rcases rest with _ | ⟨a, rest⟩ <;>
     simp only [Cmd.fn, cmdSCard, cmdSIsMember, cmdSMembers, Store.sCard, Store.sIsMember, Store.sMembers, h1, h1', bind,
       Except.bind] <;>
     first
     | rfl
     | exact irn _)
  all_goals try
    (rcases loadZSet_congr ht ht' one true with ⟨e, h1, h1'⟩ | ⟨r, r', l, h1, h1'⟩ <;>
     rcases rest with _ | ⟨a, _ | ⟨b, rest⟩⟩ <;>
     simp only [Cmd.fn, cmdZScore, cmdZRank, cmdZCard, cmdZCount, cmdZRange, cmdZRangeByScore, cmdZRevRange,
       Store.zScore, Store.zRank, Store.zCard, Store.zCount, Store.zRange, Store.zRevRange, h1, h1', bind,
       Except.bind] <;>
     first
     | rfl
     | exact irn _
     | exact ar _ _
     | (cases e <;> rfl)
     | ((repeat' split) <;> first
        | rfl
        | exact irn _
        | exact ar _ _))

end
end Godis
