import Verif.Spec.Strings
import Verif.Proofs.Reach
/-! String commands against the history specification `StrSpec`. -/
namespace Godis
open Resp (Reply bulks dec sdec)
open StrSpec

/-! ## numbers -/

theorem foldl_digit_none (cs : Bytes) : cs.foldl Resp.digit none = none := by
  induction cs with
  | nil => rfl
  | cons c cs ih => simpa [Resp.digit] using ih

theorem foldl_digit (cs : Bytes) (acc : Nat) : cs.foldl Resp.digit (some acc) = digitsVal cs acc := by
  induction cs generalizing acc with
  | nil => rfl
  | cons c cs ih =>
    simp only [List.foldl_cons, Resp.digit, digitsVal]
    have e : (48 ≤ c ∧ c ≤ 57) ↔ (48 ≤ c.toNat ∧ c.toNat ≤ 57) := by
      simp [UInt8.le_iff_toNat_le]
    by_cases h : 48 ≤ c.toNat ∧ c.toNat ≤ 57
    · rw [if_pos h, if_pos (e.mpr h), ih, Nat.mul_comm]
    · rw [if_neg h, if_neg (fun hh => h (e.mp hh)), foldl_digit_none]

theorem dec_eq_parseNat (s : Bytes) : dec s = parseNat s := by
  unfold dec parseNat
  split
  · rfl
  · exact foldl_digit s 0

theorem digitChar_toNat (n : Nat) (h : n < 10) : UInt8.ofNat (n.digitChar.toNat) = UInt8.ofNat (48 + n) := by
  revert n; decide
theorem natDigits_eq (fuel n : Nat) (h : n < fuel) :
    natDigits fuel n = (Nat.toDigits 10 n).map (fun c => UInt8.ofNat c.toNat) := by
  induction fuel generalizing n with
  | zero => omega
  | succ f ih =>
    rw [natDigits, Nat.toDigits_eq_if (by decide)]
    split
    · next h => simp [digitChar_toNat n h]
    · rw [ih _ (by omega), List.map_append, List.map_cons, List.map_nil, digitChar_toNat _ (by omega)]
theorem formatNat_eq (n : Nat) : formatNat n = n.repr.toList.map (fun c => UInt8.ofNat c.toNat) := by
  rw [Nat.toList_repr]; exact natDigits_eq _ _ (by omega)
theorem formatInt_eq (i : Int) : formatInt i = StrSpec.decimal i := by
  unfold formatInt StrSpec.decimal
  cases i with
  | ofNat n => 
    rw [if_neg (by simp), formatNat_eq]; rfl
  | negSucc n =>
    rw [if_pos (by omega), formatNat_eq]
    show _ = ("-" ++ n.succ.repr).toList.map _
    simp [String.toList_append]

theorem int64_eq (s : Bytes) : int64 s = parseInt s := by
  cases s with
  | nil => rfl
  | cons c cs =>
    unfold int64 parseInt
    have e45 : signed (45 :: cs) = (dec cs).map (fun (n : Nat) => -(n : Int)) := rfl
    have e43 : signed (43 :: cs) = (dec cs).map (fun (n : Nat) => (n : Int)) := rfl
    by_cases h1 : c = 45
    · subst h1
      simp only [if_true]
      rw [e45, dec_eq_parseNat]
      cases parseNat cs with
      | none => rfl
      | some n =>
        simp only [Option.map_some]
        by_cases hn : n ≤ 2 ^ 63
        · rw [if_pos hn, if_pos (by omega)]
        · rw [if_neg hn, if_neg (by omega)]
    · by_cases h2 : c = 43
      · subst h2
        simp only [if_true, if_neg h1]
        rw [e43, dec_eq_parseNat]
        cases parseNat cs with
        | none => rfl
        | some n =>
          simp only [Option.map_some]
          by_cases hn : n < 2 ^ 63
          · rw [if_pos hn, if_pos (by omega)]
          · rw [if_neg hn, if_neg (by omega)]
      · simp only [if_neg h1, if_neg h2]
        have : signed (c :: cs) = (dec (c :: cs)).map (fun (n : Nat) => (n : Int)) := by
          unfold signed
          split
          · next h => cases h; exact absurd rfl h1
          · next h => cases h; exact absurd rfl h2
          · rfl
        rw [this, dec_eq_parseNat]
        cases parseNat (c :: cs) with
        | none => rfl
        | some n =>
          simp only [Option.map_some]
          by_cases hn : n < 2 ^ 63
          · rw [if_pos hn, if_pos (by omega)]
          · rw [if_neg hn, if_neg (by omega)]

/-! ## views -/

/-- what a store holds under a key -/
def viewOf (s : Store) (k : Bytes) : View :=
  match s.keys.get k with
  | none => .absent
  | some ⟨_, .str v⟩ => .str v
  | some ⟨_, .ref _⟩ => .coll

theorem viewOf_keys {s s' : Store} (h : s'.keys = s.keys) (k : Bytes) : viewOf s' k = viewOf s k := by
  unfold viewOf; rw [h]

theorem viewOf_set (s : Store) (k' v k : Bytes) (heap rng) :
    viewOf ⟨s.keys.set k' ⟨.string, .str v⟩, heap, rng⟩ k = if k = k' then .str v else viewOf s k := by
  unfold viewOf; simp only [SMap.get_set]
  by_cases h : k = k'
  · simp [h]
  · simp [h]

theorem viewOf_ref (s : Store) (k' : Bytes) (tp r) (k : Bytes) (heap rng) :
    viewOf ⟨s.keys.set k' ⟨tp, .ref r⟩, heap, rng⟩ k = if k = k' then .coll else viewOf s k := by
  unfold viewOf; simp only [SMap.get_set]
  by_cases h : k = k'
  · simp [h]
  · simp [h]

theorem lower_eq {uni} {s : Bytes} (h : Ascii s) : toLower uni s = lower s := by
  unfold toLower lower
  have : s.all (· < 128) = true := by
    rw [List.all_eq_true]; intro c hc
    have := h c hc
    simpa [UInt8.lt_iff_toNat_lt] using this
  rw [if_pos this]
  apply List.map_congr_left
  intro c hc
  unfold lowerByte
  have e : (65 ≤ c ∧ c ≤ 90) ↔ (65 ≤ c.toNat ∧ c.toNat ≤ 90) := by simp [UInt8.le_iff_toNat_le]
  by_cases h : 65 ≤ c.toNat ∧ c.toNat ≤ 90
  · rw [if_pos h, if_pos (e.mpr h)]
  · rw [if_neg h, if_neg (fun hh => h (e.mp hh))]

/-! ## one step -/

/-- the reply is not an error -/
def NotErr (m : Reply) : Prop := ∀ e, m ≠ .error e

theorem notErr_int (i : Int) : NotErr (.int i) := fun _ h => by cases h
theorem notErr_simple (i) : NotErr (.simple i) := fun _ h => by cases h
theorem notErr_bulk (i) : NotErr (.bulk i) := fun _ h => by cases h

section
variable {k : Bytes} {v v' : View} {args : List Bytes} {m : Reply}

theorem next_error {name : Bytes} {e} : Next k v name args (.error e) v := rfl

macro "next_tac" hm:ident : tactic =>
  `(tactic| (cases m <;> first | exact Iff.rfl | exact absurd rfl ($hm _)))

theorem next_mset (hm : NotErr m) : Next k v (b! "mset") args m v' ↔ v' = msetView k args v := by next_tac hm
theorem next_smove (hm : NotErr m) : Next k v (b! "smove") args m v' ↔
    v' = if args.drop 1 |>.head? |>.any (· = k) then create v else v := by next_tac hm
theorem next_set (hm : NotErr m) : Next k v (b! "set") args m v' ↔
    if args.head? ≠ some k then v' = v else ∃ a ∈ args[1]?, v' = .str a := by next_tac hm
theorem next_append (hm : NotErr m) : Next k v (b! "append") args m v' ↔
    if args.head? ≠ some k then v' = v else ∃ a ∈ args[1]?, v' = appendView a v := by next_tac hm
theorem next_del (hm : NotErr m) : Next k v (b! "del") args m v' ↔
    if args.head? ≠ some k then v' = v else v' = .absent := by next_tac hm
theorem next_counter {name : Bytes} (hn : name ∈ counters) (hm : NotErr m) : Next k v name args m v' ↔
    if args.head? ≠ some k then v' = v else ∃ i, m = .int i ∧ v' = .str (decimal i) := by
  simp only [counters, List.mem_cons, List.not_mem_nil, or_false] at hn
  rcases hn with rfl | rfl | rfl | rfl <;> next_tac hm
theorem next_creator {name : Bytes} (hn : name ∈ creators) (hm : NotErr m) : Next k v name args m v' ↔
    if args.head? ≠ some k then v' = v else v' = create v := by
  simp only [creators, List.mem_cons, List.not_mem_nil, or_false] at hn
  rcases hn with rfl | rfl | rfl | rfl | rfl <;> next_tac hm
theorem next_store {name : Bytes} (hn : name ∈ setStores) (hm : NotErr m) : Next k v name args m v' ↔
    if args.head? ≠ some k then v' = v else v' = .coll := by
  simp only [setStores, List.mem_cons, List.not_mem_nil, or_false] at hn
  rcases hn with rfl | rfl | rfl <;> next_tac hm

theorem next_same {name : Bytes}
    (hn : name ∉ [b! "mset", b! "smove", b! "set", b! "append", b! "del"] ++ counters ++ creators ++ setStores) :
    Next k v name args m v := by
  simp only [List.mem_append, List.mem_cons, List.not_mem_nil, or_false, not_or] at hn
  obtain ⟨⟨⟨⟨h1, h2, h3, h4, h5⟩, h6⟩, h7⟩, h8⟩ := hn
  cases m with
  | error => rfl
  | _ =>
    simp only [Next]
    simp [h1, h2, h3, h4, h5, h6, h7, h8]

/-- the view after a creating command on `k'` -/
def createAt (k' : Bytes) (s s' : Store) : Prop :=
  ∀ k, viewOf s' k = if k = k' then create (viewOf s k) else viewOf s k

theorem createAt_next {name k' : Bytes} {rest : List Bytes} {s s' : Store} (hn : name ∈ creators) (hm : NotErr m)
    (h : createAt k' s s') : Next k (viewOf s k) name (k' :: rest) m (viewOf s' k) := by
  rw [next_creator hn hm, h k]
  by_cases hk : k = k'
  · subst hk; simp
  · simp [hk, Ne.symm hk]

end

theorem viewOf_none {s : Store} {k : Bytes} (h : s.keys.get k = none) : viewOf s k = .absent := by
  simp [viewOf, h]
theorem viewOf_some_ref {s : Store} {k : Bytes} {tp r} (h : s.keys.get k = some ⟨tp, .ref r⟩) : viewOf s k = .coll := by
  simp [viewOf, h]
theorem viewOf_some_str {s : Store} {k : Bytes} {tp r} (h : s.keys.get k = some ⟨tp, .str r⟩) : viewOf s k = .str r := by
  simp [viewOf, h]

/-- a new object under an absent key -/
theorem createAt_new {s : Store} {k' : Bytes} (hg : s.keys.get k' = none) (tp r heap rng) :
    createAt k' s ⟨s.keys.set k' ⟨tp, .ref r⟩, heap, rng⟩ := by
  intro k
  rw [viewOf_ref]
  split
  · next h => subst h; rw [viewOf_none hg]; rfl
  · rfl

/-- a write to an existing object -/
theorem createAt_write {s s' : Store} {k' : Bytes} {tp r} (hg : s.keys.get k' = some ⟨tp, .ref r⟩)
    (h : s'.keys = s.keys) : createAt k' s s' := by
  intro k
  rw [viewOf_keys h]
  split
  · next hk => subst hk; rw [viewOf_some_ref hg]; rfl
  · rfl

section
variable {ext : Ext} {s s' : Store}

theorem lPush_view {k : Bytes} {vs : List Bytes} {r} (ht : Typed s) (h : s.lPush k vs = .ok (s', r)) :
    (∃ e, r.2 = some e ∧ s' = s) ∨ (r.2 = none ∧ createAt k s s') := by
  simp only [Store.lPush] at h
  rcases loadList_cases ht k false with ⟨hg, hl⟩ | ⟨info, hg, hty, hl⟩ | ⟨a, l, hg, ho, hl⟩ <;>
    simp only [hl, bind, Except.bind, Bool.false_and, Bool.false_eq_true, if_false] at h
  · split at h
    · cases h
    · cases h; exact .inr ⟨rfl, createAt_new hg _ _ _ _⟩
  · cases h; exact .inl ⟨_, rfl, rfl⟩
  · split at h
    · cases h
    · cases h; exact .inr ⟨rfl, createAt_write hg rfl⟩

theorem rPush_view {k : Bytes} {vs : List Bytes} {r} (ht : Typed s) (h : s.rPush k vs = .ok (s', r)) :
    (∃ e, r.2 = some e ∧ s' = s) ∨ (r.2 = none ∧ createAt k s s') := by
  simp only [Store.rPush] at h
  rcases loadList_cases ht k false with ⟨hg, hl⟩ | ⟨info, hg, hty, hl⟩ | ⟨a, l, hg, ho, hl⟩ <;>
    simp only [hl, bind, Except.bind, Bool.false_and, Bool.false_eq_true, if_false] at h
  · split at h
    · cases h
    · cases h; exact .inr ⟨rfl, createAt_new hg _ _ _ _⟩
  · cases h; exact .inl ⟨_, rfl, rfl⟩
  · split at h
    · cases h
    · cases h; exact .inr ⟨rfl, createAt_write hg rfl⟩

theorem sAdd_view {k : Bytes} {vs : List Bytes} {r} (ht : Typed s) (h : s.sAdd k vs = .ok (s', r)) :
    (∃ e, r.2 = some e ∧ s' = s) ∨ (r.2 = none ∧ createAt k s s') := by
  simp only [Store.sAdd] at h
  rcases loadSet_cases ht k false with ⟨hg, hl⟩ | ⟨info, hg, hty, hl⟩ | ⟨a, l, hg, ho, hl⟩ <;>
    simp only [hl, bind, Except.bind, Bool.false_and, Bool.false_eq_true, if_false] at h
  · cases h; exact .inr ⟨rfl, createAt_new hg _ _ _ _⟩
  · cases h; exact .inl ⟨_, rfl, rfl⟩
  · cases h; exact .inr ⟨rfl, createAt_write hg rfl⟩

theorem zAdd_view {k : Bytes} {ms flag r} (ht : Typed s) (h : s.zAdd ext k ms flag = .ok (s', r)) :
    (∃ e, r.2 = some e ∧ s' = s) ∨ (r.2 = none ∧ createAt k s s') := by
  simp only [Store.zAdd] at h
  rcases loadZSet_cases ht k false with ⟨hg, hl⟩ | ⟨info, hg, hty, hl⟩ | ⟨a, l, hg, ho, hl⟩ <;>
    simp only [hl, bind, Except.bind, Bool.false_and, Bool.false_eq_true, if_false] at h
  · split at h
    · cases h
    · cases h; exact .inr ⟨rfl, createAt_new hg _ _ _ _⟩
  · cases h; exact .inl ⟨_, rfl, rfl⟩
  · split at h
    · cases h
    · cases h; exact .inr ⟨rfl, createAt_write hg rfl⟩

theorem zIncr_view {k v : Bytes} {sc r} (ht : Typed s) (h : s.zIncr ext k sc v = .ok (s', r)) :
    (r.2 = some .keyAndCommandNotMatch ∧ s' = s) ∨ ((r.2 = none ∨ r.2 = some .nil) ∧ createAt k s s') := by
  simp only [Store.zIncr] at h
  rcases loadZSet_cases ht k false with ⟨hg, hl⟩ | ⟨info, hg, hty, hl⟩ | ⟨a, l, hg, ho, hl⟩ <;>
    simp only [hl, bind, Except.bind, Bool.false_and, Bool.false_eq_true, if_false] at h
  · repeat' split at h
    all_goals first | cases h; done | skip
    · cases h; exact .inr ⟨.inr rfl, createAt_new hg _ _ _ _⟩
    · cases h; exact .inr ⟨.inl rfl, createAt_new hg _ _ _ _⟩
  · cases h; exact .inl ⟨rfl, rfl⟩
  · repeat' split at h
    all_goals first | cases h; done | skip
    · cases h; exact .inr ⟨.inr rfl, createAt_write hg rfl⟩
    · cases h; exact .inr ⟨.inl rfl, createAt_write hg rfl⟩

/-- reply of an integer command -/
theorem intReply_cases {r : Ret Int} {o} (h : intReply s r = .ok (s', o)) :
    s' = s ∧ ((∃ e, r.2 = some e ∧ (setRsp o).reply = some (.error e.msg)) ∨
      (r.2 = none ∧ (setRsp o).reply = some (.int r.1))) := by
  unfold intReply at h
  split at h <;> (cases h; simp)


theorem incrBy_view {k : Bytes} {d : Int} {r} (ht : Typed s) (hd : -2 ^ 63 ≤ d ∧ d < 2 ^ 63)
    (h : s.incrBy k d = .ok (s', r)) :
    (∃ e, r.2 = some e ∧ s' = s) ∨
    (r.2 = none ∧ ∀ k', viewOf s' k' = if k' = k then .str (formatInt r.1) else viewOf s k') := by
  simp only [Store.incrBy] at h
  split at h
  · cases h
    exact .inr ⟨rfl, fun k' => viewOf_set s k _ k' _ _⟩
  · next info hg =>
    split at h
    · cases h; exact .inl ⟨_, rfl, rfl⟩
    · next hty =>
      simp only [ne_eq, not_not] at hty
      split at h
      · split at h
        · cases h; exact .inl ⟨_, rfl, rfl⟩
        · cases h
          rw [hty]
          exact .inr ⟨rfl, fun k' => viewOf_set s k _ k' _ _⟩
      · cases h

theorem append_view {k a : Bytes} {r} (h : s.append k a = .ok (s', r)) :
    (∃ e, r.2 = some e ∧ s' = s) ∨
    (r.2 = none ∧ ∀ k', viewOf s' k' = if k' = k then appendView a (viewOf s k') else viewOf s k') := by
  simp only [Store.append] at h
  split at h
  · next hg =>
    cases h
    refine .inr ⟨rfl, fun k' => ?_⟩
    rw [Store.set, viewOf_set]
    split
    · next hk => subst hk; rw [viewOf_none hg]; rfl
    · rfl
  · next info hg =>
    split at h
    · cases h; exact .inl ⟨_, rfl, rfl⟩
    · next hty =>
      simp only [ne_eq, not_not] at hty
      split at h
      · next old hv =>
        cases h
        rw [hty]
        refine .inr ⟨rfl, fun k' => ?_⟩
        rw [viewOf_set]
        split
        · next hk =>
          subst hk
          have : viewOf s k' = .str old := by
            unfold viewOf; rw [hg]; obtain ⟨t, vv⟩ := info; dsimp only at hv; rw [hv]
          rw [this]; rfl
        · rfl
      · cases h

theorem mSet_view (k : Bytes) : ∀ (l : List Bytes) (s : Store), viewOf (s.mSet l) k = msetView k l (viewOf s k)
  | [], s => rfl
  | [_], s => rfl
  | a :: v :: rest, s => by
    unfold Store.mSet msetView
    rw [mSet_view k rest (s.set a v), Store.set, viewOf_set]
    by_cases h : k = a
    · simp [h]
    · simp [h, Ne.symm h]

theorem sMove_view (ext : Ext) {k t v : Bytes} {r} (ht : Typed s) (h : s.sMove k t v = .ok (s', r)) :
    ((∃ e, r.2 = some e) ∧ s'.keys = s.keys) ∨ (r.2 = none ∧ createAt t s s') := by
  simp only [Store.sMove] at h
  rcases loadSet_cases ht k true with ⟨hg, hl⟩ | ⟨info, hg, hty, hl⟩ | ⟨a, l, hg, ho, hl⟩ <;>
    simp only [hl, bind, Except.bind] at h
  · cases h; exact .inl ⟨⟨_, rfl⟩, rfl⟩
  · cases h; exact .inl ⟨⟨_, rfl⟩, rfl⟩
  · split at h
    · cases h
    · next hx =>
      split at hx
      · cases hx; cases h; exact .inl ⟨⟨_, rfl⟩, rfl⟩
      · cases hx
        dsimp only at h
        split at h
        · cases h; exact .inl ⟨⟨_, rfl⟩, rfl⟩
        · have hch : Change ext .sMove [] [k] s (s.write a (.set ⟨(l.m.deleteIfExists v).1, l.length⟩)) :=
            .write' (by simp) ho hg (.smove rfl) (.refl _)
          rcases sAdd_view (hch.typed ht) h with ⟨e, he, rfl⟩ | ⟨he, hc⟩
          · exact .inl ⟨⟨e, he⟩, rfl⟩
          · refine .inr ⟨he, fun k' => ?_⟩
            have := hc k'
            have hw : ∀ k', viewOf (s.write a (.set ⟨(l.m.deleteIfExists v).1, l.length⟩)) k' = viewOf s k' :=
              fun k' => viewOf_keys rfl k'
            rw [hw] at this
            exact this

theorem sOpStore_view {it op dst ks r} (h : Store.sOpStore it op s dst ks = .ok (s', r)) :
    (∃ e, r.2 = some e ∧ s' = s) ∨
    (r.2 = none ∧ ∀ k, viewOf s' k = if k = dst then .coll else viewOf s k) := by
  simp only [Store.sOpStore, bind, Except.bind] at h
  split at h
  · cases h
  · split at h
    · cases h; exact .inl ⟨_, rfl, rfl⟩
    · cases h; exact .inr ⟨rfl, fun k => viewOf_ref s dst _ _ k _ _⟩
    · cases h; exact .inr ⟨rfl, fun k => viewOf_ref s dst _ _ k _ _⟩
    · cases h; exact .inr ⟨rfl, fun k => viewOf_ref s dst _ _ k _ _⟩

/-- commands other than the ones that store keys leave the key table as it is -/
theorem keys_same {c : Cmd} {args : List Bytes} {it o} (ht : Typed s) (h : c.fn ext it s args = .ok (s', o))
    (h1 : ¬ c.isStringWrite) (h2 : c ≠ .del) (h3 : ¬ c.isCreator) (h4 : ¬ c.isStoreOp) : s'.keys = s.keys := by
  have he := fn_eff c ht h
  clear h
  induction he with
  | refl => rfl
  | step hc _ ih =>
    rw [ih (hc.typed ht)]
    cases hc with
    | str h => exact absurd h h1
    | del h => exact absurd h h2
    | new _ h => exact absurd h (by rintro (⟨h, _⟩ | h); exacts [h3 h, h4 h])
    | write => rfl
    | «alias» h => exact absurd h h4

theorem counter_next {k k' : Bytes} {d : Int} {rest : List Bytes} {name : Bytes} {m : Reply} {o s1 r} (ht : Typed s)
    (hn : name ∈ counters) (hd : -2 ^ 63 ≤ d ∧ d < 2 ^ 63) (h1 : s.incrBy k' d = .ok (s1, r))
    (h2 : intReply s1 r = .ok (s', o)) (hm : (setRsp o).reply = some m) :
    Next k (viewOf s k) name (k' :: rest) m (viewOf s' k) := by
  obtain ⟨rfl, hr⟩ := intReply_cases h2
  rcases incrBy_view ht hd h1 with ⟨e, he, rfl⟩ | ⟨he, hv⟩
  · rcases hr with ⟨e', he', hr⟩ | ⟨he', _⟩
    · rw [hm] at hr; cases hr; exact next_error
    · rw [he] at he'; cases he'
  · rcases hr with ⟨e', he', hr⟩ | ⟨_, hr⟩
    · rw [he] at he'; cases he'
    · rw [hm] at hr; cases hr
      rw [next_counter hn (notErr_int _), hv]
      by_cases hk : k = k'
      · subst hk; simp [formatInt_eq]
      · simp [hk, Ne.symm hk]

theorem creator_next {k k' : Bytes} {rest : List Bytes} {name : Bytes} {m : Reply} {o s1 r}
    (hn : name ∈ creators) (h1 : (∃ e, r.2 = some e ∧ s1 = s) ∨ (r.2 = none ∧ createAt k' s s1))
    (h2 : intReply s1 r = .ok (s', o)) (hm : (setRsp o).reply = some m) :
    Next k (viewOf s k) name (k' :: rest) m (viewOf s' k) := by
  obtain ⟨rfl, hr⟩ := intReply_cases h2
  rcases h1 with ⟨e, he, rfl⟩ | ⟨he, hv⟩
  · rcases hr with ⟨e', he', hr⟩ | ⟨he', _⟩
    · rw [hm] at hr; cases hr; exact next_error
    · rw [he] at he'; cases he'
  · rcases hr with ⟨e', he', hr⟩ | ⟨_, hr⟩
    · rw [he] at he'; cases he'
    · rw [hm] at hr; cases hr
      exact createAt_next hn (notErr_int _) hv

theorem store_next {k : Bytes} {it op dst k1} {ks : List Bytes} {name : Bytes} {m : Reply} {o}
    (hn : name ∈ setStores) (h : cmdSOpStore op ext it s (dst :: k1 :: ks) = .ok (s', o))
    (hm : (setRsp o).reply = some m) :
    Next k (viewOf s k) name (dst :: k1 :: ks) m (viewOf s' k) := by
  obtain ⟨⟨s1, r⟩, h1, h2⟩ := bind_ok h
  obtain ⟨rfl, hr⟩ := intReply_cases h2
  rcases sOpStore_view h1 with ⟨e, he, rfl⟩ | ⟨he, hv⟩
  · rcases hr with ⟨e', he', hr⟩ | ⟨he', _⟩
    · rw [hm] at hr; cases hr; exact next_error
    · rw [he] at he'; cases he'
  · rcases hr with ⟨e', he', hr⟩ | ⟨_, hr⟩
    · rw [he] at he'; cases he'
    · rw [hm] at hr; cases hr
      rw [next_store hn (notErr_int _), hv]
      by_cases hk : k = dst
      · subst hk; simp
      · simp [hk, Ne.symm hk]

theorem notEnough_next {k : Bytes} {name : Bytes} {args : List Bytes} {m : Reply} {o}
    (h : notEnough s = .ok (s', o)) (hm : (setRsp o).reply = some m) :
    Next k (viewOf s k) name args m (viewOf s' k) := by
  cases h; simp at hm; subst hm; exact next_error

theorem retErr_next {k : Bytes} {name : Bytes} {args : List Bytes} {m : Reply} {o e}
    (h : retErr s e = .ok (s', o)) (hm : (setRsp o).reply = some m) :
    Next k (viewOf s k) name args m (viewOf s' k) := by
  cases h; simp at hm; subst hm; exact next_error

theorem next_view {c : Cmd} {args : List Bytes} {it o m} (ht : Typed s) (h : c.fn ext it s args = .ok (s', o))
    (hm : (setRsp o).reply = some m) (k : Bytes) :
    Next k (viewOf s k) c.name args m (viewOf s' k) := by
  by_cases hsame : ¬ c.isStringWrite ∧ c ≠ .del ∧ ¬ c.isCreator ∧ ¬ c.isStoreOp
  · obtain ⟨h1, h2, h3, h4⟩ := hsame
    rw [viewOf_keys (keys_same ht h h1 h2 h3 h4)]
    apply next_same
    revert h1 h2 h3 h4
    unfold Cmd.isStringWrite Cmd.isCreator Cmd.isStoreOp
    clear h
    revert c
    intro c
    cases c <;> decide
  · cases c
    case set =>
      simp only [Cmd.fn, cmdSet] at h
      split at h
      · next k' v rest =>
        cases h
        simp only [setRsp_ok, reply_ok, Option.some.injEq] at hm
        subst hm
        refine (next_set (notErr_simple _)).mpr ?_
        rw [Store.set, viewOf_set]
        by_cases hk : k = k'
        · subst hk; simp
        · simp [hk, Ne.symm hk]
      · exact notEnough_next h hm
    case mSet =>
      simp only [Cmd.fn, cmdMSet] at h
      split at h
      · exact notEnough_next h hm
      · cases h
        simp only [setRsp_ok, reply_ok, Option.some.injEq] at hm
        subst hm
        exact (next_mset (notErr_simple _)).mpr (mSet_view k args s)
    case incr =>
      simp only [Cmd.fn, cmdIncr] at h
      split at h
      · obtain ⟨⟨s1, r⟩, h1, h2⟩ := bind_ok h
        exact counter_next ht (by decide) (by decide) h1 h2 hm
      · exact notEnough_next h hm
    case decr =>
      simp only [Cmd.fn, cmdDecr] at h
      split at h
      · obtain ⟨⟨s1, r⟩, h1, h2⟩ := bind_ok h
        exact counter_next ht (by decide) (by decide) h1 h2 hm
      · exact notEnough_next h hm
    case incrBy =>
      simp only [Cmd.fn, cmdIncrBy] at h
      split at h
      · split at h
        · exact retErr_next h hm
        · next hp =>
          obtain ⟨⟨s1, r⟩, h1, h2⟩ := bind_ok h
          exact counter_next ht (by decide) (parseInt_range hp) h1 h2 hm
      · exact notEnough_next h hm
    case decrBy =>
      simp only [Cmd.fn, cmdDecrBy] at h
      split at h
      · split at h
        · exact retErr_next h hm
        · next hp =>
          obtain ⟨⟨s1, r⟩, h1, h2⟩ := bind_ok h
          exact counter_next ht (by decide) (wrap64_range _) h1 h2 hm
      · exact notEnough_next h hm
    case stringAppend =>
      simp only [Cmd.fn, cmdAppend] at h
      split at h
      · next k' a rest =>
        obtain ⟨⟨s1, r⟩, h1, h2⟩ := bind_ok h
        obtain ⟨rfl, hr⟩ := intReply_cases h2
        rcases append_view h1 with ⟨e, he, rfl⟩ | ⟨he, hv⟩
        · rcases hr with ⟨e', he', hr⟩ | ⟨he', _⟩
          · rw [hm] at hr; cases hr; exact next_error
          · rw [he] at he'; cases he'
        · rcases hr with ⟨e', he', hr⟩ | ⟨_, hr⟩
          · rw [he] at he'; cases he'
          · rw [hm] at hr; cases hr
            refine (next_append (notErr_int _)).mpr ?_
            rw [hv]
            by_cases hk : k = k'
            · subst hk; simp
            · simp [hk, Ne.symm hk]
      · exact notEnough_next h hm
    case del =>
      simp only [Cmd.fn, cmdDel] at h
      split at h
      · next k' rest =>
        simp only [Store.del, retOk] at h
        cases h
        simp only [setRsp_ok, reply_int, Option.some.injEq] at hm
        subst hm
        refine (next_del (notErr_int _)).mpr ?_
        have : ∀ k, viewOf ⟨(s.keys.deleteIfExists k').1, s.heap, s.rng⟩ k
            = if k = k' then .absent else viewOf s k := by
          intro k
          unfold viewOf
          simp only [SMap.get_deleteIfExists _ ht.wf]
          by_cases hk : k = k' <;> simp [hk]
        rw [this]
        by_cases hk : k = k'
        · subst hk; simp
        · simp [hk, Ne.symm hk]
      · exact notEnough_next h hm
    case lPush =>
      simp only [Cmd.fn, cmdLPush] at h
      split at h
      · obtain ⟨⟨s1, r⟩, h1, h2⟩ := bind_ok h
        exact creator_next (by decide) (lPush_view ht h1) h2 hm
      · exact notEnough_next h hm
    case rPush =>
      simp only [Cmd.fn, cmdRPush] at h
      split at h
      · obtain ⟨⟨s1, r⟩, h1, h2⟩ := bind_ok h
        exact creator_next (by decide) (rPush_view ht h1) h2 hm
      · exact notEnough_next h hm
    case sAdd =>
      simp only [Cmd.fn, cmdSAdd] at h
      split at h
      · obtain ⟨⟨s1, r⟩, h1, h2⟩ := bind_ok h
        exact creator_next (by decide) (sAdd_view ht h1) h2 hm
      · exact notEnough_next h hm
    case zAdd =>
      simp only [Cmd.fn, cmdZAdd] at h
      split at h
      · split at h
        · exact retErr_next h hm
        · obtain ⟨⟨s1, r⟩, h1, h2⟩ := bind_ok h
          exact creator_next (by decide) (zAdd_view ht h1) h2 hm
      · exact notEnough_next h hm
    case zIncr =>
      simp only [Cmd.fn, cmdZIncr] at h
      split at h
      · split at h
        · exact retErr_next h hm
        · obtain ⟨⟨s1, r⟩, h1, h2⟩ := bind_ok h
          have hv := zIncr_view ht h1
          split at h2
          · next heq =>
            cases heq
            cases h2
            simp only [setRsp_ok, reply_int, Option.some.injEq] at hm
            subst hm
            rcases hv with ⟨hh, _⟩ | ⟨_, hv⟩
            · cases hh
            · exact createAt_next (by decide) (notErr_int _) hv
          · next hne heq =>
            cases heq
            rcases hv with ⟨hh, rfl⟩ | ⟨hh | hh, hv⟩
            · exact retErr_next h2 hm
            · cases hh
            · exact absurd (Option.some.inj hh) (by simpa using hne)
          · next heq =>
            cases heq
            cases h2
            simp only [setRsp_ok, reply_bulk, Option.some.injEq] at hm
            subst hm
            rcases hv with ⟨hh, _⟩ | ⟨_, hv⟩
            · cases hh
            · exact createAt_next (by decide) (notErr_bulk _) hv
      · exact notEnough_next h hm
    case sMove =>
      simp only [Cmd.fn, cmdSMove] at h
      split at h
      · next src dst v rest =>
        obtain ⟨⟨s1, r⟩, h1, h2⟩ := bind_ok h
        obtain ⟨rfl, hr⟩ := intReply_cases h2
        rcases sMove_view ext ht h1 with ⟨⟨e, he⟩, hkeys⟩ | ⟨he, hv⟩
        · rcases hr with ⟨e', he', hr⟩ | ⟨he', _⟩
          · rw [hm] at hr; cases hr; rw [viewOf_keys hkeys]; exact next_error
          · rw [he] at he'; cases he'
        · rcases hr with ⟨e', he', hr⟩ | ⟨_, hr⟩
          · rw [he] at he'; cases he'
          · rw [hm] at hr; cases hr
            refine (next_smove (notErr_int _)).mpr ?_
            rw [hv]
            by_cases hk : k = dst
            · subst hk; simp
            · simp [hk, Ne.symm hk]
      · exact notEnough_next h hm
    case sDiffStore =>
      simp only [Cmd.fn] at h
      rcases args with _ | ⟨d, _ | ⟨k1, ks⟩⟩
      · exact notEnough_next h hm
      · exact notEnough_next h hm
      · exact store_next (by decide) h hm
    case sInterStore =>
      simp only [Cmd.fn] at h
      rcases args with _ | ⟨d, _ | ⟨k1, ks⟩⟩
      · exact notEnough_next h hm
      · exact notEnough_next h hm
      · exact store_next (by decide) h hm
    case sUnionStore =>
      simp only [Cmd.fn] at h
      rcases args with _ | ⟨d, _ | ⟨k1, ks⟩⟩
      · exact notEnough_next h hm
      · exact notEnough_next h hm
      · exact store_next (by decide) h hm
    all_goals exact absurd (by simp [Cmd.isStringWrite, Cmd.isCreator, Cmd.isStoreOp]) hsame

end

end Godis
