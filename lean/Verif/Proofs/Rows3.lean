import Verif.Proofs.Rows2
/-! Rows along histories. -/
namespace Godis
open Resp (Reply bulks)
open StrSpec (int64 lower isError Ascii counters setStores)
open ListSpec (popCount errType errArgs errRange errNil listWriters LView Plain)
open RowSpec (Row View Outcome typed answer)
open KeySpec (keyArgs)

variable {s s' : Store} {k : Bytes} {v : View} {ext : Ext} {it : Iter} {look : Bytes → View} {c : Cmd} {args N : List Bytes} {m : Reply}

/-- what the coarser specification sees -/
def coarse : View → LView
  | .absent => .absent
  | .other => .other
  | .row _ => .lost

theorem RMatch.coarse (h : RMatch s k v) : LMatch s k (coarse v) := by
  cases v with
  | absent => exact h
  | other => exact h
  | row c => obtain ⟨o, h, _⟩ := h; exact ⟨o, h⟩

theorem coarse_createOther (v : View) : coarse (RowSpec.createOther v) = ListSpec.createOther (coarse v) := by
  cases v <;> rfl

theorem coarse_step {name : Bytes} (hn : name ∉ listWriters) :
    coarse (RowSpec.step k v name args m) = ListSpec.step k (coarse v) name args m := by
  unfold RowSpec.step ListSpec.step
  simp only [hn, if_false]
  repeat' split
  all_goals first | rfl | exact coarse_createOther v

theorem step_cases {name : Bytes} (hn : name ∉ listWriters) :
    RowSpec.step k v name args m = .absent ∨ RowSpec.step k v name args m = .other ∨ RowSpec.step k v name args m = v := by
  unfold RowSpec.step
  simp only [hn, if_false]
  have hc : RowSpec.createOther v = .absent ∨ RowSpec.createOther v = .other ∨ RowSpec.createOther v = v := by
    cases v <;> simp [RowSpec.createOther]
  repeat' split
  all_goals first | exact hc | simp

/-- a command that does not write lists creates none -/
theorem Eff.list_get (h : Eff ext c args N s s') (ht : Typed s) (hc : ¬ c.isListWrite) {x : Val}
    (hg : s'.keys.get k = some ⟨.list, x⟩) : s.keys.get k = some ⟨.list, x⟩ := by
  induction h with
  | refl => exact hg
  | @step s1 s2 s3 h _ ih =>
    have h2 := ih (h.typed ht) hg
    rcases h.get_cases ht hc k with h | ⟨_, h⟩ | ⟨_, v, h⟩ | ⟨t, r, h, ht, _⟩
    · rw [← h]; exact h2
    · rw [h] at h2; cases h2
    · rw [h] at h2; cases h2
    · rw [h] at h2; cases h2; exact absurd rfl ht

theorem RMatch.frame (hv : RMatch s k v) (ht : Typed s) (hsh : ShareSets s) (he : Eff ext c args N s s') (hk : k ∉ N) :
    RMatch s' k v := by
  cases v with
  | absent => exact LMatch.frame (v := .absent) hv ht hsh he hk
  | other => exact LMatch.frame (v := .other) hv ht hsh he hk
  | row c =>
    obtain ⟨o, ⟨r, h1, h2⟩, hI⟩ := hv
    have hg := he.keys_frame ht hk
    have hns : NotSet s k := fun v hv => by rw [h1] at hv; cases hv
    have hv' := (he.value_frame' ht hsh hk hns).1
    refine ⟨o, ⟨r, hg.trans h1, ?_⟩, hI⟩
    rw [valueAt_ref h1 h2] at hv'
    unfold Store.valueAt at hv'
    rw [hg, h1] at hv'
    simp only [Option.map_eq_some_iff] at hv'
    obtain ⟨o', ho', he⟩ := hv'
    cases he; exact ho'

theorem rstep_other_key {name k' : Bytes} {rest : List Bytes} (h : k' ≠ k) (h1 : name ≠ b! "mset") (h2 : name ≠ b! "smove") :
    RowSpec.step k v name (k' :: rest) m = v := by
  unfold RowSpec.step
  split
  · rfl
  · rw [if_pos (by simp [h])]

theorem rstep_list {name : Bytes} {rest : List Bytes} (h : name ∈ listWriters) :
    RowSpec.step k v name (k :: rest) m = rnext v name rest m := by
  unfold rnext
  by_cases hm : isError m
  · unfold RowSpec.step; rw [if_pos hm, if_pos hm]
  · rw [if_neg hm]
    simp only [listWriters, List.mem_cons, List.not_mem_nil, or_false] at h
    unfold RowSpec.step
    rw [if_neg hm]
    have hh : ¬ ((k :: rest).head? ≠ some k) := by simp
    rcases h with rfl | rfl | rfl | rfl | rfl | rfl | rfl <;>
      simp only [hh, if_false, List.tail_cons] <;> rfl

theorem Out.reply {f : CmdFn} {out : Outcome} {P : Reply → Store → Prop} (h : Out f ext it s args out P) {o}
    (hf : f ext it s args = .ok (s', o)) (hm : (setRsp o).reply = some m) : out = .reply m ∧ P m s' := by
  cases out with
  | reply m' =>
    obtain ⟨s2, o2, h1, h2, h3⟩ := h
    rw [hf] at h1; cases h1
    rw [hm] at h2; cases h2
    exact ⟨rfl, h3⟩
  | crash => unfold Out at h; rw [hf] at h; cases h

/-- the list commands and their functions -/
def rowCmds : List (Bytes × Cmd) :=
  [(b! "lpush", .lPush), (b! "rpush", .rPush), (b! "lpop", .lPop), (b! "rpop", .rPop), (b! "llen", .lLen),
   (b! "lrange", .lRange), (b! "lrem", .lRem), (b! "lindex", .lIndex), (b! "lset", .lSet), (b! "linsert", .lInsert)]

theorem rowCmds_lookup {name : Bytes} (h : (name, c) ∈ rowCmds) : lookupCmd name = some c := by
  simp only [rowCmds, List.mem_cons, List.not_mem_nil, or_false, Prod.mk.injEq] at h
  rcases h with ⟨rfl, rfl⟩ | ⟨rfl, rfl⟩ | ⟨rfl, rfl⟩ | ⟨rfl, rfl⟩ | ⟨rfl, rfl⟩ | ⟨rfl, rfl⟩ | ⟨rfl, rfl⟩ | ⟨rfl, rfl⟩ | ⟨rfl, rfl⟩ | ⟨rfl, rfl⟩ <;> rfl

theorem rowCmds_mem {name : Bytes} (h : name ∈ RowSpec.commands) : ∃ c, (name, c) ∈ rowCmds := by
  simp only [RowSpec.commands, List.mem_cons, List.not_mem_nil, or_false] at h
  rcases h with rfl | rfl | rfl | rfl | rfl | rfl | rfl | rfl | rfl | rfl <;> simp only [rowCmds, List.mem_cons] <;>
    exact ⟨_, by tauto⟩

/-- every list command does what the specification says -/
theorem row_does {name : Bytes} (hc : (name, c) ∈ rowCmds) (hv : RMatch s k (look k))
    (hi : name = b! "lindex" → ∀ i ∈ args.head?, RMatch s i (look i))
    (hw : name = b! "linsert" → ∀ w ∈ args.head?, Ascii w) : Does' c.fn name ext it s look k args := by
  simp only [rowCmds, List.mem_cons, List.not_mem_nil, or_false, Prod.mk.injEq] at hc
  rcases hc with ⟨rfl, rfl⟩ | ⟨rfl, rfl⟩ | ⟨rfl, rfl⟩ | ⟨rfl, rfl⟩ | ⟨rfl, rfl⟩ | ⟨rfl, rfl⟩ | ⟨rfl, rfl⟩ | ⟨rfl, rfl⟩ | ⟨rfl, rfl⟩ | ⟨rfl, rfl⟩
  · exact exact_lpush args hv
  · exact exact_rpush args hv
  · exact exact_lpop args hv
  · exact exact_rpop args hv
  · exact exact_llen args hv
  · exact exact_lrange args hv
  · exact exact_lrem args hv
  · exact exact_lindex args hv (hi rfl)
  · exact exact_lset args hv
  · exact exact_linsert args hv (hw rfl)

theorem row_nil {name : Bytes} (hc : (name, c) ∈ rowCmds) : c.fn ext it s [] = notEnough s := by
  simp only [rowCmds, List.mem_cons, List.not_mem_nil, or_false, Prod.mk.injEq] at hc
  rcases hc with ⟨rfl, rfl⟩ | ⟨rfl, rfl⟩ | ⟨rfl, rfl⟩ | ⟨rfl, rfl⟩ | ⟨rfl, rfl⟩ | ⟨rfl, rfl⟩ | ⟨rfl, rfl⟩ | ⟨rfl, rfl⟩ | ⟨rfl, rfl⟩ | ⟨rfl, rfl⟩ <;> rfl

theorem listWrite_mem (h : c.isListWrite) : c.name ∈ listWriters ∧ (c.name, c) ∈ rowCmds ∧ c.name ≠ b! "lindex" ∧
    (∀ k' rest, keyArgs c.name (k' :: rest) = [k']) ∧ c.name ≠ b! "mset" ∧ c.name ≠ b! "smove" := by
  rcases h with rfl | rfl | rfl | rfl | rfl | rfl | rfl <;>
    exact ⟨by decide, by decide, by decide, fun _ _ => rfl, by decide, by decide⟩

theorem listWrite_of_mem (h : c.name ∈ listWriters) : c.isListWrite := by
  revert h; unfold Cmd.isListWrite; cases c <;> decide

/-- Every answered command keeps the view. -/
theorem row_step (ht : Typed s) (hsh : ShareSets s) (hv : RMatch s k v) {o} (h : c.fn ext it s args = .ok (s', o))
    (hm : (setRsp o).reply = some m) (hp : c = .lInsert → ∀ w ∈ args[1]?, Ascii w) :
    RMatch s' k (RowSpec.step k v c.name args m) := by
  have he := fn_eff c ht h
  by_cases hc : c.isListWrite
  · obtain ⟨h1, h2, h3, h4, h5, h6⟩ := listWrite_mem hc
    cases args with
    | nil =>
      rw [row_nil h2] at h; cases h
      simp only [setRsp_error, Option.some.injEq] at hm; subst hm
      exact hv
    | cons k' rest =>
      by_cases hk : k' = k
      · subst hk
        rw [rstep_list h1]
        have := row_does (ext := ext) (it := it) (look := fun _ => v) (args := rest) (k := k') h2 hv (fun e => absurd e h3)
          (fun e w hw => hp (by
            revert e; cases c <;> first | (intro; rfl) | decide) w (by cases rest <;> simp_all))
        exact (this.reply h hm).2
      · rw [rstep_other_key hk h5 h6]
        rw [h4] at he
        exact hv.frame ht hsh he (by simpa using Ne.symm hk)
  · have hn : c.name ∉ listWriters := fun h => hc (listWrite_of_mem h)
    have hl := list_step ht hsh hv.coarse h hm hp
    rw [← coarse_step hn] at hl
    rcases step_cases (k := k) (v := v) (args := args) (m := m) hn with e | e | e
    · rw [e] at hl ⊢; exact hl
    · rw [e] at hl ⊢; exact hl
    · rw [e] at hl ⊢
      cases v with
      | absent => exact hl
      | other => exact hl
      | row c' =>
        obtain ⟨o', r', hg', ho'⟩ := hl
        obtain ⟨o, ⟨r, hg, ho⟩, hI⟩ := hv
        have := he.list_get ht hc hg'
        rw [hg] at this; cases this
        exact ⟨o, ⟨_, hg', he.list_frame hc ho⟩, hI⟩

theorem Answers.rmatch {req} (h : Answers ext it s req m s') (ht : Typed s) (hsh : ShareSets s) (hp : Plain req)
    (hv : RMatch s k v) : RMatch s' k (RowSpec.step k v (lower (req.headD [])) req.tail m) := by
  obtain ⟨name, args, rfl, ⟨_, rfl, rfl⟩ | ⟨c, o, hl, hf, hm⟩⟩ := h.cases
  · exact hv
  · have hlow : toLower ext.lowerUni name = lower name := lower_eq (hp.1 name rfl)
    have hn := lookup_name hl
    rw [hlow] at hn
    show RMatch s' k (RowSpec.step k v (lower name) args m)
    rw [hn]
    refine row_step ht hsh hv hf hm (fun hc w hw => hp.2 ?_ w ?_)
    · subst hc; exact hn
    · simpa using hw

theorem rafter_snoc (k : Bytes) (tr : List (List Bytes × Reply)) (p : List Bytes × Reply) :
    RowSpec.after k (tr ++ [p]) = RowSpec.step k (RowSpec.after k tr) (lower (p.1.headD [])) p.1.tail p.2 := by
  simp [RowSpec.after, List.foldl_append]

theorem Trace.rmatch {rng tr} (h : Trace ext (Store.init rng) tr s) (hp : ∀ p ∈ tr, Plain p.1) (k : Bytes) :
    RMatch s k (RowSpec.after k tr) := by
  induction h with
  | nil => exact rfl
  | @snoc tr s it req m s' h0 ha ih =>
    rw [rafter_snoc]
    exact ha.rmatch (h0.typed (typed_init rng)) (h0.shareSets (typed_init rng) (shareSets_init rng)) (hp (req, m) (by simp))
      (ih (fun p hp' => hp p (by simp [hp'])))

/-- the outcome of a list request -/
theorem row_request {name : Bytes} (hn : lower name ∈ RowSpec.commands) (hq : Plain (name :: args))
    (hv : ∀ k ∈ args.take 2, RMatch s k (look k)) :
    match answer look (lower name) args with
    | .reply m => ∃ s', Answers ext it s (name :: args) m s'
    | .crash => runRequest ext it s (name :: args) = .error .nilDeref := by
  obtain ⟨c, hc⟩ := rowCmds_mem hn
  have hl : lookupCmd (toLower ext.lowerUni name) = some c := by rw [lower_eq (hq.1 name rfl)]; exact rowCmds_lookup hc
  cases args with
  | nil => exact ⟨s, (answers_iff hl).mpr ⟨_, row_nil hc, rfl⟩⟩
  | cons k args =>
    have := row_does (ext := ext) (it := it) (s := s) (look := look) (args := args) (k := k) hc (hv k (by simp))
      (fun _ i hi => hv i (by cases args <;> simp_all)) (fun e w hw => hq.2 e w (by cases args <;> simp_all))
    unfold Does' at this
    cases ha : answer look (lower name) (k :: args) with
    | reply m =>
      rw [ha] at this
      obtain ⟨s', o, h1, h2, _⟩ := this
      exact ⟨s', (answers_iff hl).mpr ⟨o, h1, h2⟩⟩
    | crash =>
      rw [ha] at this
      have this : c.fn ext it s (k :: args) = .error .nilDeref := this
      simp only [runRequest, newCommand, execute, hl, this, bind, Except.bind]

/-! ## agreement with the sequence specification -/

/-- one of the two ends is known -/
def Sane (c : Row) : Prop := c.left = true ∨ c.right = true

theorem sane_mirror {c : Row} : Sane c.mirror ↔ Sane c := by simp [Sane, Row.mirror, or_comm]
theorem sane_good (l : List Bytes) : Sane (.good l) := .inl rfl
theorem sane_pushLeft {c : Row} (h : Sane c) (x : Bytes) : Sane (c.pushLeft x) := by
  unfold Row.pushLeft; split
  · exact h
  · exact .inl rfl
theorem sane_pushRight {c : Row} (h : Sane c) (x : Bytes) : Sane (c.pushRight x) :=
  sane_mirror.mpr (sane_pushLeft (sane_mirror.mpr h) x)
theorem sane_foldl {f : Row → Bytes → Row} (hf : ∀ c, Sane c → ∀ x, Sane (f c x)) (xs : List Bytes) {c : Row} (h : Sane c) :
    Sane (xs.foldl f c) := by
  induction xs generalizing c with
  | nil => exact h
  | cons x xs ih => exact ih (hf c h x)
theorem sane_popLeft {c : Row} (h : Sane c) (n : Nat) : Sane (c.popLeft n) := by
  unfold Row.popLeft; split
  · exact .inl rfl
  · exact h
theorem sane_popRight {c : Row} (h : Sane c) (n : Nat) : Sane (c.popRight n) :=
  sane_mirror.mpr (sane_popLeft (sane_mirror.mpr h) n)
theorem sane_removeLeft {c c' : Row} {x : Bytes} {n : Nat} (h : c.removeLeft x n = some c') : Sane c' := by
  unfold Row.removeLeft at h
  split at h
  · cases h
  · simp only at h
    split at h <;> cases h
    · exact .inr rfl
    · exact .inl rfl
theorem sane_remove {c c' : Row} {x : Bytes} {n : Int} (h : c.remove x n = some c') : Sane c' := by
  unfold Row.remove at h
  split at h
  · exact sane_removeLeft h
  · split at h
    · exact sane_removeLeft h
    · unfold Row.removeRight at h
      rw [Option.map_eq_some_iff] at h
      obtain ⟨c1, h, rfl⟩ := h
      exact sane_mirror.mpr (sane_removeLeft h)
theorem sane_insert {c c' : Row} {b : Bool} {p x : Bytes} (h : c.insert b p x = some c') : Sane c' := by
  unfold Row.insert at h
  split at h
  · rw [Option.map_eq_some_iff] at h
    obtain ⟨l, _, rfl⟩ := h
    exact .inl rfl
  · cases h

def SaneView : View → Prop
  | .row c => Sane c
  | _ => True

theorem SaneView.list (h : SaneView v) : Sane v.list := by
  cases v with
  | row c => exact h
  | _ => exact .inl rfl

theorem sane_next {name : Bytes} (h : SaneView v) : SaneView (RowSpec.next v name args) := by
  unfold RowSpec.next
  split
  · exact sane_foldl (fun _ => sane_pushLeft) args h.list
  split
  · exact sane_foldl (fun _ => sane_pushRight) args h.list
  cases v with
  | absent => trivial
  | other => trivial
  | row c =>
    dsimp only
    have hg : ∀ (o : Option Row), (∀ c', o = some c' → Sane c') → SaneView (.row (o.getD c)) := by
      intro o ho
      cases o with
      | none => exact h
      | some c' => exact ho c' rfl
    repeat' split
    all_goals first
      | exact h
      | exact sane_popLeft h _
      | exact sane_popRight h _
      | exact hg _ (fun _ => sane_remove)
      | exact hg _ (fun _ => sane_insert)

theorem sane_step {name : Bytes} (h : SaneView v) : SaneView (RowSpec.step k v name args m) := by
  have hc : SaneView (RowSpec.createOther v) := by
    cases v with
    | row c => exact h
    | _ => trivial
  unfold RowSpec.step
  repeat' split
  all_goals first | exact h | trivial | exact hc | exact sane_next h

theorem sane_after (k : Bytes) (tr : List (List Bytes × Reply)) : SaneView (RowSpec.after k tr) := by
  induction tr using List.reverseRecOn with
  | nil => trivial
  | append_singleton tr p ih => rw [rafter_snoc]; exact sane_step ih

theorem seg_unique {h : List LNode} {r r' : List (Nat × Bytes)} {p p'} (h1 : LObj.Seg h p r none) (h2 : LObj.Seg h p' r' none)
    (hf : LObj.first r none = LObj.first r' none) : r = r' := by
  induction r generalizing r' p p' with
  | nil => exact (LObj.first_eq_none.mp hf.symm).symm
  | cons x r ih =>
    obtain ⟨a, v⟩ := x
    rcases r' with _ | ⟨⟨a', v'⟩, r'⟩
    · simp [LObj.first] at hf
    · simp only [LObj.first_cons, Option.some.injEq] at hf
      subst hf
      have e := h1.1.symm.trans h2.1
      simp only [Option.some.injEq, LNode.mk.injEq] at e
      rw [ih h1.2 h2.2 e.1, e.2.2]

/-- an object that holds a sequence in good order holds no other row -/
theorem row_unique {o : LObj} {l : List Bytes} {c : Row} (h : o.Is l) (hc : o.Holds c) (hs : Sane c) : c = .good l := by
  obtain ⟨r, hr, rfl⟩ := h
  obtain ⟨r', hc⟩ := hc
  have hrr : r = r' ∧ c.left = true ∧ c.right = true := by
    by_cases h0 : r = []
    · subst h0
      have hh : o.head = none := hr.head
      have ht : o.tail = none := hr.tail
      rw [hc.head] at hh
      rw [hc.tail] at ht
      have : r' = [] := by
        rcases hs with hs | hs
        · rw [if_pos hs] at hh; exact LObj.first_eq_none.mp hh
        · rw [if_pos hs] at ht; exact LObj.last_eq_none.mp ht
      exact ⟨this.symm, hc.norm (hc.nil.mp this)⟩
    · have hl : c.left = true := by
        by_contra hl
        have hh := hc.head
        rw [if_neg hl, hr.head] at hh
        exact h0 (LObj.first_eq_none.mp hh)
      have hh := hc.head
      rw [if_pos hl, hr.head] at hh
      have e := seg_unique hr.seg hc.seg hh
      refine ⟨e, hl, ?_⟩
      by_contra hl
      have hh := hc.tail
      rw [if_neg hl, hr.tail] at hh
      exact h0 (LObj.last_eq_none.mp hh)
  obtain ⟨rfl, hl, hri⟩ := hrr
  have h1 := hc.items
  have h2 := hc.count
  rw [hr.length] at h2
  obtain ⟨items, left, right, count⟩ := c
  simp only at *
  subst h1 h2 hl hri
  simp [Row.good]

end Godis
