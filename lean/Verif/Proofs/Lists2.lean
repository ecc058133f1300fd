import Verif.Proofs.Lists
/-! Every command keeps the list view. -/
namespace Godis
open Resp (Reply bulks)
open ListSpec
open StrSpec (int64 lower isError Ascii counters setStores View create appendView msetView)
open KeySpec (keyArgs)

variable {s s' : Store} {k : Bytes} {v : LView} {ext : Ext} {it : Iter} {c : Cmd} {args N : List Bytes} {m : Reply}

/-- the commands that change lists -/
def Cmd.isListWrite (c : Cmd) : Prop :=
  c = .lPush ∨ c = .rPush ∨ c = .lPop ∨ c = .rPop ∨ c = .lRem ∨ c = .lSet ∨ c = .lInsert

theorem OStep.list_write {rng o o'} (h : OStep ext c args rng o o') {l} (hl : o = .list l) : c.isListWrite := by
  cases h <;> first | cases hl; done | simp_all [Cmd.isListWrite]

theorem Change.list_frame (h : Change ext c args N s s') (hc : ¬ c.isListWrite) {r : Nat} {o : LObj}
    (ho : s.heap[r]? = some (.list o)) : s'.heap[r]? = some (.list o) := by
  cases h with
  | str => exact ho
  | del => exact ho
  | new =>
    have hr : r < s.heap.length := (List.getElem?_eq_some_iff.mp ho).1
    simp only; rw [List.getElem?_append_left hr]; exact ho
  | @write k' r' o1 o2 rng _ _ ho1 hst _ =>
    simp only
    by_cases h : r' = r
    · subst h
      rw [ho] at ho1; cases ho1
      exact absurd (hst.list_write rfl) hc
    · rw [List.getElem?_set_ne h]; exact ho
  | «alias» => exact ho

theorem Eff.list_frame (h : Eff ext c args N s s') (hc : ¬ c.isListWrite) {r : Nat} {o : LObj}
    (ho : s.heap[r]? = some (.list o)) : s'.heap[r]? = some (.list o) := by
  induction h with
  | refl => exact ho
  | step h _ ih => exact ih (h.list_frame hc ho)

/-- a key whose entry and list object stay the same keeps its view -/
theorem LMatch.mono (hv : LMatch s k v) (hg : s'.keys.get k = s.keys.get k)
    (ho : ∀ o, ListAt s k o → ListAt s' k o) : LMatch s' k v := by
  cases v with
  | absent => exact hg.trans hv
  | other => obtain ⟨info, h1, h2⟩ := hv; exact ⟨info, hg.trans h1, h2⟩
  | list l => obtain ⟨o, h1, h2⟩ := hv; exact ⟨o, ho o h1, h2⟩
  | lost => obtain ⟨o, h1⟩ := hv; exact ⟨o, ho o h1⟩
  | hollow b => cases b <;> obtain ⟨o, h1, h2⟩ := hv <;> exact ⟨o, ho o h1, h2⟩

/-- commands that do not write lists keep the view if they keep the entry -/
theorem LMatch.keep (hv : LMatch s k v) (he : Eff ext c args N s s') (hc : ¬ c.isListWrite)
    (hg : s'.keys.get k = s.keys.get k) : LMatch s' k v :=
  hv.mono hg (fun o ⟨r, h1, h2⟩ => ⟨r, hg.trans h1, he.list_frame hc h2⟩)

/-- keys that are not named keep their view -/
theorem LMatch.frame (hv : LMatch s k v) (ht : Typed s) (hsh : ShareSets s) (he : Eff ext c args N s s') (hk : k ∉ N) :
    LMatch s' k v := by
  have hg := he.keys_frame ht hk
  refine hv.mono hg (fun o ⟨r, h1, h2⟩ => ?_)
  have hns : NotSet s k := fun v hv => by rw [h1] at hv; cases hv
  have hv' := (he.value_frame' ht hsh hk hns).1
  refine ⟨r, hg.trans h1, ?_⟩
  rw [valueAt_ref h1 h2] at hv'
  unfold Store.valueAt at hv'
  rw [hg, h1] at hv'
  simp only [Option.map_eq_some_iff] at hv'
  obtain ⟨o', ho', he⟩ := hv'
  cases he; exact ho'

/-! ## the steps of the specification -/

theorem step_err {name : Bytes} {e} : step k v name args (.error e) = v := rfl

theorem step_other_key {name k' : Bytes} {rest : List Bytes} (h : k' ≠ k) (h1 : name ≠ b! "mset") (h2 : name ≠ b! "smove") :
    step k v name (k' :: rest) m = v := by
  unfold step
  split
  · rfl
  · rw [if_pos (by simp [h])]

theorem step_list {name : Bytes} {rest : List Bytes} (h : name ∈ listWriters) :
    step k v name (k :: rest) m = lnext v name rest m := by
  unfold lnext
  by_cases hm : isError m
  · unfold step; rw [if_pos hm, if_pos hm]
  · rw [if_neg hm]
    simp only [listWriters, List.mem_cons, List.not_mem_nil, or_false] at h
    unfold step
    rw [if_neg hm]
    have hh : ¬ ((k :: rest).head? ≠ some k) := by simp
    rcases h with rfl | rfl | rfl | rfl | rfl | rfl | rfl <;>
      simp only [hh, if_false, List.tail_cons] <;> rfl

theorem step_string {name : Bytes} {rest : List Bytes} (h : name ∈ stringWriters) (hm : NotErr m) :
    step k v name (k :: rest) m = .other := by
  have hm' : ¬ isError m := by cases m <;> simp_all [isError, NotErr]
  simp only [stringWriters, counters, List.mem_cons, List.not_mem_nil, or_false] at h
  unfold step
  rw [if_neg hm']
  have hh : ¬ ((k :: rest).head? ≠ some k) := by simp
  rcases h with rfl | rfl | rfl | rfl | rfl | rfl <;> simp only [hh, if_false] <;> rfl

theorem step_del {rest : List Bytes} (hm : NotErr m) : step k v (b! "del") (k :: rest) m = .absent := by
  have hm' : ¬ isError m := by cases m <;> simp_all [isError, NotErr]
  unfold step
  rw [if_neg hm']
  have hh : ¬ ((k :: rest).head? ≠ some k) := by simp
  simp only [hh, if_false]; rfl

theorem step_creator {name : Bytes} {rest : List Bytes} (h : name ∈ otherCreators) (hm : NotErr m) :
    step k v name (k :: rest) m = createOther v := by
  have hm' : ¬ isError m := by cases m <;> simp_all [isError, NotErr]
  simp only [otherCreators, List.mem_cons, List.not_mem_nil, or_false] at h
  unfold step
  rw [if_neg hm']
  have hh : ¬ ((k :: rest).head? ≠ some k) := by simp
  rcases h with rfl | rfl | rfl <;> simp only [hh, if_false] <;> rfl

theorem step_store {name : Bytes} {rest : List Bytes} (h : name ∈ setStores) (hm : NotErr m) :
    step k v name (k :: rest) m = .other := by
  have hm' : ¬ isError m := by cases m <;> simp_all [isError, NotErr]
  simp only [setStores, List.mem_cons, List.not_mem_nil, or_false] at h
  unfold step
  rw [if_neg hm']
  have hh : ¬ ((k :: rest).head? ≠ some k) := by simp
  rcases h with rfl | rfl | rfl <;> simp only [hh, if_false] <;> rfl

theorem step_mset (hm : NotErr m) : step k v (b! "mset") args m = if k ∈ msetKeys args then .other else v := by
  have hm' : ¬ isError m := by cases m <;> simp_all [isError, NotErr]
  unfold step
  rw [if_neg hm']
  simp only [if_true]

theorem step_smove (hm : NotErr m) : step k v (b! "smove") args m = if args[1]? = some k then createOther v else v := by
  have hm' : ¬ isError m := by cases m <;> simp_all [isError, NotErr]
  unfold step
  rw [if_neg hm', if_neg (by decide)]
  simp only [if_true]

theorem step_same {name : Bytes}
    (h : name ∉ [b! "mset", b! "smove", b! "del"] ++ stringWriters ++ otherCreators ++ setStores ++ listWriters) :
    step k v name args m = v := by
  simp only [List.mem_append, List.mem_cons, List.not_mem_nil, or_false, not_or] at h
  obtain ⟨⟨⟨⟨⟨h1, h2, h3⟩, h4⟩, h5⟩, h6⟩, h7⟩ := h
  unfold step
  split
  · rfl
  · exact ite_self _

/-! ## what the commands do to entries -/

/-- Every entry after a command: unchanged, deleted, a string, or a new collection that is not a list. -/
theorem Change.get_cases (h : Change ext c args N s s') (ht : Typed s) (hc : ¬ c.isListWrite) (k : Bytes) :
    s'.keys.get k = s.keys.get k ∨ (c = .del ∧ s'.keys.get k = none) ∨
    (c.isStringWrite ∧ ∃ v, s'.keys.get k = some ⟨.string, .str v⟩) ∨
    (∃ t r, s'.keys.get k = some ⟨t, .ref r⟩ ∧ t ≠ .list ∧ (c.isCreator ∧ s.keys.get k = none ∨ c.isStoreOp)) := by
  cases h with
  | @str k' v h _ =>
    simp only [SMap.get_set]
    split
    · exact .inr (.inr (.inl ⟨h, v, rfl⟩))
    · exact .inl rfl
  | @del k' h _ =>
    simp only [SMap.get_del _ _ _ ht.wf]
    split
    · exact .inr (.inl ⟨h, rfl⟩)
    · exact .inl rfl
  | @new k' o rng _ h hn _ =>
    simp only [SMap.get_set]
    split
    · next e =>
      subst e
      refine .inr (.inr (.inr ⟨_, _, rfl, ?_, h⟩))
      cases hn with
      | list h => exact absurd (h.list_write rfl) hc
      | _ => simp [Obj.kind]
    · exact .inl rfl
  | write => exact .inl rfl
  | @«alias» dst src r h _ _ _ _ =>
    simp only [SMap.get_set]
    split
    · exact .inr (.inr (.inr ⟨_, _, rfl, by simp, .inr h⟩))
    · exact .inl rfl

theorem Eff.creator_cases (h : Eff ext c args N s s') (ht : Typed s) (hc : ¬ c.isListWrite) (hcr : c.isCreator) (k : Bytes) :
    s'.keys.get k = s.keys.get k ∨
    (∃ t r, s'.keys.get k = some ⟨t, .ref r⟩ ∧ t ≠ .list ∧ s.keys.get k = none) := by
  induction h with
  | refl => exact .inl rfl
  | @step s1 s2 s3 h _ ih =>
    have h1 := h.get_cases ht hc k
    have h2 := ih (h.typed ht)
    have h1' : s2.keys.get k = s1.keys.get k ∨
        (∃ t r, s2.keys.get k = some ⟨t, .ref r⟩ ∧ t ≠ .list ∧ s1.keys.get k = none) := by
      rcases h1 with h | ⟨h, _⟩ | ⟨h, _⟩ | ⟨t, r, h, h', h'' | h''⟩
      · exact .inl h
      · subst h; simp [Cmd.isCreator] at hcr
      · exfalso; simp only [Cmd.isCreator, Cmd.isStringWrite] at hcr h
        rcases hcr with rfl | rfl | rfl | rfl | rfl | rfl <;> simp at h
      · exact .inr ⟨t, r, h, h', h''.2⟩
      · exfalso; simp only [Cmd.isCreator, Cmd.isStoreOp] at hcr h''
        rcases hcr with rfl | rfl | rfl | rfl | rfl | rfl <;> simp at h''
    rcases h2 with h2 | ⟨t, r, h2, h3, h4⟩
    · rcases h1' with h1 | ⟨t, r, h1, h3, h4⟩
      · exact .inl (h2.trans h1)
      · exact .inr ⟨t, r, h2.trans h1, h3, h4⟩
    · rcases h1' with h1 | ⟨t', r', h1, h3', h4'⟩
      · exact .inr ⟨t, r, h2, h3, h1 ▸ h4⟩
      · rw [h1] at h4; cases h4

theorem viewOf_absent_iff : viewOf s k = .absent ↔ s.keys.get k = none := by
  unfold viewOf
  cases s.keys.get k with
  | none => simp
  | some info => obtain ⟨t, v⟩ := info; cases v <;> simp

theorem lmatch_of_str {b} (ht : Typed s) (h : viewOf s k = .str b) : LMatch s k .other := by
  cases hg : s.keys.get k with
  | none => rw [viewOf_none hg] at h; cases h
  | some info =>
    rcases ht.kind _ _ hg with ⟨v, rfl⟩ | ⟨r, o, rfl, ho, _⟩
    · exact ⟨_, hg, by simp⟩
    · rw [viewOf_some_ref hg] at h; cases h

/-- a creating command that is not a list command -/
theorem creator_lmatch (ht : Typed s) (he : Eff ext c args N s s') (hc : ¬ c.isListWrite) (hcr : c.isCreator)
    (hv : LMatch s k v) (hw : viewOf s' k = create (viewOf s k)) : LMatch s' k (createOther v) := by
  rcases he.creator_cases ht hc hcr k with h | ⟨t, r, h1, h2, h3⟩
  · cases v with
    | absent =>
      exfalso
      have h0 : s.keys.get k = none := hv
      rw [viewOf_none h0] at hw
      rw [viewOf_none (h.trans h0)] at hw
      cases hw
    | _ => exact hv.keep he hc h
  · cases v with
    | absent => exact ⟨_, h1, h2⟩
    | other => exact ⟨_, h1, h2⟩
    | list l => obtain ⟨o, ⟨r, hg, _⟩, _⟩ := hv; rw [h3] at hg; cases hg
    | lost => obtain ⟨o, ⟨r, hg, _⟩⟩ := hv; rw [h3] at hg; cases hg
    | hollow b => cases b <;> obtain ⟨o, ⟨r, hg, _⟩, _⟩ := hv <;> (rw [h3] at hg; cases hg)

theorem creator_lmatch_keep (ht : Typed s) (he : Eff ext c args N s s') (hc : ¬ c.isListWrite) (hcr : c.isCreator)
    (hv : LMatch s k v) (hw : viewOf s' k = viewOf s k) : LMatch s' k v := by
  rcases he.creator_cases ht hc hcr k with h | ⟨t, r, h1, h2, h3⟩
  · exact hv.keep he hc h
  · rw [viewOf_none h3, viewOf_some_ref h1] at hw; cases hw

/-- a lost list stays lost -/
theorem lost_step (ht : Typed s) (hc : c.isListWrite) (he : Eff ext c args N s s') (hv : LMatch s k .lost) :
    LMatch s' k .lost := by
  induction he with
  | refl => exact hv
  | @step s1 s2 s3 h _ ih =>
    refine ih (h.typed ht) ?_
    obtain ⟨o, r, hg, ho⟩ := hv
    have hnw : ¬ c.isStringWrite := by
      intro h'; simp only [Cmd.isListWrite, Cmd.isStringWrite] at hc h'
      rcases hc with rfl | rfl | rfl | rfl | rfl | rfl | rfl <;> simp at h'
    have hns : ¬ c.isStoreOp := by
      intro h'; simp only [Cmd.isListWrite, Cmd.isStoreOp] at hc h'
      rcases hc with rfl | rfl | rfl | rfl | rfl | rfl | rfl <;> simp at h'
    cases h with
    | str h => exact absurd h hnw
    | del h => subst h; simp [Cmd.isListWrite] at hc
    | @new k' o' rng _ h _ _ =>
      rcases h with ⟨_, h⟩ | h
      · have hne : k ≠ k' := by rintro rfl; rw [hg] at h; cases h
        have hr : r < s1.heap.length := (List.getElem?_eq_some_iff.mp ho).1
        exact ⟨o, r, by simp [SMap.get_set, hne, hg], by simp only; rw [List.getElem?_append_left hr]; exact ho⟩
      · exact absurd h hns
    | @write k' r' o1 o2 rng _ _ ho1 hst _ =>
      by_cases h : r' = r
      · subst h
        rw [ho] at ho1; cases ho1
        have hk := hst.kind
        obtain ⟨l2, rfl⟩ := Obj.kind_list hk
        have hr : r' < s1.heap.length := (List.getElem?_eq_some_iff.mp ho).1
        exact ⟨l2, r', hg, by simp [hr]⟩
      · exact ⟨o, r, hg, by simp only; rw [List.getElem?_set_ne h]; exact ho⟩
    | «alias» h => exact absurd h hns

/-! ## all commands -/

theorem list_step_write {name : Bytes} {f : CmdFn} (hf : c.fn = f) (hn : c.name = name) (hmem : name ∈ listWriters) (hc : c.isListWrite)
    (ht : Typed s) (hsh : ShareSets s) (hv : LMatch s k v) {o} (h : c.fn ext it s args = .ok (s', o))
    (hm : (setRsp o).reply = some m) (h0 : ∀ s, f ext it s [] = notEnough s)
    (hdoes : ∀ rest, args = k :: rest → v ≠ .lost → ∃ m', reply v name rest = some m' ∧ Does f ext it s k rest m' (lnext v name rest m'))
    (hka : ∀ k' rest, keyArgs name (k' :: rest) = [k']) (hne1 : name ≠ b! "mset") (hne2 : name ≠ b! "smove") :
    LMatch s' k (step k v c.name args m) := by
  rw [hn]
  have he := fn_eff c ht h
  rw [hn] at he
  cases args with
  | nil =>
    rw [hf, h0] at h; cases h
    simp only [setRsp_error, Option.some.injEq] at hm; subst hm
    exact hv
  | cons k' rest =>
    by_cases hk : k' = k
    · subst hk
      rw [step_list hmem]
      by_cases hl : v = .lost
      · subst hl
        have : lnext .lost name rest m = .lost := by
          apply lnext_same
          simp only [listWriters, List.mem_cons, List.not_mem_nil, or_false] at hmem
          rcases hmem with rfl | rfl | rfl | rfl | rfl | rfl | rfl <;> rfl
        rw [this]
        exact lost_step ht hc he hv
      · obtain ⟨m', _, s2, o2, h1, h2, h3⟩ := hdoes rest rfl hl
        rw [hf] at h
        rw [h] at h1; cases h1
        rw [hm] at h2; cases h2
        exact h3
    · rw [step_other_key hk hne1 hne2]
      rw [hka] at he
      exact hv.frame ht hsh he (by simpa using Ne.symm hk)

theorem reply_some {v : LView} (h : v ≠ .lost) {name : Bytes} (hn : name ∈ listWriters) (args : List Bytes) : ∃ m, reply v name args = some m := by
  simp only [listWriters, List.mem_cons, List.not_mem_nil, or_false] at hn
  rcases hn with rfl | rfl | rfl | rfl | rfl | rfl | rfl
  · rw [reply_lpush, if_neg h]; exact ⟨_, rfl⟩
  · rw [reply_rpush, if_neg h]; exact ⟨_, rfl⟩
  · rw [reply_lpop, if_neg h]; exact ⟨_, rfl⟩
  · rw [reply_rpop, if_neg h]; exact ⟨_, rfl⟩
  · rw [reply_lrem, if_neg h]; exact ⟨_, rfl⟩
  · rw [reply_lset, if_neg h]; exact ⟨_, rfl⟩
  · rw [reply_linsert, if_neg h]; exact ⟨_, rfl⟩

theorem msetKeys_iff : ∀ (l : List Bytes) (w : View), k ∉ msetKeys l → msetView k l w = w
  | [], _, _ => rfl
  | [_], _, _ => rfl
  | a :: b :: rest, w, h => by
    simp only [msetKeys, List.mem_cons, not_or] at h
    unfold msetView
    rw [if_neg (Ne.symm h.1)]
    exact msetKeys_iff rest w h.2

theorem msetKeys_mem : ∀ (l : List Bytes) (w : View), k ∈ msetKeys l → ∃ b, msetView k l w = .str b
  | [], _, h => by simp [msetKeys] at h
  | [_], _, h => by simp [msetKeys] at h
  | a :: b :: rest, w, h => by
    simp only [msetKeys, List.mem_cons] at h
    unfold msetView
    by_cases hr : k ∈ msetKeys rest
    · exact msetKeys_mem rest _ hr
    · rcases h with h | h
      · subst h; rw [if_pos rfl]
        exact ⟨b, msetKeys_iff rest _ hr⟩
      · exact absurd h hr

theorem mSet_get : ∀ (l : List Bytes) (s : Store), k ∉ msetKeys l → (s.mSet l).keys.get k = s.keys.get k
  | [], _, _ => rfl
  | [_], _, _ => rfl
  | a :: b :: rest, s, h => by
    simp only [msetKeys, List.mem_cons, not_or] at h
    unfold Store.mSet
    rw [mSet_get rest _ h.2, Store.set]
    simp [SMap.get_set, h.1]

/-- the string commands on one key -/
theorem string_lmatch (ht : Typed s) (ht' : Typed s') (he : Eff ext c args N s s') (hc : ¬ c.isListWrite) {k' : Bytes} {rest : List Bytes}
    {name : Bytes} (hn : name ∈ stringWriters) (hN : N = [k'])
    (hv : LMatch s k v) (hm : (∃ e, m = .error e ∧ s' = s) ∨ NotErr m ∧ ∃ b, viewOf s' k' = .str b) :
    LMatch s' k (step k v name (k' :: rest) m) := by
  rcases hm with ⟨e, rfl, rfl⟩ | ⟨hm, b, hb⟩
  · exact hv
  · by_cases hk : k' = k
    · subst hk
      rw [step_string hn hm]
      exact lmatch_of_str ht' hb
    · rw [step_other_key hk (by rintro rfl; simp [stringWriters, counters] at hn)
        (by rintro rfl; simp [stringWriters, counters] at hn)]
      exact hv.keep he hc (he.keys_frame ht (by rw [hN]; simpa using Ne.symm hk))

theorem next_int {r : Ret Int} {o} (h2 : intReply s r = .ok (s', o)) (hm : (setRsp o).reply = some m) :
    s' = s ∧ ((∃ e, r.2 = some e ∧ m = .error e.msg) ∨ (r.2 = none ∧ m = .int r.1)) := by
  obtain ⟨h, h'⟩ := intReply_cases h2
  refine ⟨h, ?_⟩
  rcases h' with ⟨e, he, hr⟩ | ⟨he, hr⟩ <;> (rw [hm] at hr; cases hr)
  · exact .inl ⟨e, he, rfl⟩
  · exact .inr ⟨he, rfl⟩

theorem counter_lmatch {k' : Bytes} {d : Int} {s1 r o} (hd : -2 ^ 63 ≤ d ∧ d < 2 ^ 63) (ht : Typed s)
    (h1 : s.incrBy k' d = .ok (s1, r)) (h2 : intReply s1 r = .ok (s', o)) (hm : (setRsp o).reply = some m) :
    (∃ e, m = .error e ∧ s' = s) ∨ NotErr m ∧ ∃ b, viewOf s' k' = .str b := by
  obtain ⟨rfl, hr⟩ := next_int h2 hm
  rcases incrBy_view ht hd h1 with ⟨e, he, rfl⟩ | ⟨he, hv⟩
  · rcases hr with ⟨e', he', rfl⟩ | ⟨he', _⟩
    · exact .inl ⟨_, rfl, rfl⟩
    · rw [he] at he'; cases he'
  · rcases hr with ⟨e', he', rfl⟩ | ⟨_, rfl⟩
    · rw [he] at he'; cases he'
    · exact .inr ⟨notErr_int _, _, by rw [hv, if_pos rfl]⟩

theorem notEnough_lmatch {name : Bytes} {o} (h : notEnough s = .ok (s', o)) (hm : (setRsp o).reply = some m) (hv : LMatch s k v) :
    LMatch s' k (step k v name args m) := by
  cases h; simp at hm; subst hm; exact hv

theorem retErr_lmatch {name : Bytes} {e o} (h : retErr s e = .ok (s', o)) (hm : (setRsp o).reply = some m) (hv : LMatch s k v) :
    LMatch s' k (step k v name args m) := by
  cases h; simp at hm; subst hm; exact hv

theorem creator_step {k' : Bytes} {rest : List Bytes} {name : Bytes} (hn : name ∈ otherCreators) (ht : Typed s)
    (he : Eff ext c args N s s') (hc : ¬ c.isListWrite) (hcr : c.isCreator) (hv : LMatch s k v)
    (hm : (∃ e, m = .error e ∧ s' = s) ∨ NotErr m ∧ createAt k' s s') : LMatch s' k (step k v name (k' :: rest) m) := by
  rcases hm with ⟨e, rfl, rfl⟩ | ⟨hm, hcr'⟩
  · exact hv
  · have := hcr' k
    by_cases hk : k' = k
    · subst hk
      rw [if_pos rfl] at this
      rw [step_creator hn hm]
      exact creator_lmatch ht he hc hcr hv this
    · rw [if_neg (Ne.symm hk)] at this
      rw [step_other_key hk (by rintro rfl; simp [otherCreators] at hn) (by rintro rfl; simp [otherCreators] at hn)]
      exact creator_lmatch_keep ht he hc hcr hv this

theorem store_step {k' k1 : Bytes} {rest : List Bytes} {op : Store.SetOp} {name : Bytes} (hn : name ∈ setStores) (ht : Typed s)
    (he : Eff ext c args N s s') (hc : ¬ c.isListWrite) (hv : LMatch s k v) {o}
    (h : cmdSOpStore op ext it s (k' :: k1 :: rest) = .ok (s', o)) (hm : (setRsp o).reply = some m) :
    LMatch s' k (step k v name (k' :: k1 :: rest) m) := by
  obtain ⟨⟨s1, r⟩, h1, h2⟩ := bind_ok h
  obtain ⟨rfl, hr⟩ := next_int h2 hm
  have key : (∃ e, r.2 = some e ∧ s' = s) ∨ (r.2 = none ∧ ∃ x, s'.keys = s.keys.set k' ⟨.set, .ref x⟩) := by
    simp only [Store.sOpStore, bind, Except.bind] at h1
    split at h1
    · cases h1
    · split at h1 <;> cases h1
      · exact .inl ⟨_, rfl, rfl⟩
      · exact .inr ⟨rfl, _, rfl⟩
      · exact .inr ⟨rfl, _, rfl⟩
      · exact .inr ⟨rfl, _, rfl⟩
  rcases key with ⟨e, he', rfl⟩ | ⟨he', x, hx⟩
  · rcases hr with ⟨e', he'', rfl⟩ | ⟨he'', _⟩
    · exact hv
    · rw [he'] at he''; cases he''
  · rcases hr with ⟨e', he'', rfl⟩ | ⟨_, rfl⟩
    · rw [he'] at he''; cases he''
    · by_cases hk : k' = k
      · subst hk
        rw [step_store hn (notErr_int _)]
        exact ⟨_, by rw [hx, SMap.get_set, if_pos rfl], by simp⟩
      · rw [step_other_key hk (by rintro rfl; simp [setStores] at hn) (by rintro rfl; simp [setStores] at hn)]
        exact hv.keep he hc (by rw [hx, SMap.get_set, if_neg (Ne.symm hk)])

/-- Every answered command keeps the list view. -/
theorem list_step (ht : Typed s) (hsh : ShareSets s) (hv : LMatch s k v) {o} (h : c.fn ext it s args = .ok (s', o))
    (hm : (setRsp o).reply = some m) (hp : c = .lInsert → ∀ w ∈ args[1]?, Ascii w) :
    LMatch s' k (step k v c.name args m) := by
  have he := fn_eff c ht h
  have ht' := he.typed ht
  by_cases hsame : ¬ c.isStringWrite ∧ c ≠ .del ∧ ¬ c.isCreator ∧ ¬ c.isStoreOp ∧ ¬ c.isListWrite
  · obtain ⟨h1, h2, h3, h4, h5⟩ := hsame
    rw [step_same]
    · exact hv.keep he h5 (by rw [keys_same ht h h1 h2 h3 h4])
    · revert h1 h2 h3 h4 h5
      unfold Cmd.isStringWrite Cmd.isCreator Cmd.isStoreOp Cmd.isListWrite
      clear h he hp
      cases c <;> decide
  · cases c
    case set =>
      have h' := h
      simp only [Cmd.fn, cmdSet] at h'
      split at h'
      · cases h'
        simp only [setRsp_ok, reply_ok, Option.some.injEq] at hm
        subst hm
        exact string_lmatch ht ht' he (by simp [Cmd.isListWrite]) (by decide) rfl hv
          (.inr ⟨notErr_simple _, _, by rw [set_view, if_pos rfl]⟩)
      · exact notEnough_lmatch h' hm hv
    case mSet =>
      have h' := h
      simp only [Cmd.fn, cmdMSet] at h'
      split at h'
      · exact notEnough_lmatch h' hm hv
      · cases h'
        simp only [setRsp_ok, reply_ok, Option.some.injEq] at hm
        subst hm
        have : step k v (b! "mset") args (.simple (b! "OK")) = _ := step_mset (notErr_simple _)
        show LMatch _ k (step k v (b! "mset") args _)
        rw [this]
        split
        · next hmem =>
          obtain ⟨b, hb⟩ := msetKeys_mem args (viewOf s k) hmem
          exact lmatch_of_str ht' (by rw [mSet_view, hb])
        · next hmem => exact hv.keep he (by simp [Cmd.isListWrite]) (mSet_get args s hmem)
    case incr =>
      have h' := h
      simp only [Cmd.fn, cmdIncr] at h'
      split at h'
      · obtain ⟨⟨s1, r⟩, h1, h2⟩ := bind_ok h'
        exact string_lmatch ht ht' he (by simp [Cmd.isListWrite]) (by decide) rfl hv (counter_lmatch (by decide) ht h1 h2 hm)
      · exact notEnough_lmatch h' hm hv
    case decr =>
      have h' := h
      simp only [Cmd.fn, cmdDecr] at h'
      split at h'
      · obtain ⟨⟨s1, r⟩, h1, h2⟩ := bind_ok h'
        exact string_lmatch ht ht' he (by simp [Cmd.isListWrite]) (by decide) rfl hv (counter_lmatch (by decide) ht h1 h2 hm)
      · exact notEnough_lmatch h' hm hv
    case incrBy =>
      have h' := h
      simp only [Cmd.fn, cmdIncrBy] at h'
      split at h'
      · split at h'
        · exact retErr_lmatch h' hm hv
        · next hp =>
          obtain ⟨⟨s1, r⟩, h1, h2⟩ := bind_ok h'
          exact string_lmatch ht ht' he (by simp [Cmd.isListWrite]) (by decide) rfl hv
            (counter_lmatch (parseInt_range hp) ht h1 h2 hm)
      · exact notEnough_lmatch h' hm hv
    case decrBy =>
      have h' := h
      simp only [Cmd.fn, cmdDecrBy] at h'
      split at h'
      · split at h'
        · exact retErr_lmatch h' hm hv
        · next hp =>
          obtain ⟨⟨s1, r⟩, h1, h2⟩ := bind_ok h'
          exact string_lmatch ht ht' he (by simp [Cmd.isListWrite]) (by decide) rfl hv
            (counter_lmatch (wrap64_range _) ht h1 h2 hm)
      · exact notEnough_lmatch h' hm hv
    case stringAppend =>
      have h' := h
      simp only [Cmd.fn, cmdAppend] at h'
      split at h'
      · next k' a rest =>
        obtain ⟨⟨s1, r⟩, h1, h2⟩ := bind_ok h'
        refine string_lmatch ht ht' he (by simp [Cmd.isListWrite]) (by decide) rfl hv ?_
        obtain ⟨rfl, hr⟩ := next_int h2 hm
        rcases append_view h1 with ⟨e, hq, rfl⟩ | ⟨hq, hv⟩
        · rcases hr with ⟨e', he', rfl⟩ | ⟨he', _⟩
          · exact .inl ⟨_, rfl, rfl⟩
          · rw [hq] at he'; cases he'
        · rcases hr with ⟨e', he', rfl⟩ | ⟨_, rfl⟩
          · rw [hq] at he'; cases he'
          · have hrun := append_run (k := k') ht a
            rw [h1] at hrun
            refine .inr ⟨notErr_int _, ?_⟩
            rw [hv, if_pos rfl]
            cases hw : viewOf s k' with
            | absent => exact ⟨_, rfl⟩
            | str b => exact ⟨_, rfl⟩
            | coll => rw [hw] at hrun; cases hrun; cases hq
      · exact notEnough_lmatch h' hm hv
    case del =>
      have h' := h
      simp only [Cmd.fn, cmdDel] at h'
      split at h'
      · next k' rest =>
        have hget : ∀ k, s'.keys.get k = if k = k' then none else s.keys.get k := by
          simp only [Store.del, retOk] at h'
          cases h'
          intro k
          simp only [SMap.get_deleteIfExists _ ht.wf]
        have hmi : NotErr m := by
          simp only [Store.del, retOk] at h'
          cases h'
          simp only [setRsp_ok, reply_int, Option.some.injEq] at hm
          subst hm; exact notErr_int _
        show LMatch s' k (step k v (b! "del") (k' :: rest) m)
        by_cases hk : k' = k
        · subst hk
          rw [step_del hmi]
          show s'.keys.get _ = none
          rw [hget, if_pos rfl]
        · rw [step_other_key hk (by decide) (by decide)]
          exact hv.keep he (by simp [Cmd.isListWrite]) (by rw [hget, if_neg (Ne.symm hk)])
      · exact notEnough_lmatch h' hm hv
    case lPush =>
      refine list_step_write (f := cmdLPush) (name := b! "lpush") rfl rfl (by decide) (by simp [Cmd.isListWrite]) ht hsh hv h hm
        (fun _ => rfl) (fun rest _ hl => ?_) (fun _ _ => rfl) (by decide) (by decide)
      obtain ⟨m', hm'⟩ := reply_some hl (name := b! "lpush") (by decide) rest
      exact ⟨m', hm', does_lpush hv hm'⟩
    case rPush =>
      refine list_step_write (f := cmdRPush) (name := b! "rpush") rfl rfl (by decide) (by simp [Cmd.isListWrite]) ht hsh hv h hm
        (fun _ => rfl) (fun rest _ hl => ?_) (fun _ _ => rfl) (by decide) (by decide)
      obtain ⟨m', hm'⟩ := reply_some hl (name := b! "rpush") (by decide) rest
      exact ⟨m', hm', does_rpush hv hm'⟩
    case lPop =>
      refine list_step_write (f := cmdLPop) (name := b! "lpop") rfl rfl (by decide) (by simp [Cmd.isListWrite]) ht hsh hv h hm
        (fun _ => rfl) (fun rest _ hl => ?_) (fun _ _ => rfl) (by decide) (by decide)
      obtain ⟨m', hm'⟩ := reply_some hl (name := b! "lpop") (by decide) rest
      exact ⟨m', hm', does_lpop hv hm'⟩
    case rPop =>
      refine list_step_write (f := cmdRPop) (name := b! "rpop") rfl rfl (by decide) (by simp [Cmd.isListWrite]) ht hsh hv h hm
        (fun _ => rfl) (fun rest _ hl => ?_) (fun _ _ => rfl) (by decide) (by decide)
      obtain ⟨m', hm'⟩ := reply_some hl (name := b! "rpop") (by decide) rest
      exact ⟨m', hm', does_rpop hv hm'⟩
    case lRem =>
      refine list_step_write (f := cmdLRem) (name := b! "lrem") rfl rfl (by decide) (by simp [Cmd.isListWrite]) ht hsh hv h hm
        (fun _ => rfl) (fun rest _ hl => ?_) (fun _ _ => rfl) (by decide) (by decide)
      obtain ⟨m', hm'⟩ := reply_some hl (name := b! "lrem") (by decide) rest
      exact ⟨m', hm', does_lrem hv hm'⟩
    case lSet =>
      refine list_step_write (f := cmdLSet) (name := b! "lset") rfl rfl (by decide) (by simp [Cmd.isListWrite]) ht hsh hv h hm
        (fun _ => rfl) (fun rest _ hl => ?_) (fun _ _ => rfl) (by decide) (by decide)
      obtain ⟨m', hm'⟩ := reply_some hl (name := b! "lset") (by decide) rest
      exact ⟨m', hm', does_lset hv hm'⟩
    case lInsert =>
      refine list_step_write (f := cmdLInsert) (name := b! "linsert") rfl rfl (by decide) (by simp [Cmd.isListWrite]) ht hsh hv h hm
        (fun _ => rfl) (fun rest ha hl => ?_) (fun _ _ => rfl) (by decide) (by decide)
      obtain ⟨m', hm'⟩ := reply_some hl (name := b! "linsert") (by decide) rest
      refine ⟨m', hm', does_linsert hv (fun w hw => hp rfl w ?_) hm'⟩
      subst ha
      cases rest <;> simp_all
    case sAdd =>
      have h' := h
      simp only [Cmd.fn, cmdSAdd] at h'
      split at h'
      · obtain ⟨⟨s1, r⟩, h1, h2⟩ := bind_ok h'
        obtain ⟨rfl, hr⟩ := next_int h2 hm
        refine creator_step (by decide) ht he (by simp [Cmd.isListWrite]) (by simp [Cmd.isCreator]) hv ?_
        rcases sAdd_view ht h1 with ⟨e, hq, rfl⟩ | ⟨hq, hcr⟩
        · rcases hr with ⟨e', he', rfl⟩ | ⟨he', _⟩
          · exact .inl ⟨_, rfl, rfl⟩
          · rw [hq] at he'; cases he'
        · rcases hr with ⟨e', he', rfl⟩ | ⟨_, rfl⟩
          · rw [hq] at he'; cases he'
          · exact .inr ⟨notErr_int _, hcr⟩
      · exact notEnough_lmatch h' hm hv
    case zAdd =>
      have h' := h
      simp only [Cmd.fn, cmdZAdd] at h'
      split at h'
      · split at h'
        · exact retErr_lmatch h' hm hv
        · obtain ⟨⟨s1, r⟩, h1, h2⟩ := bind_ok h'
          obtain ⟨rfl, hr⟩ := next_int h2 hm
          refine creator_step (by decide) ht he (by simp [Cmd.isListWrite]) (by simp [Cmd.isCreator]) hv ?_
          rcases zAdd_view ht h1 with ⟨e, hq, rfl⟩ | ⟨hq, hcr⟩
          · rcases hr with ⟨e', he', rfl⟩ | ⟨he', _⟩
            · exact .inl ⟨_, rfl, rfl⟩
            · rw [hq] at he'; cases he'
          · rcases hr with ⟨e', he', rfl⟩ | ⟨_, rfl⟩
            · rw [hq] at he'; cases he'
            · exact .inr ⟨notErr_int _, hcr⟩
      · exact notEnough_lmatch h' hm hv
    case zIncr =>
      have h' := h
      simp only [Cmd.fn, cmdZIncr] at h'
      split at h'
      · split at h'
        · exact retErr_lmatch h' hm hv
        · obtain ⟨⟨s1, r⟩, h1, h2⟩ := bind_ok h'
          have hz := zIncr_view ht h1
          refine creator_step (by decide) ht he (by simp [Cmd.isListWrite]) (by simp [Cmd.isCreator]) hv ?_
          split at h2
          · next heq =>
            cases heq
            cases h2
            simp only [setRsp_ok, reply_int, Option.some.injEq] at hm
            subst hm
            rcases hz with ⟨hh, _⟩ | ⟨_, hz⟩
            · cases hh
            · exact .inr ⟨notErr_int _, hz⟩
          · next hne heq =>
            cases heq
            cases h2
            simp only [setRsp_error, Option.some.injEq] at hm
            subst hm
            rcases hz with ⟨hh, rfl⟩ | ⟨hh | hh, hv⟩
            · exact .inl ⟨_, rfl, rfl⟩
            · cases hh
            · exact absurd (Option.some.inj hh) (by simpa using hne)
          · next heq =>
            cases heq
            cases h2
            simp only [setRsp_ok, reply_bulk, Option.some.injEq] at hm
            subst hm
            rcases hz with ⟨hh, _⟩ | ⟨_, hz⟩
            · cases hh
            · exact .inr ⟨notErr_bulk _, hz⟩
      · exact notEnough_lmatch h' hm hv
    case sMove =>
      have h' := h
      simp only [Cmd.fn, cmdSMove] at h'
      split at h'
      · next src dst x rest =>
        obtain ⟨⟨s1, r⟩, h1, h2⟩ := bind_ok h'
        obtain ⟨rfl, hr⟩ := next_int h2 hm
        rcases sMove_view ext ht h1 with ⟨⟨e, he'⟩, hkeys⟩ | ⟨he', hcr⟩
        · rcases hr with ⟨e', he'', rfl⟩ | ⟨he'', _⟩
          · exact hv.keep he (by simp [Cmd.isListWrite]) (by rw [hkeys])
          · rw [he'] at he''; cases he''
        · rcases hr with ⟨e', he'', rfl⟩ | ⟨_, rfl⟩
          · rw [he'] at he''; cases he''
          · have hst : step k v (Cmd.sMove).name (src :: dst :: x :: rest) (.int r.1) =
                if (src :: dst :: x :: rest)[1]? = some k then createOther v else v := step_smove (notErr_int _)
            rw [hst]
            have := hcr k
            by_cases hk : dst = k
            · subst hk
              rw [if_pos rfl] at this
              rw [if_pos (by rfl)]
              exact creator_lmatch ht he (by simp [Cmd.isListWrite]) (by simp [Cmd.isCreator]) hv this
            · rw [if_neg (Ne.symm hk)] at this
              rw [if_neg (by simpa using hk)]
              exact creator_lmatch_keep ht he (by simp [Cmd.isListWrite]) (by simp [Cmd.isCreator]) hv this
      · exact notEnough_lmatch h' hm hv
    case sDiffStore =>
      have h' := h
      simp only [Cmd.fn] at h'
      rcases args with _ | ⟨d, _ | ⟨k1, ks⟩⟩
      · exact notEnough_lmatch h' hm hv
      · exact notEnough_lmatch h' hm hv
      · exact store_step (by decide) ht he (by simp [Cmd.isListWrite]) hv h' hm
    case sInterStore =>
      have h' := h
      simp only [Cmd.fn] at h'
      rcases args with _ | ⟨d, _ | ⟨k1, ks⟩⟩
      · exact notEnough_lmatch h' hm hv
      · exact notEnough_lmatch h' hm hv
      · exact store_step (by decide) ht he (by simp [Cmd.isListWrite]) hv h' hm
    case sUnionStore =>
      have h' := h
      simp only [Cmd.fn] at h'
      rcases args with _ | ⟨d, _ | ⟨k1, ks⟩⟩
      · exact notEnough_lmatch h' hm hv
      · exact notEnough_lmatch h' hm hv
      · exact store_step (by decide) ht he (by simp [Cmd.isListWrite]) hv h' hm
    all_goals exact absurd (by simp [Cmd.isStringWrite, Cmd.isCreator, Cmd.isStoreOp, Cmd.isListWrite]) hsame

end Godis
