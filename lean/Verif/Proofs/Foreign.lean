import Verif.Proofs.Lists2
import Verif.Spec.Frame
/-! Commands outside a family keep that family's view of every key, or change it as `KeySpec.foreign` says. -/
namespace Godis
open Resp (Reply bulks)
open ListSpec (stringWriters msetKeys)
open StrSpec (int64 lower isError Ascii counters setStores View create appendView msetView)
open KeySpec (keyArgs KView foreign collCreators)

variable {s s' : Store} {k : Bytes} {ext : Ext} {it : Iter} {c : Cmd} {args N : List Bytes} {m : Reply} {K : KeyType}

/-- the commands that create or change objects of kind `K` -/
def Cmd.Writes (c : Cmd) : KeyType → Prop
  | .list => c.isListWrite
  | .set => c = .sAdd ∨ c = .sRem ∨ c = .sMove ∨ c = .sPop ∨ c.isStoreOp
  | .sortedSet => c = .zAdd ∨ c = .zIncr ∨ c = .zRem ∨ c = .zPopMin ∨ c = .zPopMix
  | _ => False

/-- what key `k` holds, as far as commands for objects of kind `K` can tell -/
def kview (K : KeyType) (s : Store) (k : Bytes) : KView Obj :=
  match s.valueAt k with
  | none => .absent
  | some (.text _) => .other
  | some (.coll o) => if o.kind = K then .here o else .other

theorem OStep.writes {rng o o'} (h : OStep ext c args rng o o') : c.Writes o.kind := by
  cases h <;> simp_all [Cmd.Writes, Obj.kind, Cmd.isListWrite] <;> tauto

theorem ONew.writes {rng o} (h : ONew ext c args rng o) : c.Writes o.kind := by
  cases h with
  | list h => exact h.writes
  | set h => exact h.writes
  | zset h => exact h.writes
  | op h => exact .inr (.inr (.inr (.inr h)))

theorem Change.heap_frame (h : Change ext c args N s s') {r : Nat} {o : Obj}
    (ho : s.heap[r]? = some o) : ∃ o', s'.heap[r]? = some o' ∧ o'.kind = o.kind ∧ (¬ c.Writes o.kind → o' = o) := by
  cases h with
  | str => exact ⟨o, ho, rfl, fun _ => rfl⟩
  | del => exact ⟨o, ho, rfl, fun _ => rfl⟩
  | new =>
    have hr : r < s.heap.length := (List.getElem?_eq_some_iff.mp ho).1
    exact ⟨o, by simp only; rw [List.getElem?_append_left hr]; exact ho, rfl, fun _ => rfl⟩
  | @write k' r' o1 o2 rng _ _ ho1 hst _ =>
    by_cases h : r' = r
    · subst h
      rw [ho] at ho1; cases ho1
      have hr : r' < s.heap.length := (List.getElem?_eq_some_iff.mp ho).1
      exact ⟨o2, by simp [hr], hst.kind, fun h => absurd hst.writes h⟩
    · exact ⟨o, by simp only; rw [List.getElem?_set_ne h]; exact ho, rfl, fun _ => rfl⟩
  | «alias» => exact ⟨o, ho, rfl, fun _ => rfl⟩

theorem Eff.heap_frame (h : Eff ext c args N s s') {r : Nat} {o : Obj}
    (ho : s.heap[r]? = some o) : ∃ o', s'.heap[r]? = some o' ∧ o'.kind = o.kind ∧ (¬ c.Writes o.kind → o' = o) := by
  induction h generalizing o with
  | refl => exact ⟨o, ho, rfl, fun _ => rfl⟩
  | step h _ ih =>
    obtain ⟨o1, h1, h2, h3⟩ := h.heap_frame ho
    obtain ⟨o2, h4, h5, h6⟩ := ih h1
    exact ⟨o2, h4, h5.trans h2, fun hn => (h6 (by rw [h2]; exact hn)).trans (h3 hn)⟩

theorem kview_absent (h : s.keys.get k = none) : kview K s k = .absent := by
  simp [kview, Store.valueAt, h]
theorem kview_str {t v} (h : s.keys.get k = some ⟨t, .str v⟩) : kview K s k = .other := by
  simp [kview, Store.valueAt, h]
theorem kview_ref {t r o} (h : s.keys.get k = some ⟨t, .ref r⟩) (ho : s.heap[r]? = some o) :
    kview K s k = if o.kind = K then .here o else .other := by
  simp [kview, Store.valueAt, h, ho]

/-- a key whose entry stays keeps its view under commands of other families -/
theorem kview_keep (ht : Typed s) (he : Eff ext c args N s s') (hc : ¬ c.Writes K)
    (hg : s'.keys.get k = s.keys.get k) : kview K s' k = kview K s k := by
  cases hk : s.keys.get k with
  | none => rw [kview_absent hk, kview_absent (hg.trans hk)]
  | some info =>
    rcases ht.kind _ _ hk with ⟨v, rfl⟩ | ⟨r, o, rfl, ho, _⟩
    · rw [kview_str hk, kview_str (hg.trans hk)]
    · obtain ⟨o', h1, h2, h3⟩ := he.heap_frame ho
      rw [kview_ref hk ho, kview_ref (hg.trans hk) h1, h2]
      split
      · next e => rw [h3 (by rw [e]; exact hc)]
      · rfl

theorem kview_congr (h : s'.valueAt k = s.valueAt k) : kview K s' k = kview K s k := by
  unfold kview; rw [h]

/-! ## the steps of the specification -/

section
variable {α : Type} {v : KView α}

theorem foreign_err {name : Bytes} {e} : foreign k v name args (.error e) = v := rfl

theorem foreign_other_key {name k' : Bytes} {rest : List Bytes} (h : k' ≠ k) (h1 : name ≠ b! "mset") (h2 : name ≠ b! "smove") :
    foreign k v name (k' :: rest) m = v := by
  unfold foreign
  split
  · rfl
  · rw [if_pos (by simp [h])]

theorem foreign_string {name : Bytes} {rest : List Bytes} (h : name ∈ stringWriters) (hm : NotErr m) :
    foreign k v name (k :: rest) m = .other := by
  have hm' : ¬ isError m := by cases m <;> simp_all [isError, NotErr]
  simp only [stringWriters, counters, List.mem_cons, List.not_mem_nil, or_false] at h
  unfold foreign
  rw [if_neg hm']
  have hh : ¬ ((k :: rest).head? ≠ some k) := by simp
  rcases h with rfl | rfl | rfl | rfl | rfl | rfl <;> simp only [hh, if_false] <;> rfl

theorem foreign_del {rest : List Bytes} (hm : NotErr m) : foreign k v (b! "del") (k :: rest) m = .absent := by
  have hm' : ¬ isError m := by cases m <;> simp_all [isError, NotErr]
  unfold foreign
  rw [if_neg hm']
  have hh : ¬ ((k :: rest).head? ≠ some k) := by simp
  simp only [hh, if_false]; rfl

theorem foreign_creator {name : Bytes} {rest : List Bytes} (h : name ∈ collCreators) (hm : NotErr m) :
    foreign k v name (k :: rest) m = v.createOther := by
  have hm' : ¬ isError m := by cases m <;> simp_all [isError, NotErr]
  simp only [collCreators, List.mem_cons, List.not_mem_nil, or_false] at h
  unfold foreign
  rw [if_neg hm']
  have hh : ¬ ((k :: rest).head? ≠ some k) := by simp
  rcases h with rfl | rfl | rfl | rfl | rfl <;> simp only [hh, if_false] <;> rfl

theorem foreign_store {name : Bytes} {rest : List Bytes} (h : name ∈ setStores) (hm : NotErr m) :
    foreign k v name (k :: rest) m = .other := by
  have hm' : ¬ isError m := by cases m <;> simp_all [isError, NotErr]
  simp only [setStores, List.mem_cons, List.not_mem_nil, or_false] at h
  unfold foreign
  rw [if_neg hm']
  have hh : ¬ ((k :: rest).head? ≠ some k) := by simp
  rcases h with rfl | rfl | rfl <;> simp only [hh, if_false] <;> rfl

theorem foreign_mset (hm : NotErr m) : foreign k v (b! "mset") args m = if k ∈ msetKeys args then .other else v := by
  have hm' : ¬ isError m := by cases m <;> simp_all [isError, NotErr]
  unfold foreign
  rw [if_neg hm']
  simp only [if_true]

theorem foreign_smove (hm : NotErr m) : foreign k v (b! "smove") args m = if args[1]? = some k then v.createOther else v := by
  have hm' : ¬ isError m := by cases m <;> simp_all [isError, NotErr]
  unfold foreign
  rw [if_neg hm', if_neg (by decide)]
  simp only [if_true]

theorem foreign_same {name : Bytes}
    (h : name ∉ [b! "mset", b! "smove", b! "del"] ++ stringWriters ++ collCreators ++ setStores) :
    foreign k v name args m = v := by
  simp only [List.mem_append, List.mem_cons, List.not_mem_nil, or_false, not_or] at h
  obtain ⟨⟨⟨⟨h1, h2, h3⟩, h4⟩, h5⟩, h6⟩ := h
  unfold foreign
  split
  · rfl
  · exact ite_self _

end

/-! ## what the commands do to entries -/

/-- Every entry after a creating command of another family: unchanged, or new and of another kind. -/
theorem Change.creator_kview (h : Change ext c args N s s') (ht : Typed s) (hc : ¬ c.Writes K) (hcr : c.isCreator) (k : Bytes) :
    s'.keys.get k = s.keys.get k ∨ (s.keys.get k = none ∧ kview K s' k = .other) := by
  have hns : ¬ c.isStoreOp := by
    intro h'; simp only [Cmd.isCreator, Cmd.isStoreOp] at hcr h'
    rcases hcr with rfl | rfl | rfl | rfl | rfl | rfl <;> simp at h'
  cases h with
  | str h =>
    exfalso; simp only [Cmd.isCreator, Cmd.isStringWrite] at hcr h
    rcases hcr with rfl | rfl | rfl | rfl | rfl | rfl <;> simp at h
  | del h => subst h; simp [Cmd.isCreator] at hcr
  | @new k' o rng _ h hn _ =>
    by_cases e : k = k'
    · subst e
      rcases h with ⟨_, h⟩ | h
      · refine .inr ⟨h, ?_⟩
        rw [kview_ref (t := o.kind) (r := s.heap.length) (o := o) (by simp [SMap.get_set]) (by simp), if_neg]
        rintro rfl
        exact hc hn.writes
      · exact absurd h hns
    · exact .inl (by simp [SMap.get_set, e])
  | write => exact .inl rfl
  | «alias» h => exact absurd h hns

theorem Eff.creator_kview (h : Eff ext c args N s s') (ht : Typed s) (hc : ¬ c.Writes K) (hcr : c.isCreator) (k : Bytes) :
    (s'.keys.get k = s.keys.get k ∧ kview K s' k = kview K s k) ∨ (s.keys.get k = none ∧ s'.keys.get k ≠ none ∧ kview K s' k = .other) := by
  induction h with
  | refl => exact .inl ⟨rfl, rfl⟩
  | @step s1 s2 s3 h _ ih =>
    have h1 := h.creator_kview ht hc hcr k
    have h2 := ih (h.typed ht)
    rcases h1 with h1 | ⟨h1, h1'⟩
    · have hk := kview_keep ht (.one h) hc h1
      rcases h2 with ⟨h2, h3⟩ | ⟨h2, h3, h4⟩
      · exact .inl ⟨h2.trans h1, h3.trans hk⟩
      · exact .inr ⟨h1.symm.trans h2, h3, h4⟩
    · have hne : s2.keys.get k ≠ none := by
        intro h0; rw [kview_absent h0] at h1'; cases h1'
      rcases h2 with ⟨h2, h3⟩ | ⟨h2, _⟩
      · exact .inr ⟨h1, by rw [h2]; exact hne, h3.trans h1'⟩
      · exact absurd h2 hne

theorem viewOf_coll {t r} (h : s.keys.get k = some ⟨t, .ref r⟩) : viewOf s k ≠ .absent := by
  rw [viewOf_some_ref h]; simp

/-- a creating command of another family, on the created key -/
theorem creator_create (ht : Typed s) (he : Eff ext c args N s s') (hc : ¬ c.Writes K) (hcr : c.isCreator)
    (hw : viewOf s' k = create (viewOf s k)) : kview K s' k = (kview K s k).createOther := by
  rcases he.creator_kview ht hc hcr k with ⟨h1, h2⟩ | ⟨h1, h2, h3⟩
  · rw [h2]
    cases hk : s.keys.get k with
    | none =>
      exfalso
      rw [viewOf_none hk, viewOf_none (h1.trans hk)] at hw; cases hw
    | some info =>
      rcases ht.kind _ _ hk with ⟨v, rfl⟩ | ⟨r, o, rfl, ho, _⟩
      · rw [kview_str hk]; rfl
      · rw [kview_ref hk ho]; split <;> rfl
  · rw [h3, kview_absent h1]; rfl

/-- a creating command of another family, on other keys -/
theorem creator_keep (ht : Typed s) (he : Eff ext c args N s s') (hc : ¬ c.Writes K) (hcr : c.isCreator)
    (hw : viewOf s' k = viewOf s k) : kview K s' k = kview K s k := by
  rcases he.creator_kview ht hc hcr k with ⟨h1, h2⟩ | ⟨h1, h2, h3⟩
  · exact h2
  · exfalso
    rw [viewOf_none h1] at hw
    exact h2 (viewOf_absent_iff.mp hw)

theorem kview_of_str {b} (ht : Typed s) (h : viewOf s k = .str b) : kview K s k = .other := by
  cases hg : s.keys.get k with
  | none => rw [viewOf_none hg] at h; cases h
  | some info =>
    rcases ht.kind _ _ hg with ⟨v, rfl⟩ | ⟨r, o, rfl, ho, _⟩
    · exact kview_str hg
    · rw [viewOf_some_ref hg] at h; cases h

theorem string_kview (ht : Typed s) (ht' : Typed s') (he : Eff ext c args N s s') (hc : ¬ c.Writes K) {k' : Bytes} {rest : List Bytes}
    {name : Bytes} (hn : name ∈ stringWriters) (hN : N = [k'])
    (hm : (∃ e, m = .error e ∧ s' = s) ∨ NotErr m ∧ ∃ b, viewOf s' k' = .str b) :
    kview K s' k = foreign k (kview K s k) name (k' :: rest) m := by
  rcases hm with ⟨e, rfl, rfl⟩ | ⟨hm, b, hb⟩
  · rfl
  · by_cases hk : k' = k
    · subst hk
      rw [foreign_string hn hm]
      exact kview_of_str ht' hb
    · rw [foreign_other_key hk (by rintro rfl; simp [stringWriters, counters] at hn)
        (by rintro rfl; simp [stringWriters, counters] at hn)]
      exact kview_keep ht he hc (he.keys_frame ht (by rw [hN]; simpa using Ne.symm hk))

theorem notEnough_kview {name : Bytes} {o} (h : notEnough s = .ok (s', o)) (hm : (setRsp o).reply = some m) :
    kview K s' k = foreign k (kview K s k) name args m := by
  cases h; simp at hm; subst hm; rfl

theorem retErr_kview {name : Bytes} {e o} (h : retErr s e = .ok (s', o)) (hm : (setRsp o).reply = some m) :
    kview K s' k = foreign k (kview K s k) name args m := by
  cases h; simp at hm; subst hm; rfl

theorem creator_kview_step {k' : Bytes} {rest : List Bytes} {name : Bytes} (hn : name ∈ collCreators) (ht : Typed s)
    (he : Eff ext c args N s s') (hc : ¬ c.Writes K) (hcr : c.isCreator)
    (hm : (∃ e, m = .error e ∧ s' = s) ∨ NotErr m ∧ createAt k' s s') :
    kview K s' k = foreign k (kview K s k) name (k' :: rest) m := by
  rcases hm with ⟨e, rfl, rfl⟩ | ⟨hm, hcr'⟩
  · rfl
  · have := hcr' k
    by_cases hk : k' = k
    · subst hk
      rw [if_pos rfl] at this
      rw [foreign_creator hn hm]
      exact creator_create ht he hc hcr this
    · rw [if_neg (Ne.symm hk)] at this
      rw [foreign_other_key hk (by rintro rfl; simp [collCreators] at hn) (by rintro rfl; simp [collCreators] at hn)]
      exact creator_keep ht he hc hcr this

theorem store_kview {k' k1 : Bytes} {rest : List Bytes} {op : Store.SetOp} {name : Bytes} (hn : name ∈ setStores) (ht : Typed s)
    (ht' : Typed s') (he : Eff ext c args N s s') (hc : ¬ c.Writes K) (hK : K ≠ .set) {o}
    (h : cmdSOpStore op ext it s (k' :: k1 :: rest) = .ok (s', o)) (hm : (setRsp o).reply = some m) :
    kview K s' k = foreign k (kview K s k) name (k' :: k1 :: rest) m := by
  obtain ⟨⟨s1, r⟩, h1, h2⟩ := bind_ok h
  obtain ⟨rfl, hr⟩ := next_int h2 hm
  have key : (∃ e, r.2 = some e ∧ s' = s) ∨ (r.2 = none ∧ ∃ x, s'.keys = s.keys.set k' ⟨.set, .ref x⟩) := by
    simp only [Store.sOpStore, bind, Except.bind] at h1
    split at h1
    · cases h1
    · split at h1 <;> cases h1
      · exact .inl ⟨_, rfl, rfl⟩
      · exact .inr ⟨rfl, _, rfl⟩
      · exact .inr ⟨rfl, _, rfl⟩
      · exact .inr ⟨rfl, _, rfl⟩
  rcases key with ⟨e, he', rfl⟩ | ⟨he', x, hx⟩
  · rcases hr with ⟨e', he'', rfl⟩ | ⟨he'', _⟩
    · rfl
    · rw [he'] at he''; cases he''
  · rcases hr with ⟨e', he'', rfl⟩ | ⟨_, rfl⟩
    · rw [he'] at he''; cases he''
    · by_cases hk : k' = k
      · subst hk
        rw [foreign_store hn (notErr_int _)]
        have hg : s'.keys.get k' = some ⟨.set, .ref x⟩ := by rw [hx, SMap.get_set, if_pos rfl]
        rcases ht'.kind _ _ hg with ⟨v, h⟩ | ⟨r, o, h, ho, _⟩
        · cases h
        · simp only [KeyInfo.mk.injEq, Val.ref.injEq] at h
          obtain ⟨hko, rfl⟩ := h
          have hko := hko.symm
          rw [kview_ref hg ho, if_neg (by rw [hko]; exact Ne.symm hK)]
      · rw [foreign_other_key hk (by rintro rfl; simp [setStores] at hn) (by rintro rfl; simp [setStores] at hn)]
        exact kview_keep ht he hc (by rw [hx, SMap.get_set, if_neg (Ne.symm hk)])

/-- Every answered command that does not write objects of kind `K` changes the view for `K` as `foreign` says. -/
theorem foreign_step (ht : Typed s) (hc : ¬ c.Writes K) {o} (h : c.fn ext it s args = .ok (s', o))
    (hm : (setRsp o).reply = some m) (k : Bytes) :
    kview K s' k = foreign k (kview K s k) c.name args m := by
  have he := fn_eff c ht h
  have ht' := he.typed ht
  by_cases hsame : ¬ c.isStringWrite ∧ c ≠ .del ∧ ¬ c.isCreator ∧ ¬ c.isStoreOp
  · obtain ⟨h1, h2, h3, h4⟩ := hsame
    rw [foreign_same]
    · exact kview_keep ht he hc (by rw [keys_same ht h h1 h2 h3 h4])
    · revert h1 h2 h3 h4
      unfold Cmd.isStringWrite Cmd.isCreator Cmd.isStoreOp
      clear h he hc
      cases c <;> decide
  · cases c
    case set =>
      have h' := h
      simp only [Cmd.fn, cmdSet] at h'
      split at h'
      · cases h'
        simp only [setRsp_ok, reply_ok, Option.some.injEq] at hm
        subst hm
        exact string_kview ht ht' he hc (by decide) rfl
          (.inr ⟨notErr_simple _, _, by rw [set_view, if_pos rfl]⟩)
      · exact notEnough_kview h' hm
    case mSet =>
      have h' := h
      simp only [Cmd.fn, cmdMSet] at h'
      split at h'
      · exact notEnough_kview h' hm
      · cases h'
        simp only [setRsp_ok, reply_ok, Option.some.injEq] at hm
        subst hm
        have : foreign k (kview K s k) (b! "mset") args (.simple (b! "OK")) = _ := foreign_mset (notErr_simple _)
        show _ = foreign k (kview K s k) (b! "mset") args _
        rw [this]
        split
        · next hmem =>
          obtain ⟨b, hb⟩ := msetKeys_mem args (viewOf s k) hmem
          exact kview_of_str ht' (by rw [mSet_view, hb])
        · next hmem => exact kview_keep ht he hc (mSet_get args s hmem)
    case incr =>
      have h' := h
      simp only [Cmd.fn, cmdIncr] at h'
      split at h'
      · obtain ⟨⟨s1, r⟩, h1, h2⟩ := bind_ok h'
        exact string_kview ht ht' he hc (by decide) rfl (counter_lmatch (by decide) ht h1 h2 hm)
      · exact notEnough_kview h' hm
    case decr =>
      have h' := h
      simp only [Cmd.fn, cmdDecr] at h'
      split at h'
      · obtain ⟨⟨s1, r⟩, h1, h2⟩ := bind_ok h'
        exact string_kview ht ht' he hc (by decide) rfl (counter_lmatch (by decide) ht h1 h2 hm)
      · exact notEnough_kview h' hm
    case incrBy =>
      have h' := h
      simp only [Cmd.fn, cmdIncrBy] at h'
      split at h'
      · split at h'
        · exact retErr_kview h' hm
        · next hp =>
          obtain ⟨⟨s1, r⟩, h1, h2⟩ := bind_ok h'
          exact string_kview ht ht' he hc (by decide) rfl (counter_lmatch (parseInt_range hp) ht h1 h2 hm)
      · exact notEnough_kview h' hm
    case decrBy =>
      have h' := h
      simp only [Cmd.fn, cmdDecrBy] at h'
      split at h'
      · split at h'
        · exact retErr_kview h' hm
        · next hp =>
          obtain ⟨⟨s1, r⟩, h1, h2⟩ := bind_ok h'
          exact string_kview ht ht' he hc (by decide) rfl (counter_lmatch (wrap64_range _) ht h1 h2 hm)
      · exact notEnough_kview h' hm
    case stringAppend =>
      have h' := h
      simp only [Cmd.fn, cmdAppend] at h'
      split at h'
      · next k' a rest =>
        obtain ⟨⟨s1, r⟩, h1, h2⟩ := bind_ok h'
        refine string_kview ht ht' he hc (by decide) rfl ?_
        obtain ⟨rfl, hr⟩ := next_int h2 hm
        rcases append_view h1 with ⟨e, hq, rfl⟩ | ⟨hq, hv⟩
        · rcases hr with ⟨e', he', rfl⟩ | ⟨he', _⟩
          · exact .inl ⟨_, rfl, rfl⟩
          · rw [hq] at he'; cases he'
        · rcases hr with ⟨e', he', rfl⟩ | ⟨_, rfl⟩
          · rw [hq] at he'; cases he'
          · have hrun := append_run (k := k') ht a
            rw [h1] at hrun
            refine .inr ⟨notErr_int _, ?_⟩
            rw [hv, if_pos rfl]
            cases hw : viewOf s k' with
            | absent => exact ⟨_, rfl⟩
            | str b => exact ⟨_, rfl⟩
            | coll => rw [hw] at hrun; cases hrun; cases hq
      · exact notEnough_kview h' hm
    case del =>
      have h' := h
      simp only [Cmd.fn, cmdDel] at h'
      split at h'
      · next k' rest =>
        have hget : ∀ k, s'.keys.get k = if k = k' then none else s.keys.get k := by
          simp only [Store.del, retOk] at h'
          cases h'
          intro k
          simp only [SMap.get_deleteIfExists _ ht.wf]
        have hmi : NotErr m := by
          simp only [Store.del, retOk] at h'
          cases h'
          simp only [setRsp_ok, reply_int, Option.some.injEq] at hm
          subst hm; exact notErr_int _
        show _ = foreign k (kview K s k) (b! "del") (k' :: rest) m
        by_cases hk : k' = k
        · subst hk
          rw [foreign_del hmi]
          exact kview_absent (by rw [hget, if_pos rfl])
        · rw [foreign_other_key hk (by decide) (by decide)]
          exact kview_keep ht he hc (by rw [hget, if_neg (Ne.symm hk)])
      · exact notEnough_kview h' hm
    case lPush =>
      have h' := h
      simp only [Cmd.fn, cmdLPush] at h'
      split at h'
      · obtain ⟨⟨s1, r⟩, h1, h2⟩ := bind_ok h'
        obtain ⟨rfl, hr⟩ := next_int h2 hm
        refine creator_kview_step (by decide) ht he hc (by simp [Cmd.isCreator]) ?_
        rcases lPush_view ht h1 with ⟨e, hq, rfl⟩ | ⟨hq, hcr⟩
        · rcases hr with ⟨e', he', rfl⟩ | ⟨he', _⟩
          · exact .inl ⟨_, rfl, rfl⟩
          · rw [hq] at he'; cases he'
        · rcases hr with ⟨e', he', rfl⟩ | ⟨_, rfl⟩
          · rw [hq] at he'; cases he'
          · exact .inr ⟨notErr_int _, hcr⟩
      · exact notEnough_kview h' hm
    case rPush =>
      have h' := h
      simp only [Cmd.fn, cmdRPush] at h'
      split at h'
      · obtain ⟨⟨s1, r⟩, h1, h2⟩ := bind_ok h'
        obtain ⟨rfl, hr⟩ := next_int h2 hm
        refine creator_kview_step (by decide) ht he hc (by simp [Cmd.isCreator]) ?_
        rcases rPush_view ht h1 with ⟨e, hq, rfl⟩ | ⟨hq, hcr⟩
        · rcases hr with ⟨e', he', rfl⟩ | ⟨he', _⟩
          · exact .inl ⟨_, rfl, rfl⟩
          · rw [hq] at he'; cases he'
        · rcases hr with ⟨e', he', rfl⟩ | ⟨_, rfl⟩
          · rw [hq] at he'; cases he'
          · exact .inr ⟨notErr_int _, hcr⟩
      · exact notEnough_kview h' hm
    case sAdd =>
      have h' := h
      simp only [Cmd.fn, cmdSAdd] at h'
      split at h'
      · obtain ⟨⟨s1, r⟩, h1, h2⟩ := bind_ok h'
        obtain ⟨rfl, hr⟩ := next_int h2 hm
        refine creator_kview_step (by decide) ht he hc (by simp [Cmd.isCreator]) ?_
        rcases sAdd_view ht h1 with ⟨e, hq, rfl⟩ | ⟨hq, hcr⟩
        · rcases hr with ⟨e', he', rfl⟩ | ⟨he', _⟩
          · exact .inl ⟨_, rfl, rfl⟩
          · rw [hq] at he'; cases he'
        · rcases hr with ⟨e', he', rfl⟩ | ⟨_, rfl⟩
          · rw [hq] at he'; cases he'
          · exact .inr ⟨notErr_int _, hcr⟩
      · exact notEnough_kview h' hm
    case zAdd =>
      have h' := h
      simp only [Cmd.fn, cmdZAdd] at h'
      split at h'
      · split at h'
        · exact retErr_kview h' hm
        · obtain ⟨⟨s1, r⟩, h1, h2⟩ := bind_ok h'
          obtain ⟨rfl, hr⟩ := next_int h2 hm
          refine creator_kview_step (by decide) ht he hc (by simp [Cmd.isCreator]) ?_
          rcases zAdd_view ht h1 with ⟨e, hq, rfl⟩ | ⟨hq, hcr⟩
          · rcases hr with ⟨e', he', rfl⟩ | ⟨he', _⟩
            · exact .inl ⟨_, rfl, rfl⟩
            · rw [hq] at he'; cases he'
          · rcases hr with ⟨e', he', rfl⟩ | ⟨_, rfl⟩
            · rw [hq] at he'; cases he'
            · exact .inr ⟨notErr_int _, hcr⟩
      · exact notEnough_kview h' hm
    case zIncr =>
      have h' := h
      simp only [Cmd.fn, cmdZIncr] at h'
      split at h'
      · split at h'
        · exact retErr_kview h' hm
        · obtain ⟨⟨s1, r⟩, h1, h2⟩ := bind_ok h'
          have hz := zIncr_view ht h1
          refine creator_kview_step (by decide) ht he hc (by simp [Cmd.isCreator]) ?_
          split at h2
          · next heq =>
            cases heq
            cases h2
            simp only [setRsp_ok, reply_int, Option.some.injEq] at hm
            subst hm
            rcases hz with ⟨hh, _⟩ | ⟨_, hz⟩
            · cases hh
            · exact .inr ⟨notErr_int _, hz⟩
          · next hne heq =>
            cases heq
            cases h2
            simp only [setRsp_error, Option.some.injEq] at hm
            subst hm
            rcases hz with ⟨hh, rfl⟩ | ⟨hh | hh, hv⟩
            · exact .inl ⟨_, rfl, rfl⟩
            · cases hh
            · exact absurd (Option.some.inj hh) (by simpa using hne)
          · next heq =>
            cases heq
            cases h2
            simp only [setRsp_ok, reply_bulk, Option.some.injEq] at hm
            subst hm
            rcases hz with ⟨hh, _⟩ | ⟨_, hz⟩
            · cases hh
            · exact .inr ⟨notErr_bulk _, hz⟩
      · exact notEnough_kview h' hm
    case sMove =>
      have h' := h
      simp only [Cmd.fn, cmdSMove] at h'
      split at h'
      · next src dst x rest =>
        obtain ⟨⟨s1, r⟩, h1, h2⟩ := bind_ok h'
        obtain ⟨rfl, hr⟩ := next_int h2 hm
        rcases sMove_view ext ht h1 with ⟨⟨e, he'⟩, hkeys⟩ | ⟨he', hcr⟩
        · rcases hr with ⟨e', he'', rfl⟩ | ⟨he'', _⟩
          · exact kview_keep ht he hc (by rw [hkeys])
          · rw [he'] at he''; cases he''
        · rcases hr with ⟨e', he'', rfl⟩ | ⟨_, rfl⟩
          · rw [he'] at he''; cases he''
          · have hst : foreign k (kview K s k) (Cmd.sMove).name (src :: dst :: x :: rest) (.int r.1) =
                if (src :: dst :: x :: rest)[1]? = some k then (kview K s k).createOther else kview K s k := foreign_smove (notErr_int _)
            rw [hst]
            have := hcr k
            by_cases hk : dst = k
            · subst hk
              rw [if_pos rfl] at this
              rw [if_pos (by rfl)]
              exact creator_create ht he hc (by simp [Cmd.isCreator]) this
            · rw [if_neg (Ne.symm hk)] at this
              rw [if_neg (by simpa using hk)]
              exact creator_keep ht he hc (by simp [Cmd.isCreator]) this
      · exact notEnough_kview h' hm
    case sDiffStore =>
      have h' := h
      simp only [Cmd.fn] at h'
      rcases args with _ | ⟨d, _ | ⟨k1, ks⟩⟩
      · exact notEnough_kview h' hm
      · exact notEnough_kview h' hm
      · exact store_kview (by decide) ht ht' he hc (by rintro rfl; simp [Cmd.Writes, Cmd.isStoreOp] at hc) h' hm
    case sInterStore =>
      have h' := h
      simp only [Cmd.fn] at h'
      rcases args with _ | ⟨d, _ | ⟨k1, ks⟩⟩
      · exact notEnough_kview h' hm
      · exact notEnough_kview h' hm
      · exact store_kview (by decide) ht ht' he hc (by rintro rfl; simp [Cmd.Writes, Cmd.isStoreOp] at hc) h' hm
    case sUnionStore =>
      have h' := h
      simp only [Cmd.fn] at h'
      rcases args with _ | ⟨d, _ | ⟨k1, ks⟩⟩
      · exact notEnough_kview h' hm
      · exact notEnough_kview h' hm
      · exact store_kview (by decide) ht ht' he hc (by rintro rfl; simp [Cmd.Writes, Cmd.isStoreOp] at hc) h' hm
    all_goals exact absurd (by simp [Cmd.isStringWrite, Cmd.isCreator, Cmd.isStoreOp]) hsame

end Godis
