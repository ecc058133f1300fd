import Verif.Proofs.Lists2
import Verif.Props.Play
/-! Lists along histories. -/
namespace Godis
open Resp (Reply bulks)
open ListSpec
open StrSpec (int64 lower isError Ascii counters setStores)
open KeySpec (keyArgs readOnly)

variable {s s' : Store} {k : Bytes} {v : LView} {ext : Ext} {it : Iter} {c : Cmd} {args N : List Bytes} {m : Reply}

/-- the view after one more request -/
theorem Answers.lmatch {req} (h : Answers ext it s req m s') (ht : Typed s) (hsh : ShareSets s) (hp : Plain req)
    (hv : LMatch s k v) : LMatch s' k (step k v (lower (req.headD [])) req.tail m) := by
  obtain ⟨name, args, rfl, ⟨_, rfl, rfl⟩ | ⟨c, o, hl, hf, hm⟩⟩ := h.cases
  · exact hv
  · have hlow : toLower ext.lowerUni name = lower name := lower_eq (hp.1 name rfl)
    have hn := lookup_name hl
    rw [hlow] at hn
    show LMatch s' k (step k v (lower name) args m)
    rw [hn]
    refine list_step ht hsh hv hf hm (fun hc w hw => hp.2 ?_ w ?_)
    · subst hc; exact hn
    · simpa using hw

theorem after_snoc (k : Bytes) (tr : List (List Bytes × Reply)) (p : List Bytes × Reply) :
    after k (tr ++ [p]) = step k (after k tr) (lower (p.1.headD [])) p.1.tail p.2 := by
  simp [after, afterFrom, List.foldl_append]

theorem Trace.lmatch {rng tr} (h : Trace ext (Store.init rng) tr s) (hp : ∀ p ∈ tr, Plain p.1) (k : Bytes) :
    LMatch s k (after k tr) := by
  induction h with
  | nil => exact rfl
  | @snoc tr s it req m s' h0 ha ih =>
    rw [after_snoc]
    exact ha.lmatch (h0.typed (typed_init rng)) (h0.shareSets (typed_init rng) (shareSets_init rng)) (hp (req, m) (by simp))
      (ih (fun p hp' => hp p (by simp [hp'])))

/-- the list commands and their functions -/
def listCmds : List (Bytes × Cmd) :=
  [(b! "lpush", .lPush), (b! "rpush", .rPush), (b! "lpop", .lPop), (b! "rpop", .rPop), (b! "llen", .lLen),
   (b! "lrange", .lRange), (b! "lrem", .lRem), (b! "lset", .lSet), (b! "linsert", .lInsert)]

theorem reply_cmd {name : Bytes} (h : reply v name args = some m) : ∃ c, (name, c) ∈ listCmds := by
  by_cases h1 : name = b! "lpush"
  · exact ⟨.lPush, by subst h1; decide⟩
  by_cases h2 : name = b! "rpush"
  · exact ⟨.rPush, by subst h2; decide⟩
  by_cases h3 : name = b! "lpop"
  · exact ⟨.lPop, by subst h3; decide⟩
  by_cases h4 : name = b! "rpop"
  · exact ⟨.rPop, by subst h4; decide⟩
  by_cases h5 : name = b! "llen"
  · exact ⟨.lLen, by subst h5; decide⟩
  by_cases h6 : name = b! "lrange"
  · exact ⟨.lRange, by subst h6; decide⟩
  by_cases h7 : name = b! "lrem"
  · exact ⟨.lRem, by subst h7; decide⟩
  by_cases h8 : name = b! "lset"
  · exact ⟨.lSet, by subst h8; decide⟩
  by_cases h9 : name = b! "linsert"
  · exact ⟨.lInsert, by subst h9; decide⟩
  exfalso
  unfold reply at h
  split at h
  · cases h
  · rw [if_neg (by simp [h1, h2])] at h
    cases h

theorem list_does {name : Bytes} (hv : LMatch s k v) (hr : reply v name args = some m)
    (hw : name = b! "linsert" → ∀ w ∈ args.head?, Ascii w) :
    ∃ c, (name, c) ∈ listCmds ∧ Does c.fn ext it s k args m (lnext v name args m) := by
  obtain ⟨c, hc⟩ := reply_cmd hr
  refine ⟨c, hc, ?_⟩
  simp only [listCmds, List.mem_cons, List.not_mem_nil, or_false, Prod.mk.injEq] at hc
  rcases hc with ⟨rfl, rfl⟩ | ⟨rfl, rfl⟩ | ⟨rfl, rfl⟩ | ⟨rfl, rfl⟩ | ⟨rfl, rfl⟩ | ⟨rfl, rfl⟩ | ⟨rfl, rfl⟩ | ⟨rfl, rfl⟩ | ⟨rfl, rfl⟩
  · exact does_lpush hv hr
  · exact does_rpush hv hr
  · exact does_lpop hv hr
  · exact does_rpop hv hr
  · exact does_llen hv hr
  · exact does_lrange hv hr
  · exact does_lrem hv hr
  · exact does_lset hv hr
  · exact does_linsert hv (hw rfl) hr

theorem listCmds_lookup {name : Bytes} (h : (name, c) ∈ listCmds) : lookupCmd name = some c := by
  simp only [listCmds, List.mem_cons, List.not_mem_nil, or_false, Prod.mk.injEq] at h
  rcases h with ⟨rfl, rfl⟩ | ⟨rfl, rfl⟩ | ⟨rfl, rfl⟩ | ⟨rfl, rfl⟩ | ⟨rfl, rfl⟩ | ⟨rfl, rfl⟩ | ⟨rfl, rfl⟩ | ⟨rfl, rfl⟩ | ⟨rfl, rfl⟩ <;> rfl

/-- a list request is answered as specified -/
theorem list_answers {name : Bytes} (hv : LMatch s k v) (hp : Plain (name :: k :: args))
    (hr : reply v (lower name) args = some m) : ∃ s', Answers ext it s (name :: k :: args) m s' := by
  obtain ⟨c, hc, s', o, h1, h2, _⟩ := list_does (ext := ext) (it := it) hv hr (fun hn w hw => hp.2 hn w (by cases args <;> simp_all))
  refine ⟨s', (answers_iff ?_).mpr ⟨o, h1, h2⟩⟩
  rw [lower_eq (hp.1 name rfl)]
  exact listCmds_lookup hc

/-- the reply to a list request is the specified one -/
theorem list_reply {name : Bytes} (hv : LMatch s k v) (hp : Plain (name :: k :: args))
    (hr : reply v (lower name) args = some m) {m' s'} (ha : Answers ext it s (name :: k :: args) m' s') : m' = m := by
  obtain ⟨s'', h⟩ := list_answers (ext := ext) (it := it) hv hp hr
  exact (h.unique ha).1

/-- LRANGE and LLEN change nothing -/
theorem list_reads {name : Bytes} (hn : lower name = b! "lrange" ∨ lower name = b! "llen") (hv : LMatch s k v) (hp : Plain (name :: k :: args))
    (hr : reply v (lower name) args = some m) : Reads ext s (name :: k :: args) m := by
  intro it
  obtain ⟨s', h⟩ := list_answers (ext := ext) (it := it) hv hp hr
  obtain ⟨name', args', he, ⟨_, rfl, _⟩ | ⟨c, o, hl, hf, _⟩⟩ := h.cases
  · exact h
  · cases he
    rw [lower_eq (hp.1 name rfl)] at hl
    have : s' = s := by
      rcases hn with hn | hn
      · rw [hn] at hl
        obtain rfl : c = .lRange := by
          have : lookupCmd (b! "lrange") = some .lRange := rfl
          rw [this] at hl; exact (Option.some.inj hl).symm
        exact read_same _ (by decide) hf
      · rw [hn] at hl
        obtain rfl : c = .lLen := by
          have : lookupCmd (b! "llen") = some .lLen := rfl
          rw [this] at hl; exact (Option.some.inj hl).symm
        exact read_same _ (by decide) hf
    exact this ▸ h

/-- requests that do not name the key do not change its view -/
theorem msetKeys_evens : ∀ (l : List Bytes), k ∈ msetKeys l → k ∈ KeySpec.evens l
  | [], h => by simp [msetKeys] at h
  | [_], h => by simp [msetKeys] at h
  | a :: b :: rest, h => by
    simp only [msetKeys, List.mem_cons] at h
    simp only [KeySpec.evens, List.mem_cons]
    exact h.imp id (msetKeys_evens rest)

theorem step_unnamed {name : Bytes} (h : k ∉ keyArgs name args) : step k v name args m = v := by
  unfold step
  split
  · rfl
  · split
    · next hn => subst hn; rw [if_neg (fun h' => h (msetKeys_evens _ h'))]
    · split
      · next hn =>
        subst hn
        rw [if_neg]
        intro h'
        apply h
        show k ∈ args.take 2
        rcases args with _ | ⟨a, _ | ⟨b, r⟩⟩ <;> simp_all
      · next h1 h2 =>
        split
        · rfl
        · next hh =>
          simp only [ne_eq, not_not] at hh
          have hk : name ∈ KeySpec.noKeys := by
            by_contra hno
            apply h
            unfold keyArgs
            rw [if_neg hno]
            have h1' : ¬ name = s!! "mset" := h1
            have h2' : ¬ name = s!! "smove" := h2
            rw [if_neg h1', if_neg h2']
            cases args with
            | nil => simp at hh
            | cons a r => simp at hh; subst hh; split <;> simp
          simp only [KeySpec.noKeys, List.mem_cons, List.not_mem_nil, or_false] at hk
          rcases hk with rfl | rfl | rfl <;> rfl

theorem step_readOnly {name : Bytes} (h : name ∈ readOnly) : step k v name args m = v := by
  apply step_same
  revert h
  intro h h'
  have : ∀ n ∈ readOnly, n ∉ [b! "mset", b! "smove", b! "del"] ++ stringWriters ++ otherCreators ++ setStores ++ listWriters := by
    decide
  exact this name h h'

end Godis
