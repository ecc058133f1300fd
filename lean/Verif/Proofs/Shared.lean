import Verif.Proofs.Sets2
import Verif.Spec.Shared
/-! The set commands do what `SharedSpec` says, in every store. -/
namespace Godis
open Resp (Reply bulks)
open SetSpec (SView SVal mems size add remove leave combine opOf trouble commands Op)
open SharedSpec (World)
open ListSpec (items errType errArgs errNil)
open StrSpec (int64 lower isError Ascii setStores)
open KeySpec (KView foreign keyArgs)

variable {s s' : Store} {k : Bytes} {ext : Ext} {it : Iter} {c : Cmd} {args N : List Bytes} {m : Reply} {W : World}

/-- what the store has at a key, and what the key names -/
inductive Entry (heap : List Obj) (sets : Nat → SVal) : Option KeyInfo → KView Nat → Prop
  | absent : Entry heap sets none .absent
  | other {info} : info.type ≠ .set → Entry heap sets (some info) .other
  | here {r i o} : heap[r]? = some (.set o) → o.Is (sets i).1 (sets i).2 → Entry heap sets (some ⟨.set, .ref r⟩) (.here i)

/-- the store holds what the world says, and two keys refer to the same object iff they name the same set -/
structure Linked (s : Store) (W : World) : Prop where
  typed : Typed s
  entry : ∀ k, Entry s.heap W.sets (s.keys.get k) (W.names k)
  link : ∀ k1 k2 r1 r2, s.keys.get k1 = some ⟨.set, .ref r1⟩ → s.keys.get k2 = some ⟨.set, .ref r2⟩ →
    (r1 = r2 ↔ W.names k1 = W.names k2)
  fresh : ∀ k i, W.names k = .here i → i < W.next

theorem view_absent (h : W.names k = .absent) : W.view k = .absent := by simp [World.view, h]
theorem view_other (h : W.names k = .other) : W.view k = .other := by simp [World.view, h]
theorem view_here {i} (h : W.names k = .here i) : W.view k = .here (W.sets i) := by simp [World.view, h]

theorem names_absent (h : W.view k = .absent) : W.names k = .absent := by
  unfold World.view at h; split at h <;> first | assumption | cases h
theorem names_other (h : W.view k = .other) : W.names k = .other := by
  unfold World.view at h; split at h <;> first | assumption | cases h
theorem names_here {x} (h : W.view k = .here x) : ∃ i, W.names k = .here i ∧ W.sets i = x := by
  unfold World.view at h
  split at h
  · cases h
  · cases h
  · next i hi => cases h; exact ⟨i, hi, rfl⟩

theorem Entry.srel {info : Option KeyInfo} {v : KView Nat} (hg : s.keys.get k = info) (ht : Typed s)
    (h : Entry s.heap W.sets info v) (hv : W.names k = v) : SRel (kview .set s k) (W.view k) := by
  cases h with
  | absent => rw [kview_absent hg, view_absent hv]; trivial
  | @other info hi =>
    rw [view_other hv]
    rcases ht.kind _ _ hg with ⟨v, rfl⟩ | ⟨r, o, rfl, ho, _⟩
    · rw [kview_str hg]; trivial
    · rw [kview_ref hg ho, if_neg hi]; trivial
  | @here r i o ho hi =>
    rw [view_here hv, kview_ref hg ho, if_pos (show (Obj.set o).kind = .set from rfl)]
    exact hi

theorem Linked.all (h : Linked s W) : SAll s W.view := fun k => (h.entry k).srel rfl h.typed rfl

theorem Linked.named (h : Linked s W) {r} (hg : s.keys.get k = some ⟨.set, .ref r⟩) : ∃ i, W.names k = .here i := by
  have he := h.entry k
  rw [hg] at he
  generalize hn : W.names k = v at he
  cases he with
  | other h => exact absurd rfl h
  | here => exact ⟨_, rfl⟩

theorem Linked.ref (h : Linked s W) {i} (hn : W.names k = .here i) : ∃ r, s.keys.get k = some ⟨.set, .ref r⟩ := by
  have he := h.entry k
  rw [hn] at he
  generalize hg : s.keys.get k = v at he
  cases he with
  | here => exact ⟨_, rfl⟩

theorem Linked.write (h : Linked s W) {r o' X g} (hg : s.keys.get k = some ⟨.set, .ref r⟩)
    (hi : o'.Is X g) (ht : Typed (s.write r (.set o'))) :
    Linked (s.write r (.set o')) (W.change k (.here (X, g))) := by
  obtain ⟨i, hn⟩ := h.named hg
  have hW : W.change k (.here (X, g)) = { W with sets := fun j => if j = i then (X, g) else W.sets j } := by
    simp [World.change, hn]
  have hr : r < s.heap.length := h.typed.ref_lt hg
  rw [hW]
  refine ⟨ht, fun k' => ?_, h.link, h.fresh⟩
  have he := h.entry k'
  show Entry (s.heap.set r _) _ (s.keys.get k') (W.names k')
  generalize hg' : s.keys.get k' = info at he
  generalize hn' : W.names k' = v at he
  cases he with
  | absent => exact .absent
  | other h => exact .other h
  | @here r1 i1 o1 ho1 hi1 =>
    have hl := h.link _ _ _ _ hg' hg
    rw [hn', hn, KView.here.injEq] at hl
    by_cases e : r1 = r
    · have e' := hl.mp e
      subst e e'
      exact .here (o := o') (by simp [hr]) (by simpa using hi)
    · have e' : i1 ≠ i := fun h => e (hl.mpr h)
      exact .here (o := o1) (by rw [List.getElem?_set_ne (Ne.symm e)]; exact ho1) (by simpa [e'] using hi1)

theorem Linked.create (h : Linked s W) {o X g} (hi : o.Is X g) (ht : Typed (s.putNew k .set (.set o))) :
    Linked (s.putNew k .set (.set o)) (W.create k (X, g)) := by
  have hget : ∀ k', (s.putNew k .set (.set o)).keys.get k' = if k' = k then some ⟨.set, .ref s.heap.length⟩ else s.keys.get k' := by
    intro k'; simp [Store.putNew, SMap.get_set]
  have hnext : ∀ k', W.names k' ≠ .here W.next := fun k' h' => absurd (h.fresh _ _ h') (by simp)
  refine ⟨ht, fun k' => ?_, ?_, ?_⟩
  · rw [hget]
    show Entry (s.heap ++ [Obj.set o]) _ _ (if k' = k then .here W.next else W.names k')
    by_cases e : k' = k
    · rw [if_pos e, if_pos e]
      exact .here (o := o) (by simp) (by simpa [World.create] using hi)
    · rw [if_neg e, if_neg e]
      have he := h.entry k'
      generalize hg' : s.keys.get k' = info at he
      generalize hn' : W.names k' = v at he
      cases he with
      | absent => exact .absent
      | other h => exact .other h
      | @here r1 i1 o1 ho1 hi1 =>
        have : i1 ≠ W.next := by rintro rfl; exact hnext _ hn'
        exact .here (o := o1) (by rw [List.getElem?_append_left (h.typed.ref_lt hg')]; exact ho1)
          (by simpa [World.create, this] using hi1)
  · intro k1 k2 r1 r2 h1 h2
    rw [hget] at h1 h2
    show r1 = r2 ↔ (if k1 = k then KView.here W.next else W.names k1) = (if k2 = k then KView.here W.next else W.names k2)
    split at h1 <;> split at h2
    · next e1 e2 => cases h1; cases h2; simp [e1, e2]
    · next e1 e2 =>
      cases h1
      have := h.typed.ref_lt h2
      rw [if_pos e1, if_neg e2]
      exact ⟨fun e => absurd e (by omega), fun e => absurd e.symm (hnext _)⟩
    · next e1 e2 =>
      cases h2
      have := h.typed.ref_lt h1
      rw [if_neg e1, if_pos e2]
      exact ⟨fun e => absurd e (by omega), fun e => absurd e (hnext _)⟩
    · next e1 e2 => rw [if_neg e1, if_neg e2]; exact h.link _ _ _ _ h1 h2
  · intro k' i hn
    change (if k' = k then KView.here W.next else W.names k') = .here i at hn
    show i < W.next + 1
    split at hn
    · cases hn; omega
    · have := h.fresh _ _ hn; omega

theorem Linked.alias (h : Linked s W) {src dst : Bytes} {r} (hg : s.keys.get src = some ⟨.set, .ref r⟩)
    (ht : Typed { s with keys := s.keys.set dst ⟨.set, .ref r⟩ }) :
    Linked { s with keys := s.keys.set dst ⟨.set, .ref r⟩ } (W.name dst (W.names src)) := by
  have hget : ∀ k', (s.keys.set dst ⟨.set, .ref r⟩).get k' = s.keys.get (if k' = dst then src else k') := by
    intro k'
    rw [SMap.get_set]
    split
    · exact hg.symm
    · rfl
  have hname : ∀ k', (W.name dst (W.names src)).names k' = W.names (if k' = dst then src else k') := by
    intro k'
    show (if k' = dst then W.names src else W.names k') = _
    split <;> rfl
  refine ⟨ht, fun k' => ?_, ?_, ?_⟩
  · show Entry s.heap W.sets ((s.keys.set dst ⟨.set, .ref r⟩).get k') _
    rw [hget, hname]; exact h.entry _
  · intro k1 k2 r1 r2 h1 h2
    change (s.keys.set dst ⟨.set, .ref r⟩).get k1 = _ at h1
    change (s.keys.set dst ⟨.set, .ref r⟩).get k2 = _ at h2
    rw [hget] at h1 h2
    rw [hname, hname]
    exact h.link _ _ _ _ h1 h2
  · intro k' i hn
    rw [hname] at hn
    exact h.fresh _ _ hn

/-- the runs of a set command in a linked store -/
def RunsL (c : Cmd) (ext : Ext) (it : Iter) (s : Store) (args : List Bytes) (W : World) : Prop :=
  ∃ s' o m, c.fn ext it s args = .ok (s', o) ∧ (setRsp o).reply = some m ∧ SharedSpec.Fits W c.name args m ∧
    (Typed s' → Linked s' (SharedSpec.step W c.name args m))

/-- commands whose replies do not depend on sharing, and whose change is to the first key -/
theorem RunsL.mk {r : Response} (h : c.fn ext it s args = .ok (s', .ok r)) (hr : r.reply = some m)
    (hf : SharedSpec.Fits W c.name args m) (hs : Typed s' → Linked s' (SharedSpec.step W c.name args m)) : RunsL c ext it s args W :=
  ⟨s', _, m, h, by simpa using hr, hf, hs⟩

theorem RunsL.err {e : Err} (h : c.fn ext it s args = .ok (s', .error e)) (hf : SharedSpec.Fits W c.name args (.error e.msg))
    (hs : Typed s' → Linked s' (SharedSpec.step W c.name args (.error e.msg))) : RunsL c ext it s args W :=
  ⟨s', _, _, h, by simp, hf, hs⟩

theorem change_self {v : SView} (hv : v = W.view k) : W.change k v = W := by
  subst hv
  unfold World.change World.view
  cases hn : W.names k with
  | absent => rfl
  | other => rfl
  | here i =>
    simp only
    have : (fun j => if j = i then W.sets i else W.sets j) = W.sets := by
      funext j; split
      · next e => rw [e]
      · rfl
    rw [this]

theorem change_absent {x : SVal} (h : W.view k = .absent) : W.change k (.here x) = W.create k x := by
  simp [World.change, names_absent h]

theorem lruns_sadd (h : Linked s W) : RunsL .sAdd ext it s args W := by
  rcases args with _ | ⟨k, _ | ⟨x, xs⟩⟩
  · exact .err (e := .commandArgsNotEnough) rfl rfl (fun _ => h)
  · exact .err (e := .commandArgsNotEnough) rfl rfl (fun _ => h)
  · have hl := sload h.typed (h.all k)
    generalize hv : W.view k = v at hl
    cases hl with
    | absent hg h' =>
      obtain ⟨h1, h2⟩ := SObj.Is.empty.sAddAll (x :: xs)
      refine .mk (s' := s.putNew k .set (.set (SObj.empty.sAddAll (x :: xs)).1)) (r := newResponseWithInteger (SObj.empty.sAddAll (x :: xs)).2)
        (m := .int (SObj.empty.sAddAll (x :: xs)).2)
        (by simp [Cmd.fn, cmdSAdd, Store.sAdd, h', bind, Except.bind, intReply, retOk]) (reply_int _) ?_ ?_
      · show _ = _
        rw [hv, h2, if_neg (by simp)]; rfl
      · intro ht
        show Linked _ (W.change k (add (x :: xs) (W.view k)))
        rw [hv, show add (x :: xs) .absent = .here ((x :: xs).toFinset, 0) from rfl, change_absent hv]
        rw [Finset.empty_union] at h1
        exact h.create h1 ht
    | other h' =>
      exact .err (s' := s) (e := .keyAndCommandNotMatch) (by simp [Cmd.fn, cmdSAdd, Store.sAdd, h', bind, Except.bind, intReply, retErr])
        (by show _ = _; rw [hv]; rfl) (fun _ => h)
    | @here r o X g hg ho hi h0 h1 =>
      obtain ⟨h2, h3⟩ := hi.sAddAll (x :: xs)
      refine .mk (s' := s.write r (.set (o.sAddAll (x :: xs)).1)) (r := newResponseWithInteger (o.sAddAll (x :: xs)).2)
        (m := .int (o.sAddAll (x :: xs)).2)
        (by simp [Cmd.fn, cmdSAdd, Store.sAdd, h0, bind, Except.bind, intReply, retOk]) (reply_int _) ?_ ?_
      · show _ = _
        rw [hv, h3, if_neg (by simp)]; rfl
      · intro ht
        show Linked _ (W.change k (add (x :: xs) (W.view k)))
        rw [hv]
        exact h.write hg h2 ht

theorem lruns_srem (h : Linked s W) : RunsL .sRem ext it s args W := by
  rcases args with _ | ⟨k, _ | ⟨x, xs⟩⟩
  · exact .err (e := .commandArgsNotEnough) rfl rfl (fun _ => h)
  · exact .err (e := .commandArgsNotEnough) rfl rfl (fun _ => h)
  · have hl := sload h.typed (h.all k)
    generalize hv : W.view k = v at hl
    cases hl with
    | absent hg h' =>
      refine .mk (s' := s) (r := newResponseWithInteger 0) (m := .int 0)
        (by simp [Cmd.fn, cmdSRem, Store.sRem, h', bind, Except.bind, intReplyNilOk, retOk]) (reply_int _)
        (by show _ = _; rw [hv, if_neg (by simp)]; simp [mems]) (fun _ => ?_)
      show Linked _ (W.change k (remove (x :: xs) (W.view k)))
      rw [change_self (by rw [hv]; rfl)]; exact h
    | other h' =>
      exact .err (s' := s) (e := .keyAndCommandNotMatch) (by simp [Cmd.fn, cmdSRem, Store.sRem, h', bind, Except.bind, intReplyNilOk, retErr])
        (by show _ = _; rw [hv]; rfl) (fun _ => h)
    | @here r o X g hg ho hi h0 h1 =>
      by_cases he : X.card + g = 0
      · rw [if_pos he] at h1
        have hX : X = ∅ := Finset.card_eq_zero.mp (by omega)
        refine .mk (s' := s) (r := newResponseWithInteger 0) (m := .int 0)
          (by simp [Cmd.fn, cmdSRem, Store.sRem, h1, bind, Except.bind, intReplyNilOk, retOk]) (reply_int _)
          (by show _ = _; rw [hv, if_neg (by simp)]; simp [mems, hX]) (fun _ => ?_)
        show Linked _ (W.change k (remove (x :: xs) (W.view k)))
        rw [change_self (by rw [hv]; simp [remove, hX])]; exact h
      · rw [if_neg he] at h1
        obtain ⟨h2, h3⟩ := hi.sRemAll (x :: xs)
        refine .mk (s' := s.write r (.set (o.sRemAll (x :: xs)).1)) (r := newResponseWithInteger (o.sRemAll (x :: xs)).2)
          (m := .int (o.sRemAll (x :: xs)).2)
          (by simp [Cmd.fn, cmdSRem, Store.sRem, h1, bind, Except.bind, intReplyNilOk, retOk]) (reply_int _) ?_ ?_
        · show _ = _
          rw [hv, h3, if_neg (by simp)]; rfl
        · intro ht
          show Linked _ (W.change k (remove (x :: xs) (W.view k)))
          rw [hv]
          exact h.write hg h2 ht

/-- SPOP with its count argument parsed -/
theorem lspop_run (h : Linked s W) (k : Bytes) (n : Int) :
    ∃ s' o m, (do let (s, r) ← Store.sPop it s k n; arrReply s newResponseWithEmptyArray r : CmdRes) = .ok (s', o) ∧
      (setRsp o).reply = some m ∧
      (if W.view k = .other then m = errType
        else ∃ X : Finset Bytes, X ⊆ mems (W.view k) ∧ X.card = min n.toNat (mems (W.view k)).card ∧ SetSpec.Lists X m) ∧
      (Typed s' → Linked s' (W.change k (leave (items m) (W.view k)))) := by
  have hl := sload h.typed (h.all k)
  have h00 : Linked s (W.change k (leave (items (bulks [])) (W.view k))) := by
    have : items (bulks []) = [] := rfl
    rw [this, change_self (leave_empty _)]; exact h
  generalize hv : W.view k = v at hl h00 ⊢
  cases hl with
  | absent hg h' =>
    exact ⟨s, .ok newResponseWithEmptyArray, bulks [], by simp [Store.sPop, h', bind, Except.bind, arrReply, retOk], by simp [bulks],
      by rw [if_neg (by simp)]; exact ⟨∅, by simp, by simp [mems], [], rfl, by simp, by simp⟩, fun _ => h00⟩
  | other h' =>
    exact ⟨s, .error .keyAndCommandNotMatch, errType, by simp [Store.sPop, h', bind, Except.bind, arrReply, retErr], by simp; rfl,
      by rfl, fun _ => by rw [change_self (by rw [hv]; rfl)]; exact h⟩
  | @here r o X g hg ho hi h0 h1 =>
    by_cases he : X.card + g = 0
    · rw [if_pos he] at h1
      have hX : X = ∅ := Finset.card_eq_zero.mp (by omega)
      exact ⟨s, .ok newResponseWithEmptyArray, bulks [], by simp [Store.sPop, h1, bind, Except.bind, arrReply, retOk], by simp [bulks],
        by rw [if_neg (by simp)]; exact ⟨∅, by simp, by simp [mems, hX], [], rfl, by simp, by simp⟩, fun _ => h00⟩
    · rw [if_neg he] at h1
      obtain ⟨o', l, h2, h3, h4, h5, h6⟩ := hi.sPop (it := it) n
      refine ⟨s.write r (.set o'), .ok (bulkStrings true l), bulks l, by simp [Store.sPop, h1, h2, bind, Except.bind, arrReply, retOk], by simp,
        ?_, fun ht => ?_⟩
      · rw [if_neg (by simp)]
        exact ⟨l.toFinset, h4, by rw [List.toFinset_card_of_nodup h3, h5]; rfl, l, rfl, h3, rfl⟩
      · rw [items_bulks]
        exact h.write hg h6 ht

theorem lruns_spop (h : Linked s W) : RunsL .sPop ext it s args W := by
  rcases args with _ | ⟨k, rest⟩
  · exact .err (e := .commandArgsNotEnough) rfl rfl (fun _ => h)
  · have hfit : ∀ m, SharedSpec.Fits W (Cmd.sPop.name) (k :: rest) m ↔
        (match (match rest with | [] => some 0 | c :: _ => int64 c) with
          | none => m = .error (b! "value is not an integer or out of range")
          | some n =>
            if W.view k = .other then m = errType
            else ∃ X : Finset Bytes, X ⊆ mems (W.view k) ∧ X.card = min n.toNat (mems (W.view k)).card ∧ SetSpec.Lists X m) := by
      intro m; exact Iff.rfl
    rcases rest with _ | ⟨n, rest⟩
    · obtain ⟨s', o, m, h1, h2, h3, h4⟩ := lspop_run (it := it) h k 0
      exact ⟨s', o, m, h1, h2, h3, h4⟩
    · cases hp : int64 n with
      | none =>
        have hp' : atoi n = none := (int64_eq n).symm.trans hp
        refine .err (s' := s) (e := .notInteger) ?_ ?_ ?_
        · simp [Cmd.fn, cmdSPop, hp', retErr]
        · rw [hfit]; simp only [hp]; rfl
        · intro _
          show Linked s (W.change k (leave [] (W.view k)))
          rw [change_self (leave_empty _)]; exact h
      | some i =>
        have hp' : atoi n = some i := (int64_eq n).symm.trans hp
        obtain ⟨s', o, m, h1, h2, h3, h4⟩ := lspop_run (it := it) h k i
        refine ⟨s', o, m, ?_, h2, ?_, h4⟩
        · simp only [Cmd.fn, cmdSPop, hp']; exact h1
        · rw [hfit]; simp only [hp]; exact h3

theorem change_names {src k' : Bytes} {i x} (hn : W.names src = .here i) : (W.change src (.here x)).names k' = W.names k' := by
  simp [World.change, hn]

theorem change_view {src k' : Bytes} {i x} (hn : W.names src = .here i) :
    (W.change src (.here x)).view k' = if W.names k' = .here i then .here x else W.view k' := by
  have : W.change src (.here x) = { W with sets := fun j => if j = i then x else W.sets j } := by simp [World.change, hn]
  rw [this]
  unfold World.view
  simp only
  cases W.names k' with
  | absent => simp
  | other => simp
  | here j =>
    simp only [KView.here.injEq]
    split <;> rfl

theorem same_iff {src k' : Bytes} {i} (hn : W.names src = .here i) : W.Same src k' ↔ W.names k' = .here i := by
  constructor
  · rintro ⟨j, h1, h2⟩; rw [hn] at h1; cases h1; exact h2
  · intro h; exact ⟨i, hn, h⟩

theorem lruns_smove (h : Linked s W) : RunsL .sMove ext it s args W := by
  rcases args with _ | ⟨src, _ | ⟨dst, _ | ⟨x, rest⟩⟩⟩
  · exact .err (e := .commandArgsNotEnough) rfl rfl (fun _ => h)
  · exact .err (e := .commandArgsNotEnough) rfl rfl (fun _ => h)
  · exact .err (e := .commandArgsNotEnough) rfl rfl (fun _ => h)
  · have hfit : ∀ m, SharedSpec.Fits W (Cmd.sMove.name) (src :: dst :: x :: rest) m ↔
        (W.view src = .other ∧ m = errType) ∨
        (W.view src ≠ .other ∧ x ∉ mems (W.view src) ∧ m = errNil) ∨
        (x ∈ mems (W.view src) ∧ W.view dst = .other ∧ m = errType) ∨
        (x ∈ mems (W.view src) ∧ W.view dst ≠ .other ∧ (W.Same src dst ∨ x ∉ mems (W.view dst)) ∧ m = .int 1) ∨
        (x ∈ mems (W.view src) ∧ x ∈ mems (W.view dst) ∧ ¬ W.Same src dst ∧ m = .int 0) := fun m => Iff.rfl
    have hstep : ∀ m, SharedSpec.step W (Cmd.sMove.name) (src :: dst :: x :: rest) m =
        if x ∈ mems (W.view src) then
          (W.change src (leave [x] (W.view src))).change dst (add [x] ((W.change src (leave [x] (W.view src))).view dst))
        else W := fun m => rfl
    have hl := sload h.typed (h.all src)
    have hmiss : x ∉ mems (W.view src) → ¬ W.view src = .other → (Cmd.sMove).fn ext it s (src :: dst :: x :: rest) = .ok (s, .error .nil) →
        RunsL .sMove ext it s (src :: dst :: x :: rest) W := fun h1 h2 h3 =>
      .err h3 (by rw [hfit]; exact .inr (.inl ⟨h2, h1, rfl⟩)) (fun _ => by rw [hstep, if_neg h1]; exact h)
    generalize hv : W.view src = v at hl hfit hstep hmiss
    cases hl with
    | absent hg h' =>
      exact hmiss (by simp [mems]) (by simp) (by simp [Cmd.fn, cmdSMove, Store.sMove, h', bind, Except.bind, intReply, retErr])
    | other h' =>
      exact .err (s' := s) (e := .keyAndCommandNotMatch) (by simp [Cmd.fn, cmdSMove, Store.sMove, h', bind, Except.bind, intReply, retErr])
        (by rw [hfit]; exact .inl ⟨rfl, rfl⟩) (fun _ => by rw [hstep, if_neg (by simp [mems])]; exact h)
    | @here r o X g hg ho hi h0 h1 =>
      by_cases he : X.card + g = 0
      · rw [if_pos he] at h1
        have hX : X = ∅ := Finset.card_eq_zero.mp (by omega)
        exact hmiss (by simp [mems, hX]) (by simp) (by simp [Cmd.fn, cmdSMove, Store.sMove, h1, bind, Except.bind, intReply, retErr])
      · rw [if_neg he] at h1
        have hsnd := SMap.deleteIfExists_snd o.m x
        rw [hi.has] at hsnd
        obtain ⟨i, hni⟩ := h.named hg
        have ht1 : Typed (s.write r (.set ⟨(o.m.deleteIfExists x).1, o.length⟩)) := by
          refine (Change.write (ext := ext) (c := .sMove) (args := src :: dst :: x :: rest) (N := [src, dst]) (rng := s.rng) (k := src) (by simp) hg ho
            ?_ ?_).typed h.typed
          · exact .smove rfl
          · exact .refl _
        have hw1 := h.write hg (hi.smove x) ht1
        by_cases hx : x ∈ X
        · have hd : (o.m.deleteIfExists x).2 = true := by simp [hsnd, hx]
          have hrun : ∀ s2 q, Store.sAdd (s.write r (.set ⟨(o.m.deleteIfExists x).1, o.length⟩)) dst [x] = .ok (s2, q) →
              (Cmd.sMove).fn ext it s (src :: dst :: x :: rest) = intReply s2 q := by
            intro s2 q hq
            simp [Cmd.fn, cmdSMove, Store.sMove, h1, hd, hq, bind, Except.bind]
          generalize s.write r (.set ⟨(o.m.deleteIfExists x).1, o.length⟩) = s1 at hw1 hrun ht1
          have hxm : x ∈ mems (KView.here (X, g)) := hx
          have hlv : leave [x] (KView.here (X, g)) = .here (X \ [x].toFinset, g + (X ∩ [x].toFinset).card) := rfl
          rw [hlv] at hstep
          have hcv := fun k' => change_view (k' := k') (x := (X \ [x].toFinset, g + (X ∩ [x].toFinset).card)) hni
          generalize hW1 : W.change src (.here (X \ [x].toFinset, g + (X ∩ [x].toFinset).card)) = W1 at hw1 hstep hcv
          have hsame := same_iff (k' := dst) hni
          have hl2 := sload hw1.typed (hw1.all dst)
          have hd2 := hcv dst
          generalize hu : W1.view dst = u at hl2 hstep hd2
          cases hl2 with
          | absent hg2 h2 =>
            obtain ⟨h3, h4⟩ := SObj.Is.empty.sAddAll [x]
            have hna : ¬ W.names dst = .here i := by intro e; rw [if_pos e] at hd2; cases hd2
            rw [if_neg hna] at hd2
            refine .mk (s' := s1.putNew dst .set (.set (SObj.empty.sAddAll [x]).1)) (m := .int 1) (r := newResponseWithInteger (SObj.empty.sAddAll [x]).2)
              (hrun _ ((SObj.empty.sAddAll [x]).2, none)
              (by simp [Store.sAdd, h2, bind, Except.bind])) (by simp only [h4, reply_int]; simp) ?_ (fun ht => ?_)
            · rw [hfit, ← hd2]
              exact .inr (.inr (.inr (.inl ⟨hxm, by simp, .inr (by simp [mems]), rfl⟩)))
            · rw [hstep, if_pos hxm]
              rw [Finset.empty_union] at h3
              rw [show add [x] (KView.absent : SView) = .here ([x].toFinset, 0) from rfl, change_absent hu]
              exact hw1.create h3 ht
          | other h2 =>
            have hna : ¬ W.names dst = .here i := by intro e; rw [if_pos e] at hd2; cases hd2
            rw [if_neg hna] at hd2
            refine .err (s' := s1) (e := .keyAndCommandNotMatch)
              (by rw [hrun s1 (0, some .keyAndCommandNotMatch) (by simp [Store.sAdd, h2, bind, Except.bind])]; rfl) ?_ (fun _ => ?_)
            · rw [hfit, ← hd2]
              exact .inr (.inr (.inl ⟨hxm, rfl, rfl⟩))
            · rw [hstep, if_pos hxm, change_self (by rw [hu]; rfl)]; exact hw1
          | @here r2 o2 X2 g2 hg2 ho2 hi2 h20 h21 =>
            obtain ⟨h3, h4⟩ := hi2.sAddAll [x]
            refine .mk (s' := s1.write r2 (.set (o2.sAddAll [x]).1)) (m := .int (if x ∈ X2 then 0 else 1))
              (r := newResponseWithInteger (o2.sAddAll [x]).2) (hrun _ ((o2.sAddAll [x]).2, none)
              (by simp [Store.sAdd, h20, bind, Except.bind]))
              (by rw [h4, card_one, reply_int]) ?_ (fun ht => ?_)
            · rw [hfit, hsame]
              by_cases e : W.names dst = .here i
              · rw [if_pos e] at hd2
                simp only [KView.here.injEq, Prod.mk.injEq] at hd2
                have hx2 : x ∉ X2 := by rw [hd2.1]; simp
                rw [if_neg hx2]
                exact .inr (.inr (.inr (.inl ⟨hxm, by rw [view_here e]; nofun, .inl e, rfl⟩)))
              · rw [if_neg e] at hd2
                rw [← hd2]
                by_cases hx2 : x ∈ X2
                · rw [if_pos hx2]
                  exact .inr (.inr (.inr (.inr ⟨hxm, hx2, e, rfl⟩)))
                · rw [if_neg hx2]
                  exact .inr (.inr (.inr (.inl ⟨hxm, nofun, .inr hx2, rfl⟩)))
            · rw [hstep, if_pos hxm]
              exact hw1.write hg2 h3 ht
        · have hd : (o.m.deleteIfExists x).2 = false := by simp [hsnd, hx]
          have hxm : x ∉ mems (KView.here (X, g)) := hx
          refine .err (s' := s.write r (.set ⟨(o.m.deleteIfExists x).1, o.length⟩)) (e := .nil)
            (by simp [Cmd.fn, cmdSMove, Store.sMove, h1, hd, bind, Except.bind, intReply, retErr])
            (by rw [hfit]; exact .inr (.inl ⟨nofun, hxm, rfl⟩)) (fun _ => ?_)
          rw [hstep, if_neg hxm]
          have e1 : X \ [x].toFinset = X := by ext y; simp; rintro h1 rfl; exact hx h1
          have e2 : (X ∩ [x].toFinset).card = 0 := by simp [hx]
          rw [e1, e2, change_self (by rw [hv]; rfl)] at hw1
          exact hw1

/-- commands that only read -/
theorem RunsL.read (h : Linked s W) (hr : Runs c ext it s args W.view) (hf : ∀ m, SetSpec.Fits W.view c.name args m → SharedSpec.Fits W c.name args m)
    (hc : ∀ s' o, c.fn ext it s args = .ok (s', o) → s' = s)
    (hn : c.name ∉ [b! "sadd", b! "srem", b! "spop", b! "smove", b! "mset", b! "del"] ++ ListSpec.stringWriters ++
      KeySpec.collCreators ++ setStores) : RunsL c ext it s args W := by
  obtain ⟨s', o, m, h1, h2, h3, _⟩ := hr
  obtain rfl := hc _ _ h1
  refine ⟨_, o, m, h1, h2, hf m h3, fun _ => ?_⟩
  simp only [List.mem_append, List.mem_cons, List.not_mem_nil, or_false, not_or] at hn
  obtain ⟨⟨⟨⟨n1, n2, n3, n4, n5, n6⟩, n7⟩, n8⟩, n9⟩ := hn
  have : SharedSpec.step W c.name args m = W := by
    unfold SharedSpec.step
    rw [if_neg n1, if_neg n2, if_neg n3, if_neg n4, if_neg n9]
    have : (fun k => foreign k (W.names k) c.name args m) = W.names := by
      funext k
      exact foreign_same (by simp only [List.mem_append, List.mem_cons, List.not_mem_nil, or_false, not_or]; exact ⟨⟨⟨⟨n5, n4, n6⟩, n7⟩, n8⟩, n9⟩)
    rw [this]
  rw [this]; exact h

theorem lruns_sopstore {op : Op} (h : Linked s W) (hc : c.fn = cmdSOpStore (opFor op)) (ho : opOf c.name = op)
    (hname : c.name = b! "sdiffstore" ∨ c.name = b! "sinterstore" ∨ c.name = b! "sunionstore") :
    RunsL c ext it s args W := by
  have hst : c.name ∈ setStores := by rcases hname with h | h | h <;> rw [h] <;> decide
  have hsm : ¬ c.name = b! "smove" := by rcases hname with h | h | h <;> rw [h] <;> decide
  have hfit : ∀ m, SharedSpec.Fits W c.name args m ↔ (match (generalizing := false) args with
      | [_, k] =>
        match trouble W.view [k] with
        | some .other => m = errType
        | some _ => m = errNil
        | none => m = .int (size (W.view k))
      | _ :: k :: ks =>
        match trouble W.view (k :: ks) with
        | some .other => m = errType
        | some _ => m = errNil
        | none => m = .int (combine op ((k :: ks).map (fun k => mems (W.view k)))).card
      | _ => m = errArgs) := by
    intro m
    rw [← ho]
    unfold SharedSpec.Fits
    rw [if_neg hsm, if_pos hst]
    rcases args with _ | ⟨d, _ | ⟨k, _ | ⟨k1, ks⟩⟩⟩
    · rcases hname with h | h | h <;> rw [h] <;> exact Iff.rfl
    · rcases hname with h | h | h <;> rw [h] <;> exact Iff.rfl
    · exact Iff.rfl
    · rcases hname with h | h | h <;> rw [h] <;> exact Iff.rfl
  have hstep : ∀ m, SharedSpec.step W c.name args m = (match (generalizing := false) args with
      | [dst, src] => if isError m then W else W.name dst (W.names src)
      | dst :: ks => if isError m then W else W.create dst (combine op (ks.map (fun k => mems (W.view k))), 0)
      | _ => W) := by
    intro m
    rw [← ho]
    rcases hname with h | h | h <;> rw [h] <;> rfl
  have hse : ∀ e, SharedSpec.step W c.name args (.error e) = W := by
    intro e; rw [hstep]; rcases args with _ | ⟨d, _ | ⟨k, _ | ⟨k1, ks⟩⟩⟩ <;> rfl
  rcases args with _ | ⟨d, _ | ⟨k, _ | ⟨k1, ks⟩⟩⟩
  · exact .err (e := .commandArgsNotEnough) (s' := s) (by rw [hc]; rfl) ((hfit _).mpr rfl) (fun _ => by rw [hse]; exact h)
  · exact .err (e := .commandArgsNotEnough) (s' := s) (by rw [hc]; rfl) ((hfit _).mpr rfl) (fun _ => by rw [hse]; exact h)
  · have hrun : c.fn ext it s [d, k] = (do let (s, r) ← Store.sOpStore it (opFor op) s d [k]; intReply s r) := by
      rw [hc]; rfl
    have hl := sload h.typed (h.all k)
    have htr : trouble W.view [k] = if W.view k = .other then some .other else if size (W.view k) = 0 then some .absent else none := rfl
    generalize hv : W.view k = v at hl htr hfit
    cases hl with
    | absent hg h' =>
      refine .err (e := .nil) (s' := s) ?_ ?_ (fun _ => by rw [hse]; exact h)
      · rw [hrun]; simp [Store.sOpStore, Store.setOpLoop, h', bind, Except.bind, intReply, retErr]
      · rw [hfit]; simp only [htr, if_neg (show ¬ (KView.absent : SView) = .other by nofun), if_pos (show size (.absent : SView) = 0 from rfl)]; rfl
    | other h' =>
      refine .err (e := .keyAndCommandNotMatch) (s' := s) ?_ ?_ (fun _ => by rw [hse]; exact h)
      · rw [hrun]; simp [Store.sOpStore, Store.setOpLoop, h', bind, Except.bind, intReply, retErr]
      · rw [hfit]; simp only [htr, if_true]; rfl
    | @here r o X g hg ho hi h0 h1 =>
      by_cases he : X.card + g = 0
      · rw [if_pos he] at h1
        refine .err (e := .nil) (s' := s) ?_ ?_ (fun _ => by rw [hse]; exact h)
        · rw [hrun]; simp [Store.sOpStore, Store.setOpLoop, h1, bind, Except.bind, intReply, retErr]
        · rw [hfit]; simp only [htr, if_neg (show ¬ (KView.here (X, g) : SView) = .other by nofun), if_pos (show size (.here (X, g)) = 0 from he)]; rfl
      · rw [if_neg he] at h1
        refine .mk (s' := { s with keys := s.keys.set d ⟨.set, .ref r⟩ }) (r := newResponseWithInteger o.length) (m := .int o.length) ?_ (reply_int _) ?_
          (fun ht => ?_)
        · rw [hrun]; simp [Store.sOpStore, Store.setOpLoop, h1, bind, Except.bind, intReply, retOk]
        · rw [hfit]; simp only [htr, if_neg (show ¬ (KView.here (X, g) : SView) = .other by nofun), if_neg (show ¬ size (.here (X, g)) = 0 from he)]
          rw [hi.len, hv]; simp [size]
        · rw [hstep]
          exact h.alias hg ht
  · obtain ⟨h1, h2, h3⟩ := opLoop_all (it := it) (op := op) h.typed h.all k k1 ks
    have hrun : c.fn ext it s (d :: k :: k1 :: ks) = (do let (s, r) ← Store.sOpStore it (opFor op) s d (k :: k1 :: ks); intReply s r) := by
      rw [hc]; rfl
    rcases trouble_cases W.view (k :: k1 :: ks) with ht' | ht' | ht'
    · refine .err (e := .keyAndCommandNotMatch) (s' := s) ?_ ?_ (fun _ => by rw [hse]; exact h)
      · rw [hrun]; simp [Store.sOpStore, h1 ht', bind, Except.bind, intReply, retErr]
      · rw [hfit]; simp only [ht']; rfl
    · refine .err (e := .nil) (s' := s) ?_ ?_ (fun _ => by rw [hse]; exact h)
      · rw [hrun]; simp [Store.sOpStore, h2 ht', bind, Except.bind, intReply, retErr]
      · rw [hfit]; simp only [ht']; rfl
    · obtain ⟨a, h4, h5⟩ := h3 ht'
      refine .mk (s' := s.putNew d .set (.set a)) (r := newResponseWithInteger a.length) (m := .int a.length) ?_ (reply_int _) ?_ (fun ht => ?_)
      · rw [hrun]; simp [Store.sOpStore, h4, bind, Except.bind, intReply, retOk]
      · rw [hfit]; simp only [ht']; rw [h5.len]; simp
      · rw [hstep]
        exact h.create h5 ht

theorem lset_runs {name : Bytes} (hname : name ∈ commands) (h : Linked s W) :
    ∃ c, lookupCmd name = some c ∧ c.name = name ∧ RunsL c ext it s args W := by
  simp only [commands, List.mem_cons, List.not_mem_nil, or_false] at hname
  rcases hname with rfl | rfl | rfl | rfl | rfl | rfl | rfl | rfl | rfl | rfl | rfl | rfl | rfl
  · exact ⟨.sAdd, rfl, rfl, lruns_sadd h⟩
  · exact ⟨.sRem, rfl, rfl, lruns_srem h⟩
  · exact ⟨.sCard, rfl, rfl, .read h (runs_scard h.typed h.all) (fun _ h => h) (fun _ _ h => read_same _ (by decide) h) (by decide)⟩
  · exact ⟨.sIsMember, rfl, rfl, .read h (runs_sismember h.typed h.all) (fun _ h => h) (fun _ _ h => read_same _ (by decide) h) (by decide)⟩
  · exact ⟨.sMembers, rfl, rfl, .read h (runs_smembers h.typed h.all) (fun _ h => h) (fun _ _ h => read_same _ (by decide) h) (by decide)⟩
  · exact ⟨.sPop, rfl, rfl, lruns_spop h⟩
  · exact ⟨.sMove, rfl, rfl, lruns_smove h⟩
  · exact ⟨.sDiff, rfl, rfl, .read h (runs_sop (op := .diff) h.typed h.all rfl rfl (.inl rfl)) (fun _ h => h) (fun _ _ h => read_same _ (by decide) h) (by decide)⟩
  · exact ⟨.sInter, rfl, rfl, .read h (runs_sop (op := .inter) h.typed h.all rfl rfl (.inr (.inl rfl))) (fun _ h => h) (fun _ _ h => read_same _ (by decide) h) (by decide)⟩
  · exact ⟨.sUnion, rfl, rfl, .read h (runs_sop (op := .union) h.typed h.all rfl rfl (.inr (.inr rfl))) (fun _ h => h) (fun _ _ h => read_same _ (by decide) h) (by decide)⟩
  · exact ⟨.sDiffStore, rfl, rfl, lruns_sopstore (op := .diff) h rfl rfl (.inl rfl)⟩
  · exact ⟨.sInterStore, rfl, rfl, lruns_sopstore (op := .inter) h rfl rfl (.inr (.inl rfl))⟩
  · exact ⟨.sUnionStore, rfl, rfl, lruns_sopstore (op := .union) h rfl rfl (.inr (.inr rfl))⟩

/-! ## commands of other families -/

/-- forget the value -/
def shape {α : Type} : KView α → KView Unit
  | .absent => .absent
  | .other => .other
  | .here _ => .here ()

theorem shape_createOther {α : Type} (v : KView α) : shape v.createOther = (shape v).createOther := by cases v <;> rfl

theorem shape_foreign {α : Type} (k : Bytes) (v : KView α) (name : Bytes) (args : List Bytes) (m : Reply) :
    shape (foreign k v name args m) = foreign k (shape v) name args m := by
  unfold KeySpec.foreign
  repeat' split
  all_goals first | rfl | exact shape_createOther v

theorem foreign_here {α : Type} {k : Bytes} {v : KView α} {name : Bytes} {args : List Bytes} {m : Reply} {x : α}
    (h : foreign k v name args m = .here x) : v = .here x := by
  have hc : ∀ v : KView α, v.createOther = .here x → v = .here x := by
    intro v h; cases v <;> first | exact h | cases h
  unfold KeySpec.foreign at h
  repeat' split at h
  all_goals first | exact h | exact hc _ h | cases h

theorem kview_cases (ht : Typed s) (k : Bytes) :
    (kview .set s k = .absent ∧ s.keys.get k = none) ∨
    (kview .set s k = .other ∧ ∃ info, s.keys.get k = some info ∧ info.type ≠ .set) ∨
    (∃ o r, kview .set s k = .here o ∧ s.keys.get k = some ⟨.set, .ref r⟩) := by
  cases hg : s.keys.get k with
  | none => exact .inl ⟨kview_absent hg, rfl⟩
  | some info =>
    rcases ht.kind _ _ hg with ⟨v, rfl⟩ | ⟨r, o, rfl, ho, _⟩
    · exact .inr (.inl ⟨kview_str hg, _, rfl, nofun⟩)
    · by_cases hs : o.kind = .set
      · refine .inr (.inr ⟨o, r, ?_, by rw [hs]⟩)
        rw [kview_ref hg ho, if_pos hs]
      · refine .inr (.inl ⟨?_, _, rfl, hs⟩)
        rw [kview_ref hg ho, if_neg hs]

theorem Change.set_entry (h : Change ext c args N s s') (ht : Typed s) (hc : ¬ c.Writes .set) {r}
    (hg : s'.keys.get k = some ⟨.set, .ref r⟩) : s.keys.get k = some ⟨.set, .ref r⟩ := by
  cases h with
  | str =>
    simp only [SMap.get_set] at hg
    split at hg
    · cases hg
    · exact hg
  | del =>
    simp only [SMap.get_del _ _ _ ht.wf] at hg
    split at hg
    · cases hg
    · exact hg
  | @new k' o rng _ _ hn _ =>
    simp only [SMap.get_set] at hg
    split at hg
    · exfalso
      simp only [Option.some.injEq, KeyInfo.mk.injEq] at hg
      exact hc (hg.1 ▸ hn.writes)
    · exact hg
  | write => exact hg
  | «alias» h1 => exact absurd (.inr (.inr (.inr (.inr h1)))) hc

theorem Eff.set_entry (h : Eff ext c args N s s') (ht : Typed s) (hc : ¬ c.Writes .set) {r}
    (hg : s'.keys.get k = some ⟨.set, .ref r⟩) : s.keys.get k = some ⟨.set, .ref r⟩ := by
  induction h with
  | refl => exact hg
  | step h _ ih => exact h.set_entry ht hc (ih (h.typed ht) hg)

theorem Linked.foreign (h : Linked s W) (hc : ¬ c.Writes .set) {o} (hf : c.fn ext it s args = .ok (s', o))
    (hm : (setRsp o).reply = some m) : Linked s' { W with names := fun k => KeySpec.foreign k (W.names k) c.name args m } := by
  have he := fn_eff c h.typed hf
  have ht' : Typed s' := he.typed h.typed
  have hkv : ∀ k, shape (kview .set s' k) = shape (KeySpec.foreign k (W.names k) c.name args m) := by
    intro k
    rw [foreign_step h.typed hc hf hm k, shape_foreign, shape_foreign]
    congr 1
    have he := h.entry k
    rcases kview_cases h.typed k with ⟨h1, h2⟩ | ⟨h1, info, h2, h3⟩ | ⟨o, r, h1, h2⟩ <;> rw [h2] at he <;> rw [h1] <;>
      generalize W.names k = v at he <;> cases he <;> try rfl
    · exact absurd rfl h3
    · next h => exact absurd rfl h
  refine ⟨ht', fun k => ?_, ?_, ?_⟩
  · show Entry s'.heap W.sets (s'.keys.get k) (KeySpec.foreign k (W.names k) c.name args m)
    have hk := hkv k
    rcases kview_cases ht' k with ⟨h1, h2⟩ | ⟨h1, info, h2, h3⟩ | ⟨o, r, h1, h2⟩ <;> rw [h2] <;> rw [h1] at hk <;>
      generalize hn : KeySpec.foreign k (W.names k) c.name args m = v at hk <;> cases v <;> try cases hk
    · exact .absent
    · exact .other h3
    · have hn' := foreign_here hn
      have hg := he.set_entry h.typed hc h2
      have hen := h.entry k
      rw [hg, hn'] at hen
      cases hen with
      | here ho hi =>
        obtain ⟨o', g1, g2, g3⟩ := he.heap_frame ho
        rw [g3 hc] at g1
        exact .here g1 hi
  · intro k1 k2 r1 r2 h1 h2
    rw [h.link _ _ _ _ (he.set_entry h.typed hc h1) (he.set_entry h.typed hc h2)]
    have hh : ∀ {k r}, s'.keys.get k = some ⟨.set, .ref r⟩ → KeySpec.foreign k (W.names k) c.name args m = W.names k := by
      intro k r hg
      have hk := hkv k
      rcases kview_cases ht' k with ⟨g1, g2⟩ | ⟨g1, info, g2, g3⟩ | ⟨o, r, g1, g2⟩
      · rw [hg] at g2; cases g2
      · rw [hg] at g2; cases g2; exact absurd rfl g3
      · rw [g1] at hk
        generalize hn : KeySpec.foreign k (W.names k) c.name args m = v at hk
        cases v with
        | absent => cases hk
        | other => cases hk
        | here x => exact (foreign_here hn).symm
    show _ ↔ KeySpec.foreign k1 (W.names k1) c.name args m = KeySpec.foreign k2 (W.names k2) c.name args m
    rw [hh h1, hh h2]
  · intro k i hn
    exact h.fresh k i (foreign_here hn)

theorem lstep_foreign {name : Bytes} (h : name ∉ commands) :
    SharedSpec.step W name args m = { W with names := fun k => KeySpec.foreign k (W.names k) name args m } := by
  simp only [commands, List.mem_cons, List.not_mem_nil, or_false, not_or] at h
  obtain ⟨h1, h2, h3, h4, h5, h6, h7, h8, h9, h10, h11, h12, h13⟩ := h
  unfold SharedSpec.step
  rw [if_neg h1, if_neg h2, if_neg h6, if_neg h7, if_neg]
  simp only [setStores, List.mem_cons, List.not_mem_nil, or_false, not_or]
  exact ⟨h11, h12, h13⟩

/-! ## along histories -/

/-- the request has an ASCII command name -/
def AsciiName (req : List Bytes) : Prop := ∀ name ∈ req.head?, Ascii name

instance (req : List Bytes) : Decidable (AsciiName req) := by unfold AsciiName Ascii; infer_instance

theorem Linked.step {req : List Bytes} (h : Linked s W) (hr : AsciiName req) (ha : Answers ext it s req m s') :
    Linked s' (SharedSpec.step W (lower (req.headD [])) req.tail m) := by
  have ht' := ha.typed h.typed
  obtain ⟨name, args, rfl, ⟨hl, rfl, rfl⟩ | ⟨c, o, hl, hf, hm⟩⟩ := ha.cases
  · rw [lower_eq (hr name rfl)] at hl
    show Linked _ (SharedSpec.step W (lower name) args _)
    have : lower name ∉ commands := by
      intro h
      have hall : ∀ n ∈ commands, (lookupCmd n).isSome := by decide
      have := hall _ h
      rw [hl] at this
      cases this
    rw [lstep_foreign this]
    exact h
  · rw [lower_eq (hr name rfl)] at hl
    show Linked s' (SharedSpec.step W (lower name) args m)
    by_cases hc : lower name ∈ commands
    · obtain ⟨c', hl', hcn, s1, o1, m1, h1, h2, _, h4⟩ := lset_runs (ext := ext) (it := it) (args := args) hc h
      rw [hl] at hl'; cases hl'
      rw [hf] at h1; cases h1
      rw [hm] at h2; cases h2
      rw [← hcn]; exact h4 ht'
    · rw [lstep_foreign hc, lookup_name hl]
      exact h.foreign (commands_writes hl hc) hf hm

theorem Linked.fits {name : Bytes} (h : Linked s W) (hr : Ascii name) (hc : lower name ∈ commands) :
    (∀ it, ∃ m s', Answers ext it s (name :: args) m s') ∧
    ∀ it m s', Answers ext it s (name :: args) m s' → SharedSpec.Fits W (lower name) args m := by
  have key : ∀ it, ∃ m s', Answers ext it s (name :: args) m s' ∧ SharedSpec.Fits W (lower name) args m := by
    intro it
    obtain ⟨c, hl, hcn, s1, o1, m1, h1, h2, h3, h4⟩ := lset_runs (ext := ext) (it := it) (args := args) hc h
    refine ⟨m1, s1, (answers_iff ?_).mpr ⟨o1, h1, h2⟩, by rw [hcn] at h3; exact h3⟩
    rw [lower_eq hr]
    exact hl
  refine ⟨fun it => ?_, fun it m s' ha => ?_⟩
  · obtain ⟨m, s', h, _⟩ := key it
    exact ⟨m, s', h⟩
  · obtain ⟨m', s'', h, hf⟩ := key it
    obtain ⟨rfl, rfl⟩ := h.unique ha
    exact hf

theorem linked_init (rng : Rng) : Linked (Store.init rng) World.empty :=
  ⟨typed_init rng, fun _ => .absent, fun _ _ _ _ h _ => (by cases h), fun _ _ h => (by cases h)⟩

theorem Linked.trace {tr} (h : Linked s W) (ht : Trace ext s tr s') (hp : ∀ p ∈ tr, AsciiName p.1) :
    Linked s' (tr.foldl (fun W p => SharedSpec.step W (lower (p.1.headD [])) p.1.tail p.2) W) := by
  induction ht with
  | nil => exact h
  | @snoc tr s1 it req m s2 h0 ha ih =>
    rw [List.foldl_append]
    exact (ih (fun p hp' => hp p (by simp [hp']))).step (hp (req, m) (by simp)) ha

theorem Trace.linked {rng tr} (h : Trace ext (Store.init rng) tr s) (hp : ∀ p ∈ tr, AsciiName p.1) : Linked s (SharedSpec.after tr) :=
  (linked_init rng).trace h hp

end Godis
