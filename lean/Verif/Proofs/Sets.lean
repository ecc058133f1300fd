import Verif.Proofs.SetObj
import Verif.Proofs.Foreign
import Verif.Proofs.Lists4
/-! The set commands do what `SetSpec` says. -/
namespace Godis
open Resp (Reply bulks)
open SetSpec
open ListSpec (items errType errArgs errNil)
open StrSpec (int64 lower isError Ascii setStores)
open KeySpec (KView foreign)

variable {s s' : Store} {k : Bytes} {ext : Ext} {it : Iter} {c : Cmd} {args N : List Bytes} {m : Reply} {w : Bytes → SView}

/-- what the model holds and what the specification says -/
def SRel : KView Obj → SView → Prop
  | .absent, .absent => True
  | .other, .other => True
  | .here (.set o), .here (X, g) => o.Is X g
  | _, _ => False

def SAll (s : Store) (w : Bytes → SView) : Prop := ∀ k, SRel (kview .set s k) (w k)

theorem SRel.createOther {a : KView Obj} {b : SView} (h : SRel a b) : SRel a.createOther b.createOther := by
  rcases a with _ | _ | (_ | _ | _ | _) <;> cases b <;> first | exact h | exact trivial | exact False.elim h

theorem SRel.foreign {a : KView Obj} {b : SView} (h : SRel a b) (k name : Bytes) (args : List Bytes) (m : Reply) :
    SRel (foreign k a name args m) (KeySpec.foreign k b name args m) := by
  unfold KeySpec.foreign
  repeat' split
  all_goals first | exact h | exact trivial | exact h.createOther

/-- the outcomes of loading a set, by the view -/
inductive SLoad (s : Store) (k : Bytes) : SView → Prop
  | absent (hg : s.keys.get k = none) (h : ∀ b, s.loadSet k b = .ok (.error .nil)) : SLoad s k .absent
  | other (h : ∀ b, s.loadSet k b = .ok (.error .keyAndCommandNotMatch)) : SLoad s k .other
  | here {r o X g} (hg : s.keys.get k = some ⟨.set, .ref r⟩) (ho : s.heap[r]? = some (.set o)) (hi : o.Is X g)
      (h0 : s.loadSet k false = .ok (.ok (r, o)))
      (h1 : s.loadSet k true = if X.card + g = 0 then .ok (.error .nil) else .ok (.ok (r, o))) : SLoad s k (.here (X, g))

theorem sload (ht : Typed s) {v : SView} (hv : SRel (kview .set s k) v) : SLoad s k v := by
  have hc : ∀ b, _ := fun b => loadSet_cases ht k b
  rcases hc false with ⟨hg, _⟩ | ⟨info, hg, hi, _⟩ | ⟨r, o, hg, ho, h0⟩
  · rw [kview_absent hg] at hv
    cases v <;> try exact hv.elim
    refine .absent hg (fun b => ?_)
    rcases hc b with ⟨_, h⟩ | ⟨info, h, _⟩ | ⟨_, _, h, _⟩
    · exact h
    · rw [hg] at h; cases h
    · rw [hg] at h; cases h
  · have hk : kview .set s k = .other := by
      rcases ht.kind _ _ hg with ⟨v, rfl⟩ | ⟨r, o, rfl, ho, _⟩
      · exact kview_str hg
      · rw [kview_ref hg ho, if_neg hi]
    rw [hk] at hv
    cases v <;> try exact hv.elim
    refine .other (fun b => ?_)
    rcases hc b with ⟨h, _⟩ | ⟨info, _, _, h⟩ | ⟨_, _, h, _⟩
    · rw [hg] at h; cases h
    · exact h
    · rw [hg] at h; cases h; exact absurd rfl hi
  · rw [kview_ref hg ho, if_pos (show (Obj.set o).kind = .set from rfl)] at hv
    cases v with
    | absent => exact hv.elim
    | other => exact hv.elim
    | here x =>
      obtain ⟨X, g⟩ := x
      have hi : o.Is X g := hv
      refine .here hg ho hi (by simpa using h0) ?_
      rcases hc true with ⟨h, _⟩ | ⟨info, h, hne, _⟩ | ⟨r', o', h, ho', h1⟩
      · rw [hg] at h; cases h
      · rw [hg] at h; cases h; exact absurd rfl hne
      · rw [hg] at h; cases h
        rw [ho] at ho'; cases ho'
        rw [h1]
        have hl := hi.len
        by_cases h0 : X.card + g = 0
        · rw [if_pos h0, if_pos]
          simp only [Bool.true_and, beq_iff_eq]; omega
        · rw [if_neg h0, if_neg]
          simp only [Bool.true_and, beq_iff_eq]; omega

theorem SAll.write (ht : Typed s) (hn : NoShare s) (hw : SAll s w) {r o o' X g} (hg : s.keys.get k = some ⟨.set, .ref r⟩)
    (ho : s.heap[r]? = some (.set o)) (hi : o'.Is X g) : SAll (s.write r (.set o')) (put w k (.here (X, g))) := by
  intro k'
  have hr : r < s.heap.length := ht.ref_lt hg
  unfold put
  by_cases hk : k' = k
  · subst hk
    rw [if_pos rfl, kview_ref (s := s.write r (.set o')) (t := .set) (r := r) (o := .set o') hg (by simp [Store.write, hr]), if_pos (show (Obj.set o').kind = .set from rfl)]
    exact hi
  · rw [if_neg hk]
    have := hw k'
    have he : kview .set (s.write r (.set o')) k' = kview .set s k' := by
      cases hg' : s.keys.get k' with
      | none => rw [kview_absent hg', kview_absent (s := s.write r (.set o')) hg']
      | some info =>
        rcases ht.kind _ _ hg' with ⟨v, rfl⟩ | ⟨r', o1, rfl, ho1, _⟩
        · rw [kview_str hg', kview_str (s := s.write r (.set o')) hg']
        · have hne : r ≠ r' := by
            rintro rfl
            exact hk (hn _ _ _ _ _ hg' hg)
          rw [kview_ref hg' ho1, kview_ref (s := s.write r (.set o')) (o := o1) hg' (by
            simp only [Store.write]; rw [List.getElem?_set_ne hne]; exact ho1)]
    rw [he]; exact this

theorem SAll.putNew (ht : Typed s) (hw : SAll s w) {o X g} (hi : o.Is X g) (k : Bytes) :
    SAll (s.putNew k .set (.set o)) (put w k (.here (X, g))) := by
  intro k'
  unfold put
  by_cases hk : k' = k
  · subst hk
    rw [if_pos rfl, kview_ref (t := .set) (r := s.heap.length) (o := .set o) (by simp [Store.putNew]) (by simp [Store.putNew]),
      if_pos (show (Obj.set o).kind = .set from rfl)]
    exact hi
  · rw [if_neg hk]
    have he : kview .set (s.putNew k .set (.set o)) k' = kview .set s k' := by
      have hgg : (s.putNew k .set (.set o)).keys.get k' = s.keys.get k' := by simp [Store.putNew, SMap.get_set, hk]
      cases hg' : s.keys.get k' with
      | none => rw [kview_absent hg', kview_absent (hgg.trans hg')]
      | some info =>
        rcases ht.kind _ _ hg' with ⟨v, rfl⟩ | ⟨r', o1, rfl, ho1, _⟩
        · rw [kview_str hg', kview_str (hgg.trans hg')]
        · rw [kview_ref hg' ho1, kview_ref (o := o1) (hgg.trans hg') (by
            simp only [Store.putNew]; rw [List.getElem?_append_left (ht.ref_lt hg')]; exact ho1)]
    rw [he]; exact hw k'

theorem put_self (w : Bytes → SView) (k : Bytes) {v : SView} (h : v = w k) : put w k v = w := by
  funext k'; unfold put; split
  · next e => rw [h, e]
  · rfl

/-- the views afterwards: of all keys, if no two keys share a set; in any case of the first key of the command -/
def SPost (s s' : Store) (w' : Bytes → SView) (args : List Bytes) : Prop :=
  (NoShare s → SAll s' w') ∧ ∀ k ∈ args.head?, SRel (kview .set s' k) (w' k)

theorem SAll.post (h : SAll s' w) : SPost s s' w args := ⟨fun _ => h, fun k _ => h k⟩

theorem SPost.write (ht : Typed s) (hw : SAll s w) {r o o' X g} {rest : List Bytes} (hg : s.keys.get k = some ⟨.set, .ref r⟩)
    (ho : s.heap[r]? = some (.set o)) (hi : o'.Is X g) : SPost s (s.write r (.set o')) (put w k (.here (X, g))) (k :: rest) := by
  refine ⟨fun hn => hw.write ht hn hg ho hi, ?_⟩
  intro k' hk
  simp only [List.head?_cons, Option.mem_def, Option.some.injEq] at hk
  subst hk
  have hr : r < s.heap.length := ht.ref_lt hg
  unfold put
  rw [if_pos rfl, kview_ref (s := s.write r (.set o')) (t := .set) (r := r) (o := .set o') hg (by simp [Store.write, hr]),
    if_pos (show (Obj.set o').kind = .set from rfl)]
  exact hi

/-- a set command runs, is answered correctly and leaves what the specification says -/
def Runs (c : Cmd) (ext : Ext) (it : Iter) (s : Store) (args : List Bytes) (w : Bytes → SView) : Prop :=
  ∃ s' o m, c.fn ext it s args = .ok (s', o) ∧ (setRsp o).reply = some m ∧ Fits w c.name args m ∧ SPost s s' (step w c.name args m) args

theorem Runs.mk {r : Response} (h : c.fn ext it s args = .ok (s', .ok r)) (hr : r.reply = some m) (hf : Fits w c.name args m)
    (hs : SPost s s' (step w c.name args m) args) : Runs c ext it s args w := ⟨s', _, m, h, by simpa using hr, hf, hs⟩

theorem Runs.err {e : Err} (h : c.fn ext it s args = .ok (s', .error e)) (hf : Fits w c.name args (.error e.msg))
    (hs : SPost s s' (step w c.name args (.error e.msg)) args) : Runs c ext it s args w := ⟨s', _, _, h, by simp, hf, hs⟩

/-- commands that only read -/
theorem Runs.read {o} (h : c.fn ext it s args = .ok (s, o)) (hr : (setRsp o).reply = some m) (hf : Fits w c.name args m)
    (hw : SAll s w) (hn : c.name ∉ [b! "sadd", b! "srem", b! "spop", b! "smove", b! "mset", b! "del"] ++ ListSpec.stringWriters ++
      KeySpec.collCreators ++ setStores) : Runs c ext it s args w := by
  refine ⟨s, o, m, h, hr, hf, SAll.post ?_⟩
  simp only [List.mem_append, List.mem_cons, List.not_mem_nil, or_false, not_or] at hn
  obtain ⟨⟨⟨⟨h1, h2, h3, h4, h5, h6⟩, h7⟩, h8⟩, h9⟩ := hn
  unfold step
  rw [if_neg h1, if_neg h2, if_neg h3, if_neg h4, if_neg h9]
  intro k
  show SRel _ (foreign k (w k) c.name args m)
  rw [foreign_same (by simp only [List.mem_append, List.mem_cons, List.not_mem_nil, or_false, not_or]; exact ⟨⟨⟨⟨h5, h4, h6⟩, h7⟩, h8⟩, h9⟩)]
  exact hw k

theorem runs_sadd (ht : Typed s) (hw : SAll s w) : Runs .sAdd ext it s args w := by
  rcases args with _ | ⟨k, _ | ⟨x, xs⟩⟩
  · exact .err (e := .commandArgsNotEnough) rfl rfl hw.post
  · exact .err (e := .commandArgsNotEnough) rfl rfl hw.post
  · have hwk := hw k
    have hl := sload ht hwk
    generalize hv : w k = v at hl
    cases hl with
    | absent hg h =>
      obtain ⟨h1, h2⟩ := SObj.Is.empty.sAddAll (x :: xs)
      have hf : Fits w (b! "sadd") (k :: x :: xs) (.int (SObj.empty.sAddAll (x :: xs)).2) := by
        show _ = _
        rw [hv, h2, if_neg (by simp)]; rfl
      refine .mk (s' := s.putNew k .set (.set (SObj.empty.sAddAll (x :: xs)).1)) (r := newResponseWithInteger (SObj.empty.sAddAll (x :: xs)).2)
        (by simp [Cmd.fn, cmdSAdd, Store.sAdd, h, bind, Except.bind, intReply, retOk]) (reply_int _) hf ?_
      show SPost _ _ (put w k (add (x :: xs) (w k))) (k :: x :: xs)
      rw [hv]
      rw [Finset.empty_union] at h1
      exact (hw.putNew ht h1 k).post
    | other h =>
      exact .err (s' := s) (e := .keyAndCommandNotMatch) (by simp [Cmd.fn, cmdSAdd, Store.sAdd, h, bind, Except.bind, intReply, retErr])
        (by show _ = _; rw [hv]; rfl) hw.post
    | @here r o X g hg ho hi h0 h1 =>
      obtain ⟨h2, h3⟩ := hi.sAddAll (x :: xs)
      have hf : Fits w (b! "sadd") (k :: x :: xs) (.int (o.sAddAll (x :: xs)).2) := by
        show _ = _
        rw [hv, h3, if_neg (by simp)]; rfl
      refine .mk (s' := s.write r (.set (o.sAddAll (x :: xs)).1)) (r := newResponseWithInteger (o.sAddAll (x :: xs)).2)
        (by simp [Cmd.fn, cmdSAdd, Store.sAdd, h0, bind, Except.bind, intReply, retOk]) (reply_int _) hf ?_
      show SPost _ _ (put w k (add (x :: xs) (w k))) (k :: x :: xs)
      rw [hv]
      exact .write ht hw hg ho h2

theorem runs_srem (ht : Typed s) (hw : SAll s w) : Runs .sRem ext it s args w := by
  rcases args with _ | ⟨k, _ | ⟨x, xs⟩⟩
  · exact .err (e := .commandArgsNotEnough) rfl rfl hw.post
  · exact .err (e := .commandArgsNotEnough) rfl rfl hw.post
  · have hwk := hw k
    have hl := sload ht hwk
    generalize hv : w k = v at hl
    cases hl with
    | absent hg h =>
      refine .mk (s' := s) (r := newResponseWithInteger 0)
        (by simp [Cmd.fn, cmdSRem, Store.sRem, h, bind, Except.bind, intReplyNilOk, retOk]) (reply_int _)
        (by show _ = _; rw [hv, if_neg (by simp)]; simp [mems]) ?_
      show SPost _ _ (put w k (remove (x :: xs) (w k))) (k :: x :: xs)
      rw [put_self w k (by rw [hv]; rfl)]; exact hw.post
    | other h =>
      exact .err (s' := s) (e := .keyAndCommandNotMatch) (by simp [Cmd.fn, cmdSRem, Store.sRem, h, bind, Except.bind, intReplyNilOk, retErr])
        (by show _ = _; rw [hv]; rfl) hw.post
    | @here r o X g hg ho hi h0 h1 =>
      by_cases he : X.card + g = 0
      · rw [if_pos he] at h1
        have hX : X = ∅ := Finset.card_eq_zero.mp (by omega)
        refine .mk (s' := s) (r := newResponseWithInteger 0)
          (by simp [Cmd.fn, cmdSRem, Store.sRem, h1, bind, Except.bind, intReplyNilOk, retOk]) (reply_int _)
          (by show _ = _; rw [hv, if_neg (by simp)]; simp [mems, hX]) ?_
        show SPost _ _ (put w k (remove (x :: xs) (w k))) (k :: x :: xs)
        rw [put_self w k (by rw [hv]; simp [remove, hX])]; exact hw.post
      · rw [if_neg he] at h1
        obtain ⟨h2, h3⟩ := hi.sRemAll (x :: xs)
        have hf : Fits w (b! "srem") (k :: x :: xs) (.int (o.sRemAll (x :: xs)).2) := by
          show _ = _
          rw [hv, h3, if_neg (by simp)]; rfl
        refine .mk (s' := s.write r (.set (o.sRemAll (x :: xs)).1)) (r := newResponseWithInteger (o.sRemAll (x :: xs)).2)
          (by simp [Cmd.fn, cmdSRem, Store.sRem, h1, bind, Except.bind, intReplyNilOk, retOk]) (reply_int _) hf ?_
        show SPost _ _ (put w k (remove (x :: xs) (w k))) (k :: x :: xs)
        rw [hv]
        exact .write ht hw hg ho h2

theorem runs_scard (ht : Typed s) (hw : SAll s w) : Runs .sCard ext it s args w := by
  rcases args with _ | ⟨k, rest⟩
  · exact .err (e := .commandArgsNotEnough) rfl rfl hw.post
  · have hl := sload ht (hw k)
    generalize hv : w k = v at hl
    cases hl with
    | absent hg h =>
      exact .read (m := .int 0) (by simp [Cmd.fn, cmdSCard, Store.sCard, h, bind, Except.bind, intReplyNilOk, retOk]; rfl) rfl
        (by show _ = _; rw [hv, if_neg (by simp)]; simp [size]) hw (by decide)
    | other h =>
      exact .read (m := errType) (by simp [Cmd.fn, cmdSCard, Store.sCard, h, bind, Except.bind, intReplyNilOk, retErr]; rfl) rfl
        (by show _ = _; rw [hv]; rfl) hw (by decide)
    | @here r o X g hg ho hi h0 h1 =>
      have hlen := hi.len
      by_cases he : X.card + g = 0
      · rw [if_pos he] at h1
        exact .read (m := .int 0) (by simp [Cmd.fn, cmdSCard, Store.sCard, h1, bind, Except.bind, intReplyNilOk, retOk]; rfl) rfl
          (by show _ = _; rw [hv, if_neg (by simp)]; simp [size, he]) hw (by decide)
      · rw [if_neg he] at h1
        exact .read (m := .int o.length) (by simp [Cmd.fn, cmdSCard, Store.sCard, h1, bind, Except.bind, intReplyNilOk, retOk]; rfl) rfl
          (by show _ = _; rw [hv, if_neg (by simp)]; simp [size, hlen]) hw (by decide)

theorem runs_sismember (ht : Typed s) (hw : SAll s w) : Runs .sIsMember ext it s args w := by
  rcases args with _ | ⟨k, _ | ⟨x, rest⟩⟩
  · exact .err (e := .commandArgsNotEnough) rfl rfl hw.post
  · exact .err (e := .commandArgsNotEnough) rfl rfl hw.post
  · have hl := sload ht (hw k)
    generalize hv : w k = v at hl
    cases hl with
    | absent hg h =>
      exact .read (m := .int 0) (by simp [Cmd.fn, cmdSIsMember, Store.sIsMember, h, bind, Except.bind, intReplyNilOk, retOk]; rfl) rfl
        (by show _ = _; rw [hv, if_neg (by simp)]; simp [mems]) hw (by decide)
    | other h =>
      exact .read (m := errType) (by simp [Cmd.fn, cmdSIsMember, Store.sIsMember, h, bind, Except.bind, intReplyNilOk, retErr]; rfl) rfl
        (by show _ = _; rw [hv]; rfl) hw (by decide)
    | @here r o X g hg ho hi h0 h1 =>
      by_cases he : X.card + g = 0
      · rw [if_pos he] at h1
        have hX : X = ∅ := Finset.card_eq_zero.mp (by omega)
        exact .read (m := .int 0) (by simp [Cmd.fn, cmdSIsMember, Store.sIsMember, h1, bind, Except.bind, intReplyNilOk, retOk]; rfl) rfl
          (by show _ = _; rw [hv, if_neg (by simp)]; simp [mems, hX]) hw (by decide)
      · rw [if_neg he] at h1
        have hf : Fits w (b! "sismember") (k :: x :: rest) (.int (if x ∈ X then 1 else 0)) := by
          show _ = _; rw [hv, if_neg (show ¬ (KView.here (X, g) : SView) = .other by simp)]; rfl
        refine .read (m := .int (if x ∈ X then 1 else 0)) (o := .ok (newResponseWithInteger (if o.m.has x then 1 else 0)))
          (by simp [Cmd.fn, cmdSIsMember, Store.sIsMember, h1, bind, Except.bind, intReplyNilOk, retOk]) (by simp [hi.has])
          hf hw (by decide)

theorem runs_smembers (ht : Typed s) (hw : SAll s w) : Runs .sMembers ext it s args w := by
  rcases args with _ | ⟨k, rest⟩
  · exact .err (e := .commandArgsNotEnough) rfl rfl hw.post
  · have hl := sload ht (hw k)
    have hfit : ∀ m, Fits w (Cmd.sMembers.name) (k :: rest) m ↔ (if w k = .other then m = errType else if size (w k) = 0 then m = errNil else Lists (mems (w k)) m) :=
      fun m => Iff.rfl
    generalize hv : w k = v at hl hfit
    cases hl with
    | absent hg h =>
      exact .read (m := errNil) (by simp [Cmd.fn, cmdSMembers, Store.sMembers, h, bind, Except.bind, retErr]; rfl) rfl
        (by rw [hfit]; rfl) hw (by decide)
    | other h =>
      exact .read (m := errType) (by simp [Cmd.fn, cmdSMembers, Store.sMembers, h, bind, Except.bind, retErr]; rfl) rfl
        (by rw [hfit]; rfl) hw (by decide)
    | @here r o X g hg ho hi h0 h1 =>
      by_cases he : X.card + g = 0
      · rw [if_pos he] at h1
        exact .read (m := errNil) (by simp [Cmd.fn, cmdSMembers, Store.sMembers, h1, bind, Except.bind, retErr]; rfl) rfl
          (by rw [hfit, if_neg (by simp), if_pos (by simpa [size] using he)]) hw (by decide)
      · rw [if_neg he] at h1
        refine .read (m := bulks (o.m.keys it)) (o := .ok (bulkStrings true (o.m.keys it)))
          (by simp [Cmd.fn, cmdSMembers, Store.sMembers, h1, bind, Except.bind, retOk]) (by simp) ?_ hw (by decide)
        rw [hfit, if_neg (by simp), if_neg (by simpa [size] using he)]
        exact ⟨_, rfl, hi.keys.1, hi.keys.2⟩

theorem leave_empty (v : SView) : leave [] v = v := by
  cases v with
  | here x => obtain ⟨X, g⟩ := x; simp [leave]
  | _ => rfl

/-- SPOP with its count argument parsed -/
theorem spop_run (ht : Typed s) (hw : SAll s w) (k : Bytes) (n : Int) (rest : List Bytes) :
    ∃ s' o m, (do let (s, r) ← Store.sPop it s k n; arrReply s newResponseWithEmptyArray r : CmdRes) = .ok (s', o) ∧
      (setRsp o).reply = some m ∧
      (if w k = .other then m = errType
        else ∃ X : Finset Bytes, X ⊆ mems (w k) ∧ X.card = min n.toNat (mems (w k)).card ∧ Lists X m) ∧
      SPost s s' (put w k (leave (items m) (w k))) (k :: rest) := by
  have hl := sload ht (hw k)
  have h00 : SPost s s (put w k (leave (items (bulks [])) (w k))) (k :: rest) := by
    have : items (bulks []) = [] := rfl
    rw [this, put_self w k (leave_empty _)]; exact hw.post
  generalize hv : w k = v at hl h00 ⊢
  cases hl with
  | absent hg h =>
    exact ⟨s, .ok newResponseWithEmptyArray, bulks [], by simp [Store.sPop, h, bind, Except.bind, arrReply, retOk], by simp [bulks],
      by rw [if_neg (by simp)]; exact ⟨∅, by simp, by simp [mems], [], rfl, by simp, by simp⟩, h00⟩
  | other h =>
    exact ⟨s, .error .keyAndCommandNotMatch, errType, by simp [Store.sPop, h, bind, Except.bind, arrReply, retErr], by simp; rfl,
      by rfl, by rw [put_self w k (by rw [hv]; rfl)]; exact hw.post⟩
  | @here r o X g hg ho hi h0 h1 =>
    by_cases he : X.card + g = 0
    · rw [if_pos he] at h1
      have hX : X = ∅ := Finset.card_eq_zero.mp (by omega)
      exact ⟨s, .ok newResponseWithEmptyArray, bulks [], by simp [Store.sPop, h1, bind, Except.bind, arrReply, retOk], by simp [bulks],
        by rw [if_neg (by simp)]; exact ⟨∅, by simp, by simp [mems, hX], [], rfl, by simp, by simp⟩, h00⟩
    · rw [if_neg he] at h1
      obtain ⟨o', l, h2, h3, h4, h5, h6⟩ := hi.sPop (it := it) n
      refine ⟨s.write r (.set o'), .ok (bulkStrings true l), bulks l, by simp [Store.sPop, h1, h2, bind, Except.bind, arrReply, retOk], by simp,
        ?_, ?_⟩
      · rw [if_neg (by simp)]
        exact ⟨l.toFinset, h4, by rw [List.toFinset_card_of_nodup h3, h5]; rfl, l, rfl, h3, rfl⟩
      · rw [items_bulks]
        exact .write ht hw hg ho h6

theorem runs_spop (ht : Typed s) (hw : SAll s w) : Runs .sPop ext it s args w := by
  rcases args with _ | ⟨k, rest⟩
  · exact .err (e := .commandArgsNotEnough) rfl rfl hw.post
  · have hfit : ∀ m, Fits w (Cmd.sPop.name) (k :: rest) m ↔
        (match (match rest with | [] => some 0 | c :: _ => int64 c) with
          | none => m = .error (b! "value is not an integer or out of range")
          | some n =>
            if w k = .other then m = errType
            else ∃ X : Finset Bytes, X ⊆ mems (w k) ∧ X.card = min n.toNat (mems (w k)).card ∧ Lists X m) := by
      intro m; exact Iff.rfl
    rcases rest with _ | ⟨n, rest⟩
    · obtain ⟨s', o, m, h1, h2, h3, h4⟩ := spop_run (it := it) ht hw k 0 []
      exact ⟨s', o, m, h1, h2, h3, h4⟩
    · cases hp : int64 n with
      | none =>
        have hp' : atoi n = none := (int64_eq n).symm.trans hp
        refine .err (s' := s) (e := .notInteger) ?_ ?_ ?_
        · simp [Cmd.fn, cmdSPop, hp', retErr]
        · rw [hfit]; simp only [hp]; rfl
        · show SPost s s (put w k (leave [] (w k))) _
          rw [put_self w k (leave_empty _)]; exact hw.post
      | some i =>
        have hp' : atoi n = some i := (int64_eq n).symm.trans hp
        obtain ⟨s', o, m, h1, h2, h3, h4⟩ := spop_run (it := it) ht hw k i (n :: rest)
        refine ⟨s', o, m, ?_, h2, ?_, h4⟩
        · simp only [Cmd.fn, cmdSPop, hp']; exact h1
        · rw [hfit]; simp only [hp]; exact h3

theorem card_one (x : Bytes) (Y : Finset Bytes) : (([x].toFinset \ Y).card : Int) = if x ∈ Y then 0 else 1 := by
  by_cases h : x ∈ Y
  · rw [if_pos h, show [x].toFinset \ Y = ∅ by ext y; simp; rintro rfl; exact h]; rfl
  · rw [if_neg h, show [x].toFinset \ Y = {x} by ext y; simp; rintro rfl; exact h]; rfl

theorem runs_smove (ht : Typed s) (hn : NoShare s) (hw : SAll s w) : Runs .sMove ext it s args w := by
  rcases args with _ | ⟨src, _ | ⟨dst, _ | ⟨x, rest⟩⟩⟩
  · exact .err (e := .commandArgsNotEnough) rfl rfl hw.post
  · exact .err (e := .commandArgsNotEnough) rfl rfl hw.post
  · exact .err (e := .commandArgsNotEnough) rfl rfl hw.post
  · have hfit : ∀ m, Fits w (Cmd.sMove.name) (src :: dst :: x :: rest) m ↔
        m = if w src = .other then errType
          else if x ∉ mems (w src) then errNil
          else if w dst = .other then errType
          else .int (if x ∈ mems (w dst) ∧ dst ≠ src then 0 else 1) := fun m => Iff.rfl
    have hstep : ∀ m, step w (Cmd.sMove.name) (src :: dst :: x :: rest) m =
        if x ∈ mems (w src) then
          put (put w src (leave [x] (w src))) dst (add [x] (put w src (leave [x] (w src)) dst))
        else w := fun m => rfl
    have hl := sload ht (hw src)
    have hmiss : x ∉ mems (w src) → ¬ w src = .other → (Cmd.sMove).fn ext it s (src :: dst :: x :: rest) = .ok (s, .error .nil) →
        Runs .sMove ext it s (src :: dst :: x :: rest) w := fun h1 h2 h3 =>
      .err h3 (by rw [hfit, if_neg h2, if_pos h1]; rfl) (by rw [hstep, if_neg h1]; exact hw.post)
    generalize hv : w src = v at hl hfit hstep hmiss
    cases hl with
    | absent hg h =>
      exact hmiss (by simp [mems]) (by simp) (by simp [Cmd.fn, cmdSMove, Store.sMove, h, bind, Except.bind, intReply, retErr])
    | other h =>
      exact .err (s' := s) (e := .keyAndCommandNotMatch) (by simp [Cmd.fn, cmdSMove, Store.sMove, h, bind, Except.bind, intReply, retErr])
        (by rw [hfit]; rfl) (by rw [hstep, if_neg (by simp [mems])]; exact hw.post)
    | @here r o X g hg ho hi h0 h1 =>
      by_cases he : X.card + g = 0
      · rw [if_pos he] at h1
        have hX : X = ∅ := Finset.card_eq_zero.mp (by omega)
        exact hmiss (by simp [mems, hX]) (by simp) (by simp [Cmd.fn, cmdSMove, Store.sMove, h1, bind, Except.bind, intReply, retErr])
      · rw [if_neg he] at h1
        have hsnd := SMap.deleteIfExists_snd o.m x
        rw [hi.has] at hsnd
        by_cases hx : x ∈ X
        · have hd : (o.m.deleteIfExists x).2 = true := by simp [hsnd, hx]
          -- the store after the deletion
          have hw1 := hw.write ht hn hg ho (hi.smove x)
          generalize ho1 : (SObj.mk (o.m.deleteIfExists x).1 o.length) = o1 at hw1
          have hr : r < s.heap.length := ht.ref_lt hg
          have ht1 : Typed (s.write r (.set o1)) := by
            refine (Change.write (ext := ext) (c := .sMove) (args := src :: dst :: x :: rest) (N := [src, dst]) (rng := s.rng) (k := src) (by simp) hg ho
              ?_ ?_).typed ht
            · rw [← ho1]; exact .smove rfl
            · exact .refl _
          have hn1 : NoShare (s.write r (.set o1)) := hn
          have hw1' : SAll (s.write r (.set o1)) (put w src (leave [x] (w src))) := by rw [hv]; exact hw1
          have hrun : ∀ s2 q, Store.sAdd (s.write r (.set o1)) dst [x] = .ok (s2, q) →
              (Cmd.sMove).fn ext it s (src :: dst :: x :: rest) = intReply s2 q := by
            intro s2 q hq
            rw [← ho1] at hq
            simp [Cmd.fn, cmdSMove, Store.sMove, h1, hd, hq, bind, Except.bind]
          have hok : ∀ s2 n, Store.sAdd (s.write r (.set o1)) dst [x] = .ok (s2, n, none) →
              (Cmd.sMove).fn ext it s (src :: dst :: x :: rest) = .ok (s2, .ok (newResponseWithInteger n)) :=
            fun s2 n h => hrun _ _ h
          have hl2 := sload ht1 (hw1' dst)
          have hwd : put w src (leave [x] (w src)) dst = if dst = src then leave [x] (w src) else w dst := rfl
          have hxm : x ∈ mems (KView.here (X, g)) := hx
          rw [hv] at hw1' hl2 hwd
          generalize hu : put w src (leave [x] (KView.here (X, g))) dst = u at hl2 hstep hwd
          cases hl2 with
          | absent hg2 h2 =>
            have hds : dst ≠ src := by rintro rfl; simp [leave] at hwd
            rw [if_neg hds] at hwd
            obtain ⟨h3, h4⟩ := SObj.Is.empty.sAddAll [x]
            refine .mk (m := .int 1) (hok ((s.write r (.set o1)).putNew dst .set (.set (SObj.empty.sAddAll [x]).1)) _
              (by simp [Store.sAdd, h2, bind, Except.bind]; rfl)) (by simp only [h4, reply_int]; simp) ?_ ?_
            · rw [hfit, if_neg (by simp), if_neg (by simpa using hxm), ← hwd, if_neg (by simp)]; simp [mems]
            · rw [hstep, if_pos hxm]
              rw [Finset.empty_union] at h3
              exact (hw1'.putNew ht1 h3 dst).post
          | other h2 =>
            have hds : dst ≠ src := by rintro rfl; simp [leave] at hwd
            rw [if_neg hds] at hwd
            refine .err (s' := s.write r (.set o1)) (e := .keyAndCommandNotMatch)
              (by rw [hrun (s.write r (.set o1)) (0, some .keyAndCommandNotMatch) (by simp [Store.sAdd, h2, bind, Except.bind])]; rfl) ?_ ?_
            · rw [hfit, if_neg (by simp), if_neg (by simpa using hxm), ← hwd, if_pos rfl]; rfl
            · rw [hstep, if_pos hxm]
              rw [put_self _ dst (by rw [hu]; rfl)]; exact hw1'.post
          | @here r2 o2 X2 g2 hg2 ho2 hi2 h20 h21 =>
            obtain ⟨h3, h4⟩ := hi2.sAddAll [x]
            refine .mk (m := .int (if x ∈ X2 then 0 else 1)) (hok ((s.write r (.set o1)).write r2 (.set (o2.sAddAll [x]).1)) _
              (by simp [Store.sAdd, h20, bind, Except.bind]; rfl))
              (by rw [h4, card_one, reply_int]) ?_ ?_
            · rw [hfit, if_neg (show ¬ (KView.here (X, g) : SView) = .other by simp), if_neg (show ¬ x ∉ mems (KView.here (X, g)) by simpa using hxm)]
              by_cases hds : dst = src
              · subst hds
                rw [if_pos rfl] at hwd
                simp only [leave, KView.here.injEq, Prod.mk.injEq] at hwd
                rw [hv, if_neg (show ¬ (KView.here (X, g) : SView) = .other by simp), hwd.1]; simp
              · rw [if_neg hds] at hwd
                rw [← hwd, if_neg (show ¬ (KView.here (X2, g2) : SView) = .other by simp)]
                have : (x ∈ mems (KView.here (X2, g2)) ∧ dst ≠ src) = (x ∈ X2) := by simp [mems, hds]
                simp only [this]
            · rw [hstep, if_pos hxm]
              exact (hw1'.write ht1 hn1 hg2 ho2 h3).post
        · have hd : (o.m.deleteIfExists x).2 = false := by simp [hsnd, hx]
          have hxm : x ∉ mems (KView.here (X, g)) := hx
          have hw1 := hw.write ht hn hg ho (hi.smove x)
          refine .err (s' := s.write r (.set ⟨(o.m.deleteIfExists x).1, o.length⟩)) (e := .nil)
            (by simp [Cmd.fn, cmdSMove, Store.sMove, h1, hd, bind, Except.bind, intReply, retErr])
            (by rw [hfit, if_neg (by simp), if_pos hxm]; rfl) ?_
          rw [hstep, if_neg hxm]
          have e1 : X \ [x].toFinset = X := by ext y; simp; rintro h1 rfl; exact hx h1
          have e2 : (X ∩ [x].toFinset).card = 0 := by simp [hx]
          rw [e1, e2, put_self w src (by rw [hv]; rfl)] at hw1
          exact hw1.post

/-! ## set operations -/

/-- the model's operation for the specification's -/
def opFor : Op → Store.SetOp
  | .diff => .diff
  | .inter => .inter
  | .union => .union

theorem op_apply {op : Op} {a b : SObj} {X Y : Finset Bytes} {g g' : Nat} (ha : a.Is X g) (hb : b.Is Y g') :
    ((opFor op).apply it a b).Is (op.on X Y) 0 := by
  cases op
  · exact ha.sDiff hb
  · exact ha.sInter hb
  · exact ha.sUnion hb

theorem trouble_cases (w : Bytes → SView) (ks : List Bytes) : trouble w ks = some .other ∨ trouble w ks = some .absent ∨ trouble w ks = none := by
  induction ks with
  | nil => exact .inr (.inr rfl)
  | cons k ks ih =>
    unfold trouble
    split
    · exact .inl rfl
    · split
      · exact .inr (.inl rfl)
      · exact ih

/-- the loop over the further keys -/
theorem opLoop_some {op : Op} (ht : Typed s) (hw : SAll s w) : ∀ (ks : List Bytes) (p : Option Nat) (a : SObj) (X : Finset Bytes) (g : Nat), a.Is X g →
    (trouble w ks = some .other → Store.setOpLoop it (opFor op) s ks (some (p, a)) = .ok (.error .keyAndCommandNotMatch)) ∧
    (trouble w ks = some .absent → Store.setOpLoop it (opFor op) s ks (some (p, a)) = .ok (.error .nil)) ∧
    (trouble w ks = none → ks ≠ [] → ∃ a', Store.setOpLoop it (opFor op) s ks (some (p, a)) = .ok (.ok (some (none, a'))) ∧
      a'.Is ((ks.map (fun k => mems (w k))).foldl op.on X) 0) := by
  intro ks
  induction ks with
  | nil => intro p a X g _; exact ⟨nofun, nofun, fun _ h => absurd rfl h⟩
  | cons k ks ih =>
    intro p a X g ha
    have hl := sload ht (hw k)
    unfold trouble
    generalize hv : w k = v at hl
    cases hl with
    | absent hg h => 
      refine ⟨fun h' => by simp [size] at h', fun _ => ?_, fun h' => by simp [size] at h'⟩
      simp [Store.setOpLoop, h, bind, Except.bind]
    | other h =>
      refine ⟨fun _ => ?_, fun h' => by simp at h', fun h' => by simp at h'⟩
      simp [Store.setOpLoop, h, bind, Except.bind]
    | @here r o Y g' hg ho hi h0 h1 =>
      by_cases he : Y.card + g' = 0
      · have hs : size (KView.here (Y, g')) = 0 := he
        rw [if_pos he] at h1
        rw [if_neg (by simp), if_pos hs]
        refine ⟨nofun, fun _ => ?_, nofun⟩
        simp [Store.setOpLoop, h1, bind, Except.bind]
      · have hs : ¬ size (KView.here (Y, g')) = 0 := he
        rw [if_neg he] at h1
        rw [if_neg (by simp), if_neg hs]
        have happ := op_apply (it := it) (op := op) ha hi
        have hrun : Store.setOpLoop it (opFor op) s (k :: ks) (some (p, a)) =
            Store.setOpLoop it (opFor op) s ks (some (none, (opFor op).apply it a o)) := by
          simp [Store.setOpLoop, h1, bind, Except.bind]
        obtain ⟨i1, i2, i3⟩ := ih none _ _ _ happ
        rw [hrun]
        refine ⟨i1, i2, fun h _ => ?_⟩
        simp only [List.map_cons, List.foldl_cons]
        rw [hv]
        by_cases hk : ks = []
        · subst hk
          exact ⟨_, rfl, happ⟩
        · exact i3 h hk

/-- the loop over all keys, if there are at least two -/
theorem opLoop_all {op : Op} (ht : Typed s) (hw : SAll s w) (k k1 : Bytes) (ks : List Bytes) :
    (trouble w (k :: k1 :: ks) = some .other → Store.setOpLoop it (opFor op) s (k :: k1 :: ks) none = .ok (.error .keyAndCommandNotMatch)) ∧
    (trouble w (k :: k1 :: ks) = some .absent → Store.setOpLoop it (opFor op) s (k :: k1 :: ks) none = .ok (.error .nil)) ∧
    (trouble w (k :: k1 :: ks) = none → ∃ a', Store.setOpLoop it (opFor op) s (k :: k1 :: ks) none = .ok (.ok (some (none, a'))) ∧
      a'.Is (combine op ((k :: k1 :: ks).map (fun k => mems (w k)))) 0) := by
  have hl := sload ht (hw k)
  have htr : trouble w (k :: k1 :: ks) = if w k = .other then some .other else if size (w k) = 0 then some .absent else trouble w (k1 :: ks) := rfl
  have hco : combine op ((k :: k1 :: ks).map (fun k => mems (w k))) = ((k1 :: ks).map (fun k => mems (w k))).foldl op.on (mems (w k)) := rfl
  rw [htr, hco]
  generalize hv : w k = v at hl
  cases hl with
  | absent hg h =>
    refine ⟨fun h' => by simp [size] at h', fun _ => ?_, fun h' => by simp [size] at h'⟩
    simp [Store.setOpLoop, h, bind, Except.bind]
  | other h =>
    refine ⟨fun _ => ?_, fun h' => by simp at h', fun h' => by simp at h'⟩
    simp [Store.setOpLoop, h, bind, Except.bind]
  | @here r o Y g' hg ho hi h0 h1 =>
    by_cases he : Y.card + g' = 0
    · have hs : size (KView.here (Y, g')) = 0 := he
      rw [if_pos he] at h1
      rw [if_neg (by simp), if_pos hs]
      refine ⟨nofun, fun _ => ?_, nofun⟩
      simp [Store.setOpLoop, h1, bind, Except.bind]
    · have hs : ¬ size (KView.here (Y, g')) = 0 := he
      rw [if_neg he] at h1
      rw [if_neg (by simp), if_neg hs]
      have hrun : Store.setOpLoop it (opFor op) s (k :: k1 :: ks) none = Store.setOpLoop it (opFor op) s (k1 :: ks) (some (some r, o)) := by
        rw [Store.setOpLoop]; simp [h1, bind, Except.bind]
      obtain ⟨i1, i2, i3⟩ := opLoop_some (it := it) (op := op) ht hw (k1 :: ks) (some r) o Y g' hi
      rw [hrun]
      exact ⟨i1, i2, fun h => i3 h (by simp)⟩

theorem runs_sop {op : Op} (ht : Typed s) (hw : SAll s w) (hc : c.fn = cmdSOp (opFor op)) (ho : opOf c.name = op)
    (hname : c.name = b! "sdiff" ∨ c.name = b! "sinter" ∨ c.name = b! "sunion") : Runs c ext it s args w := by
  have hn : c.name ∉ [b! "sadd", b! "srem", b! "spop", b! "smove", b! "mset", b! "del"] ++ ListSpec.stringWriters ++
      KeySpec.collCreators ++ setStores := by rcases hname with h | h | h <;> rw [h] <;> decide
  have hfit : ∀ m, Fits w c.name args m ↔ (match (generalizing := false) args with
      | [] => m = errArgs
      | [_] => m = bulks []
      | ks =>
        match trouble w ks with
        | some .other => m = errType
        | some _ => m = bulks []
        | none => Lists (combine op (ks.map (fun k => mems (w k)))) m) := by
    intro m
    rw [← ho]
    rcases hname with h | h | h <;> rw [h] <;> exact Iff.rfl
  rcases args with _ | ⟨k, _ | ⟨k1, ks⟩⟩
  · exact .read (m := errArgs) (o := .error .commandArgsNotEnough) (by rw [hc]; rfl) rfl ((hfit _).mpr rfl) hw hn
  · exact .read (m := bulks []) (o := .ok newResponseWithEmptyArray) (by rw [hc]; rfl) rfl ((hfit _).mpr rfl) hw hn
  · obtain ⟨h1, h2, h3⟩ := opLoop_all (it := it) (op := op) ht hw k k1 ks
    have hrun : c.fn ext it s (k :: k1 :: ks) = (do let r ← Store.sOp it (opFor op) s (k :: k1 :: ks); arrReply s newResponseWithEmptyArray r) := by
      rw [hc]; rfl
    rcases trouble_cases w (k :: k1 :: ks) with ht' | ht' | ht'
    · refine .read (m := errType) (o := .error .keyAndCommandNotMatch) ?_ rfl ?_ hw hn
      · rw [hrun]; simp [Store.sOp, h1 ht', bind, Except.bind, arrReply, retErr]
      · rw [hfit]; simp only [ht']
    · refine .read (m := bulks []) (o := .ok newResponseWithEmptyArray) ?_ rfl ?_ hw hn
      · rw [hrun]; simp [Store.sOp, h2 ht', bind, Except.bind, arrReply, retOk]
      · rw [hfit]; simp only [ht']
    · obtain ⟨a, h4, h5⟩ := h3 ht'
      have hlen := h5.len
      by_cases h0 : a.length = 0
      · refine .read (m := bulks []) (o := .ok newResponseWithEmptyArray) ?_ rfl ?_ hw hn
        · rw [hrun]; simp [Store.sOp, h4, h0, bind, Except.bind, arrReply, retOk]
        · rw [hfit]; simp only [ht']
          have : combine op ((k :: k1 :: ks).map (fun k => mems (w k))) = ∅ := Finset.card_eq_zero.mp (by omega)
          rw [this]
          exact ⟨[], rfl, by simp, rfl⟩
      · refine .read (m := bulks (a.m.keys it)) (o := .ok (bulkStrings true (a.m.keys it))) ?_ (by simp) ?_ hw hn
        · rw [hrun]; simp [Store.sOp, h4, h0, bind, Except.bind, arrReply, retOk]
        · rw [hfit]; simp only [ht']
          exact ⟨_, rfl, h5.keys.1, h5.keys.2⟩

theorem runs_sopstore {op : Op} (ht : Typed s) (hw : SAll s w) (hc : c.fn = cmdSOpStore (opFor op)) (ho : opOf c.name = op)
    (hname : c.name = b! "sdiffstore" ∨ c.name = b! "sinterstore" ∨ c.name = b! "sunionstore") (hlen : args.length ≠ 2) :
    Runs c ext it s args w := by
  have hfit : ∀ m, Fits w c.name args m ↔ (match (generalizing := false) args with
      | _ :: k :: ks =>
        match trouble w (k :: ks) with
        | some .other => m = errType
        | some _ => m = errNil
        | none => m = .int (combine op ((k :: ks).map (fun k => mems (w k)))).card
      | _ => m = errArgs) := by
    intro m
    rw [← ho]
    rcases hname with h | h | h <;> rw [h] <;> exact Iff.rfl
  have hstep : ∀ m, step w c.name args m = (match (generalizing := false) args with
      | dst :: ks => if isError m then w else put w dst (.here (combine op (ks.map (fun k => mems (w k))), 0))
      | _ => w) := by
    intro m
    rw [← ho]
    rcases hname with h | h | h <;> rw [h] <;> rfl
  have hse : ∀ e, step w c.name args (.error e) = w := by
    intro e; rw [hstep]; cases args <;> rfl
  rcases args with _ | ⟨d, _ | ⟨k, _ | ⟨k1, ks⟩⟩⟩
  · exact .err (e := .commandArgsNotEnough) (s' := s) (by rw [hc]; rfl) ((hfit _).mpr rfl) (by rw [hse]; exact hw.post)
  · exact .err (e := .commandArgsNotEnough) (s' := s) (by rw [hc]; rfl) ((hfit _).mpr rfl) (by rw [hse]; exact hw.post)
  · simp at hlen
  · obtain ⟨h1, h2, h3⟩ := opLoop_all (it := it) (op := op) ht hw k k1 ks
    have hrun : c.fn ext it s (d :: k :: k1 :: ks) = (do let (s, r) ← Store.sOpStore it (opFor op) s d (k :: k1 :: ks); intReply s r) := by
      rw [hc]; rfl
    rcases trouble_cases w (k :: k1 :: ks) with ht' | ht' | ht'
    · refine .err (e := .keyAndCommandNotMatch) (s' := s) ?_ ?_ (by rw [hse]; exact hw.post)
      · rw [hrun]; simp [Store.sOpStore, h1 ht', bind, Except.bind, intReply, retErr]
      · rw [hfit]; simp only [ht']; rfl
    · refine .err (e := .nil) (s' := s) ?_ ?_ (by rw [hse]; exact hw.post)
      · rw [hrun]; simp [Store.sOpStore, h2 ht', bind, Except.bind, intReply, retErr]
      · rw [hfit]; simp only [ht']; rfl
    · obtain ⟨a, h4, h5⟩ := h3 ht'
      refine .mk (s' := s.putNew d .set (.set a)) (r := newResponseWithInteger a.length) (m := .int a.length) ?_ (reply_int _) ?_ ?_
      · rw [hrun]; simp [Store.sOpStore, h4, bind, Except.bind, intReply, retOk]
      · rw [hfit]; simp only [ht']; rw [h5.len]; simp
      · rw [hstep]
        exact (hw.putNew ht h5 d).post

/-- the set commands and their functions -/
theorem set_runs {name : Bytes} (hname : name ∈ commands) (ht : Typed s) (hn : name = b! "smove" → NoShare s) (hw : SAll s w)
    (hone : ¬ (name ∈ setStores ∧ args.length = 2)) :
    ∃ c, lookupCmd name = some c ∧ c.name = name ∧ Runs c ext it s args w := by
  simp only [commands, List.mem_cons, List.not_mem_nil, or_false] at hname
  rcases hname with rfl | rfl | rfl | rfl | rfl | rfl | rfl | rfl | rfl | rfl | rfl | rfl | rfl
  · exact ⟨.sAdd, rfl, rfl, runs_sadd ht hw⟩
  · exact ⟨.sRem, rfl, rfl, runs_srem ht hw⟩
  · exact ⟨.sCard, rfl, rfl, runs_scard ht hw⟩
  · exact ⟨.sIsMember, rfl, rfl, runs_sismember ht hw⟩
  · exact ⟨.sMembers, rfl, rfl, runs_smembers ht hw⟩
  · exact ⟨.sPop, rfl, rfl, runs_spop ht hw⟩
  · exact ⟨.sMove, rfl, rfl, runs_smove ht (hn rfl) hw⟩
  · exact ⟨.sDiff, rfl, rfl, runs_sop (op := .diff) ht hw rfl rfl (.inl rfl)⟩
  · exact ⟨.sInter, rfl, rfl, runs_sop (op := .inter) ht hw rfl rfl (.inr (.inl rfl))⟩
  · exact ⟨.sUnion, rfl, rfl, runs_sop (op := .union) ht hw rfl rfl (.inr (.inr rfl))⟩
  · exact ⟨.sDiffStore, rfl, rfl, runs_sopstore (op := .diff) ht hw rfl rfl (.inl rfl) (fun h => hone ⟨by decide, h⟩)⟩
  · exact ⟨.sInterStore, rfl, rfl, runs_sopstore (op := .inter) ht hw rfl rfl (.inr (.inl rfl)) (fun h => hone ⟨by decide, h⟩)⟩
  · exact ⟨.sUnionStore, rfl, rfl, runs_sopstore (op := .union) ht hw rfl rfl (.inr (.inr rfl)) (fun h => hone ⟨by decide, h⟩)⟩

/-- what the specification says about commands of other families -/
theorem step_foreign {name : Bytes} (h : name ∉ commands) : step w name args m = fun k => foreign k (w k) name args m := by
  simp only [commands, List.mem_cons, List.not_mem_nil, or_false, not_or] at h
  obtain ⟨h1, h2, h3, h4, h5, h6, h7, h8, h9, h10, h11, h12, h13⟩ := h
  unfold step
  rw [if_neg h1, if_neg h2, if_neg h6, if_neg h7, if_neg]
  simp only [setStores, List.mem_cons, List.not_mem_nil, or_false, not_or]
  exact ⟨h11, h12, h13⟩

end Godis
