import Verif.Proofs.Strings
/-! The replies of the string and key commands, computed from views. -/
namespace Godis
open Resp (Reply bulks dec sdec)
open StrSpec

theorem answers_iff {ext it s name args m s'} {c : Cmd} (hl : lookupCmd (toLower ext.lowerUni name) = some c) :
    Answers ext it s (name :: args) m s' ↔ ∃ o, c.fn ext it s args = .ok (s', o) ∧ (setRsp o).reply = some m := by
  constructor
  · intro h
    obtain ⟨name', args', he, h⟩ := h.cases
    cases he
    rcases h with ⟨hn, _⟩ | ⟨c', o, hc, hf, hm⟩
    · rw [hl] at hn; cases hn
    · rw [hl] at hc; cases hc; exact ⟨o, hf, hm⟩
  · rintro ⟨o, hf, hm⟩
    refine ⟨setRsp o, ?_, hm⟩
    simp only [runRequest, newCommand, execute, hl, hf, bind, Except.bind]

theorem Answers.unique {ext it s req m s' m' s''} (h : Answers ext it s req m s') (h' : Answers ext it s req m' s'') :
    m' = m ∧ s'' = s' := by
  obtain ⟨r, h1, h2⟩ := h
  obtain ⟨r', h1', h2'⟩ := h'
  rw [h1] at h1'; cases h1'
  rw [h2] at h2'; cases h2'; exact ⟨rfl, rfl⟩

theorem next_unique {k : Bytes} {v : View} {name : Bytes} {args : List Bytes} {m : Reply} {v1 v2 : View}
    (h1 : Next k v name args m v1) (h2 : Next k v name args m v2) : v1 = v2 := by
  unfold Next at h1 h2
  split at h1
  · rw [h1, h2]
  · next hm =>
    repeat' split at h1
    all_goals
      first
      | (simp_all; done)
      | (simp_all only [if_true, if_false]
         obtain ⟨a, ha, rfl⟩ := h1; obtain ⟨b, hb, rfl⟩ := h2
         simp_all)

theorem holds_unique {k : Bytes} {tr v1 v2} (h1 : Holds k tr v1) (h2 : Holds k tr v2) : v1 = v2 := by
  generalize hl : tr.length = n
  induction n generalizing tr v1 v2 with
  | zero =>
    obtain rfl := List.length_eq_zero_iff.mp hl
    have nil_inv : ∀ {tr v}, Holds k tr v → tr = [] → v = .absent := by
      intro tr v h he
      cases h with
      | nil => rfl
      | snoc => simp at he
    rw [nil_inv h1 rfl, nil_inv h2 rfl]
  | succ n ih =>
    cases h1 with
    | nil => simp at hl
    | @snoc tr1 w1 name1 args1 m1 _ a1 b1 =>
      generalize htr : tr1 ++ [(name1 :: args1, m1)] = tr at h2
      cases h2 with
      | nil => simp at htr
      | @snoc tr2 w2 name2 args2 m2 _ a2 b2 =>
        obtain ⟨rfl, h⟩ := List.append_inj' htr rfl
        cases h
        have := ih a1 a2 (by simpa using hl)
        subst this
        exact next_unique b1 b2

theorem holds_trace {ext rng tr s} (h : Trace ext (Store.init rng) tr s)
    (hn : ∀ p ∈ tr, ∀ name ∈ p.1.head?, Ascii name) (k : Bytes) : Holds k tr (viewOf s k) := by
  induction h with
  | nil => exact .nil
  | @snoc tr s it req m s' ht ha ih =>
    have ih := ih (fun p hp => hn p (by simp [hp]))
    have hty := ht.typed (typed_init rng)
    obtain ⟨name, args, rfl, hc⟩ := ha.cases
    have hname : Ascii name := hn (name :: args, m) (by simp) name (by simp)
    refine .snoc ih ?_
    rw [← lower_eq (uni := ext.lowerUni) hname]
    rcases hc with ⟨_, rfl, rfl⟩ | ⟨c, o, hl, hf, hm⟩
    · exact next_error
    · rw [lookup_name hl]; exact next_view hty hf hm k

section
variable {ext : Ext} {it : Iter} {s s' : Store} {m : Reply} {k : Bytes} {rest : List Bytes}

theorem get_fn (ht : Typed s) : ∃ o, cmdGet ext it s (k :: rest) = .ok (s, o) ∧
    (setRsp o).reply = some (getReply (viewOf s k)) := by
  simp only [cmdGet, Store.get, viewOf, bind, Except.bind]
  cases hg : s.keys.get k with
  | none => exact ⟨_, rfl, rfl⟩
  | some info =>
    rcases ht.kind _ _ hg with ⟨v, rfl⟩ | ⟨r, o, rfl, ho, _⟩
    · exact ⟨_, rfl, rfl⟩
    · simp only [ne_eq, Obj.kind_ne_string, not_false_eq_true, if_true]
      exact ⟨_, rfl, rfl⟩

theorem get_answers (ht : Typed s) :
    Answers ext it s (b! "get" :: k :: rest) m s' ↔ m = getReply (viewOf s k) ∧ s' = s := by
  rw [answers_iff (c := .get) rfl]
  obtain ⟨o, ho, hr⟩ := get_fn (ext := ext) (it := it) (k := k) (rest := rest) ht
  simp only [Cmd.fn, ho]
  constructor
  · rintro ⟨o', h, hm⟩; cases h; rw [hr] at hm; cases hm; exact ⟨rfl, rfl⟩
  · rintro ⟨rfl, rfl⟩; exact ⟨o, rfl, hr⟩

theorem wraps_wrap64 (j : Int) : Wraps (wrap64 j) j := by
  refine ⟨wrap64_range j, ?_⟩
  unfold wrap64; omega

theorem wraps_iff {i j : Int} : Wraps i j ↔ i = wrap64 j := by
  constructor
  · rintro ⟨⟨h1, h2⟩, h3⟩; unfold wrap64; omega
  · rintro rfl; exact wraps_wrap64 j

theorem incrBy_run (ht : Typed s) (d : Int) : s.incrBy k d = .ok (match viewOf s k with
    | .absent => (s.set k (formatInt d), d, none)
    | .str t => match int64 t with
      | none => (s, 0, some .notInteger)
      | some n => (s.set k (formatInt (wrap64 (n + d))), wrap64 (n + d), none)
    | .coll => (s, 0, some .keyAndCommandNotMatch)) := by
  simp only [Store.incrBy, viewOf, int64_eq]
  cases hg : s.keys.get k with
  | none => rfl
  | some info =>
    rcases ht.kind _ _ hg with ⟨v, rfl⟩ | ⟨r, o, rfl, ho, _⟩
    · simp only [ne_eq, not_true_eq_false, if_false]
      cases parseInt v <;> rfl
    · simp only [ne_eq, Obj.kind_ne_string, not_false_eq_true, if_true]

theorem counter_lookup {name : Bytes} {args d} (hd : delta (lower name) args = some d) :
    ∃ c : Cmd, lookupCmd (lower name) = some c ∧ (c = .incr ∨ c = .incrBy ∨ c = .decr ∨ c = .decrBy) := by
  unfold delta at hd
  split at hd
  · next h => rw [h]; exact ⟨_, rfl, by simp⟩
  split at hd
  · next h => rw [h]; exact ⟨_, rfl, by simp⟩
  split at hd
  · next h => rw [h]; exact ⟨_, rfl, by simp⟩
  split at hd
  · next h => rw [h]; exact ⟨_, rfl, by simp⟩
  · cases hd

theorem ascii_of_lower {name c : Bytes} (h : lower name = c) (hc : Ascii c) : Ascii name := by
  intro x hx
  have hm : (if 65 ≤ x.toNat ∧ x.toNat ≤ 90 then x + 32 else x) ∈ c := by
    rw [← h]; exact List.mem_map_of_mem hx
  have := hc _ hm
  split at this
  · omega
  · exact this

theorem counter_run {d : Int} {name : Bytes} (hd : delta name (k :: rest) = some d) :
    ∃ c : Cmd, lookupCmd name = some c ∧
      c.fn ext it s (k :: rest) = (s.incrBy k (wrap64 d)).bind (fun p => intReply p.1 p.2) := by
  unfold delta at hd
  split at hd
  · next h => subst h; cases hd; exact ⟨_, rfl, rfl⟩
  split at hd
  · next h => subst h; cases hd; exact ⟨_, rfl, rfl⟩
  split at hd
  · next h =>
    subst h
    refine ⟨_, rfl, ?_⟩
    cases rest with
    | nil => cases hd
    | cons a rest =>
      replace hd : int64 a = some d := hd
      rw [int64_eq] at hd
      have := parseInt_range hd
      simp only [Cmd.fn, cmdIncrBy, hd, wrap64_of_range _ this.1 this.2]; rfl
  split at hd
  · next h =>
    subst h
    refine ⟨_, rfl, ?_⟩
    cases rest with
    | nil => cases hd
    | cons a rest =>
      replace hd : (int64 a).map (fun d => -d) = some d := hd
      rw [int64_eq] at hd
      cases hp : parseInt a with
      | none => rw [hp] at hd; cases hd
      | some d' =>
        rw [hp] at hd; cases hd
        simp only [Cmd.fn, cmdDecrBy, hp]; rfl
  · cases hd

theorem counter_bad {name : Bytes} {args : List Bytes} (hn : name ∈ counters) (hd : delta name args = none) :
    ∃ c : Cmd, lookupCmd name = some c ∧ ∃ e, c.fn ext it s args = .ok (s, .error e) := by
  simp only [counters, List.mem_cons, List.not_mem_nil, or_false] at hn
  rcases hn with rfl | rfl | rfl | rfl
  · cases hd
  · refine ⟨_, rfl, ?_⟩
    rcases args with _ | ⟨k, _ | ⟨a, rest⟩⟩
    · exact ⟨_, rfl⟩
    · exact ⟨_, rfl⟩
    · replace hd : int64 a = none := hd
      rw [int64_eq] at hd
      exact ⟨_, by simp only [Cmd.fn, cmdIncrBy, hd, retErr]; rfl⟩
  · cases hd
  · refine ⟨_, rfl, ?_⟩
    rcases args with _ | ⟨k, _ | ⟨a, rest⟩⟩
    · exact ⟨_, rfl⟩
    · exact ⟨_, rfl⟩
    · replace hd : (int64 a).map (fun d => -d) = none := hd
      rw [int64_eq] at hd
      have hd : parseInt a = none := by
        cases h : parseInt a with
        | none => rfl
        | some => rw [h] at hd; cases hd
      exact ⟨_, by simp only [Cmd.fn, cmdDecrBy, hd, retErr]; rfl⟩

theorem set_view (s : Store) (k v k' : Bytes) : viewOf (s.set k v) k' = if k' = k then .str v else viewOf s k' :=
  viewOf_set s k v k' _ _

theorem append_run (ht : Typed s) (a : Bytes) : s.append k a = .ok (match viewOf s k with
    | .absent => (s.set k a, (a.length : Int), none)
    | .str t => (s.set k (t ++ a), ((t.length + a.length : Nat) : Int), none)
    | .coll => (s, 0, some .keyAndCommandNotMatch)) := by
  simp only [Store.append, viewOf]
  cases hg : s.keys.get k with
  | none => rfl
  | some info =>
    rcases ht.kind _ _ hg with ⟨v, rfl⟩ | ⟨r, o, rfl, ho, _⟩
    · simp only [ne_eq, not_true_eq_false, if_false]; rfl
    · simp only [ne_eq, Obj.kind_ne_string, not_false_eq_true, if_true]

end

/-! ## frame on the key table -/

theorem Change.keys_frame {ext c args N} {s s' : Store} (h : Change ext c args N s s') (ht : Typed s) {k : Bytes}
    (hk : k ∉ N) : s'.keys.get k = s.keys.get k := by
  cases h with
  | str _ h => simp only [SMap.get_set]; rw [if_neg (by rintro rfl; exact hk h)]
  | del _ h => simp only [SMap.get_del _ _ _ ht.wf]; rw [if_neg (by rintro rfl; exact hk h)]
  | new h => simp only [SMap.get_set]; rw [if_neg (by rintro rfl; exact hk h)]
  | write => rfl
  | «alias» _ _ h => simp only [SMap.get_set]; rw [if_neg (by rintro rfl; exact hk h)]

theorem Eff.keys_frame {ext c args N} {s s' : Store} (h : Eff ext c args N s s') (ht : Typed s) {k : Bytes}
    (hk : k ∉ N) : s'.keys.get k = s.keys.get k := by
  induction h with
  | refl => rfl
  | step h _ ih => rw [ih (h.typed ht), h.keys_frame ht hk]

/-- one step of a counter's life -/
theorem counter_step {ext it s req m s' k n} (ht : Typed s) (ha : Answers ext it s req m s')
    (hascii : ∀ name ∈ req.head?, Ascii name)
    (hok : ∀ name args, req = name :: args → k ∈ KeySpec.keyArgs (lower name) args →
      lower name ∈ counters ∨ lower name ∈ KeySpec.readOnly)
    (hv : CountsAs (getReply (viewOf s k)) n) :
    CountsAs (getReply (viewOf s' k)) (wrap64 (n + contrib k (req, m))) := by
  have hn : wrap64 (n + 0) = n := by
    have : -2 ^ 63 ≤ n ∧ n < 2 ^ 63 := by
      rcases hv with ⟨_, rfl⟩ | ⟨t, _, h⟩
      · omega
      · rw [int64_eq] at h; exact parseInt_range h
    rw [Int.add_zero]; exact wrap64_of_range _ this.1 this.2
  obtain ⟨name, args, rfl, hc⟩ := ha.cases
  have hname : ∀ uni, toLower uni name = lower name := fun uni => lower_eq (hascii name (by simp))
  rw [hname] at hc
  rcases hc with ⟨_, rfl, rfl⟩ | ⟨c, o, hl, hf, hm⟩
  · have : contrib k (name :: args, Reply.error Err.unknownCommand.msg) = 0 := by
      cases args <;> simp [contrib, isError]
    rw [this, hn]; exact hv
  · by_cases hkm : k ∈ KeySpec.keyArgs (lower name) args
    · rcases hok name args rfl hkm with hcn | hro
      · -- a counter command on k
        have : ∃ rest, args = k :: rest := by
          revert hkm
          generalize lower name = l at hcn
          simp only [counters, List.mem_cons, List.not_mem_nil, or_false] at hcn
          cases args with
          | nil => rcases hcn with rfl | rfl | rfl | rfl <;> intro h <;> cases h
          | cons a rest =>
            rcases hcn with rfl | rfl | rfl | rfl <;> intro h <;> exact ⟨rest, by rw [List.mem_singleton.mp h]⟩
        obtain ⟨rest, rfl⟩ := this
        cases hd : delta (lower name) (k :: rest) with
        | none =>
          obtain ⟨c', hl', e, hf'⟩ := counter_bad (ext := ext) (it := it) (s := s) hcn hd
          rw [hl] at hl'; cases hl'
          rw [hf] at hf'; cases hf'
          have : contrib k (name :: k :: rest, m) = 0 := by simp [contrib, hd]
          rw [this, hn]; exact hv
        | some d =>
          obtain ⟨c', hl', hf'⟩ := counter_run (ext := ext) (it := it) (s := s) hd
          rw [hl] at hl'; cases hl'
          rw [hf, incrBy_run ht] at hf'
          have key : s.incrBy k (wrap64 d) = .ok (s.set k (formatInt (wrap64 (n + d))), wrap64 (n + d), none) := by
            rw [incrBy_run ht]
            cases hvv : viewOf s k with
            | absent =>
              rw [hvv] at hv
              rcases hv with ⟨_, rfl⟩ | ⟨t, h, _⟩
              · simp
              · cases h
            | str t =>
              rw [hvv] at hv
              rcases hv with ⟨h, _⟩ | ⟨t', h, h2⟩
              · cases h
              · cases h; simp only [h2]
                have : wrap64 (n + wrap64 d) = wrap64 (n + d) := by unfold wrap64; omega
                rw [this]
            | coll =>
              rw [hvv] at hv
              rcases hv with ⟨h, _⟩ | ⟨t', h, h2⟩ <;> cases h
          rw [← incrBy_run ht, key] at hf'
          cases hf'
          cases hm
          have : contrib k (name :: k :: rest, Reply.int (wrap64 (n + d))) = d := by simp [contrib, hd, isError]
          rw [this, set_view, if_pos rfl]
          refine .inr ⟨_, rfl, ?_⟩
          rw [int64_eq]
          exact parseInt_formatInt _ (wrap64_range _).1 (wrap64_range _).2
      · -- a read
        have hnx := next_view ht hf hm k
        rw [← lookup_name hl] at hnx
        have hnx' : Next k (viewOf s k) (lower name) args m (viewOf s k) := by
          apply next_same
          revert hro; generalize lower name = l
          intro h
          simp only [KeySpec.readOnly, List.mem_cons, List.not_mem_nil, or_false] at h
          rcases h with rfl|rfl|rfl|rfl|rfl|rfl|rfl|rfl|rfl|rfl|rfl|rfl|rfl|rfl|rfl|rfl|rfl|rfl|rfl|rfl|rfl|rfl|rfl|
            rfl|rfl|rfl|rfl|rfl|rfl|rfl <;> decide
        rw [next_unique hnx hnx']
        have : contrib k (name :: args, m) = 0 := by
          have hd : delta (lower name) args = none := by
            revert hro; generalize lower name = l
            intro h
            simp only [KeySpec.readOnly, List.mem_cons, List.not_mem_nil, or_false] at h
            rcases h with rfl|rfl|rfl|rfl|rfl|rfl|rfl|rfl|rfl|rfl|rfl|rfl|rfl|rfl|rfl|rfl|rfl|rfl|rfl|rfl|rfl|rfl|rfl|
              rfl|rfl|rfl|rfl|rfl|rfl|rfl <;> rfl
          cases args <;> simp [contrib, hd]
        rw [this, hn]; exact hv
    · -- another key
      have he := fn_eff c ht hf
      rw [← lookup_name hl] at he
      have hvk : viewOf s' k = viewOf s k := by
        unfold viewOf; rw [he.keys_frame ht hkm]
      have : contrib k (name :: args, m) = 0 := by
        cases args with
        | nil => simp [contrib]
        | cons a rest =>
          by_cases ha : a = k ∧ ¬ isError m
          · simp only [contrib, if_pos ha]
            cases hd : delta (lower name) (a :: rest) with
            | none => rfl
            | some d =>
              exfalso; apply hkm
              obtain ⟨rfl, _⟩ := ha
              revert hd; generalize lower name = l; intro hd
              unfold delta at hd
              split at hd
              · next h => subst h; exact List.mem_singleton.mpr rfl
              split at hd
              · next h => subst h; exact List.mem_singleton.mpr rfl
              split at hd
              · next h => subst h; exact List.mem_singleton.mpr rfl
              split at hd
              · next h => subst h; exact List.mem_singleton.mpr rfl
              · cases hd
          · simp only [contrib, if_neg ha]
      rw [this, hn, hvk]; exact hv

end Godis
