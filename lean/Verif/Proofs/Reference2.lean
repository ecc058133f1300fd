import Verif.Proofs.Reference
import Verif.Props.Rows
import Verif.Props.SetDefs
import Verif.Proofs.Shared
import Verif.Props.Hashes
import Verif.Props.Crash
/-! The server is the reference server. -/
namespace Godis
open Resp (Reply bulks)
open StrSpec (int64 lower isError decimal counters delta Wraps Ascii)
open ListSpec (errType errArgs Plain)
open RefSpec (World Holding Lib Outcome)
open ZSpec (words)

variable {ext : Ext} {it : Iter} {s s' : Store} {m : Reply} {W : World}

/-- the library functions of the reference server -/
def libOf (ext : Ext) : Lib := ⟨numOf ext, ext.glob⟩

/-- `o` is the outcome of executing the request -/
def Ends (ext : Ext) (it : Iter) (s : Store) (req : List Bytes) : Outcome → Prop
  | .reply m => ∃ s', Answers ext it s req m s'
  | .nothing => runRequest ext it s req = .ok (s, none)
  | .unwritable => ∃ s' rsp, runRequest ext it s req = .ok (s', some rsp) ∧ rsp.encode = .error .typeAssertion
  | .crash => Crashes ext it s req

theorem Ends.unique {req : List Bytes} {o o' : Outcome} (h : Ends ext it s req o) (h' : Ends ext it s req o') : o = o' := by
  cases o with
  | reply m =>
    obtain ⟨s1, rsp, h1, h2⟩ := h
    obtain ⟨b, hb, _⟩ := encode_denotes rsp m h2
    cases o' with
    | reply m' =>
      obtain ⟨s1', rsp', h1', h2'⟩ := h'
      rw [h1] at h1'; cases h1'
      rw [h2] at h2'; cases h2'
      rfl
    | nothing => rw [show runRequest ext it s req = _ from h'] at h1; cases h1
    | unwritable =>
      obtain ⟨s1', rsp', h1', h2'⟩ := h'
      rw [h1] at h1'; cases h1'
      rw [hb] at h2'; cases h2'
    | crash => obtain ⟨p, hp⟩ := h'; rw [hp] at h1; cases h1
  | nothing =>
    have h : runRequest ext it s req = .ok (s, none) := h
    cases o' with
    | reply m' => obtain ⟨s1', rsp', h1', h2'⟩ := h'; rw [h] at h1'; cases h1'
    | nothing => rfl
    | unwritable => obtain ⟨s1', rsp', h1', h2'⟩ := h'; rw [h] at h1'; cases h1'
    | crash => obtain ⟨p, hp⟩ := h'; rw [h] at hp; cases hp
  | unwritable =>
    obtain ⟨s1, rsp, h1, h2⟩ := h
    cases o' with
    | reply m' =>
      obtain ⟨s1', rsp', h1', h2'⟩ := h'
      rw [h1] at h1'; cases h1'
      obtain ⟨b, hb, _⟩ := encode_denotes rsp m' h2'
      rw [hb] at h2; cases h2
    | nothing => rw [show runRequest ext it s req = _ from h'] at h1; cases h1
    | unwritable => rfl
    | crash => obtain ⟨p, hp⟩ := h'; rw [h1] at hp; cases hp
  | crash =>
    obtain ⟨p, hp⟩ := h
    cases o' with
    | reply m' => obtain ⟨s1', rsp', h1', h2'⟩ := h'; rw [hp] at h1'; cases h1'
    | nothing => rw [show runRequest ext it s req = _ from h'] at hp; cases hp
    | unwritable => obtain ⟨s1', rsp', h1', h2'⟩ := h'; rw [hp] at h1'; cases h1'
    | crash => rfl

/-- the store holds what the world says -/
structure Tells (s : Store) (W : World) : Prop where
  string : ∀ k, viewOf s k = (W.holds k).string
  row : ∀ k, RMatch s k (W.holds k).row
  shared : Linked s W.shared
  zset : ZGood s (fun k => (W.holds k).zset)

theorem Tells.typed (h : Tells s W) : Typed s := h.shared.typed

theorem Tells.present (h : Tells s W) (k : Bytes) : (s.keys.get k).isSome = W.present k := by
  have := h.string k
  unfold viewOf at this
  unfold World.present
  cases hg : s.keys.get k with
  | none =>
    rw [hg] at this
    cases hh : W.holds k <;> rw [hh] at this <;> first | rfl | cases this
  | some info =>
    rw [hg] at this
    obtain ⟨t, v⟩ := info
    cases v <;> cases hh : W.holds k <;> rw [hh] at this <;> first | rfl | cases this

theorem Tells.typeName (h : Tells s W) (k : Bytes) : typeText s k = (W.holds k).typeName := by
  unfold typeText
  cases hh : W.holds k with
  | absent =>
    have := h.row k
    rw [hh] at this
    rw [show s.keys.get k = none from this]; rfl
  | text v =>
    have hv := h.string k
    rw [hh] at hv
    cases hg : s.keys.get k with
    | none => unfold viewOf at hv; rw [hg] at hv; cases hv
    | some info =>
      rcases h.typed.kind _ _ hg with ⟨v', rfl⟩ | ⟨r, o, rfl, _⟩
      · rfl
      · unfold viewOf at hv; rw [hg] at hv; cases hv
  | list c =>
    have := h.row k
    rw [hh] at this
    obtain ⟨o, ⟨r, hr, _⟩, _⟩ := this
    rw [hr]; rfl
  | set i =>
    have := h.shared.entry k
    have hn : W.shared.names k = .here i := by show (W.holds k).setName = _; rw [hh]; rfl
    rw [hn] at this
    generalize s.keys.get k = g at this
    cases this
    rfl
  | sorted z =>
    have := h.zset.all k
    simp only [hh] at this
    rcases valueAt_cases h.typed k with ⟨hg, hv⟩ | ⟨v, hg, hv⟩ | ⟨r, o, hg, ho, _, hv⟩
    · rw [kview, hv] at this; exact False.elim this
    · rw [kview, hv] at this; exact False.elim this
    · rw [kview, hv] at this
      by_cases hk : o.kind = .sortedSet
      · rw [hg]; show KeyType.text o.kind = _; rw [hk]; rfl
      · simp only [hk, if_false] at this; exact False.elim this

theorem wrong_iff (ht : Typed s) (k : Bytes) : Wrong s k ↔ viewOf s k = .coll := by
  unfold Wrong viewOf
  cases hg : s.keys.get k with
  | none => simp
  | some info =>
    rcases ht.kind _ _ hg with ⟨v, rfl⟩ | ⟨r, o, rfl, _⟩
    · simp
    · simp [Obj.kind_ne_string]

/-- the items of `MGET` -/
theorem mGet_exact (ht : Typed s) : ∀ ks : List Bytes, (∀ k ∈ ks, viewOf s k ≠ .coll) →
    ∃ vs, s.mGet ks = .ok vs ∧ vs.length = ks.length ∧
      itemReplies (vs.map (fun v => (⟨v.iface, .bulkStrings⟩ : Item))) = some (ks.map (fun k => StrSpec.getReply (viewOf s k)))
  | [], _ => ⟨[], rfl, rfl, rfl⟩
  | k :: ks, hw => by
    obtain ⟨vs, h1, hlen, h3⟩ := mGet_exact ht ks (fun k hk => hw k (by simp [hk]))
    rcases get_cases ht k with ⟨hg, hk⟩ | ⟨hw', hk⟩ | ⟨v, hg, hk⟩
    · refine ⟨.nil :: vs, by simp only [Store.mGet, hk, h1]; rfl, by simp [hlen], ?_⟩
      rw [List.map_cons, itemReplies, h3, List.map_cons, viewOf_none hg]; rfl
    · exact absurd ((wrong_iff ht k).mp hw') (hw k (by simp))
    · refine ⟨.str v :: vs, by simp only [Store.mGet, hk, h1]; rfl, by simp [hlen], ?_⟩
      rw [List.map_cons, itemReplies, h3, List.map_cons, viewOf_some_str hg]; rfl

section
variable {name n k : Bytes} {args rest : List Bytes} {c : Cmd}

theorem ends_ok (hl : lookupCmd (toLower ext.lowerUni name) = some c) {s' o} (hf : c.fn ext it s args = .ok (s', o))
    (hm : (setRsp o).reply = some m) : Ends ext it s (name :: args) (.reply m) :=
  ⟨s', (answers_iff hl).mpr ⟨o, hf, hm⟩⟩

theorem ends_mget (h : Tells s W) (hl : lookupCmd (toLower ext.lowerUni name) = some .mget) :
    (∃ k' ∈ k :: rest, (W.holds k').string = .coll) ∧ Ends ext it s (name :: k :: rest) .unwritable ∨
    (¬ ∃ k' ∈ k :: rest, (W.holds k').string = .coll) ∧
      Ends ext it s (name :: k :: rest) (.reply (.array ((k :: rest).map (fun k' => StrSpec.getReply (W.holds k').string)))) := by
  by_cases hw : ∃ k' ∈ k :: rest, (W.holds k').string = .coll
  · refine .inl ⟨hw, ?_⟩
    obtain ⟨k', hk', hc⟩ := hw
    have hw' : MGetWrongType ext s (name :: k :: rest) :=
      ⟨by rw [List.headD_cons, lookup_name hl]; rfl, k', hk', (wrong_iff h.typed k').mpr (by rw [h.string]; exact hc)⟩
    rcases run_cases (ext := ext) (it := it) h.typed (name :: k :: rest) with ⟨p, hp⟩ | ⟨h1, _⟩ | ⟨_, rsp, h2, h3, _⟩ | ⟨h1, _⟩
    · exfalso
      obtain ⟨vs, hv, _⟩ := mGet_items h.typed (k :: rest)
      have : Cmd.mget.fn ext it s (k :: rest) = .ok (s, .ok (bulkInterfaces true (vs.map (·.iface)))) := by
        simp only [Cmd.fn, cmdMGet, hv]; rfl
      simp only [runRequest, execute, newCommand, hl, this] at hp
      cases hp
    · cases h1
    · exact ⟨s, rsp, h2, h3⟩
    · exact absurd hw' h1
  · refine .inr ⟨hw, ?_⟩
    have hnc : ∀ k' ∈ k :: rest, viewOf s k' ≠ .coll := fun k' hk' hc => hw ⟨k', hk', by rw [← h.string]; exact hc⟩
    obtain ⟨vs, h1, hlen, h3⟩ := mGet_exact h.typed (k :: rest) hnc
    have hfn : Cmd.mget.fn ext it s (k :: rest) = .ok (s, .ok (bulkInterfaces true (vs.map (·.iface)))) := by
      simp only [Cmd.fn, cmdMGet, h1]; rfl
    refine ends_ok hl hfn ?_
    have hne : vs ≠ [] := by intro he; rw [he] at hlen; simp at hlen
    obtain ⟨w, ws, rfl⟩ := List.exists_cons_of_ne_nil hne
    simp only [h.string] at h3
    simp only [setRsp, bulkInterfaces, Response.reply, List.map_map, List.map_cons] at h3 ⊢
    have : (fun x => (⟨x, .bulkStrings⟩ : Item)) ∘ (fun x : Store.MGetItem => x.iface) = fun v => ⟨v.iface, .bulkStrings⟩ := rfl
    rw [this, h3]; rfl

theorem ends_counter (h : Tells s W) (hn : n ∈ counters) (hl : toLower ext.lowerUni name = n)
    (hr : n = s!! "incr" ∨ n = s!! "decr" ∨ rest ≠ []) :
    ∃ m, Ends ext it s (name :: k :: rest) (.reply m) ∧ RefSpec.Counter (W.holds k).string n (k :: rest) m := by
  unfold RefSpec.Counter
  cases hd : delta n (k :: rest) with
  | none =>
    dsimp only
    refine ⟨_, ?_, rfl⟩
    simp only [counters, List.mem_cons, List.not_mem_nil, or_false] at hn
    rcases hn with rfl | rfl | rfl | rfl
    · cases hd
    · rcases rest with _ | ⟨a, rest⟩
      · rcases hr with hr | hr | hr
        · exact absurd hr (by decide)
        · exact absurd hr (by decide)
        · exact absurd rfl hr
      · replace hd : int64 a = none := hd
        rw [int64_eq] at hd
        exact ends_ok (c := .incrBy) (by rw [hl]; rfl) (s' := s) (o := .error .notInteger) (by simp only [Cmd.fn, cmdIncrBy, hd, retErr]) rfl
    · cases hd
    · rcases rest with _ | ⟨a, rest⟩
      · rcases hr with hr | hr | hr
        · exact absurd hr (by decide)
        · exact absurd hr (by decide)
        · exact absurd rfl hr
      · replace hd : (int64 a).map (fun d => -d) = none := hd
        rw [int64_eq] at hd
        have hd : parseInt a = none := by
          cases h : parseInt a with
          | none => rfl
          | some => rw [h] at hd; cases hd
        exact ends_ok (c := .decrBy) (by rw [hl]; rfl) (s' := s) (o := .error .notInteger) (by simp only [Cmd.fn, cmdDecrBy, hd, retErr]) rfl
  | some d =>
    dsimp only
    obtain ⟨c, hlk, hfn⟩ := counter_run (ext := ext) (it := it) (s := s) hd
    have hlk : lookupCmd (toLower ext.lowerUni name) = some c := by rw [hl]; exact hlk
    rw [incrBy_run h.typed, h.string] at hfn
    cases hv : (W.holds k).string with
    | absent =>
      rw [hv] at hfn
      refine ⟨.int (wrap64 d), ends_ok hlk hfn rfl, ?_⟩
      rw [if_neg nofun]
      exact ⟨wrap64 d, rfl, by rw [Int.zero_add]; exact wraps_wrap64 d⟩
    | coll =>
      rw [hv] at hfn
      refine ⟨errType, ends_ok hlk hfn rfl, ?_⟩
      rw [if_pos rfl]
    | str t =>
      rw [hv] at hfn
      dsimp only at hfn
      have hi' : RefSpec.StrCount (.str t) = int64 t := rfl
      simp only [reduceCtorEq, if_false, hi']
      cases hi : int64 t with
      | none =>
        rw [hi] at hfn
        exact ⟨RefSpec.errInt, ends_ok hlk hfn rfl, rfl⟩
      | some j =>
        rw [hi] at hfn
        refine ⟨.int (wrap64 (j + wrap64 d)), ends_ok hlk hfn rfl, _, rfl, ?_⟩
        rw [wraps_iff]
        clear hfn
        unfold wrap64; omega

theorem ends_append (h : Tells s W) (hl : lookupCmd (toLower ext.lowerUni name) = some .stringAppend) :
    Ends ext it s (name :: k :: rest) (.reply (if rest = [] then errArgs else if (W.holds k).string = .coll then errType
      else .int ((W.holds k).asText ++ rest.headD []).length)) := by
  rcases rest with _ | ⟨a, rest⟩
  · exact ends_ok hl (s' := s) (o := .error .commandArgsNotEnough) rfl rfl
  · rw [if_neg nofun]
    have hr := append_run (k := k) h.typed a
    rw [h.string] at hr
    have hfn : Cmd.stringAppend.fn ext it s (k :: a :: rest) = (s.append k a).bind (fun p => intReply p.1 p.2) := rfl
    rw [hr] at hfn
    cases hh : W.holds k with
    | absent => rw [hh] at hfn; exact ends_ok hl hfn (by simp [Holding.string, Holding.asText, setRsp])
    | text v => rw [hh] at hfn; exact ends_ok hl hfn (by simp [Holding.string, Holding.asText, setRsp])
    | list v => rw [hh] at hfn; exact ends_ok hl hfn rfl
    | set v => rw [hh] at hfn; exact ends_ok hl hfn rfl
    | sorted v => rw [hh] at hfn; exact ends_ok hl hfn rfl

end

theorem ends_basic (h : Tells s W) {name : Bytes} {args : List Bytes} (ha : Ascii name) (hn : lower name ∈ RefSpec.basicCommands) :
    ∃ o, Ends ext it s (name :: args) o ∧ RefSpec.Basic (libOf ext) W (lower name) args o := by
  have hlow : toLower ext.lowerUni name = lower name := lower_eq ha
  generalize lower name = n at hn hlow
  have hl : ∀ {c : Cmd}, lookupCmd n = some c → lookupCmd (toLower ext.lowerUni name) = some c := fun hc => by rw [hlow]; exact hc
  have notEnough : ∀ {c : Cmd}, lookupCmd n = some c → c.fn ext it s [] = .ok (s, .error .commandArgsNotEnough) →
      Ends ext it s [name] (.reply errArgs) := fun hc hf => ends_ok (hl hc) hf rfl
  have same : ∀ {req}, Ascii n → runRequest ext it s (name :: req) = runRequest ext it s (n :: req) := fun {req} hA => by
    refine C16_case_insensitive ext it s req ha ?_
    have e1 : lower name = n := by rw [← hlow, lower_eq ha]
    have e2 : lower n = n := by
      rw [← e1]; clear * -
      unfold lower
      rw [List.map_map]
      apply List.map_congr_left
      intro c _
      have : c.toNat < 256 := c.toNat_lt
      simp only [Function.comp]
      split
      · next h =>
        rw [if_neg]
        have : (c + 32).toNat = c.toNat + 32 := by rw [UInt8.toNat_add]; simp; omega
        omega
      · rfl
    rw [e1, e2]
  have sameA : ∀ {req m s'}, Ascii n → Answers ext it s (n :: req) m s' → Ends ext it s (name :: req) (.reply m) := by
    rintro req m s' hA ⟨rsp, h1, h2⟩
    exact ⟨s', rsp, by rw [same hA]; exact h1, h2⟩
  unfold RefSpec.basicCommands at hn
  simp only [List.mem_cons, List.not_mem_nil, or_false] at hn
  rcases hn with rfl | rfl | rfl | rfl | rfl | rfl | rfl | rfl | rfl | rfl | rfl | rfl | rfl | rfl | rfl
  · -- set
    rcases args with _ | ⟨k, _ | ⟨v, rest⟩⟩
    · exact ⟨_, notEnough rfl rfl, rfl⟩
    · exact ⟨_, ends_ok (hl rfl) (s' := s) (o := .error .commandArgsNotEnough) rfl rfl, rfl⟩
    · exact ⟨_, ends_ok (hl rfl) (c := .set) (m := .simple (s!! "OK")) rfl rfl, rfl⟩
  · -- mset
    refine ⟨_, ?_, rfl⟩
    by_cases hlen : args.length = 1
    · rw [if_pos hlen]
      exact ends_ok (hl rfl) (c := .mSet) (s' := s) (o := .error .commandArgsNotEnough)
        (by show cmdMSet ext it s args = _; unfold cmdMSet; rw [if_pos (by omega)]; rfl) rfl
    · rw [if_neg hlen]
      exact ends_ok (hl rfl) (c := .mSet) (s' := s.mSet args) (o := .ok (newResponseWithSimpleString respOK))
        (by show cmdMSet ext it s args = _; unfold cmdMSet; rw [if_neg (by omega)]; rfl) rfl
  · -- get
    rcases args with _ | ⟨k, rest⟩
    · exact ⟨_, notEnough rfl rfl, rfl⟩
    · refine ⟨_, sameA (by unfold Ascii; decide) ((get_answers (rest := rest) (k := k) h.typed).mpr ⟨rfl, rfl⟩), ?_⟩
      rw [h.string]; rfl
  · -- mget
    rcases args with _ | ⟨k, rest⟩
    · exact ⟨_, notEnough rfl rfl, rfl⟩
    · rcases ends_mget (ext := ext) (it := it) (k := k) (rest := rest) h (hl rfl) with ⟨h1, h2⟩ | ⟨h1, h2⟩
      · refine ⟨_, h2, ?_⟩
        show if ∃ k' ∈ k :: rest, (W.holds k').string = .coll then _ else _
        rw [if_pos h1]
      · refine ⟨_, h2, ?_⟩
        show if ∃ k' ∈ k :: rest, (W.holds k').string = .coll then _ else _
        rw [if_neg h1]
  · -- incr
    rcases args with _ | ⟨k, rest⟩
    · exact ⟨_, notEnough rfl rfl, rfl⟩
    · obtain ⟨m, h1, h2⟩ := ends_counter (ext := ext) (it := it) (k := k) (rest := rest) h (by decide) hlow (.inl rfl)
      exact ⟨_, h1, m, rfl, h2⟩
  · -- incrby
    rcases args with _ | ⟨k, _ | ⟨d, rest⟩⟩
    · exact ⟨_, notEnough rfl rfl, rfl⟩
    · exact ⟨_, ends_ok (hl rfl) (s' := s) (o := .error .commandArgsNotEnough) rfl rfl, rfl⟩
    · obtain ⟨m, h1, h2⟩ := ends_counter (ext := ext) (it := it) (k := k) (rest := d :: rest) h (by decide) hlow (.inr (.inr nofun))
      exact ⟨_, h1, m, rfl, h2⟩
  · -- decr
    rcases args with _ | ⟨k, rest⟩
    · exact ⟨_, notEnough rfl rfl, rfl⟩
    · obtain ⟨m, h1, h2⟩ := ends_counter (ext := ext) (it := it) (k := k) (rest := rest) h (by decide) hlow (.inr (.inl rfl))
      exact ⟨_, h1, m, rfl, h2⟩
  · -- decrby
    rcases args with _ | ⟨k, _ | ⟨d, rest⟩⟩
    · exact ⟨_, notEnough rfl rfl, rfl⟩
    · exact ⟨_, ends_ok (hl rfl) (s' := s) (o := .error .commandArgsNotEnough) rfl rfl, rfl⟩
    · obtain ⟨m, h1, h2⟩ := ends_counter (ext := ext) (it := it) (k := k) (rest := d :: rest) h (by decide) hlow (.inr (.inr nofun))
      exact ⟨_, h1, m, rfl, h2⟩
  · -- append
    rcases args with _ | ⟨k, rest⟩
    · exact ⟨_, notEnough rfl rfl, rfl⟩
    · exact ⟨_, ends_append h (hl rfl), rfl⟩
  · -- keys
    rcases args with _ | ⟨p, rest⟩
    · exact ⟨_, notEnough rfl rfl, rfl⟩
    · show ∃ o : Outcome, _ ∧ (match ext.glob p with
        | none => o = .crash
        | some g => ∃ l : List Bytes, o = .reply (bulks l) ∧ l.Nodup ∧ ∀ k', k' ∈ l ↔ W.present k' = true ∧ g k' = true)
      cases hg : ext.glob p with
      | none =>
        refine ⟨.crash, ?_, rfl⟩
        obtain ⟨q, hq⟩ := (C19_keys_partial (ext := ext) (it := it) (s := s) p rest).mpr hg
        exact ⟨q, by rw [same (by unfold Ascii; decide)]; exact hq⟩
      | some g =>
        refine ⟨_, sameA (by unfold Ascii; decide) ((keys_answers (rest := rest) hg).mpr ⟨rfl, rfl⟩), _, rfl,
          (SMap.entries_keys_nodup it s.keys h.typed.wf).filter _, fun k => ?_⟩
        rw [List.mem_filter, SMap.mem_keys it _ h.typed.wf, ← h.present]
  · -- exists
    rcases args with _ | ⟨k, rest⟩
    · exact ⟨_, notEnough rfl rfl, rfl⟩
    · refine ⟨_, sameA (by unfold Ascii; decide) ((exists_answers (rest := rest) (k := k)).mpr ⟨rfl, rfl⟩), ?_⟩
      rw [h.present]; rfl
  · -- del
    rcases args with _ | ⟨k, rest⟩
    · exact ⟨_, notEnough rfl rfl, rfl⟩
    · refine ⟨_, sameA (by unfold Ascii; decide) ((del_answers (rest := rest) (k := k)).mpr ⟨rfl, rfl⟩), ?_⟩
      rw [h.present]; rfl
  · -- type
    rcases args with _ | ⟨k, rest⟩
    · exact ⟨_, notEnough rfl rfl, rfl⟩
    · refine ⟨_, sameA (by unfold Ascii; decide) ((type_answers (rest := rest) (k := k)).mpr ⟨rfl, rfl⟩), ?_⟩
      rw [h.typeName]; rfl
  · exact ⟨_, ends_ok (hl rfl) (c := .ping) (m := .simple (s!! "PONG")) rfl rfl, rfl⟩
  · exact ⟨_, ends_ok (hl rfl) (c := .command) (m := .simple (s!! "COMMAND")) rfl rfl, rfl⟩

/-- the outcome of a request fits the reference server -/
theorem ends_fits {rng : Rng} {tr : List (List Bytes × Reply)} (h : Trace ext (Store.init rng) tr s) (hp : ∀ p ∈ tr, Plain p.1)
    {req : List Bytes} (hw : words tr + req.length < 2 ^ 60) (hT : Tells s W)
    (hz : (fun k => (W.holds k).zset) = ZSpec.after (numOf ext) tr) (hq : Plain req) :
    ∃ o, Ends ext it s req o ∧ RefSpec.Fits (libOf ext) (∃ i, 30 < rng i) W req o := by
  have hs : Reachable ext s := ⟨rng, tr, h⟩
  rcases req with _ | ⟨name, args⟩
  · exact ⟨.nothing, rfl, rfl⟩
  have hA : Ascii name := hq.1 name rfl
  unfold RefSpec.Fits
  dsimp only
  by_cases c1 : lower name ∈ RowSpec.commands
  · simp only [if_pos c1]
    have hr := row_request (ext := ext) (it := it) (s := s) (args := args) (look := fun k => (W.holds k).row) c1 hq (fun k _ => hT.row k)
    generalize RowSpec.answer (fun k => (W.holds k).row) (lower name) args = o at hr ⊢
    cases o with
    | reply m => exact ⟨.reply m, hr, rfl⟩
    | crash => exact ⟨.crash, ⟨_, hr⟩, rfl⟩
  simp only [if_neg c1]
  by_cases c2 : lower name ∈ SetSpec.commands
  · simp only [if_pos c2]
    obtain ⟨h1, h2⟩ := hT.shared.fits (ext := ext) (args := args) hA c2
    obtain ⟨m, s', ha⟩ := h1 it
    exact ⟨.reply m, ⟨s', ha⟩, m, rfl, h2 it m s' ha⟩
  simp only [if_neg c2]
  by_cases c3 : lower name ∈ ZSpec.commands
  · simp only [if_pos c3]
    have hnm : ¬ MGetWrongType ext s (name :: args) := by
      rintro ⟨h1, _⟩
      rw [List.headD_cons, lower_eq hA] at h1
      rw [h1] at c3
      exact absurd c3 (by decide)
    rcases run_cases (ext := ext) (it := it) hT.typed (name :: args) with hc | ⟨h1, _⟩ | ⟨h1, _⟩ | ⟨_, m, s', ha⟩
    · refine ⟨.crash, hc, ?_⟩
      show (∃ i, 30 < rng i) ∨ _
      by_cases ht : ∃ i, 30 < rng i
      · exact .inl ht
      have hr : ∀ i, rng i ≤ 30 := fun i => by by_contra hh; exact ht ⟨i, by omega⟩
      refine .inr ?_
      have hrr : lower name ∈ RefSpec.rangeReaders := by
        by_contra hno
        refine C19_zset_commands_partial hr h (name :: args) ?_ hc
        rw [List.headD_cons, lower_eq hA]
        have : ∀ n ∈ ZSpec.commands, n ∉ RefSpec.rangeReaders → n ∉ [b! "keys", b! "lpush", b! "lpop", b! "rpush", b! "rpop", b! "lrange", b! "lrem",
          b! "lindex", b! "lset", b! "linsert", b! "zrange", b! "zrangebyscore", b! "zrevrange"] := by decide
        exact this _ c3 hno
      refine ⟨hrr, ?_⟩
      by_contra hno
      refine C19_zset_readers_partial (tr := tr) ⟨⟨rng, h⟩, fun p hp' => (hp p hp').1, by omega⟩ hA ?_ ?_ ?_ hc
      · have : ∀ n ∈ RefSpec.rangeReaders, n ∈ [b! "zscore", b! "zrank", b! "zcard", b! "zcount", b! "zrange", b! "zrangebyscore", b! "zrevrange"] := by decide
        exact this _ hrr
      · intro k hk hd
        rw [← hz] at hd
        exact hno ⟨k, hk, hd⟩
      · simp only [List.length_cons] at hw; omega
    · cases h1
    · exact absurd h1 hnm
    · refine ⟨.reply m, ⟨s', ha⟩, ?_⟩
      refine (hT.zset.step hq.1 (fun k => ?_) ha).2 c3
      rw [show (W.holds k).zset = ZSpec.after (numOf ext) tr k from congrFun hz k]
      have := zlen_after ext tr k
      omega
  simp only [if_neg c3]
  by_cases c4 : lower name ∈ HashSpec.commands
  · simp only [if_pos c4]
    refine ⟨_, ?_, rfl⟩
    have hh : Reads ext s (name :: args) (HashSpec.reply (refloat ext) (args.head?.any W.present) (lower name) args) := by
      refine C31_hash_partial hs c4 (fun k hk it => ?_)
      rw [exists_answers, hT.present, hk]
      exact ⟨rfl, rfl⟩
    exact ⟨s, hh it⟩
  simp only [if_neg c4]
  by_cases c5 : lower name ∈ RefSpec.basicCommands
  · simp only [if_pos c5]
    exact ends_basic hT hA c5
  · simp only [if_neg c5]
    refine ⟨.reply (.error (s!! "unknown command key")), ⟨s, C15_unknown s args hA ?_ it⟩, rfl⟩
    intro hm
    have : ∀ n ∈ KeySpec.minArgs.map (·.1), n ∈ RowSpec.commands ++ SetSpec.commands ++ ZSpec.commands ++ HashSpec.commands ++ RefSpec.basicCommands := by
      decide +kernel
    have := this _ hm
    simp only [List.mem_append] at this
    tauto

/-- replies do not depend on `tall` -/
theorem fits_tall {L : Lib} {tall tall' : Prop} {req : List Bytes} (h : RefSpec.Fits L tall W req (.reply m)) : RefSpec.Fits L tall' W req (.reply m) := by
  rcases req with _ | ⟨name, args⟩
  · exact h
  · exact h

theorem ref_snoc (L : Lib) (tr : List (List Bytes × Reply)) (p : List Bytes × Reply) :
    RefSpec.after L (tr ++ [p]) = RefSpec.step L (RefSpec.after L tr) (lower (p.1.headD [])) p.1.tail p.2 := by
  simp [RefSpec.after, List.foldl_append]

/-- the store after a history is the reference server's world -/
theorem Trace.reference {rng : Rng} {tr : List (List Bytes × Reply)} (h : Trace ext (Store.init rng) tr s) (hp : ∀ p ∈ tr, Plain p.1)
    (hw : words tr < 2 ^ 60) :
    Tells s (RefSpec.after (libOf ext) tr) ∧
    (fun k => ((RefSpec.after (libOf ext) tr).holds k).zset) = ZSpec.after (numOf ext) tr ∧ RefSpec.Correct (libOf ext) tr := by
  induction h with
  | nil =>
    refine ⟨⟨fun k => rfl, fun k => rfl, ?_, ?_⟩, rfl, .nil⟩
    · exact linked_init rng
    · exact zgood_init rng
  | @snoc tr s it req m s' h0 ha ih =>
    rw [ZSpec.words, List.map_append, List.sum_append] at hw
    have hw' : words tr + req.length < 2 ^ 60 := by simpa [ZSpec.words] using hw
    obtain ⟨hT, hz, hc⟩ := ih (fun p hp' => hp p (by simp [hp'])) (by omega)
    have hq : Plain req := hp (req, m) (by simp)
    obtain ⟨o, he, hf⟩ := ends_fits (it := it) h0 (fun p hp' => hp p (by simp [hp'])) hw' hT hz hq
    obtain rfl : o = .reply m := he.unique ⟨s', ha⟩
    have hA := hq.1
    obtain ⟨name, args, rfl, hcs⟩ := ha.cases
    have hag := RefSpec.agrees hf
    rw [ref_snoc]
    show Tells s' (RefSpec.step (libOf ext) _ (lower name) args m) ∧ (fun k => ((RefSpec.step (libOf ext) _ (lower name) args m).holds k).zset) = _ ∧ _
    have hz' : (fun k => ((RefSpec.step (libOf ext) (RefSpec.after (libOf ext) tr) (lower name) args m).holds k).zset) =
        ZSpec.after (numOf ext) (tr ++ [(name :: args, m)]) := by
      rw [zsets_snoc, hag.zset, hz]; rfl
    refine ⟨⟨fun k => ?_, fun k => ?_, ?_, ?_⟩, hz', .snoc hc ?_⟩
    · have : StrSpec.Next k (viewOf s k) (lower name) args m (viewOf s' k) := by
        rcases hcs with ⟨hl, rfl, rfl⟩ | ⟨c, o, hl, hfn, hm⟩
        · exact rfl
        · have := next_view hT.typed hfn hm k
          rw [← lookup_name hl, lower_eq (hA name rfl)] at this
          exact this
      rw [hT.string] at this
      exact hag.string k _ this
    · rw [hag.row]
      exact ha.rmatch hT.typed hT.zset.ns hq (hT.row k)
    · rw [hag.shared]
      exact hT.shared.step hA ha
    · rw [hag.zset]
      refine (hT.zset.step hA (fun k => ?_) ha).1
      rw [show ((RefSpec.after (libOf ext) tr).holds k).zset = ZSpec.after (numOf ext) tr k from congrFun hz k]
      have := zlen_after ext tr k
      omega
    · exact fits_tall hf

end Godis
