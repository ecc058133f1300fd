import Verif.Proofs.Keys
import Verif.Props.Play
/-!
# C12–C18: keys, types, errors, frames
-/
namespace Godis
open Resp (Reply bulks)
open StrSpec (lower Ascii getReply isError)

/-- the server's names for the types (TYPE) -/
def typeName : KeySpec.Kind → Bytes
  | .string => b! "string"
  | .list => b! "list"
  | .set => b! "setIfNotExists"
  | .hash => b! "hashTable"
  | .zset => b! "sortedSet"

theorem typeName_eq (kd : KeySpec.Kind) : typeName kd = (kindTag kd).text := by cases kd <;> rfl

theorem text_inj {a b : KeyType} (h : a.text = b.text) : a = b := by
  cases a <;> cases b <;> first | rfl | (exact absurd h (by decide))

/-- C12.  EXISTS replies 0 or 1.  It replies 0 exactly if TYPE replies `none`, exactly if GET replies nil.
DEL replies what EXISTS would have replied, afterwards the key does not exist, and the value under every other key is
what it was. -/
theorem C12_exists_del {ext s} (hs : Reachable ext s) (k : Bytes) (rest rest' : List Bytes) :
    ∃ b : Int, (b = 0 ∨ b = 1) ∧ Reads ext s (b! "exists" :: k :: rest) (.int b) ∧
      (b = 0 ↔ Reads ext s [b! "type", k] (.simple (b! "none"))) ∧
      (b = 0 ↔ Reads ext s [b! "get", k] (.bulk none)) ∧
      (b = 0 ↔ s.valueAt k = none) ∧
      ∀ it, ∃ s', Answers ext it s (b! "del" :: k :: rest') (.int b) s' ∧
        Reads ext s' [b! "exists", k] (.int 0) ∧ Reads ext s' [b! "type", k] (.simple (b! "none")) ∧
        Reads ext s' [b! "get", k] (.bulk none) ∧
        ∀ k', k' ≠ k → s'.valueAt k' = s.valueAt k' := by
  have ht := hs.typed
  refine ⟨if (s.keys.get k).isSome then 1 else 0, by split <;> simp, fun it => exists_answers.mpr ⟨rfl, rfl⟩,
    ?_, ?_, ?_, fun it => ⟨⟨(s.keys.deleteIfExists k).1, s.heap, s.rng⟩, del_answers.mpr ⟨rfl, rfl⟩, ?_⟩⟩
  · simp only [Reads, type_answers, and_true]
    cases hg : s.keys.get k with
    | none => simp [typeText, hg]
    | some info =>
      simp only [typeText, hg, Option.isSome_some, if_true]
      obtain ⟨t, v⟩ := info
      cases t <;> exact ⟨fun h => absurd h (by decide), fun h => absurd (h it0) (by simp [KeyType.text])⟩
  · simp only [Reads, get_answers ht, and_true]
    cases hg : s.keys.get k with
    | none => simp [viewOf, hg, getReply]
    | some info =>
      obtain ⟨t, v⟩ := info
      cases v <;> simp only [viewOf, hg, getReply, Option.isSome_some, if_true] <;>
        exact ⟨fun h => absurd h (by decide), fun h => absurd (h it0) (by simp)⟩
  · rcases valueAt_cases ht k with ⟨h, h2⟩ | ⟨v, h, h2⟩ | ⟨r, o, h, _, _, h2⟩ <;> simp [h, h2]
  · have ht' : Typed ⟨(s.keys.deleteIfExists k).1, s.heap, s.rng⟩ := by
      refine ⟨ht.wf.deleteIfExists k, fun k' i hh => ?_⟩
      rw [SMap.get_deleteIfExists _ ht.wf] at hh
      split at hh
      · cases hh
      · exact ht.kind _ _ hh
    have hn : (s.keys.deleteIfExists k).1.get k = none := by rw [SMap.get_deleteIfExists _ ht.wf, if_pos rfl]
    refine ⟨fun it => exists_answers.mpr ⟨by simp only [hn]; rfl, rfl⟩, fun it => type_answers.mpr ⟨by simp only [typeText, hn], rfl⟩,
      fun it => (get_answers ht').mpr ⟨by simp only [viewOf, hn, getReply], rfl⟩, fun k' hk => ?_⟩
    unfold Store.valueAt
    simp only [SMap.get_deleteIfExists _ ht.wf, if_neg hk]

/-- C12.  TYPE tells which family of commands accepts the key: `string` exactly if GET replies a text, `list`,
`setIfNotExists`, `sortedSet` exactly if the key exists and LLEN, SCARD, ZCARD do not refuse it.  No key ever has
another type. -/
theorem C12_type {ext s} (hs : Reachable ext s) (k : Bytes) :
    ∃ t, Reads ext s [b! "type", k] (.simple t) ∧
      (t = b! "none" ∨ t = b! "string" ∨ t = b! "list" ∨ t = b! "setIfNotExists" ∨ t = b! "sortedSet") ∧
      (t = b! "string" ↔ ∃ v, Reads ext s [b! "get", k] (.bulk (some v))) ∧
      (t = b! "list" ↔ Reads ext s [b! "exists", k] (.int 1) ∧ ∃ n, Reads ext s [b! "llen", k] (.int n)) ∧
      (t = b! "setIfNotExists" ↔ Reads ext s [b! "exists", k] (.int 1) ∧ ∃ n, Reads ext s [b! "scard", k] (.int n)) ∧
      (t = b! "sortedSet" ↔ Reads ext s [b! "exists", k] (.int 1) ∧ ∃ n, Reads ext s [b! "zcard", k] (.int n)) := by
  have ht := hs.typed
  refine ⟨typeText s k, fun it => type_answers.mpr ⟨rfl, rfl⟩, ?_⟩
  have key : ∀ {c : Cmd} {name : Bytes} {P : Prop} (hl : lookupCmd (toLower ext.lowerUni name) = some c),
      ((∃ n : Int, ∀ it, c.fn ext it s [k] = .ok (s, .ok (newResponseWithInteger n))) ∧ P ∨
        (∃ e, ∀ it, c.fn ext it s [k] = .ok (s, .error e)) ∧ ¬ P) →
      ((∃ n, Reads ext s [name, k] (.int n)) ↔ P) := by
    intro c name P hl h
    rcases h with ⟨⟨n, h⟩, hP⟩ | ⟨⟨e, h⟩, hP⟩
    · exact ⟨fun _ => hP, fun _ => ⟨n, fun it => (answers_iff hl).mpr ⟨_, h it, rfl⟩⟩⟩
    · refine ⟨fun ⟨n, hn⟩ => ?_, fun h => absurd h hP⟩
      obtain ⟨o, h1, h2⟩ := (answers_iff hl).mp (hn it0)
      rw [h it0] at h1; cases h1
      rw [setRsp_error] at h2; cases h2
  have hget : (∃ v, Reads ext s [b! "get", k] (.bulk (some v))) ↔ ∃ v, viewOf s k = .str v := by
    simp only [Reads, get_answers ht, and_true]
    constructor
    · rintro ⟨v, hv⟩
      have := hv it0
      cases hvv : viewOf s k <;> rw [hvv] at this <;> cases this
      exact ⟨_, rfl⟩
    · rintro ⟨v, hv⟩; exact ⟨v, fun _ => by rw [hv]; rfl⟩
  have hex : Reads ext s [b! "exists", k] (.int 1) ↔ (s.keys.get k).isSome := by
    simp only [Reads, exists_answers, and_true]
    cases s.keys.get k with
    | none => exact ⟨fun h => absurd (h it0) (by simp), fun h => by cases h⟩
    | some => exact ⟨fun _ => rfl, fun _ _ => rfl⟩
  rw [hget, hex]
  have hll : (∃ n, Reads ext s [b! "llen", k] (.int n)) ↔ (s.keys.get k = none ∨ typeText s k = b! "list") := by
    refine key (c := .lLen) rfl ?_
    simp only [Cmd.fn, cmdLLen, Store.lLen, bind, Except.bind]
    rcases loadList_cases ht k false with ⟨hg, hl⟩ | ⟨info, hg, hty, hl⟩ | ⟨a, l, hg, ho, hl⟩ <;> simp only [hl]
    · exact .inl ⟨⟨0, fun _ => rfl⟩, .inl hg⟩
    · refine .inr ⟨⟨_, fun _ => rfl⟩, ?_⟩
      simp only [hg, typeText, reduceCtorEq, false_or]
      exact fun h => hty (text_inj (b := .list) h)
    · exact .inl ⟨⟨l.length, fun _ => rfl⟩, .inr (by simp only [typeText, hg]; rfl)⟩
  have hsc : (∃ n, Reads ext s [b! "scard", k] (.int n)) ↔ (s.keys.get k = none ∨ typeText s k = b! "setIfNotExists") := by
    refine key (c := .sCard) rfl ?_
    simp only [Cmd.fn, cmdSCard, Store.sCard, bind, Except.bind]
    rcases loadSet_cases ht k true with ⟨hg, hl⟩ | ⟨info, hg, hty, hl⟩ | ⟨a, l, hg, ho, hl⟩ <;> simp only [hl]
    · exact .inl ⟨⟨0, fun _ => rfl⟩, .inl hg⟩
    · refine .inr ⟨⟨_, fun _ => rfl⟩, ?_⟩
      simp only [hg, typeText, reduceCtorEq, false_or]
      exact fun h => hty (text_inj (b := .set) h)
    · by_cases h0 : (true && l.length == 0) = true
      · simp only [h0, if_true]
        exact .inl ⟨⟨0, fun _ => rfl⟩, .inr (by simp only [typeText, hg]; rfl)⟩
      · simp only [if_neg h0]
        exact .inl ⟨⟨l.length, fun _ => rfl⟩, .inr (by simp only [typeText, hg]; rfl)⟩
  have hzc : (∃ n, Reads ext s [b! "zcard", k] (.int n)) ↔ (s.keys.get k = none ∨ typeText s k = b! "sortedSet") := by
    refine key (c := .zCard) rfl ?_
    simp only [Cmd.fn, cmdZCard, Store.zCard, bind, Except.bind]
    rcases loadZSet_cases ht k true with ⟨hg, hl⟩ | ⟨info, hg, hty, hl⟩ | ⟨a, l, hg, ho, hl⟩ <;> simp only [hl]
    · exact .inl ⟨⟨0, fun _ => rfl⟩, .inl hg⟩
    · refine .inr ⟨⟨_, fun _ => rfl⟩, ?_⟩
      simp only [hg, typeText, reduceCtorEq, false_or]
      exact fun h => hty (text_inj (b := .sortedSet) h)
    · by_cases h0 : (true && l.zsl.length == 0) = true
      · simp only [h0, if_true]
        exact .inl ⟨⟨0, fun _ => rfl⟩, .inr (by simp only [typeText, hg]; rfl)⟩
      · simp only [if_neg h0]
        exact .inl ⟨⟨l.zsl.length, fun _ => rfl⟩, .inr (by simp only [typeText, hg]; rfl)⟩
  rw [hll, hsc, hzc]
  rcases valueAt_cases ht k with ⟨h, h2⟩ | ⟨v, h, h2⟩ | ⟨r, o, h, _, hk, h2⟩
  · have : typeText s k = b! "none" := by simp only [typeText, h]
    rw [this]; simp [h, viewOf]
  · have : typeText s k = b! "string" := by simp only [typeText, h]; rfl
    rw [this]; simp [h, viewOf]
  · have : typeText s k = o.kind.text := by simp only [typeText, h]
    rw [this]
    cases o <;> simp [h, viewOf, Obj.kind, KeyType.text] at hk ⊢

/-- C12, TYPE does not name the type of a set: the reply for a set key is `setIfNotExists`. -/
theorem C12_type_violated :
    replies [[b! "sadd", b! "s", b! "a"], [b! "type", b! "s"]] = some [.int 1, .simple (b! "setIfNotExists")] := by
  decide +kernel

/-- C13.  If the glob library accepts the pattern (compiling it to the matcher `g`), KEYS replies, in some order, each
existing key that matches exactly once, and nothing else; and changes nothing. -/
theorem C13_keys {ext s} (hs : Reachable ext s) {p : Bytes} {g : Bytes → Bool} (hg : ext.glob p = some g) (it : Iter)
    (rest : List Bytes) :
    ∃ ks, Answers ext it s (b! "keys" :: p :: rest) (bulks ks) s ∧ ks.Nodup ∧
      ∀ k, k ∈ ks ↔ Reads ext s [b! "exists", k] (.int 1) ∧ g k = true := by
  have ht := hs.typed
  refine ⟨(s.keys.keys it).filter g, (keys_answers hg).mpr ⟨rfl, rfl⟩,
    (SMap.entries_keys_nodup it s.keys ht.wf).filter _, fun k => ?_⟩
  rw [List.mem_filter, SMap.mem_keys it _ ht.wf]
  simp only [Reads, exists_answers, and_true]
  cases s.keys.get k with
  | none => simp only [Option.isSome_none]; exact ⟨fun h => absurd h.1 (by decide), fun h => absurd (h.1 it0) (by simp)⟩
  | some => simp

/-- Commands for which C14 fails (see `C14_violated`). -/
def c14Exceptions : List Bytes := [b! "hgetall", b! "zpopmin", b! "zpopmax", b! "lindex"]

/-- C14, for all typed commands but `HGETALL`, `ZPOPMIN`, `ZPOPMAX`, `LINDEX`, and except one-key
`SDIFF`/`SINTER`/`SUNION`.  On a key of another type the command is refused and the store is unchanged; the error is the
type error, or else an error about the arguments that every store would give. -/
theorem C14_wrong_type_partial {ext s} (_hs : Reachable ext s) {k name t : Bytes} {kd : KeySpec.Kind} (rest : List Bytes)
    (hn : (name, kd) ∈ KeySpec.typed) (hex : name ∉ c14Exceptions)
    (h1 : name ∈ [b! "sdiff", b! "sinter", b! "sunion"] → rest ≠ [])
    (hty : Reads ext s [b! "type", k] (.simple t)) (hne : t ≠ b! "none") (hkd : t ≠ typeName kd) (it : Iter) :
    ∃ e, Answers ext it s (name :: k :: rest) (.error e) s ∧
      (e = b! "key type and command not match" ∨ ∀ s2, Answers ext it s2 (name :: k :: rest) (.error e) s2) := by
  have htt := (type_answers.mp (hty it)).1
  cases hg : s.keys.get k with
  | none => simp only [typeText, hg] at htt; cases htt; exact absurd rfl hne
  | some info =>
    simp only [typeText, hg] at htt
    cases htt
    have hinfo : info.type ≠ kindTag kd := fun h => hkd (by rw [h, typeName_eq])
    have key : ∀ {c : Cmd}, lookupCmd (toLower ext.lowerUni name) = some c → Refused ext it s c.fn (k :: rest) →
        ∃ e, Answers ext it s (name :: k :: rest) (.error e) s ∧
          (e = b! "key type and command not match" ∨ ∀ s2, Answers ext it s2 (name :: k :: rest) (.error e) s2) := by
      rintro c hl ⟨e, h, h'⟩
      refine ⟨e.msg, (answers_iff hl).mpr ⟨_, h, setRsp_error e⟩, ?_⟩
      rcases h' with rfl | h'
      · exact .inl rfl
      · exact .inr fun s2 => (answers_iff hl).mpr ⟨_, h' s2, setRsp_error e⟩
    simp only [KeySpec.typed, List.mem_cons, Prod.mk.injEq, List.not_mem_nil, or_false] at hn
    rcases hn with h|h|h|h|h|h|h|h|h|h|h|h|h|h|h|h|h|h|h|h|h|h|h|h|h|h|h|h|h|h|h|h|h|h|h|h|h|h|h|h|h|h|h|h|h|h|h|h|h|h|h <;>
    obtain ⟨rfl, rfl⟩ := h <;>
    first
    | exact absurd (by decide) hex
    | exact key (c := .get) rfl (wrongType_string _ (by decide) hg hinfo rest)
    | exact key (c := .incr) rfl (wrongType_string _ (by decide) hg hinfo rest)
    | exact key (c := .incrBy) rfl (wrongType_string _ (by decide) hg hinfo rest)
    | exact key (c := .decr) rfl (wrongType_string _ (by decide) hg hinfo rest)
    | exact key (c := .decrBy) rfl (wrongType_string _ (by decide) hg hinfo rest)
    | exact key (c := .stringAppend) rfl (wrongType_string _ (by decide) hg hinfo rest)
    | exact key rfl (wrongType_list _ (by decide) hg hinfo rest)
    | exact key rfl (wrongType_set _ (by decide) hg hinfo rest)
    | exact key rfl (wrongType_sop _ (by decide) hg hinfo rest (h1 (by decide)))
    | exact key rfl (wrongType_hash _ (by decide) hg hinfo rest)
    | exact key rfl (wrongType_zset _ (by decide) hg hinfo rest)

/-- C14 fails in full: HGETALL, ZPOPMIN, one-key SUNION do not reply the type error; LINDEX looks at the wrong key;
SMOVE to a key of another type takes the member out of the source before it refuses. -/
theorem C14_violated :
    replies [[b! "set", b! "k", b! "v"], [b! "hgetall", b! "k"], [b! "zpopmin", b! "k"], [b! "sunion", b! "k"],
        [b! "lindex", b! "k", b! "0"]] =
      some [.simple (b! "OK"), .bulk none, .array [], .array [], .bulk none] ∧
    replies [[b! "set", b! "k", b! "v"], [b! "sadd", b! "s", b! "a", b! "b"], [b! "smove", b! "s", b! "k", b! "a"],
        [b! "sismember", b! "s", b! "a"]] =
      some [.simple (b! "OK"), .int 2, .error (b! "key type and command not match"), .int 0] := by
  decide +kernel

/-- C15: an unknown command name is refused without effect. -/
theorem C15_unknown {ext} (s : Store) {name : Bytes} (args : List Bytes) (ha : Ascii name)
    (hn : lower name ∉ KeySpec.minArgs.map (·.1)) (it : Iter) :
    Answers ext it s (name :: args) (.error (b! "unknown command key")) s := by
  have hl : lookupCmd (toLower ext.lowerUni name) = none := by
    rw [lower_eq ha]
    revert hn; generalize lower name = l; intro hn
    rw [lookupCmd, GoMap.get_eq_none]
    exact hn
  refine ⟨newResponseWithError (b! "unknown command key"), ?_, rfl⟩
  simp only [runRequest, newCommand, execute, hl, bind, Except.bind]
  rfl

/-- C15: fewer arguments than the command needs (but for MSET): refused without effect. -/
theorem C15_arity_partial {ext} (s : Store) {name : Bytes} {n : Nat} (args : List Bytes)
    (hn : (lower name, n) ∈ KeySpec.minArgs) (hm : lower name ≠ b! "mset") (hlen : args.length < n) (it : Iter) :
    Answers ext it s (name :: args) (.error (b! "command args not enough")) s := by
  have hascii : Ascii name := by
    refine ascii_of_lower rfl ?_
    have : ∀ p ∈ KeySpec.minArgs, Ascii p.1 := by unfold Ascii; decide
    exact this _ hn
  have hlow : ∀ uni, toLower uni name = lower name := fun uni => lower_eq hascii
  have key : ∀ {c : Cmd}, lookupCmd (lower name) = some c → c.fn ext it s args = notEnough s →
      Answers ext it s (name :: args) (.error (b! "command args not enough")) s := by
    intro c hl h
    rw [← hlow ext.lowerUni] at hl
    exact (answers_iff hl).mpr ⟨_, h, rfl⟩
  revert hm hn key; generalize lower name = l; intro hn hm key
  simp only [KeySpec.minArgs, List.mem_cons, Prod.mk.injEq, List.not_mem_nil, or_false] at hn
  rcases args with _ | ⟨a, _ | ⟨b, _ | ⟨c, _ | ⟨d, args⟩⟩⟩⟩ <;>
  rcases hn with h|h|h|h|h|h|h|h|h|h|h|h|h|h|h|h|h|h|h|h|h|h|h|h|h|h|h|h|h|h|h|h|h|h|h|h|h|h|h|h|h|h|h|h|h|h|h|h|h|h|h|h|
    h|h|h|h|h|h|h|h|h|h|h <;>
  obtain ⟨rfl, rfl⟩ := h <;>
  first
  | (exfalso; simp only [List.length_cons, List.length_nil] at hlen; omega)
  | (exfalso; exact hm rfl)
  | exact key rfl rfl

/-- C15 fails for MSET: without arguments, or with a key without a value, it replies OK. -/
theorem C15_mset_violated :
    replies [[b! "mset"], [b! "mset", b! "a", b! "1", b! "b"], [b! "get", b! "b"]] =
      some [.simple (b! "OK"), .simple (b! "OK"), .bulk none] := by decide +kernel

/-- C16.  Two spellings of a command name that differ only in the case of ASCII letters behave the same: same reply (or
crash) and same store. -/
theorem C16_case_insensitive (ext : Ext) (it : Iter) (s : Store) {name1 name2 : Bytes} (args : List Bytes)
    (h1 : Ascii name1) (h : lower name1 = lower name2) :
    runRequest ext it s (name1 :: args) = runRequest ext it s (name2 :: args) := by
  have h2 : Ascii name2 := by
    refine ascii_of_lower rfl ?_
    rw [← h]
    intro c hc
    obtain ⟨x, hx, rfl⟩ := List.mem_map.mp hc
    have hx := h1 x hx
    split
    · next hr =>
      have : (x + 32).toNat = x.toNat + 32 := by
        rw [UInt8.toNat_add]; have : (32 : UInt8).toNat = 32 := rfl
        omega
      omega
    · exact hx
  simp only [runRequest, newCommand, lower_eq h1, lower_eq h2, h]

/-- C17.  A command that only inspects data leaves the whole store as it was. -/
theorem C17_reads_change_nothing {ext it s name args m s'} (hn : lower name ∈ KeySpec.readOnly)
    (h : Answers ext it s (name :: args) m s') : s' = s := by
  have hascii : Ascii name := by
    refine ascii_of_lower rfl ?_
    have : ∀ p ∈ KeySpec.readOnly, Ascii p := by unfold Ascii; decide
    exact this _ hn
  obtain ⟨name', args', he, hc⟩ := h.cases
  cases he
  rcases hc with ⟨_, h, _⟩ | ⟨c, o, hl, hf, _⟩
  · exact h
  · rw [lower_eq hascii] at hl
    refine read_same c ?_ hf
    have hcn := lookup_name hl
    revert hn; rw [hcn]; clear * -
    cases c <;> decide

/-- Requests that make two keys share one object: S*STORE with one source key. -/
def oneSourceStore : List Bytes → Prop
  | name :: args => lower name ∈ [b! "sdiffstore", b! "sinterstore", b! "sunionstore"] ∧ args.length = 2
  | [] => False

instance : DecidablePred oneSourceStore
  | _ :: _ => inferInstanceAs (Decidable (_ ∧ _))
  | [] => inferInstanceAs (Decidable False)

theorem noShare_step {ext it s req m s'} (hs : Typed s) (hn : NoShare s) (ha : Answers ext it s req m s')
    (hascii : ∀ name ∈ req.head?, Ascii name) (hok : ¬ oneSourceStore req) : NoShare s' := by
  obtain ⟨name, args, rfl, hc⟩ := ha.cases
  rcases hc with ⟨_, rfl, _⟩ | ⟨c, o, hl, hf, _⟩
  · exact hn
  · rw [lower_eq (hascii name (by simp))] at hl
    refine (fn_eff c hs hf).noShare hs hn ?_
    rintro ⟨hc, hlen⟩
    refine hok ⟨?_, hlen⟩
    rw [lookup_name hl]
    rcases hc with rfl | rfl | rfl <;> decide

theorem noShare_of_trace {ext rng tr s} (h : Trace ext (Store.init rng) tr s)
    (hok : ∀ p ∈ tr, (∀ name ∈ p.1.head?, Ascii name) ∧ ¬ oneSourceStore p.1) : NoShare s := by
  induction h with
  | nil => exact noShare_init rng
  | @snoc tr s it req m s' ht ha ih =>
    exact noShare_step (ht.typed (typed_init rng)) (ih fun p hp => hok p (by simp [hp])) ha
      (hok (req, m) (by simp)).1 (hok (req, m) (by simp)).2

/-- C18, for servers that never executed S*STORE with exactly one source key.  Through any further history in which no
request names `k`, the value under `k` stays the same. -/
theorem C18_frame_partial {ext s tr s'}
    (hs : ReachableBy ext (fun req => (∀ name ∈ req.head?, Ascii name) ∧ ¬ oneSourceStore req) s)
    (h : Trace ext s tr s') {k : Bytes}
    (hok : ∀ p ∈ tr, (∀ name ∈ p.1.head?, Ascii name) ∧ ¬ oneSourceStore p.1)
    (hk : ∀ p ∈ tr, ∀ name args, p.1 = name :: args → k ∉ KeySpec.keyArgs (lower name) args) :
    s'.valueAt k = s.valueAt k := by
  obtain ⟨rng, tr0, h0, hok0⟩ := hs
  have ht0 := h0.typed (typed_init rng)
  have hn0 := noShare_of_trace h0 hok0
  have : Typed s' ∧ NoShare s' ∧ s'.valueAt k = s.valueAt k := by
    induction h with
    | nil => exact ⟨ht0, hn0, rfl⟩
    | @snoc tr s1 it req m s2 ht ha ih =>
      obtain ⟨i1, i2, i3⟩ := ih (fun p hp => hok p (by simp [hp])) (fun p hp => hk p (by simp [hp]))
      have hr := hok (req, m) (by simp)
      refine ⟨ha.typed i1, noShare_step i1 i2 ha hr.1 hr.2, ?_⟩
      rw [← i3]
      have hk := hk (req, m) (by simp)
      obtain ⟨name, args, rfl, hc⟩ := ha.cases
      rcases hc with ⟨_, rfl, _⟩ | ⟨c, o, hl, hf, _⟩
      · rfl
      · rw [lower_eq (hr.1 name (by simp))] at hl
        have := fn_eff c i1 hf
        rw [← lookup_name hl] at this
        exact this.value_frame i1 i2 (hk name args rfl)
  exact this.2.2

/-- The value under a key is all that read commands can see of it: on two stores that agree on the keys a read command
names (whatever else they contain), it gives the same reply. -/
theorem C18_value_is_all_that_is_seen {ext it s1 s2 name args m} (h1 : Reachable ext s1) (h2 : Reachable ext s2)
    (hn : lower name ∈ KeySpec.readOnly) (hk : lower name ≠ b! "keys") (hli : lower name ≠ b! "lindex")
    (hv : ∀ k ∈ KeySpec.keyArgs (lower name) args, s1.valueAt k = s2.valueAt k)
    (h : Answers ext it s1 (name :: args) m s1) : Answers ext it s2 (name :: args) m s2 := by
  have hascii : Ascii name := by
    refine ascii_of_lower rfl ?_
    have : ∀ p ∈ KeySpec.readOnly, Ascii p := by unfold Ascii; decide
    exact this _ hn
  obtain ⟨name', args', he, hc⟩ := h.cases
  cases he
  rcases hc with ⟨hl, _, _⟩ | ⟨c, o, hl, hf, hm⟩
  · rw [lower_eq hascii] at hl
    revert hn hl; generalize lower name = l
    intro hn hl
    have : ∀ l ∈ KeySpec.readOnly, lookupCmd l ≠ none := by decide
    exact absurd hl (this l hn)
  · rw [answers_iff hl]
    rw [lower_eq hascii] at hl
    have hcn := lookup_name hl
    rw [hcn] at hn hk hli hv
    have hcm : c ∈ [Cmd.get, .mget, .exists, .keyType, .ping, .command, .lLen, .lRange, .sCard, .sDiff,
      .sInter, .sUnion, .sIsMember, .sMembers, .hExists, .hGet, .hGetAll, .hKeys, .hLen, .hMGet, .hVals, .zScore,
      .zRank, .zCard, .zCount, .zRange, .zRangeByScore, .zRevRange] := by
      revert hn hk hli; clear * -; cases c <;> decide
    have := read_congr (ext := ext) (it := it) c hcm h1.typed h2.typed hv
    rw [hf] at this
    cases h2f : c.fn ext it s2 args with
    | error e => rw [h2f] at this; cases this
    | ok p =>
      obtain ⟨s3, o3⟩ := p
      rw [h2f] at this; cases this
      have : s3 = s2 := read_same c (by
        revert hcm; clear * -; cases c <;> decide) h2f
      subst this
      exact ⟨_, rfl, hm⟩

/-- C18 fails in full: SUNIONSTORE with one source makes the two keys share one set, so SADD to one changes the
other. -/
theorem C18_shared_set_violated :
    replies [[b! "sadd", b! "a", b! "x"], [b! "sunionstore", b! "b", b! "a"], [b! "sadd", b! "b", b! "y"],
        [b! "sismember", b! "a", b! "y"]] = some [.int 1, .int 1, .int 1, .int 1] := by decide +kernel

/-! ## The hypotheses are met -/

/-- keys of all types, and a deletion -/
def keyDemo : List (List Bytes) :=
  [[b! "SET", b! "a", b! "1"], [b! "rpush", b! "l", b! "x", b! "y"], [b! "Sadd", b! "s", b! "m"],
   [b! "zadd", b! "z", b! "2", b! "q"], [b! "set", b! "d", b! "1"], [b! "del", b! "d"], [b! "sadd", b! "s2", b! "n"],
   [b! "sunionstore", b! "u", b! "s", b! "s2"]]

example : replies (keyDemo ++ [[b! "type", b! "a"], [b! "type", b! "l"], [b! "type", b! "z"], [b! "type", b! "d"],
      [b! "llen", b! "z"], [b! "zrange", b! "l", b! "0", b! "x"], [b! "incrby", b! "s", b! "foo"]]) =
    some [.simple (b! "OK"), .int 2, .int 1, .int 1, .simple (b! "OK"), .int 1, .int 1, .int 2, .simple (b! "string"),
      .simple (b! "list"), .simple (b! "sortedSet"), .simple (b! "none"), .error (b! "key type and command not match"),
      .error (b! "key type and command not match"), .error (b! "value is not an integer or out of range")] := by
  decide +kernel
example : ∀ req ∈ keyDemo, (∀ name ∈ req.head?, Ascii name) ∧ ¬ oneSourceStore req := by
  unfold Ascii; decide
example : ∃ s, ReachableBy ext0 (fun req => (∀ name ∈ req.head?, Ascii name) ∧ ¬ oneSourceStore req) s ∧
    (s.valueAt (b! "u")).isSome := by
  cases h : play ext0 it0 (Store.init rng0) keyDemo with
  | none => exact absurd h (by decide +kernel)
  | some p =>
    obtain ⟨tr, s⟩ := p
    refine ⟨s, ⟨rng0, tr, play_trace h, fun p hp => ?_⟩, ?_⟩
    · have : ∀ req ∈ keyDemo, (∀ name ∈ req.head?, Ascii name) ∧ ¬ oneSourceStore req := by
          unfold Ascii; decide
      exact this p.1 (play_fst h ▸ List.mem_map_of_mem hp)
    · have hd : ((play ext0 it0 (Store.init rng0) keyDemo).map (fun p => (p.2.valueAt (b! "u")).isSome)) = some true := by
        decide +kernel
      rw [h] at hd; simpa using hd
example : lower (b! "GeT") = lower (b! "get") := by decide
example : (lower (b! "ZAdd"), 3) ∈ KeySpec.minArgs := by decide

end Godis
