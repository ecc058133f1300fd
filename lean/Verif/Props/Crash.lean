import Verif.Proofs.NoPanic
import Verif.Proofs.Shape2
import Verif.Props.Lists2
import Verif.Props.ZSets2
import Verif.Props.Protocol
/-!
# C19 (no command crashes the server) and C50 (bytes in, bytes out)
-/
namespace Godis
open Resp (Reply Denotes IsRequest Str)
open StrSpec (int64 lower Ascii)
open ListSpec (Plain after)

variable {ext : Ext} {it : Iter} {s s' : Store} {m : Reply}

/-- executing the request panics (the goroutine of `ExecuteAsync` does not recover: the process ends) -/
def Crashes (ext : Ext) (it : Iter) (s : Store) (req : List Bytes) : Prop := ∃ p, runRequest ext it s req = .error p

/-! ## C19 -/

/-- commands that may crash: those on lists and sorted sets that look at elements, and KEYS -/
def riskyNames : List Bytes :=
  [b! "keys", b! "lpush", b! "lpop", b! "rpush", b! "rpop", b! "lrange", b! "lrem", b! "lindex", b! "lset", b! "linsert",
   b! "zadd", b! "zscore", b! "zrank", b! "zrem", b! "zcount", b! "zincr", b! "zrange", b! "zrangebyscore", b! "zrevrange",
   b! "zpopmin", b! "zpopmax"]

theorem not_crashes_iff {req : List Bytes} : ¬ Crashes ext it s req ↔ NP (runRequest ext it s req) := by
  unfold Crashes NP
  cases runRequest ext it s req with
  | error p => simp
  | ok a => simp

theorem risky_name (c : Cmd) (h : c.name ∉ riskyNames) : c.risky = false := by
  cases c <;> first | rfl | (exfalso; revert h; decide)

theorem np_request {name : Bytes} {args : List Bytes}
    (h : ∀ c, lookupCmd (toLower ext.lowerUni name) = some c → NP (c.fn ext it s args)) : NP (runRequest ext it s (name :: args)) := by
  unfold runRequest execute
  simp only [newCommand]
  cases hl : lookupCmd (toLower ext.lowerUni name) with
  | none => exact ⟨_, rfl⟩
  | some c => obtain ⟨a, ha⟩ := h c hl; simp only [ha]; exact ⟨_, rfl⟩

/-- C19: on every store the server can reach, no request crashes it, unless it is one of `riskyNames`: all string,
set and hash commands, DEL, EXISTS, TYPE, PING, COMMAND, LLEN, ZCARD and unknown commands, with any arguments. -/
theorem C19_safe_commands_partial (hs : Reachable ext s) (req : List Bytes)
    (hn : toLower ext.lowerUni (req.headD []) ∉ riskyNames) : ¬ Crashes ext it s req := by
  rw [not_crashes_iff]
  cases req with
  | nil => exact ⟨_, rfl⟩
  | cons name args =>
    refine np_request (fun c hl => fn_np c (risky_name c ?_) hs.typed ext it args)
    rw [← lookup_name hl]; exact hn

/-- C19: KEYS crashes the server exactly on patterns that do not compile. -/
theorem C19_keys_partial (p : Bytes) (rest : List Bytes) :
    Crashes ext it s (b! "keys" :: p :: rest) ↔ ext.glob p = none := by
  have hl : lookupCmd (toLower ext.lowerUni (b! "keys")) = some .keys := by rw [lower_eq (by unfold Ascii; decide)]; rfl
  unfold Crashes runRequest execute
  simp only [newCommand, hl, Cmd.fn, cmdKeys, Store.keysMatching]
  cases ext.glob p with
  | none => simp [bind, Except.bind]
  | some f => simp [bind, Except.bind, retOk]

/-- C19: list commands do not crash the server in histories without LREM. -/
theorem C19_lists_partial {rng tr} (h : Trace ext (Store.init rng) tr s) (hp : ∀ p ∈ tr, Plain p.1)
    (hno : ∀ p ∈ tr, lower (p.1.headD []) ≠ b! "lrem") {name : Bytes} {args : List Bytes} (hq : Plain (name :: args))
    (hn : lower name ∈ [b! "lpush", b! "rpush", b! "lpop", b! "rpop", b! "llen", b! "lrange", b! "lrem", b! "lset",
      b! "linsert", b! "lindex"]) : ¬ Crashes ext it s (name :: args) := by
  rw [not_crashes_iff]
  have hA : Ascii name := hq.1 name rfl
  have hview : ∀ k, IsPlainView (after k tr) := fun k => (C20_sequence_partial h hp (k := k) (fun p hp' he => absurd he (hno p hp'))).1
  by_cases hli : lower name = b! "lindex"
  · refine np_request (fun c hl => ?_)
    rw [lower_eq hA, hli] at hl
    cases hl
    rcases args with _ | ⟨k, _ | ⟨i, rest⟩⟩
    · exact ⟨_, rfl⟩
    · exact ⟨_, rfl⟩
    · cases hi : int64 i with
      | none =>
        refine ⟨(s, .error .valueOutOfRange), ?_⟩
        show cmdLIndex ext it s (k :: i :: rest) = _
        have : atoi i = none := by rw [← hi]; exact (int64_eq i).symm ▸ rfl
        simp only [cmdLIndex, this]; rfl
      | some index =>
        have hl : after i tr ≠ .lost := by intro he; have := hview i; rw [he] at this; exact this
        obtain ⟨rsp, hr, _⟩ := lindex_reads (ext := ext) (key := k) (args := rest) hi (h.lmatch hp i) hl it
        unfold runRequest execute at hr
        have hl : lookupCmd (toLower ext.lowerUni (b! "lindex")) = some .lIndex := by rw [lower_eq (by unfold Ascii; decide)]; rfl
        simp only [newCommand, hl] at hr
        obtain ⟨a, ha, _⟩ := NP.of_bind ⟨_, hr⟩
        obtain ⟨b, hb, _⟩ := NP.of_bind ⟨_, ha⟩
        exact ⟨b, hb⟩
  · cases args with
    | nil =>
      refine np_request (fun c hl => ?_)
      rw [lower_eq hA] at hl
      simp only [List.mem_cons, List.not_mem_nil, or_false] at hn
      rcases hn with e | e | e | e | e | e | e | e | e | e <;> rw [e] at hl <;> cases hl <;> exact ⟨_, rfl⟩
    | cons k args =>
      obtain ⟨m, _, hm⟩ := (C20_sequence_partial h hp (k := k) (fun p hp' he => absurd he (hno p hp'))).2 name args hq
        (by simp only [List.mem_cons, List.not_mem_nil, or_false] at hn ⊢; tauto)
      obtain ⟨s', rsp, hr, _⟩ := hm it
      exact ⟨_, hr⟩

/-- C19: commands that read sorted sets do not crash the server, unless the sorted set is damaged. -/
theorem C19_zset_readers_partial {tr} (h : History ext tr s) {name : Bytes} {args : List Bytes} (hn : Ascii name)
    (hc : lower name ∈ [b! "zscore", b! "zrank", b! "zcard", b! "zcount", b! "zrange", b! "zrangebyscore", b! "zrevrange"])
    (hd : ∀ k ∈ args.head?, ZSpec.after (numOf ext) tr k ≠ .here none) (hlen : args.length ≤ 2 ^ 60) :
    ¬ Crashes ext it s (name :: args) := by
  rw [not_crashes_iff]
  refine np_request (fun c hl => ?_)
  rw [lower_eq hn] at hl
  have hcn := lookup_name hl
  obtain ⟨⟨rng, h1⟩, h2, h3⟩ := h
  have hg := h1.zgood h2 (by omega)
  obtain ⟨o, m', h4, _⟩ := zset_served (ext := ext) (it := it) (c := c) (by rw [← hcn]; exact hc) hg.typed hg.all
    (fun k => by have := zlen_after ext tr k; omega) hd
  exact ⟨_, h4⟩

/-- Case: the safe commands on a store with all kinds of values. -/
example : ∃ s, Reachable ext0 s ∧ ¬ Crashes ext0 it0 s [b! "SUNIONSTORE", b! "d", b! "s", b! "l"] ∧
    Reads ext0 s [b! "type", b! "l"] (.simple (b! "list")) := by
  have hp : (play ext0 it0 (Store.init rng0) [[b! "sadd", b! "s", b! "a"], [b! "rpush", b! "l", b! "x"]]).isSome := by decide +kernel
  obtain ⟨⟨tr, s⟩, h⟩ := Option.isSome_iff_exists.mp hp
  refine ⟨s, play_reachable h, C19_safe_commands_partial (play_reachable h) _ (by decide), fun it => ?_⟩
  have e : play ext0 it0 (Store.init rng0) [[b! "sadd", b! "s", b! "a"], [b! "rpush", b! "l", b! "x"]] = some (tr, s) := h
  cases e
  exact ⟨_, rfl, by decide +kernel⟩

/-- C19: as long as no new sorted-set member is given the greatest height (32 levels; the random draw gives at most 30
extra levels), no request crashes the server either if its command is ZADD, ZSCORE, ZRANK, ZREM, ZCOUNT, ZINCR, ZPOPMIN
or ZPOPMAX: on every store the server can reach, also on sorted sets that removals, pops or NaN scores have damaged. -/
theorem C19_zset_commands_partial {rng tr} (hr : ∀ i, rng i ≤ 30) (h : Trace ext (Store.init rng) tr s) (req : List Bytes)
    (hn : toLower ext.lowerUni (req.headD []) ∉ [b! "keys", b! "lpush", b! "lpop", b! "rpush", b! "rpop", b! "lrange", b! "lrem",
      b! "lindex", b! "lset", b! "linsert", b! "zrange", b! "zrangebyscore", b! "zrevrange"]) : ¬ Crashes ext it s req := by
  rw [not_crashes_iff]
  cases req with
  | nil => exact ⟨_, rfl⟩
  | cons name args =>
    refine np_request (fun c hl => ?_)
    have ht := h.typed (typed_init rng)
    rw [List.headD_cons, lookup_name hl] at hn
    cases hc : c.zsafe with
    | true => exact fn_zsafe ht (h.shaped (typed_init rng) (shaped_init hr)) (Reachable.ordered ⟨rng, tr, h⟩) c hc ext it args
    | false => exact fn_np c (by cases c <;> first | rfl | (exfalso; revert hc; decide) | (exfalso; revert hn; decide)) ht ext it args

/-- a run after which the sorted set z is damaged -/
def zdamage : Option (List (List Bytes × Reply) × Store) :=
  play ext0 it0 (Store.init fun n => if n < 2 then 1 else 0)
    [[b! "zadd", b! "z", b! "1", b! "a", b! "2", b! "b", b! "3", b! "c", b! "4", b! "d"], [b! "zrem", b! "z", b! "c"]]

/-- Case: the damaged sorted set of `C19_zrem_violated`, on which ZRANGE crashes the server. -/
example : ∃ tr s, Trace ext0 (Store.init fun n => if n < 2 then 1 else 0) tr s ∧ Crashes ext0 it0 s [b! "zrange", b! "z", b! "0", b! "-1"] ∧
    ¬ Crashes ext0 it0 s [b! "zpopmax", b! "z", b! "10"] ∧ ¬ Crashes ext0 it0 s [b! "zadd", b! "z", b! "2", b! "x"] := by
  have hp : (match zdamage with
    | some (_, s) => (match runRequest ext0 it0 s [b! "zrange", b! "z", b! "0", b! "-1"] with
      | .error p => some p
      | .ok _ => none)
    | none => none) = some .nilDeref := by decide +kernel
  split at hp
  · next tr s h =>
    have hr : ∀ i, (fun n => if n < 2 then 1 else 0 : Rng) i ≤ 30 := fun i => by dsimp only; split <;> omega
    refine ⟨tr, s, play_trace h, ?_, C19_zset_commands_partial hr (play_trace h) _ (by decide), C19_zset_commands_partial hr (play_trace h) _ (by decide)⟩
    split at hp
    · next q hq => exact ⟨q, hq⟩
    · cases hp
  · cases hp

/-- C19 fails: a malformed KEYS pattern crashes the server (whatever it stores). -/
theorem C19_keys_violated (s : Store) : Crashes ext0 it0 s [b! "keys", b! "["] :=
  (C19_keys_partial _ _).mpr (by decide)

/-- the run ends in a crash at its last request -/
def crashes (rng : Rng) (reqs : List (List Bytes)) (req : List Bytes) : Option Panic :=
  match play ext0 it0 (Store.init rng) reqs with
  | none => none
  | some (_, s) => match runRequest ext0 it0 s req with
    | .error p => some p
    | .ok _ => none

theorem crashes_spec {rng reqs req p} (h : crashes rng reqs req = some p) :
    ∃ s, Reachable ext0 s ∧ Crashes ext0 it0 s req := by
  unfold crashes at h
  split at h
  · cases h
  · next tr s hp =>
    split at h
    · next q hq => exact ⟨s, play_reachable hp, q, hq⟩
    · cases h

/-- C19 fails: four requests on one list crash the server (nil dereference in LREM after a list was emptied by LREM). -/
theorem C19_lrem_violated : ∃ s, Reachable ext0 s ∧ Crashes ext0 it0 s [b! "lrem", b! "l", b! "0", b! "a"] :=
  crashes_spec (rng := rng0) (reqs := [[b! "rpush", b! "l", b! "a"], [b! "lrem", b! "l", b! "0", b! "a"], [b! "rpush", b! "l", b! "a"]])
    (p := .nilDeref) (by decide +kernel)

/-- C19 fails: reading a sorted set after a removal from its middle crashes the server (for some random heights). -/
theorem C19_zrem_violated : ∃ s, Reachable ext0 s ∧ Crashes ext0 it0 s [b! "zrange", b! "z", b! "0", b! "-1"] :=
  crashes_spec (rng := fun n => if n < 2 then 1 else 0)
    (reqs := [[b! "zadd", b! "z", b! "1", b! "a", b! "2", b! "b", b! "3", b! "c", b! "4", b! "d"], [b! "zrem", b! "z", b! "c"]])
    (p := .nilDeref) (by decide +kernel)

/-- C19 fails: adding a member to a sorted set in which some member has the greatest height crashes the server. -/
theorem C19_height_violated : ∃ s, Reachable ext0 s ∧ Crashes ext0 it0 s [b! "zadd", b! "z", b! "2", b! "b"] :=
  crashes_spec (rng := fun _ => 31) (reqs := [[b! "zadd", b! "z", b! "1", b! "a"]]) (p := .indexOutOfRange) (by decide +kernel)

/-! ## C50 -/

theorem denotes_ne {b : Bytes} (h : Denotes b m) : b ≠ [] := by
  rintro rfl
  obtain ⟨f, hf⟩ := h
  have := hf (f + 1) (by omega) []
  simp [Resp.parse] at this

theorem react_request {frame : Str} {args : List Str} (h : IsRequest frame args) (hn : args.length < 2 ^ 63)
    (hlen : ∀ a ∈ args, a.length + 2 ≤ 2 ^ 48) :
    reactFrame ext it s frame = (runRequest ext it s args).bind (fun p => match p.2 with
      | none => .ok (p.1, .silent)
      | some rsp => rsp.encode.bind (fun b => if b = [] then .ok (p.1, .silent) else .ok (p.1, .reply b))) := by
  have h1 := decode_request frame args h [] hn hlen
  rw [List.append_nil] at h1
  unfold reactFrame handleRequest
  rw [h1]
  simp only [bind, Except.bind]
  cases runRequest ext it s args with
  | error p => rfl
  | ok a =>
    obtain ⟨s1, r⟩ := a
    cases r with
    | none => rfl
    | some rsp =>
      dsimp only
      cases rsp.encode with
      | error p => rfl
      | ok b => rfl

/-- C50: if the command answers `m`, then the bytes written in answer to the request's frame are the wire form of `m`. -/
theorem C50_answer_is_written {frame : Str} {args : List Str} (h : IsRequest frame args) (hn : args.length < 2 ^ 63)
    (hlen : ∀ a ∈ args, a.length + 2 ≤ 2 ^ 48) (ha : Answers ext it s args m s') :
    ∃ b, reactFrame ext it s frame = .ok (s', .reply b) ∧ Denotes b m := by
  obtain ⟨rsp, h1, h2⟩ := ha
  obtain ⟨b, h3, h4⟩ := encode_denotes rsp m h2
  refine ⟨b, ?_, h4⟩
  rw [react_request h hn hlen, h1]
  simp only [Except.bind, h3]
  rw [if_neg (denotes_ne h4)]

/-- the request is an MGET of a key that holds something other than a string -/
def MGetWrongType (ext : Ext) (s : Store) (req : List Bytes) : Prop :=
  toLower ext.lowerUni (req.headD []) = b! "mget" ∧ ∃ k ∈ req.tail, Wrong s k

/-- executing a request, on a store that can be reached: a crash, no effect at all (no words, or MGET of a wrong-type
key), or an answer -/
theorem run_cases (hs : Typed s) (req : List Bytes) :
    Crashes ext it s req ∨ (req = [] ∧ runRequest ext it s req = .ok (s, none)) ∨
    (MGetWrongType ext s req ∧ ∃ rsp, runRequest ext it s req = .ok (s, some rsp) ∧ rsp.encode = .error .typeAssertion ∧ rsp.reply = none) ∨
    (¬ MGetWrongType ext s req ∧ ∃ m s', Answers ext it s req m s') := by
  cases hr : runRequest ext it s req with
  | error p => exact .inl ⟨p, hr⟩
  | ok a =>
    refine .inr ?_
    obtain ⟨s', r⟩ := a
    rcases runRequest_cases hr with ⟨rfl, rfl, rfl⟩ | ⟨name, args, rfl, ⟨hl, rfl, rfl⟩ | ⟨c, o, hl, hf, rfl⟩⟩
    · exact .inl ⟨rfl, rfl⟩
    · refine .inr (.inr ⟨?_, _, _, _, hr, reply_error _⟩)
      rintro ⟨h, _⟩
      simp only [List.headD_cons] at h
      rw [h] at hl
      exact absurd hl (by decide)
    · refine .inr ?_
      by_cases hm : c = .mget
      · subst hm
        rcases mget_fits hs hf with ⟨h1, m, h2⟩ | ⟨h1, h2, h3⟩
        · refine .inr ⟨?_, m, s', _, hr, h2⟩
          rintro ⟨_, k, hk, hw⟩
          exact h1 k hk hw
        · refine .inl ⟨⟨lookup_name hl, h1⟩, _, ?_, h2, h3⟩
          rw [read_same .mget (by simp) hf]
      · have hfit : Fits o := by
          by_cases hg : c = .hGetAll
          · subst hg; exact hGetAll_fits hs hf
          · exact fn_fits c hm hg hf
        obtain ⟨m, h2⟩ := hfit
        refine .inr ⟨?_, m, s', _, hr, h2⟩
        rintro ⟨h, _⟩
        simp only [List.headD_cons] at h
        rw [lookup_name hl] at h
        cases c <;> first | exact hm rfl | exact absurd h (by decide)

/-- C50: one request in a frame, on any store the server can be in.  Unless executing the request crashes the server:
an MGET of a wrong-type key is not answered (its handler panics); an empty request is not answered; every other request
is answered by bytes that are the wire form of the command's answer, and leaves the store that the command leaves. -/
theorem C50_bytes_partial (hs : Reachable ext s) {frame : Str} {req : List Str} (h : IsRequest frame req)
    (hn : req.length < 2 ^ 63) (hlen : ∀ a ∈ req, a.length + 2 ≤ 2 ^ 48) (hc : ¬ Crashes ext it s req) :
    (req = [] ∧ reactFrame ext it s frame = .ok (s, .silent)) ∨
    (MGetWrongType ext s req ∧ reactFrame ext it s frame = .error .typeAssertion) ∨
    (∃ b m s', reactFrame ext it s frame = .ok (s', .reply b) ∧ Denotes b m ∧ Answers ext it s req m s') := by
  rcases run_cases (ext := ext) (it := it) hs.typed req with h1 | ⟨h1, h2⟩ | ⟨h1, rsp, h2, h3, _⟩ | ⟨_, m, s', ha⟩
  · exact absurd h1 hc
  · refine .inl ⟨h1, ?_⟩
    rw [react_request h hn hlen, h2]; rfl
  · refine .inr (.inl ⟨h1, ?_⟩)
    rw [react_request h hn hlen, h2]
    simp only [Except.bind, h3]
  · obtain ⟨b, hb, hd⟩ := C50_answer_is_written h hn hlen ha
    exact .inr (.inr ⟨b, m, s', hb, hd, ha⟩)

/-- C50, read the other way: the bytes written for a frame determine the answer, so a client that parses them learns
exactly what the command answered. -/
theorem C50_client_recovers (hs : Reachable ext s) {frame : Str} {req : List Str} (h : IsRequest frame req)
    (hn : req.length < 2 ^ 63) (hlen : ∀ a ∈ req, a.length + 2 ≤ 2 ^ 48) {b : Bytes}
    (hr : reactFrame ext it s frame = .ok (s', .reply b)) :
    ∃ m, Answers ext it s req m s' ∧ ∃ fuel, ∀ rest, Resp.parse fuel (b ++ rest) = some (m, rest) := by
  have hc : ¬ Crashes ext it s req := by
    rintro ⟨p, hp⟩
    rw [react_request h hn hlen, hp] at hr
    cases hr
  rcases C50_bytes_partial hs h hn hlen hc with ⟨_, h1⟩ | ⟨_, h1⟩ | ⟨b', m, s1, h1, hd, ha⟩
  · rw [hr] at h1; cases h1
  · rw [hr] at h1; cases h1
  · rw [hr] at h1
    cases h1
    obtain ⟨f, hf⟩ := hd
    exact ⟨m, ha, f, fun rest => hf f (Nat.le_refl _) rest⟩

/-- Case: `SET k v` in a frame. -/
example : IsRequest (b! "*3\r\n$3\r\nSET\r\n$1\r\nk\r\n$1\r\nv\r\n") [b! "SET", b! "k", b! "v"] ∧
    Reachable ext0 (Store.init rng0) ∧ ¬ Crashes ext0 it0 (Store.init rng0) [b! "SET", b! "k", b! "v"] :=
  ⟨⟨b! "3", _, by decide, .cons (d := b! "3") (by decide) (.cons (d := b! "1") (by decide) (.cons (d := b! "1") (by decide) .nil)), by decide⟩,
   ⟨rng0, [], .nil⟩, C19_safe_commands_partial ⟨rng0, [], .nil⟩ _ (by decide)⟩

/-- C50 fails: MGET of a list key gets no reply, the handler panics. -/
theorem C50_mget_violated : ∃ s, Reachable ext0 s ∧
    reactFrame ext0 it0 s (b! "*2\r\n$4\r\nMGET\r\n$1\r\nl\r\n") = .error .typeAssertion := by
  have hp : (play ext0 it0 (Store.init rng0) [[b! "rpush", b! "l", b! "x"]]).isSome := by decide +kernel
  obtain ⟨⟨tr, s⟩, h⟩ := Option.isSome_iff_exists.mp hp
  refine ⟨s, play_reachable h, ?_⟩
  cases h
  rfl

end Godis
