import Verif.Proofs.Gen2
import Verif.Model.GenData
import Verif.Props.Play
/-!
# The command table: C48 and C51
-/
namespace Godis.Gen
open GenSpec StrSpec
open Resp (Reply Denotes)

/-! ## C48 for every source file -/

/-- C48, for every source text: whenever the lines of the file prescribe a table (every command function stands below a blank
line, below a comment line that names it, or at the top), the generator writes exactly that table to the `.cmd.go` file,
whatever the files contained before. -/
theorem C48_generator_partial {ext : GenExt} {fs : Files} {stem text : Bytes} {ls : List Bytes} {es : List (Bytes × Bytes)}
    (hp : SourcePath stem) (hf : fs (stem ++ b! ".go") = some text) (ht : IsText ls text)
    (hlen : ∀ l ∈ ls, l.length < 65535) (hes : Prescribes none ls es) :
    ∃ fs', run ext fs (stem ++ b! ".go") = some fs' ∧ fs' (stem ++ b! ".cmd.go") = some (tableFile es) := by
  unfold run
  rw [read_eq hp hf]
  refine ⟨_, rfl, ?_⟩
  rw [outName_eq hp]
  refine (if_pos rfl).trans ?_
  unfold parseText
  rw [scan_isText ht hlen, prescribes_parse hes [] (fun _ => rfl) (by simp), render_eq]

/-- The pattern of the generator finds a command function in a line exactly if the line has the header of one. -/
theorem C48_found (line name : Bytes) : regexCmdFuncStr line = name ∧ name ≠ [] ↔ Declares line name := by
  rw [declares_iff]; exact and_comm

/-- Every command function of the file is registered, once per declaration and in order, under some name, whatever stands
above it. -/
theorem C48_all_registered {ext : GenExt} {text : Bytes} {ls : List Bytes} (ht : IsText ls text)
    (hlen : ∀ l ∈ ls, l.length < 65535) :
    Functions ls ((parseText ext text).map (·.funcName)) := by
  unfold parseText
  rw [scan_isText ht hlen, parse_funcs]
  exact functions_filter ls

/-- a source text with two command functions, one with a comment and one without -/
def exText : Bytes :=
  b! "// Foo .\nfunc foo(c *Command) (*protocol.Response, error) {\r\n\nfunc  Bar(c *Command) (*protocol.Response, error) {"

/-- the functions of the example, whatever the names -/
example (ext : GenExt) : (parseText ext exText).map (·.funcName) = [b! "foo", b! "Bar"] := by
  rw [parseText_indep (ext' := ⟨id, id⟩) (by decide)]; decide

/-- an example that meets the hypotheses of `C48_generator_partial` -/
example : ∃ fs', run ⟨id, id⟩ (fun p => if p = b! "./x.go" then some exText else none) (b! "./x.go") = some fs' ∧
      fs' (b! "./x.cmd.go") = some (tableFile [(b! "foo", b! "foo"), (b! "bar", b! "Bar")]) := by
  have hd : ∀ (line name : Bytes), regexCmdFuncStr line = name → name ≠ [] → Declares line name :=
    fun l n h1 h2 => declares_iff.mpr ⟨h2, h1⟩
  refine C48_generator_partial (stem := b! "./x") (text := exText)
    (ls := [b! "// Foo .", b! "func foo(c *Command) (*protocol.Response, error) {", b! "",
      b! "func  Bar(c *Command) (*protocol.Response, error) {"]) ⟨?_, ?_⟩ rfl ?_ (by decide) ?_
  · intro a b e
    have hl := congrArg List.length e
    simp at hl
    match a, hl with
    | [], _ => simp at e
    | [x], _ => simp at e
    | [x, y], _ => simp at e
    | [x, y, z], hl => exact List.length_eq_zero_iff.mp (by simp at hl; omega)
    | x :: y :: z :: w :: a, hl => simp at hl; omega
  · intro a e
    have := congrArg List.length e
    simp at this
  · refine IsText.line (b! "\n") (.inl rfl) (by decide) (by decide) ?_
    refine IsText.line (b! "\r\n") (.inr rfl) (by decide) (by decide) ?_
    refine IsText.line (l := []) (b! "\n") (.inl rfl) (by decide) (by decide) ?_
    exact IsText.last (by decide) (by decide) (by decide)
  · refine .other (fun pre fn h => ?_) ?_
    · exact (regex_spec _).2 (by decide) pre fn h
    refine .comment (w := b! "Foo") (hd _ _ (by decide) (by decide)) ?_ ?_
    · refine ⟨⟨⟨70, b! "oo", rfl, by unfold Blank; decide⟩, b! "Fo", 111, rfl, by unfold Blank; decide⟩, by unfold Ascii; decide,
        [], b! " ", [], b! " .", by unfold Blank; decide, rfl, .inl ⟨b! " ", by unfold Blank; decide, rfl⟩⟩
    refine .other (fun pre fn h => ?_) ?_
    · exact (regex_spec _).2 (by decide) pre fn h
    exact .own (fn := b! "Bar") (hd _ _ (by decide) (by decide)) (by simp) .nil

/-- C48 fails for source files in which a command function stands directly below a line of code: it is registered under
that line, so the command cannot be called by its name. Here `get` is registered as `}`. -/
theorem C48_code_above_violated (ext : GenExt) :
    parseText ext (b! "}\nfunc get(c *Command) (*protocol.Response, error) {\n") = [⟨b! "}", b! "get"⟩] := by
  rw [parseText_indep (ext' := ⟨id, id⟩) (by decide)]; decide

/-- C48 fails for source files with explanatory comments: the last line of the comment becomes the command's name. -/
theorem C48_prose_violated (ext : GenExt) :
    parseText ext (b! "// get returns the value.\n// It does not block.\nfunc get(c *Command) (*protocol.Response, error) {\n") =
      [⟨b! "it does not block", b! "get"⟩] := by
  rw [parseText_indep (ext' := ⟨id, id⟩) (by decide)]; decide

/-- C48 fails for source files with a line of 64 KiB or more: the functions below it are silently dropped. -/
theorem C48_long_line_violated (ext : GenExt) (line rest : Bytes) (h10 : (10 : UInt8) ∉ line) (hlen : 65536 ≤ line.length) :
    parseText ext (line ++ 10 :: rest) = [] := by
  unfold parseText; rw [scan_long h10 hlen]; rfl

/-! ## C48 for the sources of godis -/

/-- the six source files of commands and the six generated files, in the order in which Go initialises them -/
def sources : List (Bytes × Bytes) :=
  open GenData in
  [(src_hash_table, cmd_hash_table), (src_keys, cmd_keys), (src_list, cmd_list), (src_set, cmd_set),
   (src_sorted_set, cmd_sorted_set), (src_string, cmd_string)]

theorem sources_ascii : ∀ p ∈ sources, p.1.all (· < 128) = true := by decide +kernel

/-- The committed tables are up to date: for each of the six source files the generator writes the committed `.cmd.go`,
byte for byte. -/
theorem C48_committed (ext : GenExt) : ∀ p ∈ sources, render (parseText ext p.1) = p.2 := by
  have h1 := sources_ascii
  have h2 : ∀ p ∈ sources, render (parseText ⟨id, id⟩ p.1) = p.2 := by decide +kernel
  intro p hp
  rw [parseText_indep (ext' := ⟨id, id⟩) (h1 p hp)]
  exact h2 p hp

/-- all entries registered by the six files -/
def entries : List (Bytes × Bytes) :=
  (sources.flatMap (fun p => parseText ⟨id, id⟩ p.1)).map (fun kv => (kv.cmdName, kv.funcName))

/-- the entries written out (redis/*.cmd.go) -/
def entriesLit : List (Bytes × Bytes) :=
  [(b! "hdel", b! "hDel"), (b! "hexists", b! "hExists"), (b! "hget", b! "hGet"), (b! "hgetall", b! "hGetAll"),
   (b! "hincrby", b! "hIncrBy"), (b! "hincrbyfloat", b! "hIncrByFloat"), (b! "hkeys", b! "hKeys"),
   (b! "hlen", b! "hLen"), (b! "hmget", b! "hMGet"), (b! "hmset", b! "hMSet"), (b! "hset", b! "hSet"),
   (b! "hsetnx", b! "hSetNx"), (b! "hvals", b! "hVals"), (b! "keys", b! "keys"), (b! "exists", b! "exists"),
   (b! "del", b! "del"), (b! "type", b! "keyType"), (b! "ping", b! "ping"), (b! "command", b! "command"),
   (b! "lpush", b! "lPush"), (b! "lpop", b! "lPop"), (b! "rpush", b! "rPush"), (b! "rpop", b! "rPop"),
   (b! "llen", b! "lLen"), (b! "lrange", b! "lRange"), (b! "lrem", b! "lRem"), (b! "lindex", b! "lIndex"),
   (b! "lset", b! "lSet"), (b! "linsert", b! "lInsert"), (b! "sadd", b! "sAdd"), (b! "scard", b! "sCard"),
   (b! "sdiff", b! "sDiff"), (b! "sdiffstore", b! "sDiffStore"), (b! "sinter", b! "sInter"),
   (b! "sinterstore", b! "sInterStore"), (b! "sunion", b! "sUnion"), (b! "sunionstore", b! "sUnionStore"),
   (b! "sismember", b! "sIsMember"), (b! "smembers", b! "sMembers"), (b! "smove", b! "sMove"),
   (b! "srem", b! "sRem"), (b! "spop", b! "SPop"), (b! "zadd", b! "zAdd"), (b! "zscore", b! "zScore"),
   (b! "zrank", b! "zRank"), (b! "zrem", b! "zRem"), (b! "zcard", b! "zCard"), (b! "zcount", b! "zCount"),
   (b! "zincr", b! "zIncr"), (b! "zrange", b! "zRange"), (b! "zrangebyscore", b! "zRangeByScore"),
   (b! "zrevrange", b! "zRevRange"), (b! "zpopmin", b! "zPopMin"), (b! "zpopmax", b! "zPopMix"),
   (b! "set", b! "set"), (b! "mset", b! "mSet"), (b! "get", b! "get"), (b! "mget", b! "mget"),
   (b! "incr", b! "incr"), (b! "incrby", b! "incrBy"), (b! "decr", b! "decr"), (b! "decrby", b! "decrBy"),
   (b! "append", b! "stringAppend")]

theorem entries_lit : entries = entriesLit := by decide +kernel

/-- The entries are all there is in the committed files, whatever Unicode tables the generator used. -/
theorem C48_entries (ext : GenExt) : entries = (sources.flatMap (fun p => parseText ext p.1)).map (fun kv => (kv.cmdName, kv.funcName)) := by
  have h1 := sources_ascii
  unfold entries
  have : ∀ l : List (Bytes × Bytes), (∀ p ∈ l, p.1.all (· < 128) = true) →
      l.flatMap (fun p => parseText ⟨id, id⟩ p.1) = l.flatMap (fun p => parseText ext p.1) := by
    intro l
    induction l with
    | nil => intro _; rfl
    | cons a l ih =>
      intro h
      rw [List.flatMap_cons, List.flatMap_cons, ih (fun p hp => h p (by simp [hp])),
        parseText_indep (ext' := ext) (h a (by simp))]
  rw [this _ h1]

/-- the Go identifier of each command function (redis/*.go) -/
def goName : Cmd → Bytes
  | .set => b! "set" | .mSet => b! "mSet" | .get => b! "get" | .mget => b! "mget" | .incr => b! "incr"
  | .incrBy => b! "incrBy" | .decr => b! "decr" | .decrBy => b! "decrBy" | .stringAppend => b! "stringAppend"
  | .keys => b! "keys" | .exists => b! "exists" | .del => b! "del" | .keyType => b! "keyType" | .ping => b! "ping"
  | .command => b! "command"
  | .lPush => b! "lPush" | .lPop => b! "lPop" | .rPush => b! "rPush" | .rPop => b! "rPop" | .lLen => b! "lLen"
  | .lRange => b! "lRange" | .lRem => b! "lRem" | .lIndex => b! "lIndex" | .lSet => b! "lSet"
  | .lInsert => b! "lInsert"
  | .sAdd => b! "sAdd" | .sCard => b! "sCard" | .sDiff => b! "sDiff" | .sDiffStore => b! "sDiffStore"
  | .sInter => b! "sInter" | .sInterStore => b! "sInterStore" | .sUnion => b! "sUnion"
  | .sUnionStore => b! "sUnionStore" | .sIsMember => b! "sIsMember" | .sMembers => b! "sMembers"
  | .sMove => b! "sMove" | .sRem => b! "sRem" | .sPop => b! "SPop"
  | .hDel => b! "hDel" | .hExists => b! "hExists" | .hGet => b! "hGet" | .hGetAll => b! "hGetAll"
  | .hIncrBy => b! "hIncrBy" | .hIncrByFloat => b! "hIncrByFloat" | .hKeys => b! "hKeys" | .hLen => b! "hLen"
  | .hMGet => b! "hMGet" | .hMSet => b! "hMSet" | .hSet => b! "hSet" | .hSetNx => b! "hSetNx" | .hVals => b! "hVals"
  | .zAdd => b! "zAdd" | .zScore => b! "zScore" | .zRank => b! "zRank" | .zRem => b! "zRem" | .zCard => b! "zCard"
  | .zCount => b! "zCount" | .zIncr => b! "zIncr" | .zRange => b! "zRange"
  | .zRangeByScore => b! "zRangeByScore" | .zRevRange => b! "zRevRange" | .zPopMin => b! "zPopMin"
  | .zPopMix => b! "zPopMix"

/-- No two of the registered entries share a command name, and no function is registered twice: no command shadows
another. -/
theorem C48_unique : (entries.map (·.1)).Nodup ∧ (entries.map (·.2)).Nodup := by
  rw [entries_lit]; constructor <;> decide +kernel

theorem goName_inj {c d : Cmd} (h : goName c = goName d) : c = d := by
  have hinv : ∀ c, ((implementedCommands.map (·.2)).find? (fun d => goName d = goName c)) = some c := by
    intro c; cases c <;> decide +kernel
  have h1 := hinv c
  rw [h, hinv d] at h1
  exact (Option.some.inj h1).symm

theorem impl_perm : (implementedCommands.map (fun p => (p.1, goName p.2))).isPerm entries = true := by
  rw [entries_lit]; decide +kernel

theorem get_of_mem {l : List (Bytes × Cmd)} (h : (l.map (·.1)).Nodup) {n c} (hm : (n, c) ∈ l) : GoMap.get l n = some c := by
  induction l with
  | nil => simp at hm
  | cons p l ih =>
    obtain ⟨n', c'⟩ := p
    simp only [List.map_cons, List.nodup_cons] at h
    rcases List.mem_cons.mp hm with e | hm
    · cases e; simp [GoMap.get]
    · have hne : n' ≠ n := by
        intro e
        rw [e] at h
        exact h.1 (List.mem_map.mpr ⟨_, hm, rfl⟩)
      rw [GoMap.get, if_neg hne]
      exact ih h.2 hm

theorem mem_of_get {l : List (Bytes × Cmd)} {n c} (h : GoMap.get l n = some c) : (n, c) ∈ l := by
  induction l with
  | nil => simp [GoMap.get] at h
  | cons p l ih =>
    obtain ⟨n', c'⟩ := p
    rw [GoMap.get] at h
    split at h
    · rename_i hn
      cases h; subst hn; simp
    · exact List.mem_cons_of_mem _ (ih h)

theorem filter_unique {es : List (Bytes × Bytes)} (h : (es.map (·.1)).Nodup) {n f} (hm : (n, f) ∈ es) :
    assigned es n = some f := by
  unfold assigned
  have : es.filter (fun e => e.1 = n) = [(n, f)] := by
    induction es with
    | nil => simp at hm
    | cons e es ih =>
      simp only [List.map_cons, List.nodup_cons] at h
      rcases List.mem_cons.mp hm with rfl | hm
      · have : es.filter (fun e => e.1 = n) = [] := by
          rw [List.filter_eq_nil_iff]
          intro x hx he
          simp at he
          exact h.1 (List.mem_map.mpr ⟨x, hx, he⟩)
        simp only [List.filter_cons, decide_true, if_true, this]
      · have hne : e.1 ≠ n := by
          rintro rfl
          exact h.1 (List.mem_map.mpr ⟨_, hm, rfl⟩)
        simp only [List.filter_cons, hne, decide_false, Bool.false_eq_true, if_false]
        exact ih h.2 hm
  rw [this]; rfl

/-- C48, the other half: for every name, the function that dispatch finds is the one that the generated files
assigned to it (and none if they assigned none). -/
theorem C48_dispatch_table (name : Bytes) : (lookupCmd name).map goName = assigned entries name := by
  have hp := List.isPerm_iff.mp impl_perm
  have hu := C48_unique.1
  have hn : (implementedCommands.map (·.1)).Nodup := by decide +kernel
  cases h : lookupCmd name with
  | some c =>
    have hm := mem_of_get h
    have : (name, goName c) ∈ entries := hp.subset (List.mem_map.mpr ⟨_, hm, rfl⟩)
    rw [filter_unique hu this]; rfl
  | none =>
    have : entries.filter (fun e => e.1 = name) = [] := by
      rw [List.filter_eq_nil_iff]
      rintro ⟨n, f⟩ hx he
      simp at he; subst he
      obtain ⟨⟨n', c⟩, hc, e⟩ := List.mem_map.mp (hp.symm.subset hx)
      simp at e
      obtain ⟨rfl, _⟩ := e
      rw [show lookupCmd n' = some c from get_of_mem hn hc] at h
      cases h
    unfold assigned
    rw [this]; rfl

/-- C48 end to end for the sources of godis: for each command function declared in them, a request for its registered name, in
any mixture of upper and lower case, runs that function on the arguments, and answers with its result. -/
theorem C48_dispatch {n f : Bytes} (h : (n, f) ∈ entries) :
    ∃ c, goName c = f ∧ (∀ d, goName d = f → d = c) ∧
      ∀ ext it s (name : Bytes) args, Ascii name → lower name = n →
        runRequest ext it s (name :: args) = (do let (s', r) ← c.fn ext it s args; .ok (s', some (setRsp r))) := by
  have h1 := C48_dispatch_table n
  rw [filter_unique C48_unique.1 h] at h1
  cases hc : lookupCmd n with
  | none => rw [hc] at h1; cases h1
  | some c =>
    rw [hc] at h1
    have hf : goName c = f := by simpa using h1
    refine ⟨c, hf, fun d hd => goName_inj (hd.trans hf.symm), ?_⟩
    intro ext it s name args ha hl
    unfold runRequest newCommand
    simp only [lower_eq ha, hl]
    unfold execute
    rw [hc]
    simp only
    cases c.fn ext it s args with
    | error e => rfl
    | ok r => rfl

/-- A name that is registered nowhere is answered with an error and changes nothing. -/
theorem C48_unregistered {ext it s} {name : Bytes} {args : List Bytes} (ha : Ascii name) (h : ∀ f, (lower name, f) ∉ entries) :
    runRequest ext it s (name :: args) = .ok (s, some (newResponseWithError Err.unknownCommand.msg)) := by
  have hc : lookupCmd (lower name) = none := by
    cases hc : lookupCmd (lower name) with
    | none => rfl
    | some c =>
      have h1 := C48_dispatch_table (lower name)
      rw [hc] at h1
      unfold assigned at h1
      cases hl : (entries.filter (fun e => e.1 = lower name)).getLast? with
      | none => rw [hl] at h1; cases h1
      | some e =>
        have he := List.mem_of_getLast? hl
        simp at he
        exact absurd he.1 (by have := h e.2; rw [← he.2] at this; exact this)
  unfold runRequest newCommand
  simp only [lower_eq ha]
  unfold execute
  rw [hc]; rfl

/-- the entries are not empty: SPOP is `SPop`, and ZPOPMAX is the function called `zPopMix` -/
example : (b! "spop", b! "SPop") ∈ entries ∧ (b! "zpopmax", b! "zPopMix") ∈ entries ∧ entries.length = 63 := by
  rw [entries_lit]; decide +kernel

/-- Every function in the sources that has the header of a command is in the table: none is forgotten. -/
theorem C48_complete (l f : Bytes) (h : l ∈ sources.flatMap (fun p => scanLines p.1)) (hd : Declares l f) :
    ∃ c n, goName c = f ∧ lookupCmd n = some c := by
  obtain ⟨hne, he⟩ := declares_iff.mp hd
  obtain ⟨p, hp, hl⟩ := List.mem_flatMap.mp h
  have hf : f ∈ (parseText ⟨id, id⟩ p.1).map (·.funcName) := by
    unfold parseText; rw [parse_funcs]
    exact List.mem_filter.mpr ⟨List.mem_map.mpr ⟨l, hl, he⟩, by simpa using hne⟩
  obtain ⟨kv, hkv, rfl⟩ := List.mem_map.mp hf
  have hm : (kv.cmdName, kv.funcName) ∈ entries := List.mem_map.mpr ⟨kv, List.mem_flatMap.mpr ⟨p, hp, hkv⟩, rfl⟩
  have h1 := C48_dispatch_table kv.cmdName
  rw [filter_unique C48_unique.1 hm] at h1
  cases hc : lookupCmd kv.cmdName with
  | none => rw [hc] at h1; cases h1
  | some c => rw [hc] at h1; exact ⟨c, _, by simpa using h1, hc⟩

/-! ## C51: which files the generator writes -/

/-- C51 for ordinary source paths: the source file and every other file except the `.cmd.go` file are left as they were. -/
theorem C51_only_companion_partial {ext : GenExt} {fs fs' : Files} {stem : Bytes} (hp : SourcePath stem)
    (h : run ext fs (stem ++ b! ".go") = some fs') :
    fs' (stem ++ b! ".go") = fs (stem ++ b! ".go") ∧ ∀ p, p ≠ stem ++ b! ".cmd.go" → fs' p = fs p := by
  have hall : ∀ p, p ≠ stem ++ b! ".cmd.go" → fs' p = fs p := by
    unfold run at h
    rw [outName_eq hp] at h
    split at h
    · cases h
    · cases h
      intro p hne
      exact if_neg hne
  refine ⟨hall _ ?_, hall⟩
  intro e
  have := congrArg List.length e
  simp at this

/-- C51: a missing source file changes nothing (the generator panics). -/
theorem C51_missing {ext : GenExt} {fs : Files} {stem : Bytes} (hp : SourcePath stem) (hf : fs (stem ++ b! ".go") = none) :
    run ext fs (stem ++ b! ".go") = none := by
  unfold run readAndParseFile
  rw [if_neg, if_neg, hf]
  · intro hs
    obtain ⟨a, ha⟩ := List.isSuffixOf_iff_suffix.mp hs
    have e : a ++ b! ".cmd" ++ b! ".go" = stem ++ b! ".go" := by rw [← ha]; simp
    exact hp.2 a (List.append_cancel_right e).symm
  · simp [List.isSuffixOf_iff_suffix]

/-- C51 fails: a file whose path does not contain `.go` is itself overwritten with an empty table. -/
theorem C51_overwrites_input_violated (ext : GenExt) (fs : Files) (text : Bytes) (_hf : fs (b! "notes.txt") = some text) :
    ∃ fs', run ext fs (b! "notes.txt") = some fs' ∧ fs' (b! "notes.txt") = some (tableFile []) :=
  ⟨_, rfl, rfl⟩

/-- C51 fails: if a directory name contains `.go`, the table is written to another directory, and the `.cmd.go` file beside
the source is not updated. -/
theorem C51_wrong_directory_violated (ext : GenExt) (fs : Files) (text : Bytes) (hf : fs (b! "my.god/set.go") = some text) :
    ∃ fs', run ext fs (b! "my.god/set.go") = some fs' ∧
      fs' (b! "my.god/set.cmd.go") = fs (b! "my.god/set.cmd.go") ∧
      fs' (b! "my.cmd.god/set.go") = some (render (parseText ext text)) := by
  unfold run readAndParseFile
  rw [if_neg (by decide), if_neg (by decide), hf]
  exact ⟨_, rfl, rfl, rfl⟩

end Godis.Gen
