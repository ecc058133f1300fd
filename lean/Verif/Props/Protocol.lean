import Verif.Model.Server
import Verif.Proofs.Encode
import Verif.Proofs.Decode
/-!
# Properties C01 - C06: the wire protocol

Specification: `Verif/Spec/Resp.lean` (what reply bytes mean to a client, what a request looks like).
-/
namespace Godis
open Resp

/-! ## C01 -/

/-- C01: the bytes of every reply are read back by the RESP parser as exactly that reply, leaving exactly the
bytes that follow. -/
theorem C01_reply_framing (r : Response) (m : Reply) (h : r.reply = some m) :
    ∃ b, r.encode = .ok b ∧ Denotes b m := encode_denotes r m h

-- an array of an arbitrary-bytes bulk string and a nil
example : (bulkInterfaces true [.str [13, 10, 0, 255], .nil]).reply
    = some (.array [.bulk (some [13, 10, 0, 255]), .bulk none]) := rfl

/-- C01: what each reply constructor used by the server denotes. -/
theorem C01_constructors (s : Bytes) (i : Int) (vs : List Bytes) (os : List (Option Bytes)) :
    (10 ∉ s → (newResponseWithSimpleString s).reply = some (.simple s)) ∧
    (10 ∉ s → (newResponseWithError s).reply = some (.error s)) ∧
    (newResponseWithInteger i).reply = some (.int i) ∧
    (newResponseWithBulkString s).reply = some (.bulk (some s)) ∧
    newResponseWithNilBulk.reply = some (.bulk none) ∧
    newResponseWithEmptyArray.reply = some (.array []) ∧
    (bulkStrings true vs).reply = some (.array (vs.map (fun v => .bulk (some v)))) ∧
    (bulkInterfaces true (os.map optIface)).reply = some (.array (os.map .bulk)) := by
  refine ⟨fun h => ?_, fun h => ?_, rfl, rfl, rfl, rfl, ?_, ?_⟩
  · simp [newResponseWithSimpleString, Response.reply, Item.reply, h]
  · simp [newResponseWithError, Response.reply, Item.reply, h]
  · simp only [bulkStrings, Response.reply, if_true]
    have : itemReplies (vs.map (fun s => ⟨.str s, .bulkStrings⟩)) = some (vs.map (fun v => Reply.bulk (some v))) := by
      induction vs with
      | nil => rfl
      | cons v vs ih => simp [itemReplies, ih, Item.reply]
    rw [this]; rfl
  · simp only [bulkInterfaces, Response.reply, if_true, List.map_map]
    have : itemReplies (os.map ((fun x => (⟨x, .bulkStrings⟩ : Item)) ∘ optIface)) = some (os.map Reply.bulk) := by
      induction os with
      | nil => rfl
      | cons v vs ih => cases v <;> simp [itemReplies, ih, Item.reply, optIface]
    rw [this]; rfl

/-- C01: a reply never ends early: two replies written one after the other are read as those two replies. -/
theorem C01_two_replies (r1 r2 : Response) (m1 m2 : Reply) (h1 : r1.reply = some m1) (h2 : r2.reply = some m2) :
    ∃ b1 b2, r1.encode = .ok b1 ∧ r2.encode = .ok b2 ∧
      ∃ fuel, ∀ rest, parseN fuel 2 (b1 ++ b2 ++ rest) = some ([m1, m2], rest) := by
  obtain ⟨b1, e1, f1, d1⟩ := encode_denotes r1 m1 h1
  obtain ⟨b2, e2, f2, d2⟩ := encode_denotes r2 m2 h2
  refine ⟨b1, b2, e1, e2, f1 + f2 + 2, fun rest => ?_⟩
  simp only [parseN, List.append_assoc]
  rw [d1 _ (by omega)]
  simp only
  rw [d2 _ (by omega)]
  rfl

example : (newResponseWithInteger (-5)).reply = some (.int (-5)) ∧
    (newResponseWithBulkString [36, 13, 10]).reply = some (.bulk (some [36, 13, 10])) := ⟨rfl, rfl⟩

/-! ## C02 -/

/-- C02: a request is decoded to exactly its arguments, whatever bytes they contain, and exactly its bytes are
consumed.  The bounds are those of the platform: lengths are 64-bit integers and one allocation is below
2^48 bytes. -/
theorem C02_binary_safe (s : Str) (args : List Str) (h : IsRequest s args) (rest : Str)
    (hn : args.length < 2 ^ 63) (hlen : ∀ a ∈ args, a.length + 2 ≤ 2 ^ 48) :
    ∃ rec, decodeFromReader (s ++ rest) = .ok rec rest ∧ rec.elements = args :=
  ⟨_, decode_request s args h rest hn hlen, rfl⟩

-- a request with an argument that contains protocol bytes
example : IsRequest (b! "*2\r\n$3\r\nGET\r\n$4\r\n\r\n$1\r\n") [b! "GET", [13, 10, 36, 49]] :=
  ⟨b! "2", _, by decide, .cons (d := b! "3") (by decide) (.cons (d := b! "4") (by decide) .nil), by decide⟩

/-- C02: two clients' requests cannot be confused: a byte string is the text of at most one argument list
(within the platform bounds). -/
theorem C02_unambiguous (s : Str) (args args' : List Str) (h : IsRequest s args) (h' : IsRequest s args')
    (hn : args.length < 2 ^ 63) (hlen : ∀ a ∈ args, a.length + 2 ≤ 2 ^ 48)
    (hn' : args'.length < 2 ^ 63) (hlen' : ∀ a ∈ args', a.length + 2 ≤ 2 ^ 48) : args = args' := by
  have a := decode_request s args h [] hn hlen
  have b := decode_request s args' h' [] hn' hlen'
  rw [a] at b
  simp only [DRes.ok.injEq, Receive.mk.injEq] at b
  exact b.1.1

/-! ## C03 -/

/-- C03 on well-formed requests: the recorded text is the text received. -/
theorem C03_original_text_partial (s : Str) (args : List Str) (h : IsRequest s args) (rest : Str)
    (hn : args.length < 2 ^ 63) (hlen : ∀ a ∈ args, a.length + 2 ≤ 2 ^ 48) :
    ∃ rec, decodeFromReader (s ++ rest) = .ok rec rest ∧ rec.orgStr = s :=
  ⟨_, decode_request s args h rest hn hlen, rfl⟩

/-- C03 on arbitrary input: if input is left after the request, no `*` occurs after the first byte (no nested
array) and no inline `PING` line occurs, the recorded text is exactly the consumed part of the input. -/
theorem C03_any_input_partial (buf : Bytes) (rec : Receive) (rest : Bytes)
    (h : decodeFromReader buf = .ok rec rest) (hr : rest ≠ []) (hs : 42 ∉ buf.tail)
    (hp : ¬ (b! "PING\r\n") <:+: buf) : rec.orgStr ++ rest = buf :=
  ((decode_spec buf).1 rec rest h).2.2 hr hs hp

example : decodeFromReader (b! "*1\r\n$1\r\na\r\nxyz") = .ok ⟨[b! "a"], b! "*1\r\n$1\r\na\r\n"⟩ (b! "xyz")
    ∧ 42 ∉ (b! "*1\r\n$1\r\na\r\nxyz").tail := by decide

/-- C03 fails for the inline `PING`: its text is recorded twice. -/
theorem C03_inline_ping_violated :
    decodeFromReader (b! "PING\r\n") = .ok ⟨[b! "PING"], b! "PING\r\nPING\r\n"⟩ [] := by decide

/-- C03 fails for nested arrays: the inner array's header is recorded after its content. -/
theorem C03_nested_violated :
    decodeFromReader (b! "*1\r\n*1\r\n$1\r\na\r\n")
      = .ok ⟨[b! "a"], b! "*1\r\n$1\r\na\r\n*1\r\n"⟩ [] := by decide

/-! ## C04 -/

/-- C04: decoding any bytes ends without a panic, unless the input contains a `$` or `*` line without carriage
return, or a `$` line of more than 14 bytes. -/
theorem C04_no_crash_partial (buf : Bytes) (h : ¬ BadHeader buf) (p : Panic) :
    decodeFromReader buf ≠ .panic p :=
  fun hp => h ((decode_spec buf).2 p hp).1

/-- C04: the only panics are the index and the allocation panic (in particular the decoder always
terminates). -/
theorem C04_terminates (buf : Bytes) : decodeFromReader buf ≠ .panic .diverge := by
  intro h
  rcases ((decode_spec buf).2 _ h).2 with h | h <;> exact absurd h (by decide)

/-- C04: a frame whose first line has fewer than three bytes (too short for a type byte, CR and LF) is refused: it neither
crashes the server nor counts as a request. -/
theorem C04_short_line_refused (l rest : Bytes) (hl : IsLine l) (h : l.length < 3) :
    decodeFromReader (l ++ rest) = .err .unsupported rest := by
  obtain ⟨b, rfl, hb⟩ := hl
  unfold decodeFromReader
  rw [show b ++ [10] ++ rest = b ++ 10 :: rest by simp, readLine_append b rest hb]
  simp only [decodeSingleLine, if_pos h]

example : IsLine (b! "$\n") ∧ decodeFromReader (b! "$\nx") = .err .unsupported (b! "x") :=
  ⟨⟨[36], rfl, by decide⟩, C04_short_line_refused (b! "$\n") (b! "x") ⟨[36], rfl, by decide⟩ (by decide)⟩

/-- Every byte string whose lines end in CR LF and are at most 14 bytes long satisfies the hypothesis of
`C04_no_crash_partial`. -/
theorem C04_hypothesis_met (buf : Bytes)
    (h : ∀ l, IsLine l → l <:+: buf → 13 ∈ l ∧ l.length ≤ 14) : ¬ BadHeader buf := by
  rintro ⟨l, hl, hi, hc⟩
  have := h l hl hi
  rcases hc with ⟨_, h13⟩ | ⟨_, h14⟩
  · exact h13 this.1
  · omega

/-- C04 fails: three bytes crash the server. -/
theorem C04_missing_cr_violated : decodeFromReader (b! "$5\n") = .panic .indexOutOfRange := by decide

/-- C04 fails: an announced length beyond the address space crashes the server. -/
theorem C04_huge_length_violated :
    decodeFromReader (b! "*1\r\n$999999999999999999\r\nx") = .panic .makeSlice := by decide +kernel

/-! ## C05 -/

/-- C05: every decoded argument is a contiguous piece of the input followed by zero bytes, and without zero
bytes if any input is left over. -/
theorem C05_pieces_partial (buf : Bytes) (rec : Receive) (rest : Bytes)
    (h : decodeFromReader buf = .ok rec rest) (e : Bytes) (he : e ∈ rec.elements) :
    ∃ w k, e = w ++ List.replicate k 0 ∧ w <:+: buf ∧ (rest ≠ [] → k = 0) :=
  ((decode_spec buf).1 rec rest h).2.1 e he

/-- C05: the decoder never reads past the input: what is left is a suffix of it. -/
theorem C05_rest_suffix (buf : Bytes) (rec : Receive) (rest : Bytes)
    (h : decodeFromReader buf = .ok rec rest) : rest <:+ buf :=
  ((decode_spec buf).1 rec rest h).1

example : decodeFromReader (b! "*1\r\n$2\r\nab\r\n+") = .ok ⟨[b! "ab"], b! "*1\r\n$2\r\nab\r\n"⟩ (b! "+") := by
  decide

/-- C05 fails for a truncated request: the missing bytes are invented as zero bytes. -/
theorem C05_truncated_violated :
    decodeFromReader (b! "*1\r\n$5\r\nab") =
      .ok ⟨[b! "ab" ++ [0, 0, 0]], b! "*1\r\n$5\r\nab" ++ [0, 0, 0, 0, 0]⟩ [] := by decide

/-- C05 fails for a negative length: `$-1` announces 2531 bytes, a 2531-byte argument is made up from the two
bytes that follow. -/
theorem C05_negative_violated :
    decodeFromReader (b! "*1\r\n$-1\r\nab") =
      .ok ⟨[b! "ab" ++ List.replicate 2529 0], b! "*1\r\n$-1\r\nab" ++ List.replicate 2531 0⟩ [] := by
  decide +kernel

/-! ## C06 -/

/-- C06: a frame that starts with a request has the effect and the reply of exactly that request; what follows
it in the frame is ignored. -/
theorem C06_first_request_partial (ext : Ext) (it : Iter) (st : Store) (s : Str) (args : List Str)
    (h : IsRequest s args) (rest : Str) (hn : args.length < 2 ^ 63) (hlen : ∀ a ∈ args, a.length + 2 ≤ 2 ^ 48) :
    reactFrame ext it st (s ++ rest) = reactFrame ext it st s := by
  have h1 := decode_request s args h rest hn hlen
  have h2 := decode_request s args h [] hn hlen
  rw [List.append_nil] at h2
  unfold reactFrame
  rw [h1, h2]

/-- C06 fails: of two requests in one frame the second is neither executed nor answered, although sent alone
it is (`SET a 1` then `SET b 2`). -/
theorem C06_pipeline_violated (ext : Ext) (it : Iter) (rng : Rng) :
    let r1 := b! "*3\r\n$3\r\nset\r\n$1\r\na\r\n$1\r\n1\r\n"
    let r2 := b! "*3\r\n$3\r\nset\r\n$1\r\nb\r\n$1\r\n2\r\n"
    ∃ s, reactFrame ext it (Store.init rng) (r1 ++ r2) = .ok (s, .reply (b! "+OK\r\n")) ∧
      s.exists (b! "b") = false ∧
      ∃ s', reactFrame ext it s r2 = .ok (s', .reply (b! "+OK\r\n")) ∧ s'.exists (b! "b") = true := by
  exact ⟨_, rfl, rfl, _, rfl, rfl⟩

end Godis
