import Verif.Proofs.Grammar3
import Verif.Proofs.Strings
import Verif.Props.Register
import Verif.Props.Account
import Verif.Spec.Client
/-!
# What the package encodes, it decodes: C89
-/
namespace Godis
open Resp (Reply IsRequest IsBulks Denotes)
open Grammar
open ClientSpec

/-- the bytes of one item are read as its word -/
theorem item_elems {i : Item} {m : Reply} {w : Bytes} (h : i.reply = some m) (hw : word m = some w) (hl : w.length + 2 ≤ 2 ^ 48) :
    ∃ b, i.encode = .ok b ∧ ∀ {n : Int} {s t rest as}, 0 < n → Elems (n - 1) s as t rest → Elems n (b ++ s) (w :: as) (b ++ t) rest := by
  obtain ⟨v, t⟩ := i
  have line : ∀ {c : UInt8} {x : Bytes}, c ∈ [43, 45, 58] → 10 ∉ x → ∀ {n : Int} {s t rest as}, 0 < n → Elems (n - 1) s as t rest →
      Elems n ((c :: x ++ [13, 10]) ++ s) (x :: as) ((c :: x ++ [13, 10]) ++ t) rest :=
    fun hc hx _ _ _ _ _ hn he => .word hn hc hx (by decide) he
  unfold Item.reply at h
  unfold Item.encode
  cases t <;> cases v <;> simp only [reduceCtorEq] at h ⊢
  · next s =>
    split at h
    · simp at h
    · next hs =>
      cases h; cases hw
      exact ⟨_, rfl, line (by decide) hs⟩
  · next s =>
    split at h
    · simp at h
    · next hs =>
      cases h; cases hw
      exact ⟨_, rfl, line (by decide) hs⟩
  · next n =>
    cases h; cases hw
    rw [← formatInt_eq]
    exact ⟨_, rfl, line (by decide) (formatInt_noLF n)⟩
  · cases h; cases hw
  · next s =>
    cases h
    injection hw with hw
    subst hw
    refine ⟨_, rfl, fun {n u t rest as} hn he => ?_⟩
    have hd : Header 36 (s.length : Nat) (36 :: formatNat s.length ++ [13, 10]) := header_dec (by decide) (dec_formatNat _) (by omega)
    have := Elems.bulk (a := s) (z := [13, 10]) (w := s ++ [13, 10]) hn hd
      ⟨by simp, rfl, rfl, ⟨0, by simp, .inl rfl⟩, by omega⟩ he
    simpa [CRLF] using this

theorem items_elems {is : List Item} {ms : List Reply} {ws : List Bytes} (h : itemReplies is = some ms) (hw : ms.mapM word = some ws)
    (hl : ∀ w ∈ ws, w.length + 2 ≤ 2 ^ 48) : is.length = ws.length ∧ ∃ b, encodeItems is = .ok b ∧ ∀ rest, Elems ws.length (b ++ rest) ws b rest := by
  induction is generalizing ms ws with
  | nil =>
    cases h; cases hw
    exact ⟨rfl, [], rfl, fun rest => .done _ (by simp)⟩
  | cons i is ih =>
    unfold itemReplies at h
    split at h
    · next m ms' h1 h2 =>
      cases h
      rw [List.mapM_cons] at hw
      cases hm : word m with
      | none => rw [hm] at hw; cases hw
      | some w =>
        cases hm' : List.mapM word ms' with
        | none => rw [hm, hm'] at hw; cases hw
        | some ws' =>
          rw [hm, hm'] at hw
          cases hw
          obtain ⟨b, h3, h4⟩ := item_elems h1 hm (hl w (List.mem_cons_self ..))
          obtain ⟨h5, b', h6, h7⟩ := ih h2 hm' fun w hw => hl w (List.mem_cons_of_mem _ hw)
          refine ⟨by simp [h5], b ++ b', by simp only [encodeItems, h3, h6, bind, Except.bind], fun rest => ?_⟩
          rw [List.append_assoc]
          refine h4 (by simp) ?_
          have e : ((w :: ws').length : Int) - 1 = ws'.length := by simp
          rw [e]
          exact h7 rest
    · cases h

/-- **C89 (the decoder reads what the encoder writes).**  The bytes of every reply without nil, sent as a request, are read as the words
of the reply; they are recorded as they are, and nothing of what follows is touched. -/
theorem C89_words {r : Response} {m : Reply} {ws : List Bytes} (h : r.reply = some m) (hw : words m = some ws) (hf : Sendable ws) :
    ∃ b, r.encode = .ok b ∧ ∀ rest, decodeFromReader (b ++ rest) = .ok ⟨ws, b⟩ rest := by
  obtain ⟨items, arr⟩ := r
  obtain ⟨hn, hl⟩ := hf
  cases arr with
  | true =>
    simp only [Response.reply, if_true] at h
    obtain ⟨ms, h1, rfl⟩ := Option.map_eq_some_iff.mp h
    obtain ⟨h2, b, h3, h4⟩ := items_elems h1 hw hl
    have hd : Header 42 (ws.length : Nat) (42 :: formatNat ws.length ++ [13, 10]) := header_dec (by decide) (dec_formatNat _) hn
    refine ⟨42 :: formatNat ws.length ++ [13, 10] ++ b, ?_, fun rest => ?_⟩
    · cases items with
      | nil =>
        have : ws = [] := List.length_eq_zero_iff.mp h2.symm
        subst this
        cases h3
        rfl
      | cons i is =>
        unfold Response.encode
        simp only [Bool.not_true, Bool.false_eq_true, if_false, h3, bind, Except.bind, CRLF, h2]
    · rw [reads_iff, List.append_assoc]
      exact .array hd (h4 rest)
  | false =>
    simp only [Response.reply, Bool.false_eq_true, if_false] at h
    cases items with
    | nil => cases h; cases hw
    | cons i is =>
      simp only at h
      have hw' : ∃ w, word m = some w ∧ ws = [w] := by
        cases m with
        | array ms => cases i with | mk v t => cases t <;> cases v <;> simp [Item.reply] at h
        | simple s => injection hw with hw; exact ⟨s, rfl, hw.symm⟩
        | error s => injection hw with hw; exact ⟨s, rfl, hw.symm⟩
        | int i => injection hw with hw; exact ⟨_, rfl, hw.symm⟩
        | bulk o =>
          cases o with
          | none => cases hw
          | some s => injection hw with hw; exact ⟨s, rfl, hw.symm⟩
      obtain ⟨w, h1, rfl⟩ := hw'
      obtain ⟨b, h2, h3⟩ := item_elems h h1 (hl w (by simp))
      refine ⟨b, ?_, fun rest => ?_⟩
      · unfold Response.encode
        simpa using h2
      · have he := h3 (n := 1) (s := rest) (t := []) (rest := rest) (as := []) (by decide) (.done _ (by decide))
        rw [List.append_nil] at he
        rw [reads_iff]
        refine .single ?_ he
        obtain ⟨v, t⟩ := i
        unfold Item.encode at h2
        cases t <;> cases v <;> simp at h2 <;> subst h2 <;> simp

/-- **C89 (requests).**  An array of bulk strings is encoded as a request with exactly these words, whatever bytes they consist of. -/
theorem C89_request (ws : List Bytes) : ∃ b, (bulkStrings true ws).encode = .ok b ∧ IsRequest b ws := by
  have hb : ∀ ws : List Bytes, ∃ b, encodeItems (ws.map fun s => ⟨.str s, .bulkStrings⟩) = .ok b ∧ IsBulks b ws := by
    intro ws
    induction ws with
    | nil => exact ⟨[], rfl, .nil⟩
    | cons w ws ih =>
      obtain ⟨b, h1, h2⟩ := ih
      refine ⟨36 :: formatNat w.length ++ [13, 10] ++ w ++ [13, 10] ++ b, ?_, .cons (dec_formatNat _) h2⟩
      simp only [List.map_cons, encodeItems, Item.encode, h1, bind, Except.bind, CRLF]
  obtain ⟨b, h1, h2⟩ := hb ws
  refine ⟨42 :: formatNat ws.length ++ [13, 10] ++ b, ?_, ⟨_, b, dec_formatNat _, h2, rfl⟩⟩
  unfold bulkStrings Response.encode
  cases ws with
  | nil => cases h1; rfl
  | cons w ws =>
    simp only [List.map_cons] at h1 ⊢
    simp only [Bool.not_true, Bool.false_eq_true, if_false, h1, bind, Except.bind, CRLF, List.length_cons, List.length_map]

theorem bulks_words (ws : List Bytes) : words (Resp.bulks ws) = some ws := by
  unfold Resp.bulks words
  induction ws with
  | nil => rfl
  | cons w ws ih =>
    simp only [List.map_cons, List.mapM_cons] at ih ⊢
    rw [ih]
    rfl

/-- **C89 (a list that was read can be sent).**  The bytes of a reply that lists texts (LRANGE, SMEMBERS, KEYS, ...), sent as a request,
are the request with these words. -/
theorem C89_list_as_request {r : Response} {ws : List Bytes} (h : r.reply = some (Resp.bulks ws)) (hf : Sendable ws) :
    ∃ b, r.encode = .ok b ∧ Denotes b (Resp.bulks ws) ∧ Event.Decodes b ws := by
  obtain ⟨b, h1, h2⟩ := C89_words h (bulks_words ws) hf
  obtain ⟨b', h3, h4⟩ := encode_denotes r _ h
  rw [h1] at h3
  cases h3
  refine ⟨b, h1, h4, ⟨ws, b⟩, [], ?_, rfl⟩
  simpa using h2 []

namespace Event
variable {ext : Ext} {rng : Rng} {L A B : List Label} {σ : Sys}

/-- **C89 (from the package to the store).**  If a client sends what the package encodes for the words `ws` (not none), the server executes
`ws` or nothing: whatever is executed for this frame is the request with the words `ws`, on the store as it is then. -/
theorem C89_served (h : Run ext 1 rng L σ) {ws : List Bytes} (hf : Sendable ws) {b} (hb : (bulkStrings true ws).encode = .ok b) {w i c rsp}
    (hr : .recv i c b ∈ L) (hL : L = A ++ .exec w i rsp :: B) :
    ∃ it s s', runRequest ext it s ws = .ok (s', some rsp) ∧ Reachable ext s := by
  obtain ⟨c', f, req, it, s, s', h1, h2, h3, h4⟩ := C44_own_request h hL
  obtain ⟨_, rfl⟩ := h.recv_unique (hL ▸ List.mem_append_left _ h1) hr
  have hrep : (bulkStrings true ws).reply = some (Resp.bulks ws) := (C01_constructors [] 0 ws []).2.2.2.2.2.2.1
  obtain ⟨b', g1, _, g3⟩ := C89_list_as_request hrep hf
  rw [hb] at g1
  cases g1
  rw [decodes_det h2 g3] at h3
  exact ⟨it, s, s', h3, h4⟩

/-- Case: a client encodes `GET x` with the package, and it is served. -/
example : ∃ L σ A B w c rsp, Run ext0 1 rng0 L σ ∧ Sendable [b! "GET", b! "x"] ∧ (bulkStrings true [b! "GET", b! "x"]).encode = .ok getX ∧
    .recv 0 c getX ∈ L ∧ L = A ++ .exec w 0 rsp :: B := by
  obtain ⟨σ, h⟩ : ∃ σ, Run ext0 1 rng0 (oneReq 0 0 getX newResponseWithNilBulk (b! "$-1\r\n")) σ :=
    try_labels (it := it0) (as := whole 0 0 getX) (by decide +kernel)
  exact ⟨_, σ, [.recv 0 0 getX, .log 0 getX, .enqueue 0, .take 0 0, .start 0 0], _, 0, 0, _, h, ⟨by decide, by decide⟩, by decide +kernel,
    by simp [oneReq], rfl⟩

end Event

/-! ## the hypotheses are met, and where the claim fails -/

-- an array of texts and a number
example : (⟨[⟨.str (b! "SET"), .bulkStrings⟩, ⟨.str (b! "k"), .simpleStrings⟩, ⟨.int (-5), .integers⟩], true⟩ : Response).reply =
      some (.array [.bulk (some (b! "SET")), .simple (b! "k"), .int (-5)]) ∧
    words (.array [.bulk (some (b! "SET")), .simple (b! "k"), .int (-5)]) = some [b! "SET", b! "k", b! "-5"] ∧
    Sendable [b! "SET", b! "k", b! "-5"] := ⟨by decide, by decide, by decide, by decide⟩

/-- C89 fails for nil: it is read as the announcement of 2531 bytes, and what follows is taken for them. -/
theorem C89_nil_violated : ∃ b, (bulkInterfaces true [.nil, .str (b! "a")]).encode = .ok b ∧ decodeFromReader b = .err .eof [] ∧
    ∃ c, (bulkInterfaces true [.str (b! "a"), .nil]).encode = .ok c ∧
      decodeFromReader (c ++ b! "*1") = .ok ⟨[b! "a", b! "*1" ++ List.replicate 2529 0], c ++ b! "*1" ++ List.replicate 2531 0⟩ [] :=
  ⟨_, rfl, by decide +kernel, _, rfl, by decide +kernel⟩

/-- C89 fails for a request built without the array flag (as in e2e/e2e_test.go): all words but the first are dropped. -/
theorem C89_flag_violated : ∃ b, (bulkInterfaces false [.str (b! "MEGT"), .str (b! "key1")]).encode = .ok b ∧
    decodeFromReader b = .ok ⟨[b! "MEGT"], b⟩ [] := ⟨_, rfl, by decide +kernel⟩

end Godis
