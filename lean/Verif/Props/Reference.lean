import Verif.Proofs.Reference3
import Verif.Proofs.Grammar2
import Verif.Props.Concurrency
import Verif.Props.ServerV1
/-!
# C65, C66: the whole data server against one reference server

`RefSpec` (Spec/Reference.lean) describes, without the model, what every request of every command may answer and what the
keys hold afterwards, as one state machine.
-/
namespace Godis
open Resp (Reply)
open ZSpec (words)
open RefSpec (Outcome heard heardAll)

/-- C65. Every history of the server is one of the reference server. -/
theorem C65_history {ext : Ext} {rng : Rng} {tr : List (List Bytes × Reply)} {s : Store}
    (h : Trace ext (Store.init rng) tr s) (hw : words tr < 2 ^ 60) :
    RefSpec.Correct (libOf ext) (heardAll (libOf ext) tr) :=
  ((heard_trace h).reference (heardAll_plain tr) (lt_of_le_of_lt (heard_words tr) hw)).2.2

/-- C65. After every history, every request has exactly one outcome (a reply, no reply, a reply that cannot be sent, or a
panic), and it is one that the reference server has. -/
theorem C65_outcome {ext : Ext} {rng : Rng} {tr : List (List Bytes × Reply)} {s : Store}
    (h : Trace ext (Store.init rng) tr s) (it : Iter) {req : List Bytes} (hw : words tr + req.length < 2 ^ 60) :
    ∃ o, Ends ext it s req o ∧ (∀ o', Ends ext it s req o' → o' = o) ∧
      RefSpec.Fits (libOf ext) (∃ i, 30 < rng i) (RefSpec.after (libOf ext) (heardAll (libOf ext) tr)) (heard (libOf ext) req) o := by
  have h1 := heard_words (ext := ext) tr
  have h2 := heard_length (ext := ext) req
  obtain ⟨hT, hz, _⟩ := (heard_trace h).reference (heardAll_plain tr) (by omega)
  obtain ⟨o, h1, h2⟩ := ends_fits (it := it) (req := heard (libOf ext) req) (heard_trace h) (heardAll_plain tr) (by omega) hT hz (heard_plain req)
  exact ⟨o, heard_ends h1, fun o' h' => h'.unique (heard_ends h1), h2⟩

/-- C65. In particular, a request can only crash the server if the reference server says so. -/
theorem C65_no_crash {ext : Ext} {rng : Rng} {tr : List (List Bytes × Reply)} {s : Store}
    (h : Trace ext (Store.init rng) tr s) (hr : ∀ i, rng i ≤ 30) (it : Iter) {req : List Bytes} (hw : words tr + req.length < 2 ^ 60)
    (hc : ¬ RefSpec.Fits (libOf ext) False (RefSpec.after (libOf ext) (heardAll (libOf ext) tr)) (heard (libOf ext) req) .crash) :
    ¬ Crashes ext it s req := by
  intro hx
  obtain ⟨o, h1, h2, h3⟩ := C65_outcome h it hw
  rw [← h2 .crash hx] at h3
  refine hc ?_
  have : (∃ i, 30 < rng i) = False := by
    simp only [eq_iff_iff, iff_false, not_exists, Nat.not_lt]; exact hr
  rwa [this] at h3

/-- requests of every family, on keys shared between them -/
def mixed : List (List Bytes) :=
  [[b! "SET", b! "x", b! "41"], [b! "incr", b! "x"], [b! "RPUSH", b! "l", b! "a", b! "b"], [b! "SADD", b! "s", b! "p", b! "q"],
   [b! "SUNIONSTORE", b! "t", b! "s"], [b! "SREM", b! "s", b! "p"], [b! "SCARD", b! "t"], [b! "ZADD", b! "z", b! "1", b! "m"],
   [b! "LPUSH", b! "x", b! "c"], [b! "HGET", b! "h", b! "f"], [b! "MSET", b! "l", b! "1", b! "y", b! "2"], [b! "DEL", b! "z"],
   [b! "ZADD", b! "z", b! "2", b! "n"]]

/-- Case: the hypotheses of C65 are met by `mixed`. -/
theorem mixed_trace : ∃ tr s, play ext0 it0 (Store.init rng0) mixed = some (tr, s) ∧ Trace ext0 (Store.init rng0) tr s ∧
    tr.map (·.1) = mixed ∧ words tr < 2 ^ 60 ∧ ∀ i, rng0 i ≤ 30 := by
  have hd : (play ext0 it0 (Store.init rng0) mixed).isSome = true := by decide +kernel
  obtain ⟨⟨tr, s⟩, h⟩ := Option.isSome_iff_exists.mp hd
  have hf := play_fst h
  refine ⟨tr, s, h, play_trace h, hf, ?_, fun i => by simp [rng0]⟩
  have : words tr = (mixed.map List.length).sum := by rw [← hf]; simp [words, Function.comp_def]
  rw [this]; decide +kernel

/-- Case: what the reference server makes of it: TYPE of every key, and the size of the set that `s` and `t` name. -/
example : ((play ext0 it0 (Store.init rng0) mixed).map fun p =>
    let W := RefSpec.after (libOf ext0) (heardAll (libOf ext0) p.1)
    ([b! "x", b! "l", b! "s", b! "t", b! "z", b! "y", b! "h"].map fun k => (W.holds k).typeName, (W.holds (b! "x")).asText,
      W.next)) =
    some ([b! "string", b! "string", b! "setIfNotExists", b! "setIfNotExists", b! "sortedSet", b! "string", b! "none"], b! "42", 1) := by
  decide +kernel

/-! ## the concurrent server -/

/-- an array of elements has not more words than bytes -/
theorem elems_words {n : Int} {s t rest : Bytes} {as : List Bytes} (h : Grammar.Elems n s as t rest) : as.length + rest.length ≤ s.length := by
  induction h with
  | done => simp
  | word _ _ _ _ _ ih => simp at ih ⊢; omega
  | ping _ _ ih => simp [Grammar.pingLine] at ih ⊢; omega
  | bulk _ hh hd _ ih =>
    obtain ⟨d, j, rfl, _⟩ := hh
    simp at ih ⊢; omega
  | nested _ hh _ _ ih1 ih2 => simp at ih1 ih2 ⊢; omega

/-- a request has not more words than bytes -/
theorem decodes_words {b : Bytes} {req : List Bytes} (h : Event.Decodes b req) : req.length ≤ b.length := by
  obtain ⟨⟨as, t⟩, rest, h, rfl⟩ := h
  rw [reads_iff] at h
  cases h with
  | array hh he => have := elems_words he; simp at this ⊢; omega
  | single _ he => have := elems_words he; simp at this ⊢; omega

end Godis
namespace Godis.Event
open Resp (Reply)
open ZSpec (words)
open Linear (Op Linearizable)

/-- the number of bytes received -/
def bytesIn (h : List Linear.Ev) : Nat :=
  (h.map fun e =>
    match e with
    | .call _ _ b => b.length
    | .ret .. => 0).sum

theorem bytesIn_words : ∀ (ops : List Op) (h : List Linear.Ev), (ops.map (·.id)).Nodup →
    (∀ o ∈ ops, ∃ conn b, .call o.id conn b ∈ h ∧ Decodes b o.req) →
    words (ops.map fun o => (o.req, o.reply)) ≤ bytesIn h
  | [], h, _, _ => by simp [words]
  | o :: ops, h, hn, hc => by
    obtain ⟨conn, b, hm, hb⟩ := hc o (by simp)
    obtain ⟨h1, h2, rfl⟩ := List.append_of_mem hm
    have hn' := List.nodup_cons.mp hn
    have ih := bytesIn_words ops (h1 ++ h2) hn'.2 (fun o' ho' => by
      obtain ⟨c', b', hm', hb'⟩ := hc o' (by simp [ho'])
      refine ⟨c', b', ?_, hb'⟩
      simp only [List.mem_append, List.mem_cons] at hm' ⊢
      rcases hm' with hm' | hm' | hm'
      · exact .inl hm'
      · have : o'.id = o.id := by injection hm'
        exact absurd (List.mem_map.mpr ⟨o', ho', this⟩) hn'.1
      · exact .inr hm')
    have := decodes_words hb
    simp only [words, bytesIn, List.map_cons, List.map_append, List.sum_cons, List.sum_append] at ih ⊢
    omega

/-- C66. Whatever the clients send and however the goroutines are scheduled, what the clients see is explained by the
reference server serving the requests one at a time, in an order that respects real time. -/
theorem C66_linearizable {ext rng L σ} (h : Run ext 1 rng L σ) (hw : bytesIn (visible L) < 2 ^ 60) :
    Linearizable (fun tr => RefSpec.Correct (libOf ext) (RefSpec.heardAll (libOf ext) tr)) Decodes (visible L) := by
  obtain ⟨ops, h1, h2, h3, h4, h5⟩ := C43_linearizable h
  exact ⟨ops, C65_history h1 (lt_of_le_of_lt (bytesIn_words ops _ h2 h3) hw), h2, h3, h4, h5⟩

deriving instance DecidableEq for Linear.Ev

/-- Case: two clients send `INCR x` at the same time and the requests overlap; the hypotheses of C66 are met. -/
example : ∃ L σ, Run ext0 1 rng0 L σ ∧
    bytesIn (visible L) < 2 ^ 60 ∧ .ret 0 0 (b! ":2\r\n") ∈ visible L ∧ .ret 1 1 (b! ":1\r\n") ∈ visible L := by
  have hd : (trySchedule ext0 it0 1 rng0
      [.recv 0 0 incrX, .recv 1 1 incrX, .handle 0, .handle 1, .handle 1, .work 0, .handle 0, .work 0, .work 0, .work 0, .work 0,
        .handle 1, .work 0, .work 0, .work 0, .handle 0, .handle 0, .handle 1]).map (fun p => visible p.1) =
      some [.call 0 0 incrX, .call 1 1 incrX, .ret 0 0 (b! ":2\r\n"), .ret 1 1 (b! ":1\r\n")] := by decide +kernel
  obtain ⟨r, hr, hv⟩ := Option.map_eq_some_iff.mp hd
  refine ⟨r.1, r.2, try_run hr, ?_, ?_, ?_⟩
  · rw [hv]; decide +kernel
  · rw [hv]; simp
  · rw [hv]; simp

end Godis.Event
namespace Godis.V1
open Linear (Linearizable)
open Event (Decodes visible bytesIn)

/-- C66, v1 server: what all clients together see is explained by the reference server. -/
theorem C66_v1_linearizable {ext rng L v} (h : VRun ext rng L v) (hw : bytesIn (visible (sysLabels L)) < 2 ^ 60) :
    Linearizable (fun tr => RefSpec.Correct (libOf ext) (RefSpec.heardAll (libOf ext) tr)) Decodes (visible (sysLabels L)) :=
  Event.C66_linearizable h.run hw

end Godis.V1
