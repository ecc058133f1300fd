import Verif.Props.Log
import Verif.Model.Persistence
import Verif.Proofs.LogText
/-!
# Recovery from the log after a crash: C54

The log is what the server writes to its standard output: the text of each request, followed by a line feed.
A crash can cut it off after any byte.
-/
namespace Godis.Event
open Resp (IsRequest IsLog)

/-- two lists of the same length whose corresponding entries are a request and its words -/
abbrev Texts (ts : List Bytes) (reqs : List (List Bytes)) : Prop := List.Forall₂ IsRequest ts reqs

theorem texts_isLog {ts : List Bytes} {reqs : List (List Bytes)} (h : Texts ts reqs) : IsLog (ts.flatMap writeCommand) reqs := by
  induction h with
  | nil => exact .nil
  | cons h1 _ ih =>
    rw [List.flatMap_cons]
    show IsLog (_ ++ [10] ++ _) _
    rw [List.append_assoc]
    exact .cons h1 ih

/-- every logged text is a request -/
theorem Run.log_requests {ext n rng L σ} (h : Run ext n rng L σ) (hwf : WellFormed L) : ∃ reqs, Texts σ.log reqs := by
  have hall : ∀ t ∈ σ.log, ∃ req, IsRequest t req := by
    rw [h.log_eq]
    intro t ht
    obtain ⟨⟨i, t'⟩, hm, rfl⟩ := List.mem_map.mp ht
    obtain ⟨c, f, rec, rest, h1, h2, h3⟩ := h.log_text i t' (mem_logs.mp hm)
    obtain ⟨req, w1, _, w3, w4⟩ := hwf _ _ _ h1
    have hd := decode_request f req w1 [] w3 w4
    rw [List.append_nil] at hd
    rw [hd] at h2
    cases h2
    subst h3
    exact ⟨req, w1⟩
  generalize σ.log = ts at hall
  induction ts with
  | nil => exact ⟨[], .nil⟩
  | cons t ts ih =>
    obtain ⟨req, h1⟩ := hall t (by simp)
    obtain ⟨reqs, h2⟩ := ih (fun t ht => hall t (by simp [ht]))
    exact ⟨req :: reqs, .cons h1 h2⟩

/-- C54: a log can be read in one way only. -/
theorem C54_unambiguous {text : Bytes} {reqs reqs' : List (List Bytes)} (h : IsLog text reqs) (h' : IsLog text reqs') : reqs = reqs' := by
  obtain ⟨k, h1, h2⟩ := isLog_prefix (x := []) (y := []) h h' rfl (Nat.le_refl _)
  obtain ⟨j, h3, h4⟩ := isLog_prefix (x := []) (y := []) h' h rfl (Nat.le_refl _)
  have e1 := congrArg List.length h1
  have e2 := congrArg List.length h3
  rw [List.length_take] at e1 e2
  rw [h1, List.take_of_length_le (by omega)]

/-- C54: whatever the schedule, if all frames are well-formed requests, the bytes in the log are the logged requests, in
order; nothing else can be read from them. -/
theorem C54_log_reads_back {ext n rng L σ} (h : Run ext n rng L σ) (hwf : WellFormed L) :
    ∃ reqs, Texts σ.log reqs ∧ IsLog σ.logText reqs ∧ ∀ reqs', IsLog σ.logText reqs' → reqs' = reqs := by
  obtain ⟨reqs, h1⟩ := h.log_requests hwf
  exact ⟨reqs, h1, texts_isLog h1, fun _ h' => C54_unambiguous h' (texts_isLog h1)⟩

/-- the complete entries of a text that was cut off -/
theorem cut_log {ts : List Bytes} {p : Bytes} (h : p <+: ts.flatMap writeCommand) :
    ∃ k tail, k ≤ ts.length ∧ p = (ts.take k).flatMap writeCommand ++ tail ∧ ∀ t ∈ ts[k]?, tail.length ≤ t.length := by
  induction ts generalizing p with
  | nil => exact ⟨0, [], by simp, by simpa using h, by simp⟩
  | cons t ts ih =>
    by_cases hl : p.length ≤ t.length
    · refine ⟨0, p, by simp, by simp, ?_⟩
      intro t' ht
      simp only [List.getElem?_cons_zero, Option.mem_def, Option.some.injEq] at ht
      subst ht; exact hl
    · rw [List.flatMap_cons] at h
      obtain ⟨y, hy⟩ := h
      have hp : writeCommand t <+: p := by
        refine List.prefix_of_prefix_length_le (l₃ := p ++ y) ?_ (List.prefix_append _ _) ?_
        · rw [hy]; exact List.prefix_append _ _
        · simp [writeCommand]; omega
      obtain ⟨p', rfl⟩ := hp
      have hp' : p' <+: ts.flatMap writeCommand := ⟨y, by simpa [List.append_assoc] using hy⟩
      obtain ⟨k, tail, h1, h2, h3⟩ := ih hp'
      refine ⟨k + 1, tail, by simp; omega, ?_, by simpa using h3⟩
      rw [h2]
      simp

/-- C54, crash points: let the log be cut off after any byte.  Then some number `k` of its entries is complete, the rest
is shorter than the next entry and its line feed, and every way to read requests from the beginning of what is left
gives the first of the logged requests, at most `k` of them. -/
theorem C54_crash_point {ext n rng L σ} (h : Run ext n rng L σ) (hwf : WellFormed L) {p : Bytes} (hp : p <+: σ.logText) :
    ∃ reqs k tail, Texts σ.log reqs ∧ p = (σ.log.take k).flatMap writeCommand ++ tail ∧ (∀ t ∈ σ.log[k]?, tail.length ≤ t.length) ∧
      IsLog ((σ.log.take k).flatMap writeCommand) (reqs.take k) ∧
      ∀ q rest reqs', p = q ++ rest → IsLog q reqs' → ∃ j, j ≤ k ∧ reqs' = reqs.take j := by
  obtain ⟨reqs, h1⟩ := h.log_requests hwf
  obtain ⟨k, tail, h2, h3, h4⟩ := cut_log hp
  have hk : IsLog ((σ.log.take k).flatMap writeCommand) (reqs.take k) := texts_isLog (List.forall₂_take k h1)
  have hlen := h1.length_eq
  refine ⟨reqs, k, tail, h1, h3, h4, hk, ?_⟩
  intro q rest reqs' hq hr
  have hall := texts_isLog h1
  obtain ⟨y, hy⟩ := hp
  by_cases hc : q.length ≤ ((σ.log.take k).flatMap writeCommand).length
  · obtain ⟨j, g1, g2⟩ := isLog_prefix hr hk (x := rest) (y := tail) (by rw [← hq, h3]) hc
    rw [List.length_take] at g2
    exact ⟨j, by omega, by rw [g1, List.take_take, Nat.min_eq_left (by omega)]⟩
  · -- the reading would contain the next entry
    exfalso
    have hj : ∃ j, reqs' = reqs.take j ∧ j ≤ reqs.length :=
      isLog_prefix hr hall (x := rest ++ y) (y := []) (by
        rw [List.append_nil, ← List.append_assoc, ← hq]; exact hy) (by
        have := congrArg List.length hy
        have e2 := congrArg List.length hq
        simp only [List.length_append] at this e2
        change _ ≤ σ.logText.length
        omega)
    obtain ⟨j, rfl, hj⟩ := hj
    -- the text of `j` requests is the text of the first `j` entries
    have hq' : q = (σ.log.take j).flatMap writeCommand := by
      have ht : IsLog ((σ.log.take j).flatMap writeCommand) (reqs.take j) := texts_isLog (List.forall₂_take j h1)
      have := isLog_same ht hr (x := (σ.log.drop j).flatMap writeCommand) (y := rest ++ y) (by
        rw [← List.flatMap_append, List.take_append_drop, ← List.append_assoc, ← hq]
        exact hy.symm)
      exact this.symm
    have hjk : k < j := by
      by_contra hjk
      have : (σ.log.take k) = σ.log.take j ++ (σ.log.take k).drop j := by
        conv_lhs => rw [← List.take_append_drop j (σ.log.take k), List.take_take, Nat.min_eq_left (by omega)]
      rw [this, List.flatMap_append, List.length_append, ← hq'] at hc
      omega
    have hjl : k < σ.log.length := by omega
    have h5 := h4 _ (by rw [List.getElem?_eq_getElem hjl]; rfl)
    have h6 : σ.log.take j = σ.log.take (k + 1) ++ (σ.log.take j).drop (k + 1) := by
      conv_lhs => rw [← List.take_append_drop (k + 1) (σ.log.take j), List.take_take, Nat.min_eq_left (by omega)]
    have e1 := congrArg List.length h3
    have e2 := congrArg List.length hq
    rw [hq', h6, List.flatMap_append, List.take_succ_eq_append_getElem hjl, List.flatMap_append, List.flatMap_singleton] at e2
    simp only [List.length_append, writeCommand, List.length_singleton] at e1 e2
    omega

theorem Run.log_prefix {ext n rng L σ} (h : Run ext n rng L σ) {k : Nat} (hk : k ≤ σ.log.length) :
    ∃ L' σ', L' <+: L ∧ Run ext n rng L' σ' ∧ σ'.log = σ.log.take k := by
  induction h with
  | nil => exact ⟨[], _, List.prefix_refl _, .nil, by simp [Sys.init]⟩
  | @snoc L σ l σ' hr hc hs ih =>
    by_cases hle : k ≤ σ.log.length
    · obtain ⟨L', τ, h1, h2, h3⟩ := ih hle
      refine ⟨L', τ, h1.trans (List.prefix_append _ _), h2, h3.trans ?_⟩
      obtain ⟨ts, hts⟩ : ∃ ts, σ'.log = σ.log ++ ts := by
        rw [(Run.snoc hr hc hs).log_eq, hr.log_eq, logs_snoc, List.map_append]
        exact ⟨_, rfl⟩
      rw [hts, List.take_append_of_le_length hle]
    · refine ⟨L ++ [l], σ', List.prefix_refl _, .snoc hr hc hs, ?_⟩
      rw [List.take_of_length_le]
      have : σ'.log.length ≤ σ.log.length + 1 := by
        rw [(Run.snoc hr hc hs).log_eq, hr.log_eq, logs_snoc, List.map_append, List.length_append]
        cases l <;> simp
      omega

theorem Separate.of_prefix {L L' : List Label} (h : Separate L) (hp : L' <+: L) : Separate L' := by
  obtain ⟨y, rfl⟩ := hp
  rintro A j c f B rfl
  exact h A j c f (B ++ y) (by simp)

theorem WellFormed.of_prefix {L L' : List Label} (h : WellFormed L) (hp : L' <+: L) : WellFormed L' :=
  fun i c f hm => h i c f (hp.subset hm)

/-- C54, for requests that do not overlap: whenever the process ends and wherever its log is cut off, replaying the
complete entries of what is left, up to at most the last of them, gives the store the server had at some moment: the
moment when exactly these entries were in the log. -/
theorem C54_recovery_partial {ext rng L σ} (h : Run ext 1 rng L σ) (hwf : WellFormed L) (hsep : Separate L) {p : Bytes}
    (hp : p <+: σ.logText) :
    ∃ L' σ' ts last tail, L' <+: L ∧ Run ext 1 rng L' σ' ∧ p = σ'.logText ++ tail ∧
      (∀ t ∈ σ.log[σ'.log.length]?, tail.length ≤ t.length) ∧
      σ'.log = ts ++ last ∧ last.length ≤ 1 ∧ Replay ext (Store.init rng) ts σ'.store := by
  obtain ⟨k, tail, h1, h2, h3⟩ := cut_log hp
  obtain ⟨L', σ', g1, g2, g3⟩ := h.log_prefix h1
  obtain ⟨ts, last, k1, k2, k3, _⟩ := C49_replay_partial g2 (hwf.of_prefix g1) (hsep.of_prefix g1)
  refine ⟨L', σ', ts, last, tail, g1, g2, by rw [h2, ← g3]; rfl, ?_, k1, k2, k3⟩
  rw [g3, List.length_take, Nat.min_eq_left h1]
  exact h3

/-- `SET x 555` as a frame -/
def setX555 : Bytes := b! "*3\r\n$3\r\nSET\r\n$1\r\nx\r\n$3\r\n555\r\n"

theorem isRequest_setX555 : IsRequest setX555 [b! "SET", b! "x", b! "555"] :=
  ⟨b! "3", _, by decide, .cons (d := b! "3") (by decide) (.cons (d := b! "1") (by decide) (.cons (d := b! "3") (by decide) .nil)), by decide⟩

theorem wellFormed_one {i c : Nat} {f : Bytes} {req : List Bytes} {L : List Label} (h : IsRequest f req) (hne : req ≠ [])
    (hn : req.length < 2 ^ 63) (hlen : ∀ a ∈ req, a.length + 2 ≤ 2 ^ 48) (hL : ∀ l ∈ L, ∀ i c f, l ≠ .recv i c f) :
    WellFormed (.recv i c f :: L) := by
  intro i' c' f' hm
  rcases List.mem_cons.mp hm with he | hm
  · cases he; exact ⟨req, h, hne, hn, hlen⟩
  · exact absurd rfl (hL _ hm i' c' f')

/-- Case: one request, logged; the log cut off in its middle and after it. -/
example : ∃ σ, Run ext0 1 rng0 [.recv 0 0 setX555, .log 0 setX555] σ ∧ WellFormed [.recv 0 0 setX555, .log 0 setX555] ∧
    σ.logText = setX555 ++ [10] ∧ setX555.take 30 <+: σ.logText := by
  obtain ⟨σ, h⟩ := try_labels (ext := ext0) (n := 1) (rng := rng0) (it := it0) (as := [.recv 0 0 setX555, .handle 0])
    (L := [.recv 0 0 setX555, .log 0 setX555]) rfl
  have hl : σ.logText = setX555 ++ [10] := by
    have := h.log_eq
    unfold Sys.logText
    rw [this]; rfl
  refine ⟨σ, h, wellFormed_one isRequest_setX555 (by simp) (by decide) (by decide) (by simp), hl, ?_⟩
  rw [hl]
  exact (List.take_prefix _ _).trans (List.prefix_append _ _)

/-- C54 fails for recovery with the server's own decoder: it reads a request from the cut log that nobody sent. -/
theorem C54_own_decoder_violated : ∃ L σ p, Run ext0 1 rng0 L σ ∧ WellFormed L ∧ p <+: σ.logText ∧
    Decodes p [b! "SET", b! "x", [53, 53, 0]] ∧ ∀ i c f, .recv i c f ∈ L → ¬ Decodes f [b! "SET", b! "x", [53, 53, 0]] := by
  obtain ⟨σ, h⟩ := try_labels (ext := ext0) (n := 1) (rng := rng0) (it := it0) (as := [.recv 0 0 setX555, .handle 0])
    (L := [.recv 0 0 setX555, .log 0 setX555]) rfl
  have hl : σ.logText = setX555 ++ [10] := by
    have := h.log_eq
    unfold Sys.logText
    rw [this]; rfl
  refine ⟨_, σ, setX555.take 26, h, wellFormed_one isRequest_setX555 (by simp) (by decide) (by decide) (by simp), ?_, ?_, ?_⟩
  · rw [hl]
    exact (List.take_prefix _ _).trans (List.prefix_append _ _)
  · exact ⟨_, _, (by decide +kernel : decodeFromReader (setX555.take 26) = .ok ⟨[b! "SET", b! "x", [53, 53, 0]],
      setX555.take 26 ++ [0, 0, 0]⟩ []), rfl⟩
  · intro i c f hm hd
    simp only [List.mem_cons, List.not_mem_nil, or_false, reduceCtorEq, Label.recv.injEq] at hm
    obtain ⟨_, _, rfl⟩ := hm
    have := (decodes_request (rest := []) isRequest_setX555 (by decide) (by decide)).mp (by rw [List.append_nil]; exact hd)
    exact absurd this (by decide)

end Godis.Event
