import Verif.Proofs.Again
import Verif.Props.Batch
/-!
# C72: a request may be sent again

A client that got no reply (a timeout, a broken connection) does not know whether its request was executed.  If the request only
reads, or only puts or removes given data, it can send it again: if the request had already been executed, nothing changes.
-/
namespace Godis
open Resp (Reply bulks)
open StrSpec (lower Ascii)

variable {ext : Ext} {it it' : Iter} {s s1 s2 : Store} {name : Bytes} {args : List Bytes} {m m' : Reply} {k : Bytes}

/-- hash commands change nothing -/
theorem Eff.hash {c : Cmd} {N : List Bytes} (hc : c = .hSet ∨ c = .hMSet ∨ c = .hSetNx ∨ c = .hDel) (h : Eff ext c args N s s1) : s1 = s := by
  cases h with
  | refl => rfl
  | step h _ =>
    exfalso
    cases h with
    | str h => rcases hc with rfl | rfl | rfl | rfl <;> simp [Cmd.isStringWrite] at h
    | del h => rcases hc with rfl | rfl | rfl | rfl <;> cases h
    | new _ h _ _ =>
      rcases h with ⟨h, _⟩ | h
      · rcases hc with rfl | rfl | rfl | rfl <;> simp [Cmd.isCreator] at h
      · rcases hc with rfl | rfl | rfl | rfl <;> simp [Cmd.isStoreOp] at h
    | write _ _ _ h _ => rcases hc with rfl | rfl | rfl | rfl <;> cases h <;> simp_all
    | «alias» h => rcases hc with rfl | rfl | rfl | rfl <;> simp [Cmd.isStoreOp] at h

theorem intReply_again {f : Store → Go (Store × Ret Int)} {o : Except Err Response} (h : (f s >>= fun p => intReply p.1 p.2) = .ok (s1, o))
    (ha : ∀ r, f s = .ok (s1, r) → ∃ r', f s1 = .ok (s1, r')) :
    ∃ o', (f s1 >>= fun p => intReply p.1 p.2) = .ok (s1, o') ∧ (setRsp o').reply.isSome := by
  obtain ⟨⟨t, n, e⟩, h1, h2⟩ := bind_ok h
  have ht : t = s1 := by cases e <;> cases h2 <;> rfl
  subst ht
  obtain ⟨⟨n', e'⟩, h3⟩ := ha _ h1
  rw [h3]
  cases e' with
  | none => exact ⟨_, rfl, rfl⟩
  | some e => exact ⟨_, rfl, by cases e <;> rfl⟩

theorem intReplyNil_again {f : Store → Go (Store × Ret Int)} {o : Except Err Response} (h : (f s >>= fun p => intReplyNilOk p.1 p.2) = .ok (s1, o))
    (ha : ∀ r, f s = .ok (s1, r) → ∃ r', f s1 = .ok (s1, r')) :
    ∃ o', (f s1 >>= fun p => intReplyNilOk p.1 p.2) = .ok (s1, o') ∧ (setRsp o').reply.isSome := by
  obtain ⟨⟨t, n, e⟩, h1, h2⟩ := bind_ok h
  have ht : t = s1 := by rcases e with _ | (_ | _ | _ | _ | _ | _ | _) <;> cases h2 <;> rfl
  subst ht
  obtain ⟨⟨n', e'⟩, h3⟩ := ha _ h1
  rw [h3]
  rcases e' with _ | (_ | _ | _ | _ | _ | _ | _) <;> exact ⟨_, rfl, rfl⟩

theorem fn_again {c : Cmd} {o : Except Err Response} (hc : c.name ∈ KeySpec.putters) (hr : Reachable ext s) (h : c.fn ext it s args = .ok (s1, o))
    (hm : (setRsp o).reply = some m) : ∃ o', (∀ it', c.fn ext it' s1 args = .ok (s1, o')) ∧ (setRsp o').reply.isSome := by
  have hash : (c = .hSet ∨ c = .hMSet ∨ c = .hSetNx ∨ c = .hDel) → (∀ it', c.fn ext it' s args = c.fn ext it s args) →
      ∃ o', (∀ it', c.fn ext it' s1 args = .ok (s1, o')) ∧ (setRsp o').reply.isSome := fun hc hi => by
    have e := (fn_eff c hr.typed h).hash hc
    subst e
    exact ⟨o, fun it' => by rw [hi it', h], by rw [hm]; rfl⟩
  cases c
  case set =>
    match args, h with
    | [], h | [_], h => cases h; exact ⟨_, fun _ => rfl, rfl⟩
    | k :: v :: rest, h =>
      cases h
      exact ⟨_, fun _ => congrArg (fun t => Except.ok (t, _)) (Store.set_again s k v), rfl⟩
  case mSet =>
    match args, h with
    | [_], h => cases h; exact ⟨_, fun _ => rfl, rfl⟩
    | [], h =>
      cases h
      exact ⟨_, fun _ => rfl, rfl⟩
    | k :: v :: rest, h =>
      cases h
      exact ⟨_, fun _ => congrArg (fun t => Except.ok (t, _)) (Store.mSet_mSet (k :: v :: rest) hr.typed.wf), rfl⟩
  case del =>
    match args, h with
    | [], h => cases h; exact ⟨_, fun _ => rfl, rfl⟩
    | k :: rest, h =>
      cases h
      exact ⟨_, fun _ => congrArg (fun t => Except.ok (t, _)) (Store.del_again hr.typed.wf k), rfl⟩
  case lSet =>
    match args, h with
    | [], h | [_], h | [_, _], h => cases h; exact ⟨_, fun _ => rfl, rfl⟩
    | k :: i :: v :: rest, h =>
      have h : cmdLSet ext it s (k :: i :: v :: rest) = .ok (s1, o) := h
      show ∃ o', (∀ it', cmdLSet ext it' s1 (k :: i :: v :: rest) = .ok (s1, o')) ∧ _
      unfold cmdLSet at h ⊢
      simp only at h ⊢
      cases hi : atoi i with
      | none => rw [hi] at h; cases h; exact ⟨_, fun _ => rfl, rfl⟩
      | some n =>
        rw [hi] at h
        obtain ⟨⟨t, e⟩, h1, h2⟩ := bind_ok h
        have ht : t = s1 := by cases e <;> cases h2 <;> rfl
        subst ht
        simp only [Store.lSet_again h1, bind, Except.bind]
        cases e with
        | none => exact ⟨_, fun _ => rfl, rfl⟩
        | some e => exact ⟨_, fun _ => rfl, by cases e <;> rfl⟩
  case sAdd =>
    match args, h with
    | [], h | [_], h => cases h; exact ⟨_, fun _ => rfl, rfl⟩
    | k :: v :: vs, h =>
      obtain ⟨o', h1, h2⟩ := intReply_again (f := fun s => s.sAdd k (v :: vs)) h (fun r hr => Store.sAdd_again hr)
      exact ⟨o', fun _ => h1, h2⟩
  case sRem =>
    match args, h with
    | [], h | [_], h => cases h; exact ⟨_, fun _ => rfl, rfl⟩
    | k :: v :: vs, h =>
      obtain ⟨o', h1, h2⟩ := intReplyNil_again (f := fun s => s.sRem k (v :: vs)) h (fun r h => Store.sRem_again hr.setsOk h)
      exact ⟨o', fun _ => h1, h2⟩
  case zRem =>
    match args, h with
    | [], h | [_], h => cases h; exact ⟨_, fun _ => rfl, rfl⟩
    | k :: v :: vs, h =>
      obtain ⟨o', h1, h2⟩ := intReplyNil_again (f := fun s => s.zRem k (v :: vs)) h (fun r h => Store.zRem_again hr.keyed h)
      exact ⟨o', fun _ => h1, h2⟩
  case hSet => exact hash (by simp) fun _ => rfl
  case hMSet => exact hash (by simp) fun _ => rfl
  case hSetNx => exact hash (by simp) fun _ => rfl
  case hDel => exact hash (by simp) fun _ => rfl
  all_goals (exfalso; revert hc; decide +kernel)

/-- **C72.**  On every store a server can reach: if a request that puts or removes given data (`KeySpec.putters`, in any spelling
and with any arguments) has been answered, then sending it again is answered, in the same way whatever the iteration order of maps, and
changes nothing at all. -/
theorem C72_retry (hn : lower name ∈ KeySpec.putters) (hr : Reachable ext s) (h : Answers ext it s (name :: args) m s1) :
    ∃ m', Reads ext s1 (name :: args) m' := by
  have hascii : Ascii name := by
    refine ascii_of_lower rfl ?_
    have : ∀ p ∈ KeySpec.putters, Ascii p := by unfold Ascii; decide
    exact this _ hn
  obtain ⟨name', args', he, hc⟩ := h.cases
  cases he
  rcases hc with ⟨hl, _, _⟩ | ⟨c, o, hl, hf, hm⟩
  · exfalso
    rw [lower_eq hascii] at hl
    revert hl hn; generalize lower name = n; intro hn
    have : ∀ n ∈ KeySpec.putters, lookupCmd n ≠ none := by decide +kernel
    exact this n hn
  · have hcn : c.name ∈ KeySpec.putters := by
      rw [lower_eq hascii] at hl
      rw [← lookup_name hl]; exact hn
    obtain ⟨o', h1, h2⟩ := fn_again hcn hr hf hm
    obtain ⟨m', hm'⟩ := Option.isSome_iff_exists.mp h2
    exact ⟨m', fun it' => (answers_iff hl).mpr ⟨o', h1 it', hm'⟩⟩

/-- **C72, any number of times.**  However often the request is sent, and whether it reads or puts data, the store after the first
answer is the store after the last. -/
theorem C72_retries (hn : lower name ∈ KeySpec.putters ++ KeySpec.readOnly) (hr : Reachable ext s) (h : Answers ext it s (name :: args) m s1)
    {ms : List Reply} (ht : Trace ext s1 (ms.map fun m => (name :: args, m)) s2) : s2 = s1 := by
  generalize htr : (ms.map fun m => (name :: args, m)) = tr at ht
  induction ht generalizing ms with
  | nil => rfl
  | @snoc tr t it2 req m2 t' h0 ha ih =>
    obtain ⟨ms', x, rfl⟩ : ∃ ms' x, ms = ms' ++ [x] := by
      rcases List.eq_nil_or_concat ms with rfl | ⟨ms', x, rfl⟩
      · simp at htr
      · exact ⟨ms', x, by simp⟩
    rw [List.map_append, List.map_singleton] at htr
    obtain ⟨h1, h2⟩ := List.append_inj' htr rfl
    cases h2
    have e := ih h1
    subst e
    rcases List.mem_append.mp hn with hp | hp
    · obtain ⟨m', h3⟩ := C72_retry hp hr h
      exact (Answers.unique (h3 it2) ha).2
    · exact C17_reads_change_nothing hp ha

/-- **C72 (SMOVE).**  `SMOVE src dst x` changes nothing if `src` does not have the member; so it may be sent again if `src` no longer
has the member after the first time (it still has it if both keys share one set: `C72_violated`). -/
theorem C72_smove (hr : Reachable ext s) {src dst x : Bytes} (hx : ¬ Reads ext s [b! "sismember", src, x] (.int 1)) :
    ∃ m, Reads ext s [b! "smove", src, dst, x] m := by
  have hq : ∃ q, s.loadSet src true = .ok q := by
    rcases loadSet_cases hr.typed src true with ⟨_, h⟩ | ⟨_, _, _, h⟩ | ⟨_, _, _, _, h⟩
    · exact ⟨_, h⟩
    · exact ⟨_, h⟩
    · rw [h]; split <;> exact ⟨_, rfl⟩
  obtain ⟨q, hq⟩ := hq
  obtain ⟨⟨n, e⟩, h⟩ := Store.sMove_same (dst := dst) (v := x) (s := s) (src := src) (fun y hy r o ho => by
    subst ho
    rw [Bool.eq_false_iff]
    intro hh
    refine hx fun it => (answers_iff (c := .sIsMember) rfl).mpr ?_
    show ∃ o', (s.sIsMember src x >>= fun r => intReplyNilOk s r) = _ ∧ _
    unfold Store.sIsMember
    rw [hy]
    simp only [bind, Except.bind, hh, if_true]
    exact ⟨_, rfl, rfl⟩) hq
  refine ⟨intOf (n, e), fun it => (answers_iff (c := .sMove) rfl).mpr ?_⟩
  exact intReply_iff.mpr ⟨_, h, rfl⟩

/-! ## ZADD -/

/-- a score that can be compared with itself (a number, not NaN) -/
def Comparable (ext : Ext) (sc : Bytes) : Prop := ∃ F, ext.parseFloat sc = some F ∧ F.eq F = true

theorem zAddArgs_noincr : ∀ (fs : List Bytes), (∀ w ∈ fs, Ascii w ∧ lower w ∈ [b! "xx", b! "nx"]) → ∀ f : ZAddFlags,
    ∃ g, g.incr = f.incr ∧ (∀ l, l ≠ [] → zAddArgs ext (fs ++ l) f = zAddArgs ext l g)
  | [], _, f => ⟨f, rfl, fun _ _ => rfl⟩
  | w :: fs, h, f => by
    obtain ⟨ha, hw⟩ := h w (by simp)
    have ih := zAddArgs_noincr fs (fun w hw => h w (List.mem_cons_of_mem _ hw))
    have step : ∀ l, l ≠ [] → ∃ b r, fs ++ l = b :: r := by
      intro l hl
      cases h : fs ++ l with
      | nil => simp [hl] at h
      | cons b r => exact ⟨b, r, rfl⟩
    simp only [List.mem_cons, List.not_mem_nil, or_false] at hw
    rcases hw with hw | hw
    · obtain ⟨g, hi, hg⟩ := ih { f with xx := true }
      refine ⟨g, hi, fun l hl => ?_⟩
      rw [← hg l hl]
      obtain ⟨b, r, e⟩ := step l hl
      rw [List.cons_append, e]
      conv => lhs; unfold zAddArgs
      simp only [lower_eq ha, hw]; rfl
    · obtain ⟨g, hi, hg⟩ := ih { f with nx := true }
      refine ⟨g, hi, fun l hl => ?_⟩
      rw [← hg l hl]
      obtain ⟨b, r, e⟩ := step l hl
      rw [List.cons_append, e]
      conv => lhs; unfold zAddArgs
      simp only [lower_eq ha, hw]; rfl

theorem zAddArgs_numbers : ∀ (ps : List (Bytes × Bytes)),
    (∀ p ∈ ps, Ascii p.1 ∧ lower p.1 ∉ [b! "xx", b! "nx", b! "incr"] ∧ Comparable ext p.1) →
    ∃ ms : List (F64 × Bytes), (∀ f, zAddArgs ext (ps.flatMap fun p => [p.1, p.2]) f = some (ms, f)) ∧ ms.map (·.2) = ps.map (·.2) ∧
      ∀ e ∈ ms, e.1.eq e.1 = true
  | [], _ => ⟨[], zAddArgs_nil, rfl, by simp⟩
  | (sc, x) :: ps, h => by
    obtain ⟨ms, hm, hv, hn⟩ := zAddArgs_numbers ps (fun a ha => h a (List.mem_cons_of_mem _ ha))
    obtain ⟨ha, hw, F, hF, he⟩ := h (sc, x) (by simp)
    simp only [List.mem_cons, List.not_mem_nil, or_false, not_or] at hw
    refine ⟨(F, x) :: ms, fun f => ?_, by simp [hv], by simpa using ⟨he, fun a b hab => hn (a, b) hab⟩⟩
    rw [List.flatMap_cons]
    show zAddArgs ext (sc :: x :: (ps.flatMap fun p => [p.1, p.2])) f = _
    conv => lhs; unfold zAddArgs
    simp only [lower_eq ha, hw.1, hw.2.1, hw.2.2, if_false, hF, hm]

/-- **C72 (ZADD).**  The same for `ZADD k [NX] [XX] score1 x1 score2 x2 ...` with different members and scores that are numbers (not
NaN), if there is one pair or if the first reply counted all pairs. -/
theorem C72_zadd (hr : Reachable ext s) {flags : List Bytes} (hf : ∀ w ∈ flags, Ascii w ∧ lower w ∈ [b! "xx", b! "nx"])
    {ps : List (Bytes × Bytes)} (hp : ∀ p ∈ ps, Ascii p.1 ∧ lower p.1 ∉ [b! "xx", b! "nx", b! "incr"] ∧ Comparable ext p.1)
    (hd : (ps.map (·.2)).Nodup) (h0 : ps ≠ [])
    (h : Answers ext it s (b! "zadd" :: k :: flags ++ ps.flatMap fun p => [p.1, p.2]) m s1) (hm : ps.length = 1 ∨ m = .int ps.length) :
    ∃ m', Reads ext s1 (b! "zadd" :: k :: flags ++ ps.flatMap fun p => [p.1, p.2]) m' := by
  obtain ⟨g, hi, hg⟩ := zAddArgs_noincr (ext := ext) flags hf {}
  obtain ⟨ms, hms, hv, hn⟩ := zAddArgs_numbers ps hp
  have ne : (ps.flatMap fun p => [p.1, p.2]) ≠ [] := by
    cases ps with
    | nil => exact absurd rfl h0
    | cons => simp
  have len : 2 ≤ (flags ++ ps.flatMap fun p => [p.1, p.2]).length := by
    cases ps with
    | nil => exact absurd rfl h0
    | cons => simp; omega
  have e : zAddArgs ext (flags ++ ps.flatMap fun p => [p.1, p.2]) {} = some (ms, g) := by rw [hg _ ne, hms]
  have ll : ms.length = ps.length := by simpa using congrArg List.length hv
  simp only [List.cons_append] at h ⊢
  obtain ⟨r, h1, rfl⟩ := (zadd_answers len e).mp h
  have hc : ms.length = 1 ∨ r.1 = ms.length := by
    rw [ll]
    refine hm.imp id fun hm => ?_
    obtain ⟨n, _ | er⟩ := r
    · exact Reply.int.inj hm
    · cases hm
  obtain ⟨r', h2⟩ := Store.zAdd_again hr.keyed hi h1 hn (by rw [hv]; exact hd) hc
  exact ⟨_, fun it' => (zadd_answers len e).mpr ⟨r', h2, rfl⟩⟩

/-! ## What does not hold, and concrete cases -/

/-- **C72 fails for SMOVE on two names of one set.**  After `SUNIONSTORE t s` both keys are one set; each `SMOVE s t x` then reports
success and makes the set appear larger. -/
theorem C72_violated :
    replies [[b! "sadd", b! "s", b! "x"], [b! "sunionstore", b! "t", b! "s"], [b! "smove", b! "s", b! "t", b! "x"], [b! "scard", b! "s"],
        [b! "smove", b! "s", b! "t", b! "x"], [b! "scard", b! "s"]] =
      some [.int 1, .int 1, .int 1, .int 2, .int 1, .int 3] := by decide +kernel

/-- C72 on a concrete history with retries of all kinds -/
example : replies [[b! "mset", b! "a", b! "1", b! "a", b! "2"], [b! "mset", b! "a", b! "1", b! "a", b! "2"], [b! "get", b! "a"],
      [b! "rpush", b! "l", b! "x", b! "y"], [b! "lset", b! "l", b! "-1", b! "z"], [b! "lset", b! "l", b! "-1", b! "z"], [b! "lrange", b! "l", b! "0", b! "-1"],
      [b! "sadd", b! "s", b! "p", b! "q"], [b! "sadd", b! "s", b! "p", b! "q"], [b! "srem", b! "s", b! "p"], [b! "srem", b! "s", b! "p"], [b! "scard", b! "s"],
      [b! "zadd", b! "z", b! "1", b! "u", b! "2", b! "v"], [b! "zadd", b! "z", b! "1", b! "u", b! "2", b! "v"], [b! "zcard", b! "z"],
      [b! "del", b! "a"], [b! "del", b! "a"]] =
    some [.simple (b! "OK"), .simple (b! "OK"), .bulk (b! "2"), .int 2, .simple (b! "OK"), .simple (b! "OK"), bulks [b! "x", b! "z"],
      .int 2, .int 0, .int 1, .int 0, .int 1, .int 2, .int 0, .int 2, .int 1, .int 0] := by decide +kernel

/-- requests that meet the hypotheses -/
example : lower (b! "LSet") ∈ KeySpec.putters ∧ Comparable ext0 (b! "1") ∧ (∀ w ∈ [b! "NX"], Ascii w ∧ lower w ∈ [b! "xx", b! "nx"]) := by
  refine ⟨by decide +kernel, ⟨_, rfl, by decide +kernel⟩, ?_⟩
  intro w hw
  simp only [List.mem_singleton] at hw
  subst hw
  exact ⟨by unfold Ascii; decide, by decide⟩

end Godis
