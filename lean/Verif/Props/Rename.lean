import Verif.Proofs.Rename2
import Verif.Proofs.Iso5
import Verif.Props.Play
import Verif.Props.Keys
/-!
# C69: the names of keys do not matter

`KeySpec.rename f req` is the request `req` with `f k` in place of every key `k`.
-/
namespace Godis
open Resp (Reply bulks)
open StrSpec (lower Ascii)
open Same (G)

/-- A request with an ASCII name that is neither KEYS nor LINDEX. -/
def Opaque (req : List Bytes) : Prop :=
  ∀ name ∈ req.head?, Ascii name ∧ lower name ≠ b! "keys" ∧ lower name ≠ b! "lindex"

theorem run_ren {ext : Ext} {it : Iter} {f : Bytes → Bytes} (hf : Function.Injective f) {s t : Store} (h : Ren f s t) {req : List Bytes} (ho : Opaque req) :
    G (RR f) (runRequest ext it s req) (runRequest ext it t (KeySpec.rename f req)) := by
  cases req with
  | nil => exact .ok ⟨h, rfl⟩
  | cons name args =>
    obtain ⟨h1, h2, h3⟩ := ho name (by simp)
    have el : toLower ext.lowerUni name = lower name := lower_eq h1
    show G (RR f) (execute ext it s (toLower ext.lowerUni name) args >>= fun p => .ok (p.1, some p.2))
      (execute ext it t (toLower ext.lowerUni name) (KeySpec.renameArgs f (lower name) args) >>= fun p => .ok (p.1, some p.2))
    have : G (RR f) (execute ext it s (toLower ext.lowerUni name) args)
        (execute ext it t (toLower ext.lowerUni name) (KeySpec.renameArgs f (lower name) args)) := by
      rw [el]
      unfold execute
      cases hc : lookupCmd (lower name) with
      | none => exact .ok ⟨h, rfl⟩
      | some c =>
        have hn := lookup_name hc
        rw [hn]
        refine Same.G.bind (h.fn_ren hf ext it c (fun e => h2 (by rw [hn, e]; rfl)) (fun e => h3 (by rw [hn, e]; rfl)) args) ?_
        rintro ⟨a, b⟩ ⟨a', b'⟩ ⟨g1, g2⟩
        cases g2
        exact .ok ⟨g1, rfl⟩
    refine Same.G.bind this ?_
    rintro ⟨a, b⟩ ⟨a', b'⟩ ⟨g1, g2⟩
    cases g2
    exact .ok ⟨g1, rfl⟩

theorem ren_trace {ext rng} {f : Bytes → Bytes} (hf : Function.Injective f) {tr : List (List Bytes × Reply)} (ho : ∀ p ∈ tr, Opaque p.1) :
    (∀ s, Trace ext (Store.init rng) tr s → ∃ t, Trace ext (Store.init rng) (tr.map fun p => (KeySpec.rename f p.1, p.2)) t ∧ Ren f s t) ∧
    (∀ t, Trace ext (Store.init rng) (tr.map fun p => (KeySpec.rename f p.1, p.2)) t → ∃ s, Trace ext (Store.init rng) tr s ∧ Ren f s t) := by
  constructor
  · intro s h
    induction h with
    | nil => exact ⟨_, .nil, .init _⟩
    | @snoc tr s it req m s' _ ha ih =>
      obtain ⟨t, h1, h2⟩ := ih (fun p hp => ho p (List.mem_append_left _ hp))
      obtain ⟨rsp, h3, h4⟩ := ha
      have hg := run_ren (ext := ext) (it := it) hf h2 (ho (req, m) (by simp))
      rw [h3] at hg
      generalize hx : runRequest ext it t (KeySpec.rename f req) = x at hg
      cases hg with
      | @ok _ q hr =>
        obtain ⟨t', o⟩ := q
        obtain ⟨g1, g2⟩ := hr
        cases g2
        refine ⟨t', ?_, g1⟩
        rw [List.map_append]
        exact .snoc h1 ⟨rsp, hx, h4⟩
  · induction tr using List.reverseRecOn with
    | nil =>
      intro t h
      generalize hx : ([] : List (List Bytes × Reply)).map (fun p => (KeySpec.rename f p.1, p.2)) = x at h
      cases h with
      | nil => exact ⟨_, .nil, .init _⟩
      | snoc => simp at hx
    | append_singleton tr p ih =>
      intro t h
      rw [List.map_append] at h
      obtain ⟨t0, it, h1, rsp, h3, h4⟩ := Trace.last h
      obtain ⟨s, h5, h6⟩ := ih (fun p hp => ho p (List.mem_append_left _ hp)) t0 h1
      have hg := run_ren (ext := ext) (it := it) hf h6 (ho p (by simp))
      rw [h3] at hg
      generalize hx : runRequest ext it s p.1 = x at hg
      cases hg with
      | @ok q _ hr =>
        obtain ⟨s', o⟩ := q
        obtain ⟨g1, g2⟩ := hr
        dsimp only at g2
        subst g2
        exact ⟨s', .snoc h5 ⟨rsp, hx, h4⟩, g1⟩

/-- C69.  Take a way of renaming keys that gives different keys different names.  A history can happen exactly when the same
history with the keys renamed can happen: with the same replies, and afterwards the keys hold the same values under their new names,
and there are no other keys.  `_partial`: without KEYS, whose argument is a pattern (`C69_keys_partial`), and without LINDEX, which
takes its index for a key (`C69_lindex_violated`). -/
theorem C69_key_names_partial {ext rng} {f : Bytes → Bytes} (hf : Function.Injective f) {tr : List (List Bytes × Reply)} (ho : ∀ p ∈ tr, Opaque p.1) :
    (∀ s, Trace ext (Store.init rng) tr s → ∃ t, Trace ext (Store.init rng) (tr.map fun p => (KeySpec.rename f p.1, p.2)) t ∧
      (∀ k, t.valueAt (f k) = s.valueAt k) ∧ ∀ k, (∀ k', k ≠ f k') → t.valueAt k = none) ∧
    (∀ t, Trace ext (Store.init rng) (tr.map fun p => (KeySpec.rename f p.1, p.2)) t → ∃ s, Trace ext (Store.init rng) tr s ∧
      (∀ k, t.valueAt (f k) = s.valueAt k) ∧ ∀ k, (∀ k', k ≠ f k') → t.valueAt k = none) := by
  have val : ∀ {s t : Store}, Ren f s t → (∀ k, t.valueAt (f k) = s.valueAt k) ∧ ∀ k, (∀ k', k ≠ f k') → t.valueAt k = none := by
    intro s t h
    refine ⟨fun k => ?_, fun k hk => ?_⟩
    · unfold Store.valueAt; rw [h.keys, h.heap]
    · unfold Store.valueAt; rw [h.only k hk]
  refine ⟨fun s h => ?_, fun t h => ?_⟩
  · obtain ⟨t, h1, h2⟩ := (ren_trace hf ho).1 s h
    exact ⟨t, h1, val h2⟩
  · obtain ⟨s, h1, h2⟩ := (ren_trace hf ho).2 t h
    exact ⟨s, h1, val h2⟩

/-- C69, crashes: after such a history, a further request crashes the server exactly when the renamed request crashes it after the
renamed history. -/
theorem C69_crash_partial {ext rng s} {f : Bytes → Bytes} (hf : Function.Injective f) {tr : List (List Bytes × Reply)} (ho : ∀ p ∈ tr, Opaque p.1)
    (h : Trace ext (Store.init rng) tr s) :
    ∃ t, Trace ext (Store.init rng) (tr.map fun p => (KeySpec.rename f p.1, p.2)) t ∧
      ∀ it req p, Opaque req → (runRequest ext it s req = .error p ↔ runRequest ext it t (KeySpec.rename f req) = .error p) := by
  obtain ⟨t, h1, h2⟩ := (ren_trace hf ho).1 s h
  refine ⟨t, h1, fun it req p hr => ?_⟩
  have hg := run_ren (ext := ext) (it := it) hf h2 hr
  generalize runRequest ext it s req = x at hg ⊢
  generalize runRequest ext it t (KeySpec.rename f req) = y at hg ⊢
  cases hg with
  | ok => simp
  | error => exact Iff.rfl

/-- C69, KEYS: after such a history, KEYS with a pattern that matches a key exactly when it matches its new name lists
the new names of the keys it listed. -/
theorem C69_keys_partial {ext rng s} {f : Bytes → Bytes} (hf : Function.Injective f) {tr : List (List Bytes × Reply)} (ho : ∀ p ∈ tr, Opaque p.1)
    (h : Trace ext (Store.init rng) tr s) :
    ∃ t, Trace ext (Store.init rng) (tr.map fun p => (KeySpec.rename f p.1, p.2)) t ∧
      ∀ it p g, ext.glob p = some g → (∀ k, g (f k) = g k) →
        ∃ ks ks', Answers ext it s [b! "keys", p] (bulks ks) s ∧ Answers ext it t [b! "keys", p] (bulks ks') t ∧ ks'.Perm (ks.map f) := by
  obtain ⟨t, h1, h2⟩ := (ren_trace hf ho).1 s h
  refine ⟨t, h1, fun it p g hg hm => ?_⟩
  obtain ⟨ks, a1, a2, a3⟩ := C13_keys ⟨rng, _, h⟩ hg it []
  obtain ⟨ks', b1, b2, b3⟩ := C13_keys ⟨rng, _, h1⟩ hg it []
  refine ⟨ks, ks', a1, b1, (List.perm_ext_iff_of_nodup b2 (a2.map hf)).mpr fun k => ?_⟩
  have ex : ∀ (s : Store) k, Reads ext s [b! "exists", k] (.int 1) ↔ (s.keys.get k).isSome = true := by
    intro s k
    simp only [Reads, exists_answers, and_true]
    cases s.keys.get k with
    | none => simp only [Option.isSome_none]; exact ⟨fun h => absurd (h it0) (by simp), fun h => absurd h (by decide)⟩
    | some => simp
  rw [b3, ex, List.mem_map]
  constructor
  · rintro ⟨c1, c2⟩
    by_cases hk : ∃ k', k = f k'
    · obtain ⟨k', rfl⟩ := hk
      refine ⟨k', (a3 k').mpr ⟨(ex s k').mpr ?_, ?_⟩, rfl⟩
      · rw [← h2.keys]; exact c1
      · rw [← hm]; exact c2
    · rw [h2.only k (fun k' e => hk ⟨k', e⟩)] at c1
      cases c1
  · rintro ⟨k', c1, rfl⟩
    obtain ⟨c2, c3⟩ := (a3 k').mp c1
    refine ⟨?_, ?_⟩
    · rw [h2.keys]; exact (ex s k').mp c2
    · rw [hm]; exact c3

/-- C69 fails for LINDEX, which takes its index for a key: the only item of the list `0` is shown by `LINDEX 0 0`; under the name
`x0` it is not. -/
theorem C69_lindex_violated :
    ∃ (tr : List (List Bytes × Reply)) (f : Bytes → Bytes), Function.Injective f ∧ (∃ s, Trace ext0 (Store.init rng0) tr s) ∧
      tr.map (·.1) = [[b! "rpush", b! "0", b! "v"], [b! "lindex", b! "0", b! "0"]] ∧
      ¬ ∃ t, Trace ext0 (Store.init rng0) (tr.map fun p => (KeySpec.rename f p.1, p.2)) t := by
  refine ⟨[([b! "rpush", b! "0", b! "v"], .int 1), ([b! "lindex", b! "0", b! "0"], .bulk (b! "v"))], fun k => 120 :: k,
    fun a b h => (List.cons.inj h).2, ?_, rfl, ?_⟩
  · have : (play ext0 it0 (Store.init rng0) [[b! "rpush", b! "0", b! "v"], [b! "lindex", b! "0", b! "0"]]).map (·.1) =
        some [([b! "rpush", b! "0", b! "v"], .int 1), ([b! "lindex", b! "0", b! "0"], .bulk (b! "v"))] := by decide +kernel
    obtain ⟨⟨tr, s⟩, h1, h2⟩ := Option.map_eq_some_iff.mp this
    simp only at h2
    exact ⟨s, h2 ▸ play_trace h1⟩
  · rintro ⟨t, h⟩
    obtain ⟨s, it, h1, rsp, h2, h3⟩ := Trace.last (tr := [([b! "rpush", b! "x0", b! "v"], .int 1)]) h
    obtain ⟨s0, it', h4, rsp', h5, h6⟩ := Trace.last (tr := []) h1
    generalize hx : ([] : List (List Bytes × Reply)) = x at h4
    cases h4 with
    | snoc => simp at hx
    | nil =>
      have e : ∃ s1, runRequest ext0 it' (Store.init rng0) [b! "rpush", b! "x0", b! "v"] = .ok (s1, some (newResponseWithInteger 1)) ∧
          ∀ it, runRequest ext0 it s1 [b! "lindex", b! "x0", b! "0"] = .ok (s1, some newResponseWithNilBulk) := ⟨_, rfl, fun _ => rfl⟩
      obtain ⟨s1, e1, e2⟩ := e
      rw [e1] at h5
      cases h5
      have h2' : runRequest ext0 it s [b! "lindex", b! "x0", b! "0"] = .ok (t, some rsp) := h2
      rw [e2] at h2'
      cases h2'
      revert h3; decide

/-- a history of the kind C69 speaks about: keys of all types, some of them the same -/
example : ∃ tr s, Trace ext0 (Store.init rng0) tr s ∧ (∀ p ∈ tr, Opaque p.1) ∧
    tr = [([b! "SET", b! "a", b! "1"], .simple (b! "OK")), ([b! "MSET", b! "b", b! "2", b! "a", b! "3"], .simple (b! "OK")),
      ([b! "mget", b! "a", b! "b"], .array [.bulk (b! "3"), .bulk (b! "2")]), ([b! "sadd", b! "s", b! "s"], .int 1),
      ([b! "sunionstore", b! "t", b! "s"], .int 1), ([b! "sismember", b! "t", b! "s"], .int 1), ([b! "zadd", b! "z", b! "1", b! "m"], .int 1)] ∧
    tr.map (fun p => KeySpec.rename (fun k => 120 :: k) p.1) =
      [[b! "SET", b! "xa", b! "1"], [b! "MSET", b! "xb", b! "2", b! "xa", b! "3"],
      [b! "mget", b! "xa", b! "xb"], [b! "sadd", b! "xs", b! "s"],
      [b! "sunionstore", b! "xt", b! "xs"], [b! "sismember", b! "xt", b! "s"], [b! "zadd", b! "xz", b! "1", b! "m"]] := by
  have : (play ext0 it0 (Store.init rng0) [[b! "SET", b! "a", b! "1"], [b! "MSET", b! "b", b! "2", b! "a", b! "3"],
      [b! "mget", b! "a", b! "b"], [b! "sadd", b! "s", b! "s"], [b! "sunionstore", b! "t", b! "s"], [b! "sismember", b! "t", b! "s"],
      [b! "zadd", b! "z", b! "1", b! "m"]]).map (·.1) = some
      [([b! "SET", b! "a", b! "1"], .simple (b! "OK")), ([b! "MSET", b! "b", b! "2", b! "a", b! "3"], .simple (b! "OK")),
      ([b! "mget", b! "a", b! "b"], .array [.bulk (b! "3"), .bulk (b! "2")]), ([b! "sadd", b! "s", b! "s"], .int 1),
      ([b! "sunionstore", b! "t", b! "s"], .int 1), ([b! "sismember", b! "t", b! "s"], .int 1), ([b! "zadd", b! "z", b! "1", b! "m"], .int 1)] := by
    decide +kernel
  obtain ⟨⟨tr, s⟩, h1, h2⟩ := Option.map_eq_some_iff.mp this
  simp only at h2
  refine ⟨_, s, h2 ▸ play_trace h1, ?_, rfl, by decide⟩
  simp only [Opaque, Ascii]
  decide

end Godis
