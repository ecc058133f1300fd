import Verif.Proofs.Batch
import Verif.Props.Play
import Verif.Proofs.Strings2
/-!
# C70: a command with several items equals the commands with one item each

`Each ext f s reqs m s'`: on store `s` the server answers the requests `reqs` one after the other, combining their
replies with `f` (from the right) gives `m`, and the server is then in store `s'`.
-/
namespace Godis
open Resp (Reply bulks)
open StrSpec (int64 lower Ascii isError)

/-- The requests are answered one after the other, with replies that combine to `m`. -/
inductive Each (ext : Ext) (f : Reply → Reply → Reply) : Store → List (List Bytes) → Reply → Store → Prop
  | one {s it req m s'} : Answers ext it s req m s' → Each ext f s [req] m s'
  | more {s it req m1 s1 reqs m2 s'} : Answers ext it s req m1 s1 → Each ext f s1 reqs m2 s' → Each ext f s (req :: reqs) (f m1 m2) s'

/-- the last reply counts -/
def lastOf (_ m : Reply) : Reply := m

/-- two numbers are added; an error wins -/
def plus : Reply → Reply → Reply
  | .int a, .int b => .int (a + b)
  | .int _, m => m
  | m, _ => m

/-- two arrays are joined; otherwise the first reply stays -/
def join : Reply → Reply → Reply
  | .array a, .array b => .array (a ++ b)
  | m, _ => m

theorem flatten_ones : ∀ vs : List Bytes, (vs.map fun v => [v]).flatten = vs
  | [] => rfl
  | v :: vs => by rw [List.map_cons, List.flatten_cons, flatten_ones vs]; rfl

variable {ext : Ext} {it : Iter} {s s' : Store} {k : Bytes} {m : Reply}

/-! ## splitting a request into its first item and the rest -/

theorem each_of_split {f : Reply → Reply → Reply} {pre : List Bytes} (I : Store → Prop) (P : List Bytes → Prop)
    (hI : ∀ {it s r m s'}, I s → Answers ext it s r m s' → I s')
    (hit : ∀ {it it' s r m s'}, Answers ext it s (pre ++ r) m s' → Answers ext it' s (pre ++ r) m s')
    (split : ∀ {s a b bs m s'}, I s → P a → (∀ c ∈ b :: bs, P c) → (Answers ext it s (pre ++ (a ++ (b ++ bs.flatten))) m s' ↔
      ∃ m1 s1 m2, Answers ext it s (pre ++ a) m1 s1 ∧ Answers ext it s1 (pre ++ (b ++ bs.flatten)) m2 s' ∧ m = f m1 m2)) :
    ∀ (items : List (List Bytes)) (a : List Bytes) (s : Store) (m : Reply), I s → (∀ c ∈ a :: items, P c) →
      (Answers ext it s (pre ++ (a ++ items.flatten)) m s' ↔ Each ext f s ((a :: items).map (pre ++ ·)) m s') := by
  intro items
  induction items with
  | nil =>
    intro a s m _ _
    constructor
    · intro h
      refine .one (it := it) ?_
      simpa using h
    · intro h
      cases h with
      | one h => simpa using hit h
      | more _ h => cases h
  | cons b bs ih =>
    intro a s m hs hp
    have hp' : ∀ c ∈ b :: bs, P c := fun c hc => hp c (List.mem_cons_of_mem _ hc)
    rw [List.flatten_cons, split hs (hp a (by simp)) hp']
    constructor
    · rintro ⟨m1, s1, m2, h1, h2, rfl⟩
      exact .more h1 ((ih b s1 m2 (hI hs h1) hp').mp h2)
    · intro h
      cases h with
      | @more _ _ _ m1 s1 _ m2 _ h1 h2 => exact ⟨m1, s1, m2, hit h1, (ih b s1 m2 (hI hs h1) hp').mpr h2, rfl⟩

/-- the reply to a numeric result -/
def intOf : Ret Int → Reply
  | (n, none) => .int n
  | (_, some e) => .error e.msg

theorem intReply_iff {x : Go (Store × Ret Int)} {m : Reply} {s' : Store} :
    (∃ o, (x >>= fun p => intReply p.1 p.2) = .ok (s', o) ∧ (setRsp o).reply = some m) ↔ ∃ r, x = .ok (s', r) ∧ m = intOf r := by
  constructor
  · rintro ⟨o, h, hm⟩
    obtain ⟨⟨s1, n, e⟩, h1, h2⟩ := bind_ok h
    cases e with
    | none => cases h2; simp at hm; exact ⟨_, h1, hm.symm⟩
    | some e => cases h2; simp at hm; exact ⟨_, h1, hm.symm⟩
  · rintro ⟨⟨n, e⟩, rfl, rfl⟩
    cases e with
    | none => exact ⟨_, rfl, rfl⟩
    | some e => exact ⟨_, rfl, by simp [intOf]⟩

theorem intOf_add (a b : Ret Int) : intOf (Store.addRet a b) = plus (intOf a) (intOf b) := by
  obtain ⟨n, _ | e⟩ := a <;> obtain ⟨n', _ | e'⟩ := b <;> rfl

/-- the reply to a numeric result where a missing key is not an error -/
def remOf : Ret Int → Reply
  | (n, some .nil) => .int n
  | (n, none) => .int n
  | (_, some e) => .error e.msg

theorem intReplyNil_iff {x : Go (Store × Ret Int)} {m : Reply} {s' : Store} :
    (∃ o, (x >>= fun p => intReplyNilOk p.1 p.2) = .ok (s', o) ∧ (setRsp o).reply = some m) ↔ ∃ r, x = .ok (s', r) ∧ m = remOf r := by
  constructor
  · rintro ⟨o, h, hm⟩
    obtain ⟨⟨s1, n, e⟩, h1, h2⟩ := bind_ok h
    rcases e with _ | (_ | _ | _ | _ | _ | _ | _) <;> cases h2 <;> simp at hm <;> exact ⟨_, h1, hm.symm⟩
  · rintro ⟨⟨n, e⟩, rfl, rfl⟩
    rcases e with _ | (_ | _ | _ | _ | _ | _ | _) <;> exact ⟨_, rfl, rfl⟩

theorem remOf_add (a b : Ret Int) (h : a.2 = some .nil → b = a ∧ a.1 = 0) : remOf (Store.remRet a b) = plus (remOf a) (remOf b) := by
  obtain ⟨n, _ | e⟩ := a
  · obtain ⟨n', _ | e'⟩ := b
    · rfl
    · cases e' <;> rfl
  · cases e <;> try rfl
    obtain ⟨h1, h2⟩ := h rfl
    simp only at h2
    subst h1 h2
    rfl

theorem lpush_answers {v : Bytes} {vs : List Bytes} :
    Answers ext it s (b! "lpush" :: k :: v :: vs) m s' ↔ ∃ r, s.lPush k (v :: vs) = .ok (s', r) ∧ m = intOf r :=
  (answers_iff (c := .lPush) rfl).trans intReply_iff

theorem rpush_answers {v : Bytes} {vs : List Bytes} :
    Answers ext it s (b! "rpush" :: k :: v :: vs) m s' ↔ ∃ r, s.rPush k (v :: vs) = .ok (s', r) ∧ m = intOf r :=
  (answers_iff (c := .rPush) rfl).trans intReply_iff

theorem sadd_answers {v : Bytes} {vs : List Bytes} :
    Answers ext it s (b! "sadd" :: k :: v :: vs) m s' ↔ ∃ r, s.sAdd k (v :: vs) = .ok (s', r) ∧ m = intOf r :=
  (answers_iff (c := .sAdd) rfl).trans intReply_iff

theorem srem_answers {v : Bytes} {vs : List Bytes} :
    Answers ext it s (b! "srem" :: k :: v :: vs) m s' ↔ ∃ r, s.sRem k (v :: vs) = .ok (s', r) ∧ m = remOf r :=
  (answers_iff (c := .sRem) rfl).trans intReplyNil_iff

theorem zrem_answers {v : Bytes} {vs : List Bytes} :
    Answers ext it s (b! "zrem" :: k :: v :: vs) m s' ↔ ∃ r, s.zRem k (v :: vs) = .ok (s', r) ∧ m = remOf r :=
  (answers_iff (c := .zRem) rfl).trans intReplyNil_iff

/-- **C70 (LPUSH).** `LPUSH k v1 v2 ...` does what `LPUSH k v1`, `LPUSH k v2`, ... do one after the other, and its reply is
that of the last of them.  This holds on every store, and when a reply is an error. -/
theorem C70_lpush (k v : Bytes) (vs : List Bytes) (s : Store) :
    Answers ext it s (b! "lpush" :: k :: v :: vs) m s' ↔
      Each ext lastOf s ((v :: vs).map fun v => [b! "lpush", k, v]) m s' := by
  have := each_of_split (ext := ext) (it := it) (s' := s') (f := lastOf) (pre := [b! "lpush", k]) (fun _ => True) (fun a => ∃ v, a = [v])
    (fun _ _ => trivial) (fun h => h) ?_ (vs.map fun v => [v]) [v] s m trivial (by simp)
  · simpa [List.map_map, Function.comp_def, flatten_ones] using this
  · intro s a b bs m s' _ ha hb
    obtain ⟨v, rfl⟩ := ha
    obtain ⟨w, rfl⟩ := hb b (by simp)
    show Answers ext it s (b! "lpush" :: k :: v :: (w :: bs.flatten)) m s' ↔ ∃ m1 s1 m2, Answers ext it s (b! "lpush" :: k :: v :: []) m1 s1 ∧
      Answers ext it s1 (b! "lpush" :: k :: w :: bs.flatten) m2 s' ∧ m = m2
    simp only [lpush_answers]
    rw [show v :: w :: bs.flatten = [v] ++ (w :: bs.flatten) from rfl, Store.lPush_append]
    constructor
    · rintro ⟨r, h, rfl⟩
      obtain ⟨⟨s1, r1⟩, h1, h2⟩ := bind_ok h
      exact ⟨_, s1, _, ⟨r1, h1, rfl⟩, ⟨r, h2, rfl⟩, rfl⟩
    · rintro ⟨_, s1, _, ⟨r1, h1, rfl⟩, ⟨r, h2, rfl⟩, rfl⟩
      exact ⟨r, by rw [h1]; exact h2, rfl⟩

/-- **C70 (RPUSH).** The same for `RPUSH`. -/
theorem C70_rpush (k v : Bytes) (vs : List Bytes) (s : Store) :
    Answers ext it s (b! "rpush" :: k :: v :: vs) m s' ↔
      Each ext lastOf s ((v :: vs).map fun v => [b! "rpush", k, v]) m s' := by
  have := each_of_split (ext := ext) (it := it) (s' := s') (f := lastOf) (pre := [b! "rpush", k]) (fun _ => True) (fun a => ∃ v, a = [v])
    (fun _ _ => trivial) (fun h => h) ?_ (vs.map fun v => [v]) [v] s m trivial (by simp)
  · simpa [List.map_map, Function.comp_def, flatten_ones] using this
  · intro s a b bs m s' _ ha hb
    obtain ⟨v, rfl⟩ := ha
    obtain ⟨w, rfl⟩ := hb b (by simp)
    show Answers ext it s (b! "rpush" :: k :: v :: (w :: bs.flatten)) m s' ↔ ∃ m1 s1 m2, Answers ext it s (b! "rpush" :: k :: v :: []) m1 s1 ∧
      Answers ext it s1 (b! "rpush" :: k :: w :: bs.flatten) m2 s' ∧ m = m2
    simp only [rpush_answers]
    rw [show v :: w :: bs.flatten = [v] ++ (w :: bs.flatten) from rfl, Store.rPush_append]
    constructor
    · rintro ⟨r, h, rfl⟩
      obtain ⟨⟨s1, r1⟩, h1, h2⟩ := bind_ok h
      exact ⟨_, s1, _, ⟨r1, h1, rfl⟩, ⟨r, h2, rfl⟩, rfl⟩
    · rintro ⟨_, s1, _, ⟨r1, h1, rfl⟩, ⟨r, h2, rfl⟩, rfl⟩
      exact ⟨r, by rw [h1]; exact h2, rfl⟩

/-- **C70 (SADD).** `SADD k x1 x2 ...` does what `SADD k x1`, `SADD k x2`, ... do one after the other, and its reply is the
sum of theirs (or the common error). -/
theorem C70_sadd (k v : Bytes) (vs : List Bytes) (s : Store) :
    Answers ext it s (b! "sadd" :: k :: v :: vs) m s' ↔
      Each ext plus s ((v :: vs).map fun v => [b! "sadd", k, v]) m s' := by
  have := each_of_split (ext := ext) (it := it) (s' := s') (f := plus) (pre := [b! "sadd", k]) (fun _ => True) (fun a => ∃ v, a = [v])
    (fun _ _ => trivial) (fun h => h) ?_ (vs.map fun v => [v]) [v] s m trivial (by simp)
  · simpa [List.map_map, Function.comp_def, flatten_ones] using this
  · intro s a b bs m s' _ ha hb
    obtain ⟨v, rfl⟩ := ha
    obtain ⟨w, rfl⟩ := hb b (by simp)
    show Answers ext it s (b! "sadd" :: k :: v :: (w :: bs.flatten)) m s' ↔ ∃ m1 s1 m2, Answers ext it s (b! "sadd" :: k :: v :: []) m1 s1 ∧
      Answers ext it s1 (b! "sadd" :: k :: w :: bs.flatten) m2 s' ∧ m = plus m1 m2
    simp only [sadd_answers]
    rw [show v :: w :: bs.flatten = [v] ++ (w :: bs.flatten) from rfl, Store.sAdd_append]
    constructor
    · rintro ⟨r, h, rfl⟩
      obtain ⟨⟨s1, r1⟩, h1, h2⟩ := bind_ok h
      obtain ⟨⟨s2, r2⟩, h3, h4⟩ := bind_ok h2
      cases h4
      exact ⟨_, s1, _, ⟨r1, h1, rfl⟩, ⟨r2, h3, rfl⟩, intOf_add r1 r2⟩
    · rintro ⟨_, s1, _, ⟨r1, h1, rfl⟩, ⟨r2, h2, rfl⟩, rfl⟩
      exact ⟨_, by rw [h1]; show (s1.sAdd k _ >>= _) = _; rw [h2]; rfl, (intOf_add r1 r2).symm⟩

/-- **C70 (SREM).** The same for `SREM`, on every store a server can reach. -/
theorem C70_srem (h : Reachable ext s) (k v : Bytes) (vs : List Bytes) :
    Answers ext it s (b! "srem" :: k :: v :: vs) m s' ↔
      Each ext plus s ((v :: vs).map fun v => [b! "srem", k, v]) m s' := by
  have := each_of_split (ext := ext) (it := it) (s' := s') (f := plus) (pre := [b! "srem", k]) (Reachable ext) (fun a => ∃ v, a = [v])
    (fun h ha => h.snoc ha) (fun h => h) ?_ (vs.map fun v => [v]) [v] s m h (by simp)
  · simpa [List.map_map, Function.comp_def, flatten_ones] using this
  · intro s a b bs m s' hr ha hb
    obtain ⟨v, rfl⟩ := ha
    obtain ⟨w, rfl⟩ := hb b (by simp)
    show Answers ext it s (b! "srem" :: k :: v :: (w :: bs.flatten)) m s' ↔ ∃ m1 s1 m2, Answers ext it s (b! "srem" :: k :: v :: []) m1 s1 ∧
      Answers ext it s1 (b! "srem" :: k :: w :: bs.flatten) m2 s' ∧ m = plus m1 m2
    simp only [srem_answers]
    rw [show v :: w :: bs.flatten = [v] ++ (w :: bs.flatten) from rfl, Store.sRem_append]
    · constructor
      · rintro ⟨r, h, rfl⟩
        obtain ⟨⟨s1, r1⟩, h1, h2⟩ := bind_ok h
        obtain ⟨⟨s2, r2⟩, h3, h4⟩ := bind_ok h2
        cases h4
        exact ⟨_, s1, _, ⟨r1, h1, rfl⟩, ⟨r2, h3, rfl⟩, remOf_add r1 r2 (Store.sRem_nil h1 h3)⟩
      · rintro ⟨_, s1, _, ⟨r1, h1, rfl⟩, ⟨r2, h2, rfl⟩, rfl⟩
        exact ⟨_, by rw [h1]; show (s1.sRem k _ >>= _) = _; rw [h2]; rfl, (remOf_add r1 r2 (Store.sRem_nil h1 h2)).symm⟩
    · intro r o ho hl x
      obtain ⟨X, g, hi⟩ := hr.setsOk r o (Store.loadSet_heap ho)
      have hi := (hi.sRemAll [v]).1
      have := hi.len
      rw [Bool.eq_false_iff, Ne, hi.mem, Finset.card_eq_zero.mp (show (X \ [_].toFinset).card = 0 by omega)]
      simp

/-! ## ZADD and ZREM -/

/-- a flag of ZADD -/
def ZFlag (w : Bytes) : Prop := Ascii w ∧ lower w ∈ [b! "xx", b! "nx", b! "incr"]

/-- a score and a member -/
def ZPair (ext : Ext) (a : List Bytes) : Prop :=
  ∃ sc x F, a = [sc, x] ∧ Ascii sc ∧ lower sc ∉ [b! "xx", b! "nx", b! "incr"] ∧ ext.parseFloat sc = some F

theorem zAddArgs_flags {l : List Bytes} (hl : l ≠ []) : ∀ (fs : List Bytes), (∀ w ∈ fs, ZFlag w) → ∀ f : ZAddFlags,
    ∃ g, (∀ l, l ≠ [] → zAddArgs ext (fs ++ l) f = zAddArgs ext l g)
  | [], _, f => ⟨f, fun _ _ => rfl⟩
  | w :: fs, h, f => by
    obtain ⟨ha, hw⟩ := h w (by simp)
    have ih := zAddArgs_flags hl fs (fun w hw => h w (List.mem_cons_of_mem _ hw))
    have step : ∀ l, l ≠ [] → ∃ b r, fs ++ l = b :: r := by
      intro l hl
      cases h : fs ++ l with
      | nil => simp [hl] at h
      | cons b r => exact ⟨b, r, rfl⟩
    simp only [List.mem_cons, List.not_mem_nil, or_false] at hw
    rcases hw with hw | hw | hw
    · obtain ⟨g, hg⟩ := ih { f with xx := true }
      refine ⟨g, fun l hl => ?_⟩
      rw [← hg l hl]
      obtain ⟨b, r, e⟩ := step l hl
      rw [List.cons_append, e]
      conv => lhs; unfold zAddArgs
      simp only [lower_eq ha, hw]; rfl
    · obtain ⟨g, hg⟩ := ih { f with nx := true }
      refine ⟨g, fun l hl => ?_⟩
      rw [← hg l hl]
      obtain ⟨b, r, e⟩ := step l hl
      rw [List.cons_append, e]
      conv => lhs; unfold zAddArgs
      simp only [lower_eq ha, hw]; rfl
    · obtain ⟨g, hg⟩ := ih { f with incr := true }
      refine ⟨g, fun l hl => ?_⟩
      rw [← hg l hl]
      obtain ⟨b, r, e⟩ := step l hl
      rw [List.cons_append, e]
      conv => lhs; unfold zAddArgs
      simp only [lower_eq ha, hw]; rfl

theorem zAddArgs_pair {a : List Bytes} (h : ZPair ext a) : ∃ e, ∀ l f ms, zAddArgs ext l f = some (ms, f) →
    zAddArgs ext (a ++ l) f = some (e :: ms, f) := by
  obtain ⟨sc, x, F, rfl, ha, hw, hF⟩ := h
  simp only [List.mem_cons, List.not_mem_nil, or_false, not_or] at hw
  refine ⟨(F, x), fun l f ms hl => ?_⟩
  show zAddArgs ext (sc :: x :: l) f = _
  conv => lhs; unfold zAddArgs
  simp only [lower_eq ha, hw.1, hw.2.1, hw.2.2, if_false, hF, hl]

theorem zAddArgs_nil (f : ZAddFlags) : zAddArgs ext [] f = some ([], f) := by
  unfold zAddArgs; rfl

theorem zAddArgs_pairs : ∀ (ps : List (List Bytes)), (∀ a ∈ ps, ZPair ext a) → ∃ ms, ∀ f, zAddArgs ext ps.flatten f = some (ms, f)
  | [], _ => ⟨[], zAddArgs_nil⟩
  | a :: ps, h => by
    obtain ⟨ms, hm⟩ := zAddArgs_pairs ps (fun a ha => h a (List.mem_cons_of_mem _ ha))
    obtain ⟨e, he⟩ := zAddArgs_pair (h a (by simp))
    exact ⟨e :: ms, fun f => he _ f ms (hm f)⟩

theorem zadd_answers {l : List Bytes} {ms : List (F64 × Bytes)} {f : ZAddFlags} (h2 : 2 ≤ l.length) (hl : zAddArgs ext l {} = some (ms, f)) :
    Answers ext it s (b! "zadd" :: k :: l) m s' ↔ ∃ r, s.zAdd ext k ms f = .ok (s', r) ∧ m = intOf r := by
  match l, h2 with
  | a :: b :: rest, _ =>
    refine (answers_iff (c := .zAdd) rfl).trans ?_
    show (∃ o, cmdZAdd ext it s (k :: a :: b :: rest) = _ ∧ _) ↔ _
    unfold cmdZAdd
    simp only [hl]
    exact intReply_iff

/-- **C70 (ZADD).** `ZADD k [flags] score1 x1 score2 x2 ...` does what `ZADD k [flags] score1 x1`, `ZADD k [flags] score2 x2`, ...
do one after the other, and its reply is the sum of theirs (or the common error), provided every score is a number.  The random
heights are drawn from the same source in the same order, so even the resulting skip lists are the same. -/
theorem C70_zadd (k : Bytes) (flags : List Bytes) (hf : ∀ w ∈ flags, ZFlag w) (p : List Bytes) (ps : List (List Bytes))
    (hp : ∀ a ∈ p :: ps, ZPair ext a) (s : Store) :
    Answers ext it s (b! "zadd" :: k :: flags ++ (p :: ps).flatten) m s' ↔
      Each ext plus s ((p :: ps).map fun a => b! "zadd" :: k :: flags ++ a) m s' := by
  have := each_of_split (ext := ext) (it := it) (s' := s') (f := plus) (pre := b! "zadd" :: k :: flags) (fun _ => True) (ZPair ext)
    (fun _ _ => trivial) (fun h => h) ?_ ps p s m trivial hp
  · simpa using this
  · intro s a b bs m s' _ ha hb
    obtain ⟨g, hg⟩ := zAddArgs_flags (ext := ext) (l := [[]]) (by simp) flags hf {}
    obtain ⟨ms, hms⟩ := zAddArgs_pairs (b :: bs) hb
    obtain ⟨e, he⟩ := zAddArgs_pair ha
    have len : ∀ a, ZPair ext a → a.length = 2 := by rintro a ⟨_, _, _, rfl, _⟩; rfl
    have la := len a ha
    have lb := len b (hb b (by simp))
    have na : a ≠ [] := by rintro rfl; simp at la
    have nb : b ≠ [] := by rintro rfl; simp at lb
    have e1 : zAddArgs ext (flags ++ (a ++ (b ++ bs.flatten))) {} = some (e :: ms, g) := by
      rw [hg _ (by simp [na])]; exact he _ g ms (hms g)
    have e2 : zAddArgs ext (flags ++ a) {} = some ([e], g) := by
      rw [hg _ na]; simpa using he [] g [] (zAddArgs_nil g)
    have e3 : zAddArgs ext (flags ++ (b ++ bs.flatten)) {} = some (ms, g) := by
      rw [hg _ (by simp [nb])]; exact hms g
    simp only [List.cons_append]
    simp only [zadd_answers (ext := ext) (by simp; omega) e1, zadd_answers (ext := ext) (by simp; omega) e2, zadd_answers (ext := ext) (by simp; omega) e3]
    rw [show e :: ms = [e] ++ ms from rfl, Store.zAdd_append]
    constructor
    · rintro ⟨r, h, rfl⟩
      obtain ⟨⟨s1, r1⟩, h1, h2⟩ := bind_ok h
      obtain ⟨⟨s2, r2⟩, h3, h4⟩ := bind_ok h2
      cases h4
      exact ⟨_, s1, _, ⟨r1, h1, rfl⟩, ⟨r2, h3, rfl⟩, intOf_add r1 r2⟩
    · rintro ⟨_, s1, _, ⟨r1, h1, rfl⟩, ⟨r2, h2, rfl⟩, rfl⟩
      exact ⟨_, by rw [h1]; show (s1.zAdd ext k _ _ >>= _) = _; rw [h2]; rfl, (intOf_add r1 r2).symm⟩

theorem zcard_answers : Answers ext it s [b! "zcard", k] m s' ↔ ∃ r, s.zCard k = .ok r ∧ m = remOf r ∧ s' = s := by
  refine (answers_iff (c := .zCard) rfl).trans ?_
  show (∃ o, (s.zCard k >>= fun r => intReplyNilOk s r) = _ ∧ _) ↔ _
  cases hz : s.zCard k with
  | error => simp [bind, Except.bind]
  | ok r =>
    have := intReplyNil_iff (x := .ok (s, r)) (m := m) (s' := s')
    refine this.trans ?_
    constructor
    · rintro ⟨r, h, rfl⟩; cases h; exact ⟨_, rfl, rfl, rfl⟩
    · rintro ⟨r, h, rfl, rfl⟩; cases h; exact ⟨_, rfl, rfl⟩

/-- **C70 (ZREM), the part that holds.** `ZREM k xs.. ys..` does what `ZREM k xs..` and then `ZREM k ys..` do, and replies the
sum, unless the first of them empties a sorted set that was not empty (as counted by `ZCARD`).  Missing: in that case the second request
replies 0, although members popped by `ZPOPMIN` or `ZPOPMAX` are counted by the single request. -/
theorem C70_zrem_partial {x y : Bytes} {xs ys : List Bytes} {m1 : Reply} {s1 : Store} (h1 : Answers ext it s (b! "zrem" :: k :: x :: xs) m1 s1)
    (hz : Answers ext it s [b! "zcard", k] (.int 0) s ∨ ¬ Answers ext it s1 [b! "zcard", k] (.int 0) s1) :
    Answers ext it s (b! "zrem" :: k :: x :: xs ++ y :: ys) m s' ↔
      ∃ m2, Answers ext it s1 (b! "zrem" :: k :: y :: ys) m2 s' ∧ m = plus m1 m2 := by
  show Answers ext it s (b! "zrem" :: k :: x :: (xs ++ y :: ys)) m s' ↔ _
  simp only [zrem_answers, zcard_answers] at *
  obtain ⟨r1, h1, rfl⟩ := h1
  rw [show x :: (xs ++ y :: ys) = (x :: xs) ++ (y :: ys) from rfl, Store.zRem_append, h1]
  · constructor
    · rintro ⟨r, h, rfl⟩
      obtain ⟨⟨s2, r2⟩, h3, h4⟩ := bind_ok (show (s1.zRem k (y :: ys) >>= fun q => .ok (q.1, Store.remRet r1 q.2)) = Except.ok (s', r) from h)
      cases h4
      exact ⟨_, ⟨r2, h3, rfl⟩, remOf_add r1 r2 (Store.zRem_nil h1 h3)⟩
    · rintro ⟨_, ⟨r2, h2, rfl⟩, rfl⟩
      exact ⟨_, by show (s1.zRem k _ >>= _) = _; rw [h2]; rfl, (remOf_add r1 r2 (Store.zRem_nil h1 h2)).symm⟩
  · intro r z z' n hl hr h0
    exfalso
    have hs1 : s1 = s.write r (.zset z') ∧ r1 = (n, none) := by
      unfold Store.zRem at h1
      rw [hl] at h1
      simp only [bind, Except.bind, hr] at h1
      cases h1; exact ⟨rfl, rfl⟩
    obtain ⟨rfl, rfl⟩ := hs1
    rcases hz with ⟨q, h2, h3, _⟩ | hz
    · unfold Store.zCard at h2
      rw [hl] at h2
      simp only [bind, Except.bind] at h2
      cases h2
      have hne := Store.loadZSet_ne hl
      simp only [remOf, Reply.int.injEq] at h3
      exact hne h3.symm
    · refine hz ⟨(0, some .nil), ?_, rfl, trivial⟩
      have e : (s.write r (.zset z')).loadZSet k true = _ := Store.loadZSet_write (g := s.rng) hl true
      unfold Store.zCard
      rw [e, h0]; rfl

/-! ## MSET and MGET -/

theorem set_answers {v : Bytes} {rest : List Bytes} : Answers ext it s (b! "set" :: k :: v :: rest) m s' ↔ m = .simple (b! "OK") ∧ s' = s.set k v := by
  refine (answers_iff (c := .set) rfl).trans ?_
  constructor
  · rintro ⟨o, h, hm⟩; cases h; simp at hm; exact ⟨hm.symm, rfl⟩
  · rintro ⟨rfl, rfl⟩; exact ⟨_, rfl, rfl⟩

theorem mset_answers {v : Bytes} {rest : List Bytes} : Answers ext it s (b! "mset" :: k :: v :: rest) m s' ↔ m = .simple (b! "OK") ∧ s' = s.mSet (k :: v :: rest) := by
  refine (answers_iff (c := .mSet) rfl).trans ?_
  constructor
  · rintro ⟨o, h, hm⟩; cases h; simp at hm; exact ⟨hm.symm, rfl⟩
  · rintro ⟨rfl, rfl⟩; exact ⟨_, rfl, rfl⟩

/-- **C70 (MSET).** `MSET k1 v1 k2 v2 ...` does what `SET k1 v1`, `SET k2 v2`, ... do one after the other, and is answered `OK`. -/
theorem C70_mset (s : Store) (kv : Bytes × Bytes) (kvs : List (Bytes × Bytes)) :
    Answers ext it s (b! "mset" :: (kv :: kvs).flatMap fun e => [e.1, e.2]) m s' ↔
      Each ext lastOf s ((kv :: kvs).map fun e => [b! "set", e.1, e.2]) m s' := by
  obtain ⟨k, v⟩ := kv
  show Answers ext it s (b! "mset" :: k :: v :: kvs.flatMap fun e => [e.1, e.2]) m s' ↔ _
  rw [mset_answers, Store.mSet_cons]
  induction kvs generalizing s k v with
  | nil =>
    constructor
    · rintro ⟨rfl, rfl⟩; exact .one (it := it) (set_answers.mpr ⟨rfl, rfl⟩)
    · intro h
      cases h with
      | one h => exact set_answers.mp h
      | more _ h => cases h
  | cons e kvs ih =>
    obtain ⟨k', v'⟩ := e
    have := ih (s.set k v) k' v'
    rw [List.flatMap_cons]
    show (m = _ ∧ s' = ((s.set k v).set k' v').mSet (kvs.flatMap fun e => [e.1, e.2])) ↔ _
    rw [this]
    constructor
    · intro h
      exact .more (m1 := .simple (b! "OK")) (it := it) (set_answers.mpr ⟨rfl, rfl⟩) h
    · intro h
      cases h with
      | more h1 h2 =>
        obtain ⟨rfl, rfl⟩ := set_answers.mp h1
        exact h2

/-- the reply to the result of GET -/
def getOf : Ret Bytes → Reply
  | (_, some .nil) => .bulk none
  | (_, some e) => .error e.msg
  | (v, none) => .bulk (some v)

theorem get_iff {rest : List Bytes} : Answers ext it s (b! "get" :: k :: rest) m s' ↔ ∃ r, s.get k = .ok r ∧ m = getOf r ∧ s' = s := by
  refine (answers_iff (c := .get) rfl).trans ?_
  have hc : Cmd.fn .get ext it s (k :: rest) = s.get k >>= fun r => match r with
    | (_, some .nil) => retOk s newResponseWithNilBulk
    | (_, some e) => retErr s e
    | (v, none) => retOk s (bulkInterfaces false [.str v]) := rfl
  rw [hc]
  cases hz : s.get k with
  | error =>
    constructor
    · rintro ⟨o, h, _⟩; cases h
    · rintro ⟨o, h, _⟩; cases h
  | ok r =>
    obtain ⟨v, e⟩ := r
    constructor
    · rintro ⟨o, h, hm⟩
      rcases e with _ | (_ | _ | _ | _ | _ | _ | _) <;> cases h <;> simp at hm <;> exact ⟨_, rfl, hm.symm, rfl⟩
    · rintro ⟨r, h, rfl, rfl⟩
      cases h
      rcases e with _ | (_ | _ | _ | _ | _ | _ | _) <;> exact ⟨_, rfl, rfl⟩

theorem mget_items : ∀ (ks : List Bytes) (ms : List Reply), (∃ vs, s.mGet ks = .ok vs ∧ itemReplies (vs.map fun v => ⟨v.iface, .bulkStrings⟩) = some ms) ↔
    List.Forall₂ (fun k r => Answers ext it s [b! "get", k] r s ∧ isError r = false) ks ms
  | [], ms => by
    constructor
    · rintro ⟨vs, h, hm⟩; cases h; cases hm; exact .nil
    · intro h; cases h; exact ⟨[], rfl, rfl⟩
  | k :: ks, ms => by
    constructor
    · rintro ⟨vs, h, hm⟩
      unfold Store.mGet at h
      obtain ⟨⟨v, e⟩, h1, h⟩ := bind_ok h
      obtain ⟨vs', h2, h⟩ := bind_ok h
      cases h
      simp only [List.map_cons, itemReplies] at hm
      cases hr : itemReplies (vs'.map fun v => (⟨v.iface, .bulkStrings⟩ : Item)) with
      | none =>
        rw [hr] at hm
        rcases e with _ | (_ | _ | _ | _ | _ | _ | _) <;> simp [Item.reply, Store.MGetItem.iface] at hm
      | some ms' =>
        rw [hr] at hm
        have ih := (mget_items ks ms').mp ⟨vs', h2, hr⟩
        rcases e with _ | (_ | _ | _ | _ | _ | _ | _) <;> simp [Item.reply, Store.MGetItem.iface] at hm
        all_goals subst hm; exact .cons ⟨get_iff.mpr ⟨_, h1, rfl, rfl⟩, rfl⟩ ih
    · intro h
      cases h with
      | @cons _ r _ ms' h1 h2 =>
        obtain ⟨⟨⟨v, e⟩, h3, h4, _⟩, h5⟩ := And.imp_left get_iff.mp h1
        obtain ⟨vs', h6, h7⟩ := (mget_items ks ms').mpr h2
        rcases e with _ | (_ | _ | _ | _ | _ | _ | _) <;> subst h4 <;>
          first
          | (cases h5; done)
          | exact ⟨_, by unfold Store.mGet; rw [h3]; simp only [bind, Except.bind, h6]; rfl, by
              rw [List.map_cons]
              unfold itemReplies
              rw [h7]; rfl⟩

/-- **C70 (MGET).** `MGET k1 k2 ...` is answered with the array of the replies to `GET k1`, `GET k2`, ... and changes nothing,
exactly when none of these is an error (see `C27`: otherwise the server crashes). -/
theorem C70_mget (s : Store) (k : Bytes) (ks : List Bytes) : Answers ext it s (b! "mget" :: k :: ks) m s' ↔
    s' = s ∧ ∃ ms, List.Forall₂ (fun k r => Answers ext it s [b! "get", k] r s ∧ isError r = false) (k :: ks) ms ∧ m = .array ms := by
  refine (answers_iff (c := .mget) rfl).trans ?_
  simp only [← mget_items]
  constructor
  · rintro ⟨o, h, hm⟩
    obtain ⟨vs, h1, h2⟩ := bind_ok (show (s.mGet (k :: ks) >>= fun vs => retOk s (bulkInterfaces true (vs.map (·.iface)))) = .ok (s', o) from h)
    cases h2
    have hm : (bulkInterfaces true (vs.map (·.iface))).reply = some m := hm
    unfold Response.reply bulkInterfaces at hm
    simp only [List.map_map, Function.comp_def, if_true] at hm
    cases hr : itemReplies (vs.map fun v => (⟨v.iface, .bulkStrings⟩ : Item)) with
    | none => rw [hr] at hm; cases hm
    | some ms => rw [hr] at hm; cases hm; exact ⟨rfl, ms, ⟨vs, h1, hr⟩, rfl⟩
  · rintro ⟨rfl, ms, ⟨vs, h1, h2⟩, rfl⟩
    refine ⟨.ok (bulkInterfaces true (vs.map (·.iface))), ?_, ?_⟩
    · show (s'.mGet (k :: ks) >>= fun vs => retOk s' (bulkInterfaces true (vs.map (·.iface)))) = _
      rw [h1]; rfl
    · show (bulkInterfaces true (vs.map (·.iface))).reply = _
      unfold Response.reply bulkInterfaces
      simp only [List.map_map, Function.comp_def, if_true, h2, Option.map_some]

/-! ## LPOP and RPOP -/

/-- the reply to the result of a pop -/
def popOf : Ret (List Bytes) → Reply
  | (_, some .nil) => .bulk none
  | (_, some e) => .error e.msg
  | (vs, none) => bulks vs

theorem arrReply_iff {x : Go (Store × Ret (List Bytes))} {m : Reply} {s' : Store} :
    (∃ o, (x >>= fun p => arrReply p.1 newResponseWithNilBulk p.2) = .ok (s', o) ∧ (setRsp o).reply = some m) ↔ ∃ r, x = .ok (s', r) ∧ m = popOf r := by
  constructor
  · rintro ⟨o, h, hm⟩
    obtain ⟨⟨s1, n, e⟩, h1, h2⟩ := bind_ok h
    rcases e with _ | (_ | _ | _ | _ | _ | _ | _) <;> cases h2 <;> simp at hm <;> exact ⟨_, h1, hm.symm⟩
  · rintro ⟨⟨n, e⟩, rfl, rfl⟩
    rcases e with _ | (_ | _ | _ | _ | _ | _ | _) <;> exact ⟨_, rfl, by first | rfl | simp [popOf]⟩

theorem popOf_join (a b : Ret (List Bytes)) (h : ∀ e, b.2 = some e → e = .nil ∨ a.2 ≠ none) :
    popOf (Store.joinRet a b) = join (popOf a) (popOf b) := by
  obtain ⟨n, _ | e⟩ := a
  · obtain ⟨n', _ | e'⟩ := b
    · simp [popOf, Store.joinRet, join, bulks]
    · rcases h e' rfl with rfl | h
      · simp [popOf, Store.joinRet, join, bulks]
      · simp at h
  · cases e <;> rfl

/-- the number of items a pop asks for -/
theorem popCount_int {c : Bytes} {n : Int} (h : int64 c = some n) (hn : 0 < n) (rest : List Bytes) : popCount (c :: rest) = some n := by
  rw [int64_eq] at h
  unfold popCount atoi
  simp only [h]
  rw [if_neg (by omega)]

theorem lpop_answers {rest : List Bytes} {n : Int} (h : popCount rest = some n) :
    Answers ext it s (b! "lpop" :: k :: rest) m s' ↔ ∃ r, s.lPop k n = .ok (s', r) ∧ m = popOf r := by
  refine (answers_iff (c := .lPop) rfl).trans ?_
  show (∃ o, cmdLPop ext it s (k :: rest) = _ ∧ _) ↔ _
  unfold cmdLPop
  simp only [h]
  exact arrReply_iff

theorem rpop_answers {rest : List Bytes} {n : Int} (h : popCount rest = some n) :
    Answers ext it s (b! "rpop" :: k :: rest) m s' ↔ ∃ r, s.rPop k n = .ok (s', r) ∧ m = popOf r := by
  refine (answers_iff (c := .rPop) rfl).trans ?_
  show (∃ o, cmdRPop ext it s (k :: rest) = _ ∧ _) ↔ _
  unfold cmdRPop
  simp only [h]
  exact arrReply_iff

/-- **C70 (LPOP).** `LPOP k n` does what `n` times `LPOP k` does, and its reply has the items of their replies in that order
(`nil` adds none; if the first reply is `nil` or an error, that is the reply). -/
theorem C70_lpop (s : Store) (k c : Bytes) (n : Nat) (hc : int64 c = some (n + 1 : Nat)) :
    Answers ext it s [b! "lpop", k, c] m s' ↔ Each ext join s (List.replicate (n + 1) [b! "lpop", k]) m s' := by
  rw [lpop_answers (popCount_int hc (by omega) [])]
  clear hc
  induction n generalizing s m with
  | zero =>
    show (∃ r, s.lPop k 1 = .ok (s', r) ∧ m = popOf r) ↔ _
    rw [← lpop_answers (ext := ext) (it := it) (rest := []) rfl]
    constructor
    · exact fun h => .one h
    · intro h
      cases h with
      | one h => exact h
      | more _ h => cases h
  | succ n ih =>
    rw [show ((n + 1 + 1 : Nat) : Int) = ((n + 1 : Nat) : Int) + 1 by omega, Store.lPop_succ s k (by omega)]
    constructor
    · rintro ⟨r, h, rfl⟩
      obtain ⟨⟨s1, r1⟩, h1, h2⟩ := bind_ok h
      obtain ⟨⟨s2, r2⟩, h3, h4⟩ := bind_ok h2
      cases h4
      rw [popOf_join r1 r2 (Store.lPop_err h1 h3)]
      exact .more (it := it) ((lpop_answers rfl).mpr ⟨r1, h1, rfl⟩) ((ih s1).mp ⟨r2, h3, rfl⟩)
    · intro h
      cases h with
      | @more _ _ _ m1 s1 _ m2 _ ha hb =>
        obtain ⟨r1, h1, rfl⟩ := (lpop_answers rfl).mp ha
        obtain ⟨r2, h3, rfl⟩ := (ih s1).mpr hb
        exact ⟨_, by rw [h1]; show (s1.lPop k _ >>= _) = _; rw [h3]; rfl, (popOf_join r1 r2 (Store.lPop_err h1 h3)).symm⟩

/-- **C70 (RPOP).** The same for `RPOP`. -/
theorem C70_rpop (s : Store) (k c : Bytes) (n : Nat) (hc : int64 c = some (n + 1 : Nat)) :
    Answers ext it s [b! "rpop", k, c] m s' ↔ Each ext join s (List.replicate (n + 1) [b! "rpop", k]) m s' := by
  rw [rpop_answers (popCount_int hc (by omega) [])]
  clear hc
  induction n generalizing s m with
  | zero =>
    show (∃ r, s.rPop k 1 = .ok (s', r) ∧ m = popOf r) ↔ _
    rw [← rpop_answers (ext := ext) (it := it) (rest := []) rfl]
    constructor
    · exact fun h => .one h
    · intro h
      cases h with
      | one h => exact h
      | more _ h => cases h
  | succ n ih =>
    rw [show ((n + 1 + 1 : Nat) : Int) = ((n + 1 : Nat) : Int) + 1 by omega, Store.rPop_succ s k (by omega)]
    constructor
    · rintro ⟨r, h, rfl⟩
      obtain ⟨⟨s1, r1⟩, h1, h2⟩ := bind_ok h
      obtain ⟨⟨s2, r2⟩, h3, h4⟩ := bind_ok h2
      cases h4
      rw [popOf_join r1 r2 (Store.rPop_err h1 h3)]
      exact .more (it := it) ((rpop_answers rfl).mpr ⟨r1, h1, rfl⟩) ((ih s1).mp ⟨r2, h3, rfl⟩)
    · intro h
      cases h with
      | @more _ _ _ m1 s1 _ m2 _ ha hb =>
        obtain ⟨r1, h1, rfl⟩ := (rpop_answers rfl).mp ha
        obtain ⟨r2, h3, rfl⟩ := (ih s1).mpr hb
        exact ⟨_, by rw [h1]; show (s1.rPop k _ >>= _) = _; rw [h3]; rfl, (popOf_join r1 r2 (Store.rPop_err h1 h3)).symm⟩

/-! ## What does not hold, and concrete cases -/

/-- **C70, DEL and EXISTS: exactly what they do.** Only the first key is looked at: whatever follows it, the effect and the reply are
those of the request with one key. -/
theorem C70_first_key_only (s : Store) (k : Bytes) (rest : List Bytes) :
    (Answers ext it s (b! "del" :: k :: rest) m s' ↔ Answers ext it s [b! "del", k] m s') ∧
    (Answers ext it s (b! "exists" :: k :: rest) m s' ↔ Answers ext it s [b! "exists", k] m s') := by
  constructor
  · rw [answers_iff (c := .del) rfl, answers_iff (c := .del) rfl]; rfl
  · rw [answers_iff (c := .exists) rfl, answers_iff (c := .exists) rfl]; rfl

theorem trace_of_play {reqs : List (List Bytes)} {tr : List (List Bytes × Reply)} (h : (play ext0 it0 (Store.init rng0) reqs).map (·.1) = some tr) :
    ∃ s, Trace ext0 (Store.init rng0) tr s := by
  obtain ⟨⟨tr', s⟩, h1, h2⟩ := Option.map_eq_some_iff.mp h
  simp only at h2
  exact ⟨s, h2 ▸ play_trace h1⟩

/-- **C70, violated by DEL, EXISTS and ZREM**: after the same history, the single request and the requests one by one differ.
`DEL a b` leaves `b` alone, `EXISTS a b` does not count `b`, and `ZREM z b a` counts `a`, which was already popped. -/
theorem C70_violated :
    (∃ tr s s', Trace ext0 (Store.init rng0) (tr ++ [([b! "del", b! "a", b! "b"], .int 1), ([b! "get", b! "b"], .bulk (b! "2"))]) s ∧
      Trace ext0 (Store.init rng0) (tr ++ [([b! "del", b! "a"], .int 1), ([b! "del", b! "b"], .int 1), ([b! "get", b! "b"], .bulk none)]) s') ∧
    (∃ tr s s', Trace ext0 (Store.init rng0) (tr ++ [([b! "exists", b! "a", b! "b"], .int 1)]) s ∧
      Trace ext0 (Store.init rng0) (tr ++ [([b! "exists", b! "a"], .int 1), ([b! "exists", b! "b"], .int 1)]) s') ∧
    (∃ tr s s', Trace ext0 (Store.init rng0) (tr ++ [([b! "zrem", b! "z", b! "b", b! "a"], .int 2)]) s ∧
      Trace ext0 (Store.init rng0) (tr ++ [([b! "zrem", b! "z", b! "b"], .int 1), ([b! "zrem", b! "z", b! "a"], .int 0)]) s') := by
  refine ⟨⟨[([b! "mset", b! "a", b! "1", b! "b", b! "2"], .simple (b! "OK"))], ?_⟩, ⟨[([b! "mset", b! "a", b! "1", b! "b", b! "2"], .simple (b! "OK"))], ?_⟩,
    ⟨[([b! "zadd", b! "z", b! "1", b! "a", b! "2", b! "b"], .int 2), ([b! "zpopmin", b! "z"], bulks [b! "a", b! "1"])], ?_⟩⟩
  · obtain ⟨s, h⟩ := trace_of_play (reqs := [[b! "mset", b! "a", b! "1", b! "b", b! "2"], [b! "del", b! "a", b! "b"], [b! "get", b! "b"]])
      (tr := [([b! "mset", b! "a", b! "1", b! "b", b! "2"], .simple (b! "OK"))] ++ [([b! "del", b! "a", b! "b"], .int 1), ([b! "get", b! "b"], .bulk (b! "2"))]) (by decide +kernel)
    obtain ⟨s', h'⟩ := trace_of_play (reqs := [[b! "mset", b! "a", b! "1", b! "b", b! "2"], [b! "del", b! "a"], [b! "del", b! "b"], [b! "get", b! "b"]])
      (tr := [([b! "mset", b! "a", b! "1", b! "b", b! "2"], .simple (b! "OK"))] ++ [([b! "del", b! "a"], .int 1), ([b! "del", b! "b"], .int 1), ([b! "get", b! "b"], .bulk none)]) (by decide +kernel)
    exact ⟨s, s', h, h'⟩
  · obtain ⟨s, h⟩ := trace_of_play (reqs := [[b! "mset", b! "a", b! "1", b! "b", b! "2"], [b! "exists", b! "a", b! "b"]])
      (tr := [([b! "mset", b! "a", b! "1", b! "b", b! "2"], .simple (b! "OK"))] ++ [([b! "exists", b! "a", b! "b"], .int 1)]) (by decide +kernel)
    obtain ⟨s', h'⟩ := trace_of_play (reqs := [[b! "mset", b! "a", b! "1", b! "b", b! "2"], [b! "exists", b! "a"], [b! "exists", b! "b"]])
      (tr := [([b! "mset", b! "a", b! "1", b! "b", b! "2"], .simple (b! "OK"))] ++ [([b! "exists", b! "a"], .int 1), ([b! "exists", b! "b"], .int 1)]) (by decide +kernel)
    exact ⟨s, s', h, h'⟩
  · obtain ⟨s, h⟩ := trace_of_play (reqs := [[b! "zadd", b! "z", b! "1", b! "a", b! "2", b! "b"], [b! "zpopmin", b! "z"], [b! "zrem", b! "z", b! "b", b! "a"]])
      (tr := [([b! "zadd", b! "z", b! "1", b! "a", b! "2", b! "b"], .int 2), ([b! "zpopmin", b! "z"], bulks [b! "a", b! "1"])] ++ [([b! "zrem", b! "z", b! "b", b! "a"], .int 2)]) (by decide +kernel)
    obtain ⟨s', h'⟩ := trace_of_play (reqs := [[b! "zadd", b! "z", b! "1", b! "a", b! "2", b! "b"], [b! "zpopmin", b! "z"], [b! "zrem", b! "z", b! "b"], [b! "zrem", b! "z", b! "a"]])
      (tr := [([b! "zadd", b! "z", b! "1", b! "a", b! "2", b! "b"], .int 2), ([b! "zpopmin", b! "z"], bulks [b! "a", b! "1"])] ++ [([b! "zrem", b! "z", b! "b"], .int 1), ([b! "zrem", b! "z", b! "a"], .int 0)]) (by decide +kernel)
    exact ⟨s, s', h, h'⟩

/-- The premises and both sides occur: a set with a duplicate, a list popped further than it is long, sorted-set scores with a flag. -/
example : ∃ s, Trace ext0 (Store.init rng0) [([b! "sadd", b! "s", b! "a", b! "b", b! "a"], .int 2), ([b! "srem", b! "s", b! "a", b! "x", b! "b"], .int 2),
    ([b! "rpush", b! "l", b! "1", b! "2", b! "3"], .int 3), ([b! "lpop", b! "l", b! "2"], bulks [b! "1", b! "2"]),
    ([b! "rpop", b! "l", b! "2"], bulks [b! "3"]), ([b! "zadd", b! "z", b! "NX", b! "1", b! "a", b! "2", b! "b"], .int 2),
    ([b! "zrem", b! "z", b! "a", b! "b"], .int 2), ([b! "mset", b! "k", b! "1", b! "k", b! "2"], .simple (b! "OK")),
    ([b! "mget", b! "k", b! "no"], .array [.bulk (b! "2"), .bulk none])] s :=
  trace_of_play (reqs := [[b! "sadd", b! "s", b! "a", b! "b", b! "a"], [b! "srem", b! "s", b! "a", b! "x", b! "b"],
    [b! "rpush", b! "l", b! "1", b! "2", b! "3"], [b! "lpop", b! "l", b! "2"],
    [b! "rpop", b! "l", b! "2"], [b! "zadd", b! "z", b! "NX", b! "1", b! "a", b! "2", b! "b"],
    [b! "zrem", b! "z", b! "a", b! "b"], [b! "mset", b! "k", b! "1", b! "k", b! "2"],
    [b! "mget", b! "k", b! "no"]]) (by decide +kernel)

/-- The premises of `C70_zadd` and `C70_lpop` are met. -/
example : (∀ w ∈ [b! "NX"], ZFlag w) ∧ (∀ a ∈ [[b! "1", b! "a"], [b! "2", b! "b"]], ZPair ext0 a) ∧ int64 (b! "2") = some (1 + 1 : Nat) := by
  refine ⟨?_, ?_, by decide +kernel⟩
  · intro w hw
    simp only [List.mem_singleton] at hw
    subst hw
    exact ⟨by unfold Ascii; decide, by decide⟩
  · intro a ha
    simp only [List.mem_cons, List.not_mem_nil, or_false] at ha
    rcases ha with rfl | rfl
    · exact ⟨_, _, (ext0.parseFloat (b! "1")).get (by decide +kernel), rfl, by unfold Ascii; decide, by decide, by simp⟩
    · exact ⟨_, _, (ext0.parseFloat (b! "2")).get (by decide +kernel), rfl, by unfold Ascii; decide, by decide, by simp⟩

end Godis
