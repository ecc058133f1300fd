import Verif.Proofs.Contents
/-!
# Requests that name only some keys leave the other keys, and their sets, alone (reference server)
-/
namespace RefSpec
open Resp
open KeySpec hiding Str
open StrSpec (int64 lower isError decimal counters delta Wraps setStores)
open ListSpec (errType errArgs errNil items)
open SetSpec (SVal SView mems size add remove leave combine opOf trouble)
open ZSpec (ZVal)

variable {K : Str → Prop} {O : Nat → Prop} {L : Lib}

/-- the keys outside `K` hold what they held, the sets `O` are what they were, and no key in `K` names one of them -/
structure Kept (K : Str → Prop) (O : Nat → Prop) (W0 W : World) : Prop where
  holds : ∀ k, ¬ K k → W.holds k = W0.holds k
  sets : ∀ i, O i → W.sets i = W0.sets i
  apart : ∀ k, K k → ∀ i, O i → W.holds k ≠ .set i
  next : ∀ i, O i → i < W.next

/-- the same, as set commands see it -/
structure KeptSets (K : Str → Prop) (O : Nat → Prop) (U0 U : SharedSpec.World) : Prop where
  names : ∀ k, ¬ K k → U.names k = U0.names k
  sets : ∀ i, O i → U.sets i = U0.sets i
  apart : ∀ k, K k → ∀ i, O i → U.names k ≠ .here i
  next : ∀ i, O i → i < U.next

variable {U0 U : SharedSpec.World} {W0 W : World}

theorem KeptSets.create (h : KeptSets K O U0 U) {k : Str} (hk : K k) (x : SVal) : KeptSets K O U0 (U.create k x) := by
  refine ⟨fun k' hk' => ?_, fun i hi => ?_, fun k' hk' i hi => ?_, fun i hi => ?_⟩
  · show (if k' = k then _ else _) = _
    rw [if_neg (fun (e : k' = k) => hk' (e ▸ hk))]; exact h.names k' hk'
  · show (if i = U.next then _ else _) = _
    have := h.next i hi
    rw [if_neg (by omega)]; exact h.sets i hi
  · show (if k' = k then _ else _) ≠ _
    split
    · have := h.next i hi
      intro e; cases e; omega
    · exact h.apart k' hk' i hi
  · have := h.next i hi; show i < U.next + 1; omega

theorem KeptSets.change (h : KeptSets K O U0 U) {k : Str} (hk : K k) (v : SView) : KeptSets K O U0 (U.change k v) := by
  unfold SharedSpec.World.change
  split
  · next x i hi =>
    refine ⟨h.names, fun j hj => ?_, h.apart, h.next⟩
    show (if j = i then _ else _) = _
    rw [if_neg (fun e => h.apart k hk j hj (by rw [hi, e]))]
    exact h.sets j hj
  · exact h.create hk _
  · exact h

theorem KeptSets.name (h : KeptSets K O U0 U) {dst src : Str} (hd : K dst) (hs : K src) : KeptSets K O U0 (U.name dst (U.names src)) := by
  refine ⟨fun k' hk' => ?_, h.sets, fun k' hk' i hi => ?_, h.next⟩
  · show (if k' = dst then _ else _) = _
    rw [if_neg (fun (e : k' = dst) => hk' (e ▸ hd))]; exact h.names k' hk'
  · show (if k' = dst then _ else _) ≠ _
    split
    · exact h.apart src hs i hi
    · exact h.apart k' hk' i hi

theorem head_key {n : Str} {k : Str} {rest : List Str} (h1 : n ∉ noKeys) (h1' : n ∉ readOnly) (h2 : ∀ j ∈ changes n (k :: rest), K j) : K k := by
  refine h2 k ?_
  unfold changes
  rw [if_neg h1']
  split
  · split <;> simp_all
  unfold keyArgs
  rw [if_neg h1]
  split
  · simp
  · split
    · cases rest <;> simp [evens]
    · split <;> simp

theorem row_readOnly {n : Str} (hr : n ∈ readOnly) (k : Str) (v : RowSpec.View) (args : List Str) (m : Reply) : RowSpec.step k v n args m = v := by
  obtain ⟨a, b, c, d, e, f, g⟩ := (by decide : ∀ n ∈ readOnly, n ≠ s!! "mset" ∧ n ≠ s!! "smove" ∧ n ∉ ListSpec.stringWriters ∧ n ≠ s!! "del" ∧
    n ∉ ListSpec.otherCreators ∧ n ∉ setStores ∧ n ∉ ListSpec.listWriters) n hr
  unfold RowSpec.step
  rw [if_neg a, if_neg b, if_neg c, if_neg d, if_neg e, if_neg f, if_neg g]
  simp

theorem foreign_readOnly {α : Type} {n : Str} (hr : n ∈ readOnly) (k : Str) (v : KView α) (args : List Str) (m : Reply) : foreign k v n args m = v := by
  obtain ⟨a, b, c, d, e, f⟩ := (by decide : ∀ n ∈ readOnly, n ≠ s!! "mset" ∧ n ≠ s!! "smove" ∧ n ∉ ListSpec.stringWriters ∧ n ≠ s!! "del" ∧
    n ∉ collCreators ∧ n ∉ setStores) n hr
  unfold foreign
  rw [if_neg a, if_neg b, if_neg c, if_neg d, if_neg e, if_neg f]
  simp

theorem zset_readOnly {N : ZSpec.Num} {n : Str} (hr : n ∈ readOnly) (w : Str → ZSpec.ZView) (args : List Str) (m : Reply) : ZSpec.step N w n args m = w := by
  obtain ⟨a, b, c, d, e⟩ := (by decide : ∀ n ∈ readOnly, n ≠ s!! "zadd" ∧ n ≠ s!! "zincr" ∧ n ≠ s!! "zrem" ∧ n ≠ s!! "zpopmin" ∧ n ≠ s!! "zpopmax") n hr
  unfold ZSpec.step
  rw [if_neg a, if_neg b, if_neg c, if_neg d, if_neg e]
  simp only [foreign_readOnly hr]

theorem write_readOnly {n : Str} (hr : n ∈ readOnly) (W : World) (k : Str) (rest : List Str) (m : Reply) : W.write n k rest m = W := by
  obtain ⟨a, b, c, d⟩ := (by decide : ∀ n ∈ readOnly, n ≠ s!! "del" ∧ n ≠ s!! "set" ∧ n ≠ s!! "append" ∧ n ∉ counters) n hr
  unfold World.write
  rw [if_neg a, if_neg b, if_neg c, if_neg d]

theorem sets_readOnly {n : Str} (hr : n ∈ readOnly) (U : SharedSpec.World) (args : List Str) (m : Reply) : SharedSpec.step U n args m = U := by
  obtain ⟨a, b, c, d, e⟩ := (by decide : ∀ n ∈ readOnly, n ≠ s!! "sadd" ∧ n ≠ s!! "srem" ∧ n ≠ s!! "spop" ∧ n ≠ s!! "smove" ∧ n ∉ setStores) n hr
  unfold SharedSpec.step
  rw [if_neg a, if_neg b, if_neg c, if_neg d, if_neg e]
  simp only [foreign_readOnly hr]

theorem step_readOnly {n : Str} (hr : n ∈ readOnly) (W : World) (args : List Str) (m : Reply) : step L W n args m = W := by
  have ext : ∀ {V : World}, (∀ k, V.holds k = W.holds k) → V.sets = W.sets → V.next = W.next → V = W := by
    intro V h1 h2 h3
    obtain ⟨a, b, c⟩ := V
    obtain ⟨a', b', c'⟩ := W
    cases funext h1; cases h2; cases h3; rfl
  unfold step
  split
  · refine ext (fun k => ?_) rfl rfl
    dsimp only
    rw [row_readOnly hr]
    cases W.holds k <;> rfl
  split
  · refine ext (fun k => ?_) (by dsimp only; rw [sets_readOnly hr]; rfl) (by dsimp only; rw [sets_readOnly hr]; rfl)
    dsimp only
    rw [sets_readOnly hr]
    show (match (W.holds k).setName with
        | .absent => Holding.absent
        | .other => W.holds k
        | .here i => .set i) = _
    cases W.holds k <;> rfl
  split
  · refine ext (fun k => ?_) rfl rfl
    dsimp only
    rw [zset_readOnly hr]
    cases W.holds k <;> rfl
  split
  · rfl
  split
  · next e => subst e; exact absurd hr (by decide)
  · split
    · rfl
    · exact write_readOnly hr _ _ _ _

theorem KeptSets.step (h : KeptSets K O U0 U) {n : Str} (hro : n ∉ readOnly) (hn : n ∈ SetSpec.commands) {args : List Str} (hk : ∀ k ∈ changes n args, K k) (m : Reply) :
    KeptSets K O U0 (SharedSpec.step U n args m) := by
  have hnk : n ∉ noKeys := (by decide : ∀ n ∈ SetSpec.commands, n ∉ noKeys) n hn
  unfold SharedSpec.step
  by_cases h1 : n = s!! "sadd"
  · rw [if_pos h1]
    match args with
    | [] => exact h
    | k :: xs => dsimp only; split <;> first | exact h | exact h.change (head_key hnk (by assumption) hk) _
  rw [if_neg h1]
  by_cases h2 : n = s!! "srem"
  · rw [if_pos h2]
    match args with
    | [] => exact h
    | k :: xs => dsimp only; split <;> first | exact h | exact h.change (head_key hnk (by assumption) hk) _
  rw [if_neg h2]
  by_cases h3 : n = s!! "spop"
  · rw [if_pos h3]
    match args with
    | [] => exact h
    | k :: xs => exact h.change (head_key hnk (by assumption) hk) _
  rw [if_neg h3]
  by_cases h4 : n = s!! "smove"
  · rw [if_pos h4]
    match args with
    | [] | [_] | [_, _] => exact h
    | src :: dst :: x :: _ =>
      have hd : K dst := hk dst (by subst h4; simp [changes, setStores, readOnly, keyArgs, noKeys, allKeys])
      dsimp only
      split
      · exact (h.change (head_key hnk (by assumption) hk) _).change hd _
      · exact h
  rw [if_neg h4]
  by_cases h5 : n ∈ setStores
  · rw [if_pos h5]
    match args with
    | [] => exact h
    | [dst, src] =>
      have hs : K src := hk src (by unfold changes; rw [if_neg hro, if_pos h5]; simp)
      dsimp only
      split
      · exact h
      · exact h.name (head_key hnk (by assumption) hk) hs
    | [dst] =>
      dsimp only; split <;> first | exact h | exact h.create (head_key hnk (by assumption) hk) _
    | dst :: a :: b :: ks =>
      dsimp only; split <;> first | exact h | exact h.create (head_key hnk (by assumption) hk) _
  rw [if_neg h5]
  simp only [foreign_set_read hn h1 h4 h5]
  exact h

theorem Kept.shared (h : Kept K O W0 W) : KeptSets K O W0.shared W.shared :=
  ⟨fun k hk => congrArg Holding.setName (h.holds k hk), h.sets, fun k hk i hi e => h.apart k hk i hi (by
    have e : (W.holds k).setName = .here i := e
    cases hh : W.holds k <;> rw [hh] at e <;> cases e
    rfl), h.next⟩

/-- keys in `K` get holdings that are no sets -/
theorem Kept.override (h : Kept K O W0 W) {V : World} (hs : V.sets = W.sets) (hn : V.next = W.next)
    (hV : ∀ k, V.holds k = W.holds k ∨ K k ∧ ∀ i, V.holds k ≠ .set i) : Kept K O W0 V := by
  refine ⟨fun k hk => ?_, fun i hi => by rw [hs]; exact h.sets i hi, fun k hk i hi => ?_, fun i hi => by rw [hn]; exact h.next i hi⟩
  · rcases hV k with e | ⟨e, _⟩
    · rw [e]; exact h.holds k hk
    · exact absurd e hk
  · rcases hV k with e | ⟨_, e⟩
    · rw [e]; exact h.apart k hk i hi
    · exact e i

theorem Kept.put (h : Kept K O W0 W) {k : Str} (hk : K k) {v : Holding} (hv : ∀ i, v ≠ .set i) : Kept K O W0 (W.put k v) := by
  refine h.override rfl rfl fun k' => ?_
  unfold World.put
  dsimp only
  by_cases e : k' = k
  · rw [if_pos e]; exact .inr ⟨e ▸ hk, hv⟩
  · rw [if_neg e]; exact .inl rfl

theorem Kept.putAll {args : List Str} (h : Kept K O W0 W) (hk : ∀ k ∈ evens args, K k) : Kept K O W0 (W.putAll args) := by
  induction args using List.twoStepInduction generalizing W with
  | nil => exact h
  | singleton a => exact h
  | cons_cons a b l ih => exact ih (h.put (hk a (by simp [evens])) nofun) (fun k h => hk k (by simp [evens, h]))

theorem Kept.write (h : Kept K O W0 W) (n : Str) {k : Str} (hk : K k) (rest : List Str) (m : Reply) : Kept K O W0 (W.write n k rest m) := by
  unfold World.write
  split
  · exact h.put hk nofun
  split
  · exact h.put hk nofun
  split
  · exact h.put hk nofun
  split
  · split
    · exact h.put hk nofun
    · exact h
  · exact h

theorem Kept.step (h : Kept K O W0 W) {n : Str} {args : List Str} (hk : ∀ k ∈ changes n args, K k) (m : Reply) :
    Kept K O W0 (step L W n args m) := by
  by_cases hro : n ∈ readOnly
  · rw [step_readOnly hro]; exact h
  unfold RefSpec.step
  by_cases c1 : n ∈ RowSpec.commands
  · rw [if_pos c1]
    have hnk : n ∉ noKeys := (by decide : ∀ n ∈ RowSpec.commands, n ∉ noKeys) n c1
    refine h.override rfl rfl fun k => ?_
    dsimp only
    by_cases hK : K k
    · cases RowSpec.step k (W.holds k).row n args m with
      | absent => exact .inr ⟨hK, nofun⟩
      | other => exact .inl rfl
      | row c => exact .inr ⟨hK, nofun⟩
    · have : RowSpec.step k (W.holds k).row n args m = (W.holds k).row := by
        have hh : args.head? ≠ some k := by
          rintro e
          cases args with
          | nil => cases e
          | cons a rest => cases e; exact hK (head_key hnk (by assumption) hk)
        have hm : n ≠ s!! "mset" ∧ n ≠ s!! "smove" := (by decide : ∀ n ∈ RowSpec.commands, n ≠ s!! "mset" ∧ n ≠ s!! "smove") n c1
        unfold RowSpec.step
        rw [if_neg hm.1, if_neg hm.2, if_pos hh]
        simp
      rw [this]
      left
      cases W.holds k <;> rfl
  rw [if_neg c1]
  by_cases c2 : n ∈ SetSpec.commands
  · rw [if_pos c2]
    have hS := h.shared.step hro c2 hk m
    refine ⟨fun k hK => ?_, hS.sets, fun k hK i hi => ?_, hS.next⟩
    · dsimp only
      rw [hS.names k hK]
      show (match (W0.holds k).setName with
        | .absent => Holding.absent
        | .other => W.holds k
        | .here i => .set i) = _
      rw [h.holds k hK]
      cases W0.holds k <;> rfl
    · dsimp only
      have := hS.apart k hK i hi
      cases hh : (SharedSpec.step W.shared n args m).names k with
      | absent => nofun
      | other => exact h.apart k hK i hi
      | here j => intro e; cases e; exact this hh
  rw [if_neg c2]
  by_cases c3 : n ∈ ZSpec.commands
  · rw [if_pos c3]
    have hnk : n ∉ noKeys := (by decide : ∀ n ∈ ZSpec.commands, n ∉ noKeys) n c3
    refine h.override rfl rfl fun k => ?_
    dsimp only
    by_cases hK : K k
    · cases ZSpec.step L.num (fun k => (W.holds k).zset) n args m k with
      | absent => exact .inr ⟨hK, nofun⟩
      | other => exact .inl rfl
      | here c => exact .inr ⟨hK, nofun⟩
    · have : ZSpec.step L.num (fun k => (W.holds k).zset) n args m k = (W.holds k).zset := by
        have hp : ∀ {k' : Str} {rest : List Str} {v : ZSpec.ZView}, args = k' :: rest →
            ZSpec.put (fun k => (W.holds k).zset) k' v k = (W.holds k).zset := by
          rintro k' rest v rfl
          unfold ZSpec.put
          rw [if_neg]
          rintro rfl
          exact hK (head_key hnk (by assumption) hk)
        unfold ZSpec.step
        by_cases c : n = s!! "zadd"
        · rw [if_pos c]
          match args with
          | [] | [_] | [_, _] => rfl
          | k' :: a :: b :: rest =>
            dsimp only
            cases ZSpec.addArgs L.num (a :: b :: rest) {} with
            | none => rfl
            | some r => exact hp rfl
        rw [if_neg c]
        by_cases c : n = s!! "zincr"
        · rw [if_pos c]
          match args with
          | [] | [_] | [_, _] => rfl
          | k' :: a :: b :: rest =>
            dsimp only
            cases L.num.parse a with
            | none => rfl
            | some r => exact hp rfl
        rw [if_neg c]
        by_cases c : n = s!! "zrem"
        · rw [if_pos c]
          match args with
          | [] | [_] => rfl
          | k' :: a :: rest => exact hp rfl
        rw [if_neg c]
        by_cases c : n = s!! "zpopmin"
        · rw [if_pos c]
          match args with
          | [] => rfl
          | k' :: rest =>
            dsimp only
            cases ZSpec.popCount rest with
            | none => rfl
            | some r => exact hp rfl
        rw [if_neg c]
        by_cases c : n = s!! "zpopmax"
        · rw [if_pos c]
          match args with
          | [] => rfl
          | k' :: rest =>
            dsimp only
            cases ZSpec.popCount rest with
            | none => rfl
            | some r => exact hp rfl
        rw [if_neg c]
        have hh : args.head? ≠ some k := by
          rintro e
          cases args with
          | nil => cases e
          | cons a rest => cases e; exact hK (head_key hnk (by assumption) hk)
        have hm : n ≠ s!! "mset" ∧ n ≠ s!! "smove" := (by decide : ∀ n ∈ ZSpec.commands, n ≠ s!! "mset" ∧ n ≠ s!! "smove") n c3
        unfold foreign
        rw [if_neg hm.1, if_neg hm.2, if_pos hh]
        simp
      rw [this]
      left
      cases W.holds k <;> rfl
  rw [if_neg c3]
  split
  · exact h
  split
  · next hm =>
    refine h.putAll (fun k hk' => hk k ?_)
    subst hm
    simpa [changes, setStores, readOnly, keyArgs, noKeys, allKeys] using hk'
  · cases args with
    | nil => exact h
    | cons k rest =>
      by_cases hnk : n ∈ noKeys
      · have : W.write n k rest m = W := by
          have : n ≠ s!! "del" ∧ n ≠ s!! "set" ∧ n ≠ s!! "append" ∧ n ∉ counters :=
            (by decide : ∀ n ∈ noKeys, n ≠ s!! "del" ∧ n ≠ s!! "set" ∧ n ≠ s!! "append" ∧ n ∉ counters) n hnk
          unfold World.write
          rw [if_neg this.1, if_neg this.2.1, if_neg this.2.2.1, if_neg this.2.2.2]
        dsimp only
        rw [this]; exact h
      · exact h.write n (head_key hnk (by assumption) hk) rest m

/-! ## the same outside some keys -/

/-- the same contents, but for the keys in `K` -/
structure SameOutside (K : Str → Prop) (W W' : World) : Prop where
  content : ∀ k, ¬ K k → W.content k = W'.content k
  shared : ∀ k j, ¬ K k → ¬ K j → (W.shared.Same k j ↔ W'.shared.Same k j)

variable {W' : World}

theorem Kept.outside (h : Kept K O W0 W) (hO : ∀ k i, ¬ K k → W0.holds k = .set i → O i) : SameOutside K W W0 := by
  refine ⟨fun k hk => ?_, fun k j hk hj => ?_⟩
  · unfold World.content
    rw [h.holds k hk]
    cases hh : W0.holds k with
    | set i => dsimp only; rw [h.sets i (hO k i hk hh)]
    | _ => rfl
  · unfold SharedSpec.World.Same World.shared
    dsimp only
    rw [h.holds k hk, h.holds j hj]

theorem put_content (W : World) (k : Str) (v : Holding) (j : Str) :
    (W.put k v).content j = if j = k then (W.put k v).content k else W.content j := by
  by_cases e : j = k
  · rw [if_pos e, e]
  · rw [if_neg e]; unfold World.content World.put; simp only [if_neg e]

theorem put_same (W : World) (k : Str) {v : Holding} (hv : ∀ i, v ≠ .set i) (a b : Str) :
    (W.put k v).shared.Same a b ↔ a ≠ k ∧ b ≠ k ∧ W.shared.Same a b := by
  have hn : ∀ i, v.setName ≠ .here i := fun i e => by cases v <;> cases e; exact hv _ rfl
  unfold SharedSpec.World.Same World.shared World.put
  dsimp only
  by_cases ha : a = k <;> by_cases hb : b = k <;> simp [ha, hb, hn]

/-- a key is overwritten with the same in both -/
theorem SameOutside.put (h : SameOutside K W W') (k : Str) {v : Holding} (hv : ∀ i, v ≠ .set i) :
    SameOutside (fun j => K j ∧ j ≠ k) (W.put k v) (W'.put k v) := by
  refine ⟨fun j hj => ?_, fun a b ha hb => ?_⟩
  · rw [put_content W k, put_content W' k]
    by_cases e : j = k
    · rw [if_pos e, if_pos e]
      unfold World.content World.put
      simp only [if_true]
      cases v <;> first | rfl | exact absurd rfl (hv _)
    · rw [if_neg e, if_neg e]; exact h.content j (fun hK => hj ⟨hK, e⟩)
  · rw [put_same W k hv, put_same W' k hv]
    by_cases e1 : a = k
    · simp [e1]
    by_cases e2 : b = k
    · simp [e2]
    rw [h.shared a b (fun hK => ha ⟨hK, e1⟩) (fun hK => hb ⟨hK, e2⟩)]

/-- a key is deleted that is absent in the other -/
theorem SameOutside.del (h : SameOutside K W W') {k : Str} (hk : W'.holds k = .absent) : SameOutside (fun j => K j ∧ j ≠ k) (W.put k .absent) W' := by
  have : W'.put k .absent = W' := by
    unfold World.put
    obtain ⟨a, b, c⟩ := W'
    congr 1
    funext j
    dsimp only at hk ⊢
    split
    · next e => rw [e, hk]
    · rfl
  have h := h.put k (v := .absent) nofun
  rwa [this] at h

theorem SameOutside.all (h : SameOutside K W W') (hK : ∀ k, ¬ K k) : SameContents W W' :=
  ⟨fun k => h.content k (hK k), fun a b => h.shared a b (hK a) (hK b)⟩

theorem SameOutside.mono {K' : Str → Prop} (h : SameOutside K W W') (hK : ∀ k, K k → K' k) : SameOutside K' W W' :=
  ⟨fun k hk => h.content k (fun e => hk (hK k e)), fun a b ha hb => h.shared a b (fun e => ha (hK a e)) (fun e => hb (hK b e))⟩

end RefSpec
