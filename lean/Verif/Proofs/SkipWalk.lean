import Verif.Proofs.SkipRep
/-! Searches over a skip list that represents a sequence. -/
namespace Godis
namespace ZSL

variable {z : ZSL} {q : List Elem}

theorem region_of_split {P Q S : List Elem} (hq : q = P ++ (Q ++ S)) {f : Elem → Option Bool}
    (hP : ∀ e ∈ P, f e = some false) (hQ : ∀ e ∈ Q, f e = some true) (hS : ∀ e ∈ S, f e = none) :
    ∀ A e B, q = A ++ e :: B → f e = region P.length Q.length A.length := by
  intro A e B h
  have he : q[A.length]? = some e := by rw [h]; simp
  rw [hq] at he
  unfold region
  by_cases h1 : A.length < P.length
  · rw [List.getElem?_append_left h1] at he
    rw [if_pos h1]; exact hP e (List.mem_of_getElem? he)
  · rw [List.getElem?_append_right (by omega)] at he
    rw [if_neg h1]
    by_cases h2 : A.length < P.length + Q.length
    · rw [List.getElem?_append_left (by omega)] at he
      rw [if_pos h2]; exact hQ e (List.mem_of_getElem? he)
    · rw [List.getElem?_append_right (by omega)] at he
      rw [if_neg h2]; exact hS e (List.mem_of_getElem? he)

theorem Tall.mono {i j : Nat} {A : List Elem} (h : Tall i A) (hj : j ≤ i) : Tall j A := fun e he => by
  have := h e he; omega

theorem Rep.short0 (R : Rep z q) {A M B : List Elem} (hq : q = A ++ (M ++ B)) (h : Short 0 M) : M = [] := by
  cases M with
  | nil => rfl
  | cons e M =>
    have h1 := h e (by simp)
    have h2 := (R.ht e (by rw [hq]; simp)).1
    omega

/-- the outer loop -/
theorem gloop_eq (R : Rep z q) {P Q S : List Elem} (hq : q = P ++ (Q ++ S))
    {c : Nat → Nat → Go (Option Bool)} (hc : ∀ A e B, q = A ++ e :: B → c e.a (A.length + 1) = .ok (region P.length Q.length A.length)) :
    ∀ (k : Nat) (A M : List Elem), k + 1 ≤ z.level → P = A ++ M → Tall k A →
      (Q = [] ∧ gloop z.nodes c (k + 1) (cur A) A.length = .ok (cur P, P.length, false)) ∨
      (∃ Q1 e Q2, Q = Q1 ++ e :: Q2 ∧ gloop z.nodes c (k + 1) (cur A) A.length = .ok (e.a, P.length + Q1.length + 1, true)) := by
  intro k
  induction k with
  | zero =>
    intro A M hk hP hT
    have hlen : M.length < z.nodes.length + 1 := by
      have := R.room
      have : q.length = A.length + M.length + Q.length + S.length := by rw [hq, hP]; simp; omega
      omega
    rcases gwalk_eq R (show 0 < z.level by omega) hq hc _ A M hP hT hlen with ⟨A', M', h1, h2, h3, h4, h5⟩ | ⟨Q1, e, Q2, h1, h2⟩
    · have hM' : M' = [] := R.short0 (A := A ++ A') (B := Q ++ S) (by rw [hq, hP, h1]; simp) h3
      have hQ : Q = [] := R.short0 hq h4
      refine .inl ⟨hQ, ?_⟩
      have : A ++ A' = P := by rw [hP, h1, hM']; simp
      simp only [gloop, h5, bind, Except.bind, this]; rfl
    · refine .inr ⟨Q1, e, Q2, h1, ?_⟩
      simp only [gloop, h2, bind, Except.bind]; rfl
  | succ k ih =>
    intro A M hk hP hT
    have hlen : M.length < z.nodes.length + 1 := by
      have := R.room
      have : q.length = A.length + M.length + Q.length + S.length := by rw [hq, hP]; simp; omega
      omega
    rcases gwalk_eq R (show k + 1 < z.level by omega) hq hc _ A M hP hT hlen with ⟨A', M', h1, h2, h3, h4, h5⟩ | ⟨Q1, e, Q2, h1, h2⟩
    · have := ih (A ++ A') M' (by omega) (by rw [hP, h1]; simp) (h2.mono (by omega))
      have hrun : gloop z.nodes c (k + 1 + 1) (cur A) A.length = gloop z.nodes c (k + 1) (cur (A ++ A')) (A ++ A').length := by
        conv => lhs; unfold gloop
        simp only [h5, bind, Except.bind]; rfl
      rw [hrun]; exact this
    · refine .inr ⟨Q1, e, Q2, h1, ?_⟩
      unfold gloop
      simp only [h2, bind, Except.bind]; rfl

/-- a search from the head over all levels -/
theorem gloop_top (R : Rep z q) {P Q S : List Elem} (hq : q = P ++ (Q ++ S))
    {c : Nat → Nat → Go (Option Bool)} (hc : ∀ A e B, q = A ++ e :: B → c e.a (A.length + 1) = .ok (region P.length Q.length A.length)) :
    (Q = [] ∧ gloop z.nodes c z.level 0 0 = .ok (cur P, P.length, false)) ∨
      (∃ Q1 e Q2, Q = Q1 ++ e :: Q2 ∧ gloop z.nodes c z.level 0 0 = .ok (e.a, P.length + Q1.length + 1, true)) := by
  have h := R.level
  obtain ⟨k, hk⟩ : ∃ k, z.level = k + 1 := ⟨z.level - 1, by omega⟩
  rw [hk]
  exact gloop_eq R hq hc k [] P (by omega) rfl (tall_nil _)

/-! ### the loops of the code as instances -/

/-- verdict of a loop that loads the next node and never stops on it -/
def goIf (h : List ZNode) (cond : ZNode → Bool) : Nat → Nat → Go (Option Bool) := fun y _ => do
  let n ← load h y
  .ok (if cond n then some false else none)

/-- verdict of a loop that loads the next node and may stop on it -/
def goStop (h : List ZNode) (cond stop : ZNode → Bool) : Nat → Nat → Go (Option Bool) := fun y _ => do
  let n ← load h y
  .ok (if cond n then some (stop n) else none)

/-- verdict by position only -/
def goPos (rank : Nat) : Nat → Nat → Go (Option Bool) := fun _ r => .ok (if r ≤ rank then some false else none)

theorem walk_gwalk (h : List ZNode) (i : Nat) (cond : ZNode → Bool) : ∀ (fuel x r : Nat),
    walk h i cond fuel x r = (gwalk h i (goIf h cond) fuel x r).map (fun t => (t.1, t.2.1))
  | 0, _, _ => rfl
  | fuel + 1, x, r => by
    unfold walk gwalk
    simp only [bind, Except.bind]
    cases level? h x i with
    | error e => rfl
    | ok l =>
      simp only
      cases l.forward with
      | none => rfl
      | some y =>
        simp only [goIf, bind, Except.bind]
        cases load h y with
        | error e => rfl
        | ok n =>
          simp only
          cases cond n with
          | false => rfl
          | true => exact walk_gwalk h i cond fuel y _

theorem rankWalk_gwalk (h : List ZNode) (i : Nat) (score : F64) (value : Bytes) : ∀ (fuel x r : Nat),
    rankWalk h i score value fuel x r = gwalk h i (goStop h (beforeOrAt · score value) (fun n => n.score.eq score && n.value == value)) fuel x r
  | 0, _, _ => rfl
  | fuel + 1, x, r => by
    unfold rankWalk gwalk
    simp only [bind, Except.bind]
    cases level? h x i with
    | error e => rfl
    | ok l =>
      simp only
      cases l.forward with
      | none => rfl
      | some y =>
        simp only [goStop, bind, Except.bind]
        cases load h y with
        | error e => rfl
        | ok n =>
          simp only
          cases beforeOrAt n score value with
          | false => rfl
          | true =>
            simp only [if_true]
            cases n.score.eq score && n.value == value with
            | true => rfl
            | false => exact rankWalk_gwalk h i score value fuel y _

theorem F64.le_not_lt {a b : F64} (h : a.le b = true) : b.lt a = false := by
  simp only [F64.le, F64.lt, Bool.and_eq_true, decide_eq_true_eq] at *
  have : ¬ F64.key b < F64.key a := by omega
  simp [this]

theorem maxWalk_gwalk (h : List ZNode) (i : Nat) (score : F64) (o : Bool) : ∀ (fuel x r : Nat),
    maxWalk h i score o fuel x r = (gwalk h i (goStop h (·.score.le score) (fun n => o && n.score.eq score)) fuel x r).map
      (fun t => (t.1, (if t.2.2 then usub t.2.1 1 else t.2.1), t.2.2))
  | 0, _, _ => rfl
  | fuel + 1, x, r => by
    unfold maxWalk gwalk
    simp only [bind, Except.bind]
    cases level? h x i with
    | error e => rfl
    | ok l =>
      simp only
      cases l.forward with
      | none => rfl
      | some y =>
        simp only [goStop, bind, Except.bind]
        cases load h y with
        | error e => rfl
        | ok n =>
          simp only
          cases hle : n.score.le score with
          | false => rfl
          | true =>
            simp only [if_true, F64.le_not_lt hle, Bool.false_or]
            cases ho : o && n.score.eq score with
            | true => rw [Bool.and_comm] at ho; simp [ho, Except.map]
            | false => exact maxWalk_gwalk h i score o fuel y _

theorem level?_load {h : List ZNode} {x i : Nat} {l} (hl : level? h x i = .ok l) : ∃ n, load h x = .ok n := by
  unfold level? at hl
  cases hx : load h x with
  | error e => rw [hx] at hl; cases hl
  | ok n => exact ⟨n, rfl⟩

theorem minWalk_gwalk (h : List ZNode) (i : Nat) (score : F64) (o : Bool) : ∀ (fuel x r : Nat),
    minWalk h i score o fuel x r = (gwalk h i (goStop h (·.score.le score) (fun n => o && n.score.eq score)) fuel x r).map
      (fun t => (t.1, (if t.2.2 then uadd t.2.1 1 else t.2.1), t.2.2))
  | 0, _, _ => rfl
  | fuel + 1, x, r => by
    unfold minWalk gwalk
    simp only [bind, Except.bind]
    cases hlv : level? h x i with
    | error e => rfl
    | ok l =>
      obtain ⟨nx, hnx⟩ := level?_load hlv
      simp only
      cases l.forward with
      | none => rfl
      | some y =>
        simp only [goStop, bind, Except.bind]
        cases load h y with
        | error e => rfl
        | ok n =>
          simp only [hnx]
          cases hle : n.score.le score with
          | false => rfl
          | true =>
            simp only [if_true, F64.le_not_lt hle, Bool.false_or, Bool.and_false]
            cases ho : o && n.score.eq score with
            | true => rw [Bool.and_comm] at ho; simp [ho, Except.map]
            | false => exact minWalk_gwalk h i score o fuel y _

theorem findWalk_gwalk (h : List ZNode) (i rank : Nat) : ∀ (fuel x r : Nat),
    findWalk h i rank fuel x r = (gwalk h i (goPos rank) fuel x r).map (fun t => (t.1, t.2.1))
  | 0, _, _ => rfl
  | fuel + 1, x, r => by
    unfold findWalk gwalk
    simp only [bind, Except.bind]
    cases level? h x i with
    | error e => rfl
    | ok l =>
      simp only
      cases l.forward with
      | none => rfl
      | some y =>
        simp only [goPos]
        by_cases hr : uadd r l.span ≤ rank
        · simp only [if_pos hr]
          exact findWalk_gwalk h i rank fuel y _
        · simp only [if_neg hr]; rfl

theorem rankLoop_gloop (h : List ZNode) (score : F64) (value : Bytes) : ∀ (k x r : Nat),
    rankLoop h score value k x r = (gloop h (goStop h (beforeOrAt · score value) (fun n => n.score.eq score && n.value == value)) k x r).map (fun t => t.2.1)
  | 0, _, _ => rfl
  | k + 1, x, r => by
    unfold rankLoop gloop
    rw [rankWalk_gwalk]
    simp only [bind, Except.bind]
    cases gwalk h k (goStop h (beforeOrAt · score value) (fun n => n.score.eq score && n.value == value)) (h.length + 1) x r with
    | error e => rfl
    | ok t =>
      obtain ⟨a, b, f⟩ := t
      cases f with
      | true => rfl
      | false => exact rankLoop_gloop h score value k a b

theorem minLoop_gloop (h : List ZNode) (score : F64) (o : Bool) : ∀ (k x r : Nat),
    minLoop h score o k x r = (gloop h (goStop h (·.score.le score) (fun n => o && n.score.eq score)) k x r).map
      (fun t => if t.2.2 then uadd t.2.1 1 else t.2.1)
  | 0, _, _ => rfl
  | k + 1, x, r => by
    unfold minLoop gloop
    rw [minWalk_gwalk]
    simp only [bind, Except.bind]
    cases gwalk h k (goStop h (·.score.le score) (fun n => o && n.score.eq score)) (h.length + 1) x r with
    | error e => rfl
    | ok t =>
      obtain ⟨a, b, f⟩ := t
      cases f with
      | true => rfl
      | false => exact minLoop_gloop h score o k a b

theorem maxLoop_gloop (h : List ZNode) (score : F64) (o : Bool) : ∀ (k x r : Nat),
    maxLoop h score o k x r = (gloop h (goStop h (·.score.le score) (fun n => o && n.score.eq score)) k x r).map
      (fun t => if t.2.2 then usub t.2.1 1 else t.2.1)
  | 0, _, _ => rfl
  | k + 1, x, r => by
    unfold maxLoop gloop
    rw [maxWalk_gwalk]
    simp only [bind, Except.bind]
    cases gwalk h k (goStop h (·.score.le score) (fun n => o && n.score.eq score)) (h.length + 1) x r with
    | error e => rfl
    | ok t =>
      obtain ⟨a, b, f⟩ := t
      cases f with
      | true => rfl
      | false => exact maxLoop_gloop h score o k a b

/-- the node of an element -/
theorem Rep.load (R : Rep z q) {A B : List Elem} {e : Elem} (hq : q = A ++ e :: B) :
    ∃ nd, ZSL.load z.nodes e.a = .ok nd ∧ nd.value = e.v ∧ nd.score = e.sc ∧ nd.backward = A.getLast?.map (·.a) ∧ nd.levels.length = e.ht :=
  load_eq (R.node A e B hq)

/-- verdicts of `goStop` in terms of elements -/
theorem Rep.goStop (R : Rep z q) {P Q S : List Elem} (hq : q = P ++ (Q ++ S)) {cond stop : ZNode → Bool} {c s : Bytes → F64 → Bool}
    (h1 : ∀ n, cond n = c n.value n.score) (h2 : ∀ n, stop n = s n.value n.score)
    (hP : ∀ e ∈ P, c e.v e.sc = true ∧ s e.v e.sc = false) (hQ : ∀ e ∈ Q, c e.v e.sc = true ∧ s e.v e.sc = true)
    (hS : ∀ e ∈ S, c e.v e.sc = false) :
    ∀ A e B, q = A ++ e :: B → ZSL.goStop z.nodes cond stop e.a (A.length + 1) = .ok (region P.length Q.length A.length) := by
  intro A e B h
  obtain ⟨nd, e1, e2, e3, _⟩ := R.load h
  rw [← region_of_split hq (f := fun e => if c e.v e.sc then some (s e.v e.sc) else none)
    (fun e he => by simp [hP e he]) (fun e he => by simp [hQ e he]) (fun e he => by simp [hS e he]) A e B h]
  simp only [ZSL.goStop, e1, bind, Except.bind, h1, h2, e2, e3]

theorem Rep.goIf (R : Rep z q) {P S : List Elem} (hq : q = P ++ S) {cond : ZNode → Bool} {c : Bytes → F64 → Bool}
    (h1 : ∀ n, cond n = c n.value n.score) (hP : ∀ e ∈ P, c e.v e.sc = true) (hS : ∀ e ∈ S, c e.v e.sc = false) :
    ∀ A e B, q = A ++ e :: B → ZSL.goIf z.nodes cond e.a (A.length + 1) = .ok (region P.length ([] : List Elem).length A.length) := by
  intro A e B h
  have := R.goStop (Q := []) (by simpa using hq) (stop := fun _ => false) (s := fun _ _ => false) h1 (fun _ => rfl)
    (fun e he => ⟨hP e he, rfl⟩) (by simp) hS A e B h
  rw [← this]
  simp only [ZSL.goStop, ZSL.goIf]

/-- `findElementByRank` finds the element at a position -/
theorem findElementByRank_eq (R : Rep z q) {P S : List Elem} {e : Elem} (hq : q = P ++ e :: S) :
    z.findElementByRank (P.length + 1) = .ok (some e.a) := by
  have hsmall := R.small
  have hc : ∀ A e' B, q = A ++ e' :: B → goPos (P.length + 1) e'.a (A.length + 1)
      = .ok (region (P ++ [e]).length ([] : List Elem).length A.length) := by
    intro A e' B h
    simp only [goPos, region, List.length_append, List.length_cons, List.length_nil]
    by_cases h1 : A.length < P.length + 1
    · rw [if_pos (by omega), if_pos (by omega)]
    · rw [if_neg (by omega), if_neg (by omega), if_neg (by omega)]
  have hq' : q = (P ++ [e]) ++ ([] ++ S) := by simp [hq]
  have main : ∀ (k : Nat) (A M : List Elem), k + 1 ≤ z.level → P ++ [e] = A ++ M → Tall k A →
      findLoop z.nodes (P.length + 1) (k + 1) (cur A) A.length = .ok (some e.a) := by
    intro k
    induction k with
    | zero =>
      intro A M hk hP hT
      have hlen : M.length < z.nodes.length + 1 := by
        have := R.room
        have h1 := congrArg List.length hq'
        have h2 := congrArg List.length hP
        simp at h1 h2; omega
      rcases gwalk_eq R (show 0 < z.level by omega) hq' hc _ A M hP hT hlen with ⟨A', M', h1, h2, h3, h4, h5⟩ | ⟨Q1, e, Q2, h1, h2⟩
      · have hM' : M' = [] := R.short0 (A := A ++ A') (B := S) (by rw [hq', hP, h1]; simp) h3
        subst hM'
        have : A ++ A' = P ++ [e] := by rw [hP, h1]; simp
        rw [this] at h5
        simp only [findLoop, findWalk_gwalk, h5, bind, Except.bind, Except.map]
        simp
      · simp at h1
    | succ k ih =>
      intro A M hk hP hT
      have hlen : M.length < z.nodes.length + 1 := by
        have := R.room
        have h1 := congrArg List.length hq'
        have h2 := congrArg List.length hP
        simp at h1 h2; omega
      rcases gwalk_eq R (show k + 1 < z.level by omega) hq' hc _ A M hP hT hlen with ⟨A', M', h1, h2, h3, h4, h5⟩ | ⟨Q1, e, Q2, h1, h2⟩
      · have hi := ih (A ++ A') M' (by omega) (by rw [hP, h1]; simp) (h2.mono (by omega))
        unfold findLoop
        simp only [findWalk_gwalk, h5, bind, Except.bind, Except.map]
        by_cases hl : (A ++ A').length = P.length + 1
        · rw [if_pos hl]
          have : A ++ A' = P ++ [e] := by
            have h6 : P ++ [e] = (A ++ A') ++ M' := by rw [hP, h1]; simp
            have h7 := congrArg List.length h6
            simp at h7 hl
            have : M' = [] := List.length_eq_zero_iff.mp (by omega)
            rw [h6, this]; simp
          rw [this]; simp
        · rw [if_neg hl]; exact hi
      · simp at h1
  have h := R.level
  obtain ⟨k, hk⟩ : ∃ k, z.level = k + 1 := ⟨z.level - 1, by omega⟩
  unfold findElementByRank
  rw [hk]
  exact main k [] (P ++ [e]) (by omega) rfl (tall_nil _)

/-- rank 0 is the head -/
theorem findElementByRank_zero (R : Rep z q) : z.findElementByRank 0 = .ok (some 0) := by
  have hc : ∀ A e' B, q = A ++ e' :: B → goPos 0 e'.a (A.length + 1)
      = .ok (region ([] : List Elem).length ([] : List Elem).length A.length) := by
    intro A e' B h
    simp [goPos, region]
  have h := R.level
  obtain ⟨k, hk⟩ : ∃ k, z.level = k + 1 := ⟨z.level - 1, by omega⟩
  unfold findElementByRank
  rw [hk]
  rcases gwalk_eq R (show k < z.level by omega) (P := []) (Q := []) (S := q) (by simp) hc (z.nodes.length + 1) [] [] rfl (tall_nil _) (by simp) with
    ⟨A', M', h1, h2, h3, h4, h5⟩ | ⟨Q1, e, Q2, h1, h2⟩
  · obtain ⟨rfl, rfl⟩ := List.append_eq_nil_iff.mp h1.symm
    simp only [cur_nil, List.length_nil, List.append_nil] at h5
    simp only [findLoop, findWalk_gwalk, h5, bind, Except.bind, Except.map]
    simp
  · simp at h1

/-- beyond the end there is nothing -/
theorem findElementByRank_none (R : Rep z q) {r : Nat} (hr : q.length < r) : z.findElementByRank r = .ok none := by
  have hc : ∀ A e' B, q = A ++ e' :: B → goPos r e'.a (A.length + 1)
      = .ok (region q.length ([] : List Elem).length A.length) := by
    intro A e' B h
    have := congrArg List.length h
    simp at this
    simp only [goPos, region]
    rw [if_pos (by omega), if_pos (by omega)]
  have main : ∀ (k : Nat) (A M : List Elem), k ≤ z.level → q = A ++ M → Tall (k - 1) A →
      findLoop z.nodes r k (cur A) A.length = .ok none := by
    intro k
    induction k with
    | zero => intros; rfl
    | succ k ih =>
      intro A M hk hP hT
      have hlen : M.length < z.nodes.length + 1 := by
        have := R.room
        have h2 := congrArg List.length hP
        simp at h2; omega
      rcases gwalk_eq R (show k < z.level by omega) (P := q) (Q := []) (S := []) (by simp) hc _ A M hP hT hlen with ⟨A', M', h1, h2, h3, h4, h5⟩ | ⟨Q1, e, Q2, h1, h2⟩
      · have hi := ih (A ++ A') M' (by omega) (by rw [hP, h1]; simp) (h2.mono (by omega))
        unfold findLoop
        simp only [findWalk_gwalk, h5, bind, Except.bind, Except.map]
        have : (A ++ A').length ≤ q.length := by rw [hP, h1]; simp
        rw [if_neg (by omega)]; exact hi
      · simp at h1
  exact main z.level [] q (by omega) rfl (tall_nil _)

/-- the descents of `insert` -/
theorem insertDescent_eq (R : Rep z q) (hlv : z.level < 32) {P S : List Elem} (hq : q = P ++ S) {score : F64} {value : Bytes}
    (hP : ∀ e ∈ P, (e.sc.lt score || (e.sc.eq score && bytesLt e.v value)) = true)
    (hS : ∀ e ∈ S, (e.sc.lt score || (e.sc.eq score && bytesLt e.v value)) = false) :
    ∀ (k : Nat) (A M : List Elem) (d : Descent), k ≤ z.level → P = A ++ M → Tall (k - 1) A →
      (k = z.level ∧ A = [] ∨ k < z.level ∧ d.rank k = A.length) →
      ∃ d', (∃ x, insertDescent z.nodes z.level score value k (cur A) d = .ok (x, d')) ∧
        (∀ i < k, ∃ A', Stop i P A' ∧ d'.update i = some (cur A') ∧ d'.rank i = A'.length) ∧
        (∀ i, k ≤ i → d'.update i = d.update i ∧ d'.rank i = d.rank i) := by
  intro k
  induction k with
  | zero => intro A M d _ _ _ _; exact ⟨d, ⟨_, rfl⟩, fun i h => by omega, fun i _ => ⟨rfl, rfl⟩⟩
  | succ k ih =>
    intro A M d hk hPA hT hr
    have hlen : M.length < z.nodes.length + 1 := by
      have := R.room
      have h2 := congrArg List.length hPA
      have h3 := congrArg List.length hq
      simp at h2 h3; omega
    have hr0 : (if k + 1 = z.level then 0 else d.rank (k + 1)) = A.length := by
      rcases hr with ⟨h1, h2⟩ | ⟨h1, h2⟩
      · rw [if_pos h1, h2]; rfl
      · rw [if_neg (by omega), h2]
    have hc := R.goIf hq (cond := (before · score value)) (c := fun v sc => (sc.lt score || (sc.eq score && bytesLt v value))) (fun n => rfl) hP hS
    rcases gwalk_eq R (show k < z.level by omega) (P := P) (Q := []) (S := S) (by simpa using hq) hc _ A M hPA hT hlen with
      ⟨A', M', h1, h2, h3, h4, h5⟩ | ⟨Q1, e, Q2, h1, h2⟩
    · have hrun : insertDescent z.nodes z.level score value (k + 1) (cur A) d =
          insertDescent z.nodes z.level score value k (cur (A ++ A')) ⟨upd d.update k (some (cur (A ++ A'))), upd d.rank k (A ++ A').length⟩ := by
        conv => lhs; unfold insertDescent
        rw [if_neg (show ¬ k + 1 ≥ maxLevel by unfold maxLevel; omega)]
        simp only [hr0, walk_gwalk, h5, bind, Except.bind, Except.map]
      obtain ⟨d', ⟨x, g1⟩, g2, g3⟩ := ih (A ++ A') M' ⟨upd d.update k (some (cur (A ++ A'))), upd d.rank k (A ++ A').length⟩ (by omega)
        (by rw [hPA, h1]; simp) (h2.mono (by omega)) (.inr ⟨by omega, by simp [upd]⟩)
      refine ⟨d', ⟨x, by rw [hrun]; exact g1⟩, fun i hi => ?_, fun i hi => ?_⟩
      · by_cases hik : i = k
        · subst hik
          obtain ⟨g4, g5⟩ := g3 i (by omega)
          refine ⟨A ++ A', ⟨M', by rw [hPA, h1]; simp, h3, h2⟩, by rw [g4]; simp [upd], by rw [g5]; simp [upd]⟩
        · exact g2 i (by omega)
      · obtain ⟨g4, g5⟩ := g3 i (by omega)
        rw [g4, g5]; simp [upd, show i ≠ k by omega]
    · simp at h1

theorem insertDescent_full (hlv : z.level = 32) (score : F64) (value : Bytes) (x : Nat) (d : Descent) :
    insertDescent z.nodes z.level score value z.level x d = .error .indexOutOfRange := by
  rw [hlv]
  unfold insertDescent
  rw [if_pos (by simp [maxLevel])]

theorem walk_rank (h : List ZNode) (i : Nat) (cond : ZNode → Bool) : ∀ (fuel x r r' : Nat),
    (walk h i cond fuel x r).map Prod.fst = (walk h i cond fuel x r').map Prod.fst
  | 0, _, _, _ => rfl
  | fuel + 1, x, r, r' => by
    unfold walk
    simp only [bind, Except.bind]
    cases level? h x i with
    | error e => rfl
    | ok l =>
      simp only
      cases l.forward with
      | none => rfl
      | some y =>
        simp only
        cases load h y with
        | error e => rfl
        | ok n =>
          simp only
          cases cond n with
          | false => rfl
          | true => exact walk_rank h i cond fuel y _ _

/-- the descent of `updateScore` -/
theorem searchDescent_eq (R : Rep z q) {P S : List Elem} (hq : q = P ++ S) {score : F64} {value : Bytes}
    (hP : ∀ e ∈ P, (e.sc.lt score || (e.sc.eq score && bytesLt e.v value)) = true)
    (hS : ∀ e ∈ S, (e.sc.lt score || (e.sc.eq score && bytesLt e.v value)) = false) :
    ∀ (k : Nat) (A M : List Elem) (u : Nat → Option Nat), k + 1 ≤ z.level → P = A ++ M → Tall k A →
      ∃ u', searchDescent z.nodes score value (k + 1) (cur A) u = .ok (cur P, u') ∧
        (∀ i < k + 1, ∃ A', Stop i P A' ∧ u' i = some (cur A')) := by
  have step : ∀ (k : Nat) (A M : List Elem), k + 1 ≤ z.level → P = A ++ M → Tall k A →
      ∃ A' M', M = A' ++ M' ∧ Tall k (A ++ A') ∧ Short k M' ∧
        ∃ r, walk z.nodes k (before · score value) (z.nodes.length + 1) (cur A) 0 = .ok (cur (A ++ A'), r) := by
    intro k A M hk hPA hT
    have hlen : M.length < z.nodes.length + 1 := by
      have := R.room
      have h2 := congrArg List.length hPA
      have h3 := congrArg List.length hq
      simp at h2 h3; omega
    have hc := R.goIf hq (cond := (before · score value)) (c := fun v sc => (sc.lt score || (sc.eq score && bytesLt v value))) (fun n => rfl) hP hS
    rcases gwalk_eq R (show k < z.level by omega) (P := P) (Q := []) (S := S) (by simpa using hq) hc _ A M hPA hT hlen with
      ⟨A', M', h1, h2, h3, h4, h5⟩ | ⟨Q1, e, Q2, h1, h2⟩
    · refine ⟨A', M', h1, h2, h3, ?_⟩
      have h6 := walk_rank z.nodes k (before · score value) (z.nodes.length + 1) (cur A) 0 A.length
      rw [walk_gwalk z.nodes k (before · score value) (z.nodes.length + 1) (cur A) A.length, h5] at h6
      cases hw : walk z.nodes k (before · score value) (z.nodes.length + 1) (cur A) 0 with
      | error e => rw [hw] at h6; cases h6
      | ok t =>
        rw [hw] at h6
        obtain ⟨a, b⟩ := t
        simp only [Except.map, Except.ok.injEq] at h6
        exact ⟨b, by rw [h6]⟩
    · simp at h1
  have frame : ∀ (k x : Nat) (u u' : Nat → Option Nat) (y : Nat), searchDescent z.nodes score value k x u = .ok (y, u') → ∀ i, k ≤ i → u' i = u i := by
    intro k
    induction k with
    | zero => intro x u u' y h i _; simp [searchDescent] at h; rw [h.2]
    | succ k ih =>
      intro x u u' y h i hi
      simp only [searchDescent, bind, Except.bind] at h
      cases hw : walk z.nodes k (before · score value) (z.nodes.length + 1) x 0 with
      | error e => rw [hw] at h; cases h
      | ok t =>
        rw [hw] at h
        have := ih _ _ _ _ h i (by omega)
        rw [this]; simp [upd, show i ≠ k by omega]
  intro k
  induction k with
  | zero =>
    intro A M u hk hPA hT
    obtain ⟨A', M', h1, h2, h3, r, h4⟩ := step 0 A M hk hPA hT
    have hM' : M' = [] := R.short0 (A := A ++ A') (B := S) (by rw [hq, hPA, h1]; simp) h3
    subst hM'
    have hA : A ++ A' = P := by rw [hPA, h1]; simp
    rw [hA] at h4 h2
    refine ⟨upd u 0 (some (cur P)), ?_, fun i hi => ?_⟩
    · simp only [searchDescent, h4, bind, Except.bind]
    · have : i = 0 := by omega
      subst this
      exact ⟨P, ⟨[], by simp, h3, h2⟩, by simp [upd]⟩
  | succ k ih =>
    intro A M u hk hPA hT
    obtain ⟨A', M', h1, h2, h3, r, h4⟩ := step (k + 1) A M hk hPA hT
    obtain ⟨u', g1, g2⟩ := ih (A ++ A') M' (upd u (k + 1) (some (cur (A ++ A')))) (by omega) (by rw [hPA, h1]; simp) (h2.mono (by omega))
    refine ⟨u', ?_, fun i hi => ?_⟩
    · conv => lhs; unfold searchDescent
      simp only [h4, bind, Except.bind]; exact g1
    · by_cases hik : i = k + 1
      · subst hik
        refine ⟨A ++ A', ⟨M', by rw [hPA, h1]; simp, h3, h2⟩, ?_⟩
        rw [frame _ _ _ _ _ g1 (k + 1) (by omega)]; simp [upd]
      · exact g2 i (by omega)

end ZSL
end Godis
