import Verif.Proofs.Iso3
/-!
# Random heights: a command depends only on the draws it takes
-/
namespace Godis
open Same (G)

/-- what is left after `n` draws -/
def Rng.skip (n : Nat) (g : Rng) : Rng := fun i => g (i + n)

/-- `x` uses only the draws it consumes. -/
def Loc {α β : Type} (x : Rng → Go (α × β × Rng)) : Prop :=
  ∀ g a b g', x g = .ok (a, b, g') → ∃ n, g' = g.skip n ∧ ∀ f : Rng, (∀ i < n, f i = g i) → x f = .ok (a, b, f.skip n)

namespace Loc
variable {α β γ δ : Type}

theorem pure (a : α) (b : β) : Loc (fun g => .ok (a, b, g)) := by
  intro g a' b' g' h; cases h; exact ⟨0, rfl, fun _ _ => rfl⟩

theorem err (p) : Loc (fun _ => (.error p : Go (α × β × Rng))) := by
  intro g a' b' g' h; cases h

theorem bind (y : Go γ) {f : γ → Rng → Go (α × β × Rng)} (hf : ∀ c, Loc (f c)) : Loc (fun g => y >>= fun c => f c g) := by
  cases y with
  | error p => exact err p
  | ok c => exact hf c

theorem draw (y : Nat → Go γ) (f : γ → α) (f' : γ → β) : Loc (fun g => y (g 0) >>= fun c => .ok (f c, f' c, fun i => g (i + 1))) := by
  intro g a b g' h
  obtain ⟨c, h1, h2⟩ := bind_ok h
  cases h2
  refine ⟨1, rfl, fun f'' hf => ?_⟩
  simp only
  rw [hf 0 (by omega), h1]; rfl

theorem seq {x : Rng → Go (γ × δ × Rng)} (hx : Loc x) {f : γ → δ → Rng → Go (α × β × Rng)} (hf : ∀ a b, Loc (f a b)) :
    Loc (fun g => x g >>= fun p => f p.1 p.2.1 p.2.2) := by
  intro g a b g' h
  obtain ⟨⟨c, d, g1⟩, h1, h2⟩ := bind_ok h
  obtain ⟨n, rfl, hn⟩ := hx _ _ _ _ h1
  obtain ⟨m, rfl, hm⟩ := hf _ _ _ _ _ _ h2
  refine ⟨n + m, ?_, fun f' hf' => ?_⟩
  · funext i; show g (i + m + n) = g (i + (n + m)); congr 1; omega
  · simp only
    rw [hn f' (fun i hi => hf' i (by omega))]
    show f c d (f'.skip n) = _
    rw [hm (f'.skip n) (fun i hi => hf' (i + n) (by omega))]
    have : Rng.skip m (Rng.skip n f') = f'.skip (n + m) := by
      funext i; show f' (i + m + n) = f' (i + (n + m)); congr 1; omega
    rw [this]

end Loc

theorem updateScore_loc (z : ZSL) (a b v) : Loc (z.updateScore a b v) := by
  unfold ZSL.updateScore
  refine Loc.bind _ (fun p => ?_)
  refine Loc.bind _ (fun l => ?_)
  cases l.forward with
  | none => exact .pure _ _
  | some x =>
    simp only
    refine Loc.bind _ (fun n => ?_)
    split
    · exact .pure _ _
    · cases n.backward
      all_goals
        simp only
        repeat refine Loc.bind _ (fun _ => ?_)
        next l0 =>
          cases l0.forward
          all_goals
            simp only
            repeat refine Loc.bind _ (fun _ => ?_)
            split
            · exact Loc.bind _ (fun h => .pure _ _)
            · refine Loc.bind _ (fun z => ?_)
              exact Loc.draw (fun d => ZSL.insert z b v d) (fun c => c.1) (fun c => some c.2)

theorem zAdd_loc (ext) (z : ZObj) (sc v flag) : Loc (z.zAdd ext sc v flag) := by
  unfold ZObj.zAdd
  cases z.m.get v with
  | none =>
    simp only
    split
    · exact .pure _ _
    · exact Loc.draw (fun d => z.zsl.insert sc v d) (fun c => (⟨z.m.set v c.2, c.1⟩ : ZObj)) (fun c => some c.2)
  | some de =>
    simp only
    split
    · exact .pure _ _
    · refine Loc.bind _ (fun n => ?_)
      generalize (if flag.incr = true then ext.fadd sc n.score else sc) = sc'
      split
      · refine Loc.seq (updateScore_loc z.zsl _ _ _) (f := fun z' node g => match node with
          | none => .ok ((⟨z.m, z'⟩ : ZObj), none, g)
          | some x => .ok ((⟨z.m.set v x, z'⟩ : ZObj), some x, g)) (fun z' node => ?_)
        cases node <;> exact .pure _ _
      · exact .pure _ _

theorem zAddAll_loc (ext flag) : ∀ (ms : List (F64 × Bytes)) (z : ZObj), Loc (z.zAddAll ext flag ms)
  | [], z => .pure _ _
  | (sc, v) :: ms, z => by
    show Loc (fun g => ZObj.zAdd ext z sc v flag g >>= fun p => ZObj.zAddAll ext flag p.1 ms p.2.2 >>= fun q =>
      .ok (q.1, (if p.2.1.isSome then q.2.1 + 1 else q.2.1), q.2.2))
    refine Loc.seq (zAdd_loc ext z sc v flag) (f := fun z node g => ZObj.zAddAll ext flag z ms g >>= fun p =>
      .ok (p.1, (if node.isSome then p.2.1 + 1 else p.2.1), p.2.2)) (fun z' node => ?_)
    exact Loc.seq (zAddAll_loc ext flag ms z') (f := fun z c g => .ok (z, (if node.isSome then c + 1 else c), g)) (fun _ _ => .pure _ _)

namespace IsoB
variable {K : Bytes → Prop} {B : Nat → Nat → Prop} {s t : Store}

/-- `x` on the first store succeeds: so does `y` on every second store that agrees with it and has the same next draws. -/
def Follows (K : Bytes → Prop) {α : Type} (x : Store → Go (Store × α)) (s : Store) : Prop :=
  ∀ s' a, x s = .ok (s', a) → ∃ n,
    ∀ t, (∃ B, IsoB K B s t) → (∀ i < n, t.rng i = s.rng i) →
      ∃ t', x t = .ok (t', a) ∧ (∃ B, IsoB K B s' t') ∧ t'.rng = t.rng.skip n

theorem Follows.of_G {α : Type} {x : Store → Go (Store × α)}
    (h : ∀ t B, IsoB K B s t → G (RI K s.rng t.rng) (x s) (x t)) : Follows K x s := by
  intro s' a hx
  refine ⟨0, ?_⟩
  rintro t ⟨B, hB⟩ _
  have := h t B hB
  rw [hx] at this
  generalize hy : x t = y at this
  cases this with
  | @ok _ b hr =>
    obtain ⟨t', a'⟩ := b
    obtain ⟨⟨h1, h2, h3⟩, h4⟩ := hr
    cases h4
    exact ⟨t', rfl, h1, h3⟩

theorem Follows.map {α β : Type} {x : Store → Go (Store × α)} (h : Follows K x s) (f : Store → α → Go (Store × β))
    (hf : ∀ a, ∃ b, ∀ s : Store, f s a = .ok (s, b)) : Follows K (fun s => x s >>= fun p => f p.1 p.2) s := by
  intro s' b hx
  obtain ⟨⟨s1, a⟩, h1, h2⟩ := bind_ok hx
  obtain ⟨b', hb⟩ := hf a
  simp only [hb] at h2
  cases h2
  obtain ⟨n, hh⟩ := h _ _ h1
  refine ⟨n, fun t ht hg => ?_⟩
  obtain ⟨t', e1, e2, e3⟩ := hh t ht hg
  refine ⟨t', ?_, e2, e3⟩
  simp only [e1]
  exact hb t'

/-- the common shape of ZADD and ZINCR -/
def zUpd {α β : Type} (F : ZObj → Rng → Go (ZObj × β × Rng)) (out : ZObj → β → Go α) (no : Err → α) (k : Bytes) (s : Store) : Go (Store × α) := do
  match ← s.loadZSet k false with
  | .error e =>
    if e = .nil then
      let p ← F ZObj.empty s.rng
      let a ← out p.1 p.2.1
      .ok ({ s.putNew k .sortedSet (.zset p.1) with rng := p.2.2 }, a)
    else .ok (s, no e)
  | .ok x =>
    let p ← F x.2 s.rng
    let a ← out p.1 p.2.1
    .ok ({ s.write x.1 (.zset p.1) with rng := p.2.2 }, a)

theorem zUpd_follows {α β : Type} {F : ZObj → Rng → Go (ZObj × β × Rng)} (hF : ∀ z, Loc (F z)) (out : ZObj → β → Go α) (no : Err → α)
    {k} (hk : K k) : Follows K (zUpd F out no k) s := by
  intro s' a hx
  unfold zUpd at hx
  obtain ⟨l, hl, hx⟩ := bind_ok hx
  have hlt : ∀ {t B}, IsoB K B s t → ∃ l', t.loadZSet k false = .ok l' ∧ LR B l l' := by
    intro t B hB
    have := hB.loadZSet hk false
    rw [hl] at this
    generalize hy : t.loadZSet k false = y at this
    cases this with
    | ok hr => exact ⟨_, rfl, hr⟩
  rcases l with e | ⟨r, zz⟩
  · simp only at hx
    by_cases hen : e = .nil
    · rw [if_pos hen] at hx
      obtain ⟨⟨z, c, g⟩, hz, hx⟩ := bind_ok hx
      obtain ⟨a', ha, hx⟩ := bind_ok hx
      cases hx
      obtain ⟨n, rfl, hn⟩ := hF _ _ _ _ _ hz
      refine ⟨n, ?_⟩
      rintro t ⟨B, hB⟩ hg
      obtain ⟨l', hl', hr⟩ := hlt hB
      cases hr
      refine ⟨_, ?_, ⟨_, (hB.putNew hk .sortedSet (.zset z)).rng _ (t.rng.skip n)⟩, rfl⟩
      unfold zUpd
      simp only [hl', bind, Except.bind, if_pos hen, hn t.rng hg]
      simp only at ha
      rw [ha]
    · rw [if_neg hen] at hx
      cases hx
      refine ⟨0, ?_⟩
      rintro t ⟨B, hB⟩ hg
      obtain ⟨l', hl', hr⟩ := hlt hB
      cases hr
      refine ⟨t, ?_, ⟨B, hB⟩, rfl⟩
      unfold zUpd
      simp only [hl', bind, Except.bind, if_neg hen]
  · simp only at hx
    obtain ⟨⟨z, c, g⟩, hz, hx⟩ := bind_ok hx
    obtain ⟨a', ha, hx⟩ := bind_ok hx
    cases hx
    obtain ⟨n, rfl, hn⟩ := hF _ _ _ _ _ hz
    refine ⟨n, ?_⟩
    rintro t ⟨B, hB⟩ hg
    obtain ⟨l', hl', hr⟩ := hlt hB
    cases hr with
    | ok hb =>
      refine ⟨_, ?_, ⟨_, (hB.write hb (.zset z)).rng _ (t.rng.skip n)⟩, rfl⟩
      unfold zUpd
      simp only [hl', bind, Except.bind, hn t.rng hg]
      simp only at ha
      rw [ha]

theorem zAdd_eq (ext : Ext) (k : Bytes) (ms flag) : (fun s : Store => s.zAdd ext k ms flag) =
    zUpd (fun z g => z.zAddAll ext flag ms g) (fun _ c => .ok (c, none)) (fun e => (0, some e)) k := by
  funext s
  unfold Store.zAdd zUpd
  congr 1
  funext l
  rcases l with e | ⟨r, z⟩
  · cases e <;> rfl
  · rfl

theorem zIncr_eq (ext : Ext) (k : Bytes) (sc v) : (fun s : Store => s.zIncr ext k sc v) =
    zUpd (fun z g => z.zAdd ext sc v { incr := true } g) (fun z node => match node with
      | none => .ok (0, some .nil)
      | some x => do let n ← ZSL.load z.zsl.nodes x; .ok (n.score, none)) (fun e => (0, some e)) k := by
  funext s
  unfold Store.zIncr zUpd
  congr 1
  funext l
  rcases l with e | ⟨r, z⟩
  · cases e <;> first | rfl | skip
    simp only [if_true]
    congr 1
    funext p
    obtain ⟨z, node, g⟩ := p
    cases node
    · rfl
    · simp only [bind, Except.bind]
      cases ZSL.load z.zsl.nodes _ <;> rfl
  · simp only
    congr 1
    funext p
    obtain ⟨z, node, g⟩ := p
    cases node
    · rfl
    · simp only [bind, Except.bind]
      cases ZSL.load z.zsl.nodes _ <;> rfl

theorem fn_follows (ext it) (c : Cmd) (hc : c ≠ .keys) (args : List Bytes)
    (hK : ∀ k ∈ keysOf c args, K k) : Follows K (fun s => c.fn ext it s args) s := by
  by_cases hd : draws c
  · rcases hd with rfl | rfl
    · simp only [Cmd.fn, cmdZAdd]
      split
      · next k a b rest =>
        have hk : K k := hK k (show k ∈ [k] from List.mem_singleton.mpr rfl)
        split
        · exact fun s' a h => by cases h; exact ⟨0, fun t ht _ => ⟨t, rfl, ht, rfl⟩⟩
        · next ms flag _ =>
          refine Follows.map (x := fun s => s.zAdd ext k ms flag) ?_ (fun s r => intReply s r) ?_
          · rw [zAdd_eq]; exact zUpd_follows (fun z => zAddAll_loc ext flag ms z) _ _ hk
          · rintro ⟨a, _ | e⟩
            · exact ⟨_, fun s => rfl⟩
            · exact ⟨_, fun s => rfl⟩
      · exact fun s' a h => by cases h; exact ⟨0, fun t ht _ => ⟨t, rfl, ht, rfl⟩⟩
    · simp only [Cmd.fn, cmdZIncr]
      split
      · next k a b rest =>
        have hk : K k := hK k (show k ∈ [k] from List.mem_singleton.mpr rfl)
        split
        · exact fun s' a h => by cases h; exact ⟨0, fun t ht _ => ⟨t, rfl, ht, rfl⟩⟩
        · next d _ =>
          refine Follows.map (x := fun s => s.zIncr ext k d b) ?_ (fun s r => match (s, r) with
            | (s, _, some .nil) => retOk s (newResponseWithInteger 0)
            | (s, _, some e) => retErr s e
            | (s, f, none) => retOk s (newResponseWithBulkString (ext.formatFloat f))) ?_
          · rw [zIncr_eq]; exact zUpd_follows (fun z => zAdd_loc ext z d b _) _ _ hk
          · rintro ⟨a, _ | e⟩
            · exact ⟨_, fun s => rfl⟩
            · cases e <;> exact ⟨_, fun s => rfl⟩
      · exact fun s' a h => by cases h; exact ⟨0, fun t ht _ => ⟨t, rfl, ht, rfl⟩⟩
  · exact Follows.of_G (fun t B h => h.fn_iso ext it c hc hd args hK)

end IsoB
end Godis
