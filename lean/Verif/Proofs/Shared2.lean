import Verif.Proofs.Shared
/-! Which keys a request can touch, and which sets keep being shared. -/
namespace Godis
open Resp (Reply bulks)
open SetSpec (SView SVal mems size add remove leave combine opOf trouble commands Op)
open SharedSpec (World)
open ListSpec (items errType errArgs errNil)
open StrSpec (int64 lower isError Ascii setStores)
open KeySpec (KView foreign keyArgs)

variable {s s' : Store} {k j : Bytes} {ext : Ext} {it : Iter} {c : Cmd} {args N : List Bytes} {m : Reply} {W : World}

/-- `j` is not in `N` and shares its object with no key in `N` -/
def Apart (s : Store) (N : List Bytes) (j : Bytes) : Prop :=
  j ∉ N ∧ ∀ k ∈ N, ∀ r t t', s.keys.get k = some ⟨t, .ref r⟩ → s.keys.get j = some ⟨t', .ref r⟩ → False

theorem Change.apart (h : Change ext c args N s s') (ht : Typed s) (ha : Apart s N j) : Apart s' N j ∧ s'.valueAt j = s.valueAt j := by
  have hf := h.keys_frame ht ha.1
  cases h with
  | @str k v _ hk =>
    refine ⟨⟨ha.1, fun k' hk' r t t' h1 h2 => ?_⟩, ?_⟩
    · rw [hf] at h2
      simp only [SMap.get_set] at h1
      split at h1
      · cases h1
      · exact ha.2 _ hk' _ _ _ h1 h2
    · unfold Store.valueAt; rw [hf]
  | @del k _ hk =>
    refine ⟨⟨ha.1, fun k' hk' r t t' h1 h2 => ?_⟩, ?_⟩
    · rw [hf] at h2
      simp only [SMap.get_del _ _ _ ht.wf] at h1
      split at h1
      · cases h1
      · exact ha.2 _ hk' _ _ _ h1 h2
    · unfold Store.valueAt; rw [hf]
  | @new k o rng hk _ _ _ =>
    refine ⟨⟨ha.1, fun k' hk' r t t' h1 h2 => ?_⟩, ?_⟩
    · rw [hf] at h2
      simp only [SMap.get_set] at h1
      split at h1
      · cases h1
        exact absurd (ht.ref_lt h2) (by simp)
      · exact ha.2 _ hk' _ _ _ h1 h2
    · unfold Store.valueAt; rw [hf]
      cases hg : s.keys.get j with
      | none => rfl
      | some info =>
        obtain ⟨t, v⟩ := info
        cases v with
        | str v => rfl
        | ref r =>
          simp only
          rw [List.getElem?_append_left (ht.ref_lt hg)]
  | @write k' r' o o' rng hk' hg' ho hst _ =>
    refine ⟨⟨ha.1, fun k' hk' r t t' h1 h2 => ha.2 _ hk' _ _ _ h1 h2⟩, ?_⟩
    unfold Store.valueAt
    cases hg : s.keys.get j with
    | none => rfl
    | some info =>
      obtain ⟨t, v⟩ := info
      cases v with
      | str v => rfl
      | ref r =>
        simp only
        have : r' ≠ r := by
          rintro rfl
          exact ha.2 _ hk' _ _ _ hg' hg
        rw [List.getElem?_set_ne this]
  | @«alias» dst src r _ _ hd hs hg =>
    refine ⟨⟨ha.1, fun k' hk' r' t t' h1 h2 => ?_⟩, ?_⟩
    · rw [hf] at h2
      simp only [SMap.get_set] at h1
      split at h1
      · cases h1
        exact ha.2 _ hs _ _ _ hg h2
      · exact ha.2 _ hk' _ _ _ h1 h2
    · unfold Store.valueAt; rw [hf]

theorem Eff.apart (h : Eff ext c args N s s') (ht : Typed s) (ha : Apart s N j) : s'.valueAt j = s.valueAt j := by
  induction h with
  | refl => rfl
  | step h _ ih =>
    obtain ⟨h1, h2⟩ := h.apart ht ha
    rw [ih (h.typed ht) h1, h2]

/-- keys that share an object name the same set -/
theorem Linked.apart (h : Linked s W) (hs : ShareSets s) (hj : j ∉ N) (hn : ∀ k ∈ N, ¬ W.Same k j) : Apart s N j := by
  refine ⟨hj, fun k hk r t t' h1 h2 => ?_⟩
  rcases hs _ _ _ _ _ h1 h2 with rfl | rfl
  · exact hj hk
  · obtain rfl := h.typed.same_type h1 h2
    obtain ⟨i, hi⟩ := h.named h1
    exact hn k hk ⟨i, hi, by rw [← (h.link _ _ _ _ h1 h2).mp rfl]; exact hi⟩

theorem Linked.frame (h : Linked s W) (hs : ShareSets s) {name : Bytes} (hr : Ascii name) (ha : Answers ext it s (name :: args) m s')
    (hj : j ∉ keyArgs (lower name) args) (hn : ∀ k ∈ keyArgs (lower name) args, ¬ W.Same k j) : s'.valueAt j = s.valueAt j := by
  obtain ⟨name', args', he, ⟨_, rfl, _⟩ | ⟨c, o, hl, hf, _⟩⟩ := ha.cases
  · rfl
  · cases he
    rw [lower_eq hr] at hl
    have he := fn_eff c h.typed hf
    rw [← lookup_name hl] at he
    exact he.apart h.typed (h.apart hs hj hn)

/-- no other key shares the object of `j` -/
def Sole (s : Store) (j : Bytes) : Prop :=
  ∀ k r t t', k ≠ j → s.keys.get k = some ⟨t, .ref r⟩ → s.keys.get j = some ⟨t', .ref r⟩ → False

theorem Sole.apart (h : Sole s j) (hj : j ∉ N) : Apart s N j :=
  ⟨hj, fun k hk r t t' h1 h2 => h k r t t' (by rintro rfl; exact hj hk) h1 h2⟩

theorem Change.sole (h : Change ext c args N s s') (ht : Typed s) (hj : j ∉ N) (ha : Sole s j) : Sole s' j := by
  have hf := h.keys_frame ht hj
  intro k' r t t' hk h1 h2
  rw [hf] at h2
  cases h with
  | str =>
    simp only [SMap.get_set] at h1
    split at h1
    · cases h1
    · exact ha _ _ _ _ hk h1 h2
  | del =>
    simp only [SMap.get_del _ _ _ ht.wf] at h1
    split at h1
    · cases h1
    · exact ha _ _ _ _ hk h1 h2
  | new =>
    simp only [SMap.get_set] at h1
    split at h1
    · cases h1
      exact absurd (ht.ref_lt h2) (by simp)
    · exact ha _ _ _ _ hk h1 h2
  | write => exact ha _ _ _ _ hk h1 h2
  | @«alias» dst src r _ _ hd hs hg =>
    simp only [SMap.get_set] at h1
    split at h1
    · cases h1
      exact ha _ _ _ _ (by rintro rfl; exact hj hs) hg h2
    · exact ha _ _ _ _ hk h1 h2

theorem Eff.sole (h : Eff ext c args N s s') (ht : Typed s) (hj : j ∉ N) (ha : Sole s j) : Sole s' j ∧ s'.valueAt j = s.valueAt j := by
  induction h with
  | refl => exact ⟨ha, rfl⟩
  | step h _ ih =>
    obtain ⟨i1, i2⟩ := ih (h.typed ht) (h.sole ht hj ha)
    exact ⟨i1, i2.trans (h.apart ht (ha.apart hj)).2⟩

theorem Trace.sole {tr} (h : Trace ext s tr s') (ht : Typed s) (ha : Sole s j)
    (hp : ∀ p ∈ tr, ∀ name args, p.1 = name :: args → Ascii name ∧ j ∉ keyArgs (lower name) args) :
    Sole s' j ∧ s'.valueAt j = s.valueAt j := by
  induction h with
  | nil => exact ⟨ha, rfl⟩
  | @snoc tr s1 it req m s2 h0 hans ih =>
    obtain ⟨i1, i2⟩ := ih (fun p hp' => hp p (by simp [hp']))
    have ht1 := h0.typed ht
    have hreq := hp (req, m) (by simp)
    rw [← i2]
    obtain ⟨name, args, rfl, ⟨_, rfl, _⟩ | ⟨c, o, hl, hf, _⟩⟩ := hans.cases
    · exact ⟨i1, rfl⟩
    · obtain ⟨h1, h2⟩ := hreq name args rfl
      rw [lower_eq h1] at hl
      have he := fn_eff c ht1 hf
      rw [← lookup_name hl] at he
      exact he.sole ht1 h2 i1

/-- a key whose set has one name only is not shared -/
theorem Linked.sole (h : Linked s W) (hs : ShareSets s) (hn : ∀ k, W.Same k j → k = j) : Sole s j := by
  intro k r t t' hk h1 h2
  rcases hs _ _ _ _ _ h1 h2 with rfl | rfl
  · exact hk rfl
  · obtain rfl := h.typed.same_type h1 h2
    obtain ⟨i, hi⟩ := h.named h1
    exact hk (hn k ⟨i, hi, by rw [← (h.link _ _ _ _ h1 h2).mp rfl]; exact hi⟩)

/-! ## names -/

/-- The request makes `k` name something else: it writes a string to `k`, deletes `k`, or stores a set operation there. -/
def Rebinds (name : Bytes) (args : List Bytes) (k : Bytes) : Prop :=
  (name ∈ ListSpec.stringWriters ++ [b! "del"] ++ setStores ∧ args.head? = some k) ∨ (name = b! "mset" ∧ k ∈ ListSpec.msetKeys args)

theorem create_names (hk : W.names k ≠ .absent) {k' x} (h : W.names k' = .absent) : (W.create k' x).names k = W.names k := by
  show (if k = k' then _ else _) = _
  rw [if_neg]
  rintro rfl; exact hk h

theorem change_names' (hk : W.names k ≠ .absent) (k' : Bytes) (v : SView) : (W.change k' v).names k = W.names k := by
  unfold World.change
  split
  · rfl
  · next h => exact create_names hk h
  · rfl

/-- a key that names a set keeps naming it until it is rebound -/
theorem step_names {name : Bytes} {i : Nat} (hk : W.names k = .here i) (h : ¬ Rebinds name args k) :
    (SharedSpec.step W name args m).names k = .here i := by
  have hna : W.names k ≠ .absent := by rw [hk]; nofun
  have hch : ∀ k' v, (W.change k' v).names k = .here i := fun k' v => (change_names' hna k' v).trans hk
  unfold SharedSpec.step
  split
  · split
    · split
      · exact hk
      · exact hch _ _
    · exact hk
  · split
    · split
      · split
        · exact hk
        · exact hch _ _
      · exact hk
    · split
      · split
        · exact hch _ _
        · exact hk
      · split
        · split
          · split
            · show ((W.change _ _).change _ _).names k = .here i
              rw [change_names' (by rw [hch]; nofun), hch]
            · exact hk
          · exact hk
        · split
          · next hst =>
            have hne : ∀ {d rest}, args = d :: rest → k ≠ d := by
              rintro d rest rfl rfl
              exact h (.inl ⟨by simp [hst], rfl⟩)
            split
            · split
              · exact hk
              · show (if k = _ then _ else _) = _
                rw [if_neg (hne rfl)]; exact hk
            · split
              · exact hk
              · show (if k = _ then _ else _) = _
                rw [if_neg (hne rfl)]; exact hk
            · exact hk
          · show foreign k (W.names k) name args m = .here i
            rw [hk]
            unfold KeySpec.foreign
            unfold Rebinds at h
            simp only [List.mem_append, List.mem_cons, List.not_mem_nil, or_false, not_or, not_and] at h
            obtain ⟨h1, h2⟩ := h
            split
            · rfl
            · split
              · next hn => rw [if_neg (h2 hn)]
              · split
                · rfl
                · next hh =>
                  simp only [ne_eq, not_not] at hh
                  split
                  · next hn => exact absurd hh (h1 (.inl (.inl hn)))
                  · split
                    · next hn => exact absurd hh (h1 (.inl (.inr hn)))
                    · split
                      · rfl
                      · next hn => rfl

theorem fold_names {tr : List (List Bytes × Reply)} {i : Nat} (hk : W.names k = .here i)
    (h : ∀ p ∈ tr, ¬ Rebinds (lower (p.1.headD [])) p.1.tail k) :
    (tr.foldl (fun W p => SharedSpec.step W (lower (p.1.headD [])) p.1.tail p.2) W).names k = .here i := by
  induction tr using List.reverseRecOn with
  | nil => exact hk
  | append_singleton tr p ih =>
    rw [List.foldl_append]
    exact step_names (ih (fun q hq => h q (by simp [hq]))) (h p (by simp))

/-! ## keys are connected before they name the same set -/

/-- the history contains SDIFFSTORE, SINTERSTORE or SUNIONSTORE `a b` -/
def StoredFrom (tr : List (List Bytes × Reply)) (a b : Bytes) : Prop :=
  ∃ p ∈ tr, ∃ name, p.1 = [name, a, b] ∧ lower name ∈ setStores

/-- `a` and `b` are the same key or are connected by S*STORE requests with one source, in either direction -/
inductive Connected (tr : List (List Bytes × Reply)) : Bytes → Bytes → Prop
  | refl (a) : Connected tr a a
  | fwd {a b c} : Connected tr a b → StoredFrom tr b c → Connected tr a c
  | bwd {a b c} : Connected tr a b → StoredFrom tr c b → Connected tr a c

theorem StoredFrom.mono {tr tr' : List (List Bytes × Reply)} (hs : ∀ p ∈ tr, p ∈ tr') {a b : Bytes} (h : StoredFrom tr a b) : StoredFrom tr' a b := by
  obtain ⟨p, hp, name, h1, h2⟩ := h
  exact ⟨p, hs p hp, name, h1, h2⟩

theorem Connected.mono {tr tr' : List (List Bytes × Reply)} (hs : ∀ p ∈ tr, p ∈ tr') {a b : Bytes} (h : Connected tr a b) : Connected tr' a b := by
  induction h with
  | refl => exact .refl _
  | fwd _ h ih => exact .fwd ih (h.mono hs)
  | bwd _ h ih => exact .bwd ih (h.mono hs)

theorem Connected.trans {tr : List (List Bytes × Reply)} {a b c : Bytes} (h : Connected tr a b) (h' : Connected tr b c) : Connected tr a c := by
  induction h' with
  | refl => exact h
  | fwd _ h ih => exact .fwd ih h
  | bwd _ h ih => exact .bwd ih h

theorem Connected.symm {tr : List (List Bytes × Reply)} {a b : Bytes} (h : Connected tr a b) : Connected tr b a := by
  induction h with
  | refl => exact .refl _
  | fwd _ h ih => exact (Connected.bwd (.refl _) h).trans ih
  | bwd _ h ih => exact (Connected.fwd (.refl _) h).trans ih

/-- all keys that name a set were created by it alone, or got the name from a connected key -/
def Kin (tr : List (List Bytes × Reply)) (W : World) : Prop :=
  (∀ k i, W.names k = .here i → i < W.next) ∧ ∀ k j, W.Same k j → Connected tr k j

theorem Kin.create {tr} (h : Kin tr W) (k' : Bytes) (x : SVal) : Kin tr (W.create k' x) := by
  have hnext : ∀ k', W.names k' ≠ .here W.next := fun k' h' => absurd (h.1 _ _ h') (by simp)
  have hn : ∀ k, (W.create k' x).names k = if k = k' then .here W.next else W.names k := fun _ => rfl
  refine ⟨fun k i hk => ?_, fun k j => ?_⟩
  · rw [hn] at hk
    show i < W.next + 1
    split at hk
    · cases hk; omega
    · have := h.1 _ _ hk; omega
  · rintro ⟨i, h1, h2⟩
    rw [hn] at h1 h2
    split at h1 <;> split at h2
    · next e1 e2 => rw [e1, e2]; exact .refl _
    · cases h1; exact absurd h2 (hnext _)
    · cases h2; exact absurd h1 (hnext _)
    · exact h.2 _ _ ⟨i, h1, h2⟩

theorem Kin.change {tr} (h : Kin tr W) (k' : Bytes) (v : SView) : Kin tr (W.change k' v) := by
  unfold World.change
  split
  · exact h
  · exact h.create _ _
  · exact h

theorem Kin.step {tr} {name : Bytes} (h : Kin tr W) (p : List Bytes × Reply) (hp : p.1 = name :: args) :
    Kin (tr ++ [p]) (SharedSpec.step W (lower name) args m) := by
  have h' : Kin (tr ++ [p]) W := ⟨h.1, fun k j hs => (h.2 k j hs).mono (by simp +contextual)⟩
  unfold SharedSpec.step
  split
  · split
    · split
      · exact h'
      · exact h'.change _ _
    · exact h'
  · split
    · split
      · split
        · exact h'
        · exact h'.change _ _
      · exact h'
    · split
      · split
        · exact h'.change _ _
        · exact h'
      · split
        · split
          · split
            · exact (h'.change _ _).change _ _
            · exact h'
          · exact h'
        · split
          · next hst =>
            split
            · next dst src =>
              split
              · exact h'
              · have hst' : StoredFrom (tr ++ [p]) dst src := ⟨p, by simp, name, hp, hst⟩
                have hn : ∀ k, (W.name dst (W.names src)).names k = W.names (if k = dst then src else k) := by
                  intro k
                  show (if k = dst then W.names src else W.names k) = _
                  split <;> rfl
                have hc : ∀ k, Connected (tr ++ [p]) k (if k = dst then src else k) := by
                  intro k
                  split
                  · next e => subst e; exact .fwd (.refl _) hst'
                  · exact .refl _
                refine ⟨fun k i hk => h'.1 _ _ (by rw [← hn]; exact hk), ?_⟩
                rintro k j ⟨i, h1, h2⟩
                rw [hn] at h1 h2
                exact ((hc k).trans (h'.2 _ _ ⟨i, h1, h2⟩)).trans (hc j).symm
            · split
              · exact h'
              · exact h'.create _ _
            · exact h'
          · refine ⟨fun k i hk => h'.1 _ _ (foreign_here hk), ?_⟩
            rintro k j ⟨i, h1, h2⟩
            exact h'.2 _ _ ⟨i, foreign_here h1, foreign_here h2⟩

theorem kin_after (tr : List (List Bytes × Reply)) : Kin tr (SharedSpec.after tr) := by
  induction tr using List.reverseRecOn with
  | nil => exact ⟨fun _ _ h => (by cases h), fun _ _ h => by obtain ⟨i, h, _⟩ := h; cases h⟩
  | append_singleton tr p ih =>
    have : SharedSpec.after (tr ++ [p]) = SharedSpec.step (SharedSpec.after tr) (lower (p.1.headD [])) p.1.tail p.2 := by
      simp [SharedSpec.after, List.foldl_append]
    rw [this]
    obtain ⟨_ | ⟨name, args⟩, m⟩ := p
    · have h' : SharedSpec.step (SharedSpec.after tr) (lower []) [] m =
          { SharedSpec.after tr with names := fun k => foreign k ((SharedSpec.after tr).names k) [] [] m } := rfl
      show Kin _ (SharedSpec.step (SharedSpec.after tr) (lower []) [] m)
      rw [h']
      refine ⟨fun k i hk => ih.1 _ _ (foreign_here hk), ?_⟩
      rintro k j ⟨i, h1, h2⟩
      exact (ih.2 _ _ ⟨i, foreign_here h1, foreign_here h2⟩).mono (by simp +contextual)
    · exact ih.step _ rfl

end Godis
