import Verif.Props.Snapshots
import Verif.Props.Batch
import Verif.Spec.Together
/-!
# Keys written together are read together: C82

For every schedule and any number of clients, about what they see at their sockets (Spec/Coord.lean, Spec/Together.lean).
-/
namespace Godis
open Resp (Reply bulks)
open StrSpec (lower Ascii isError msetView)
open KeySpec (keyArgs readOnly evens)
open ListSpec (Plain)
open CoordSpec (Together textIn HearsRow)

/-! ## the texts of an MSET -/

/-- keys and texts in turn -/
def weave (ks vs : List Bytes) : List Bytes := (ks.zip vs).flatMap fun p => [p.1, p.2]

/-- every second element, from the second on -/
def odds : List Bytes → List Bytes
  | _ :: v :: rest => v :: odds rest
  | _ => []

theorem weave_odds : ∀ {ks vs : List Bytes}, vs.length = ks.length → odds (weave ks vs) = vs
  | [], [], _ => rfl
  | _ :: _, _ :: _, h => by
    simp only [List.length_cons, Nat.add_right_cancel_iff] at h
    show _ :: odds (weave _ _) = _
    rw [weave_odds h]

theorem weave_evens : ∀ {ks vs : List Bytes}, vs.length = ks.length → evens (weave ks vs) = ks
  | [], [], _ => rfl
  | _ :: _, _ :: _, h => by
    simp only [List.length_cons, Nat.add_right_cancel_iff] at h
    show _ :: evens (weave _ _) = _
    rw [weave_evens h]

/-- the texts that the request puts into the keys `ks` -/
def rowOf (ks : List Bytes) : List Bytes → Option (List Bytes)
  | name :: args =>
    if lower name = b! "mset" ∧ args = weave ks (odds args) ∧ (odds args).length = ks.length then some (odds args) else none
  | [] => none

theorem rowOf_iff {ks req vs : List Bytes} : rowOf ks req = some vs ↔ Together ks req vs := by
  match req with
  | [] => exact ⟨nofun, by rintro ⟨_, h, _⟩; cases h⟩
  | name :: args =>
    show (if lower name = b! "mset" ∧ args = weave ks (odds args) ∧ (odds args).length = ks.length then some (odds args) else none) = some vs ↔ _
    constructor
    · intro h
      split at h
      · next hc => cases h; exact ⟨name, by rw [show (ks.zip (odds args)).flatMap (fun p => [p.1, p.2]) = weave ks (odds args) from rfl, ← hc.2.1], hc.1, hc.2.2⟩
      · cases h
    · rintro ⟨n, h, hn, hl⟩
      cases h
      have e : odds (weave ks vs) = vs := weave_odds hl
      change (if lower name = b! "mset" ∧ weave ks vs = weave ks (odds (weave ks vs)) ∧ (odds (weave ks vs)).length = ks.length then some (odds (weave ks vs)) else none) = some vs
      rw [e, if_pos ⟨hn, rfl, hl⟩]

theorem msetView_weave {k : Bytes} : ∀ {ks vs : List Bytes} (w : StrSpec.View), ks.Nodup → vs.length = ks.length →
    msetView k (weave ks vs) w = match (ks.zip vs).lookup k with | some v => .str v | none => w
  | [], [], _, _, _ => rfl
  | a :: ks, v :: vs, w, hn, h => by
    simp only [List.length_cons, Nat.add_right_cancel_iff] at h
    have hn' := (List.nodup_cons.mp hn)
    show msetView k (weave ks vs) (if a = k then .str v else w) = _
    rw [msetView_weave _ hn'.2 h, List.zip_cons_cons, List.lookup_cons]
    by_cases hk : k = a
    · subst hk
      have : (ks.zip vs).lookup k = none := by
        rw [List.lookup_eq_none_iff]
        rintro ⟨a, b⟩ hp
        have := List.of_mem_zip hp
        simp only [ne_eq, bne_iff_ne]
        rintro rfl
        exact hn'.1 this.1
      simp [this]
    · have : (k == a) = false := by simpa using hk
      rw [this, if_neg (Ne.symm hk)]

/-- the texts that were put last -/
def lastRow (ks : List Bytes) (tr : List (List Bytes × Reply)) : Option (List Bytes) :=
  tr.foldl (fun r p => (rowOf ks p.1).or r) none

theorem lastRow_snoc (ks : List Bytes) (tr) (p : List Bytes × Reply) : lastRow ks (tr ++ [p]) = (rowOf ks p.1).or (lastRow ks tr) := by
  simp [lastRow, List.foldl_append]

/-- the clients keep to the agreement -/
def Agreed (ks : List Bytes) (req : List Bytes) : Prop :=
  (∃ k ∈ ks, k ∈ keyArgs (lower (req.headD [])) req.tail) → (∃ vs, Together ks req vs) ∨ lower (req.headD []) ∈ readOnly

theorem row_trace {ext rng tr s ks} (h : Trace ext (Store.init rng) tr s) (hks : ks.Nodup) (hne : ks ≠ []) (hp : ∀ p ∈ tr, Plain p.1)
    (hu : ∀ p ∈ tr, Agreed ks p.1) : ∀ k ∈ ks, viewOf s k = textView (textIn ks (lastRow ks tr) k) := by
  have aux : ∀ {s0 : Store} {tr : List (List Bytes × Reply)} {s : Store}, Trace ext s0 tr s → s0 = Store.init rng →
      (∀ p ∈ tr, Plain p.1) → (∀ p ∈ tr, Agreed ks p.1) → ∀ k ∈ ks, viewOf s k = textView (textIn ks (lastRow ks tr) k) := by
    intro s0 tr s h
    induction h with
    | nil => intro e _ _ _ _; subst e; rfl
    | @snoc tr s1 it req m s2 h1 ha ih =>
      intro e hp hu k hk
      subst e
      have i1 := ih rfl (fun p hq => hp p (by simp [hq])) (fun p hq => hu p (by simp [hq])) k hk
      have ht := h1.typed (typed_init rng)
      have hur := hu (req, m) (by simp)
      rw [lastRow_snoc]
      obtain ⟨name, args, rfl, hc⟩ := ha.cases
      have hasc : Ascii name := (hp (name :: args, m) (by simp)).1 name rfl
      have named : ∀ {vs}, Together ks (name :: args) vs → ∀ k ∈ ks, k ∈ keyArgs (lower name) args := by
        rintro vs ⟨n, e, hn, hl⟩ k hk
        cases e
        rw [hn]
        show k ∈ evens (weave ks vs)
        rw [weave_evens hl]; exact hk
      simp only [Agreed, List.headD_cons, List.tail_cons] at hur
      by_cases hrow : ∃ vs, Together ks (name :: args) vs
      · obtain ⟨vs, hvs⟩ := hrow
        rw [show rowOf ks ((name :: args, m) : List Bytes × Reply).1 = some vs from rowOf_iff.mpr hvs]
        obtain ⟨n, e, hn, hl⟩ := hvs
        have e : name = n ∧ args = weave ks vs := by injection e with e1 e2; exact ⟨e1, e2⟩
        obtain ⟨rfl, rfl⟩ := e
        have hlk : lookupCmd (toLower ext.lowerUni name) = some .mSet := by rw [lower_eq hasc, hn]; rfl
        obtain ⟨a, ks', rfl⟩ := List.exists_cons_of_ne_nil hne
        obtain ⟨v, vs', rfl⟩ : ∃ v vs', vs = v :: vs' := by
          cases vs with
          | nil => cases hl
          | cons v vs => exact ⟨v, vs, rfl⟩
        have ha' : Answers ext it s1 (b! "mset" :: a :: v :: weave ks' vs') m s2 := by
          rw [answers_iff (c := .mSet) rfl]; exact (answers_iff hlk).mp ha
        obtain ⟨_, rfl⟩ := mset_answers.mp ha'
        rw [mSet_view, show a :: v :: weave ks' vs' = weave (a :: ks') (v :: vs') from rfl, msetView_weave _ hks hl]
        show _ = textView (((a :: ks').zip (v :: vs')).lookup k)
        cases hq : ((a :: ks').zip (v :: vs')).lookup k with
        | some w => rfl
        | none =>
          exfalso
          rw [List.lookup_eq_none_iff] at hq
          have : k ∈ ((a :: ks').zip (v :: vs')).map Prod.fst := by rw [List.map_fst_zip (by omega)]; exact hk
          obtain ⟨p, hp1, hp2⟩ := List.mem_map.mp this
          have := hq p hp1
          simp [hp2] at this
      · have hnone : rowOf ks ((name :: args, m) : List Bytes × Reply).1 = none := by
          cases hq : rowOf ks (name :: args) with
          | none => rfl
          | some vs => exact absurd ⟨vs, rowOf_iff.mp hq⟩ hrow
        rw [hnone, Option.none_or, ← i1]
        by_cases hkk : ∃ k ∈ ks, k ∈ keyArgs (lower name) args
        · rcases hur hkk with h | h
          · exact absurd h hrow
          · rw [C17_reads_change_nothing h ha]
        · have hkk : k ∉ keyArgs (lower name) args := fun h => hkk ⟨k, hk, h⟩
          rcases hc with ⟨_, rfl, _⟩ | ⟨c, o, hl, _, _⟩
          · rfl
          · obtain ⟨o, hf, _⟩ := (answers_iff hl).mp ha
            have he := fn_eff _ ht hf
            rw [lower_eq hasc] at hl
            rw [← lookup_name hl] at he
            unfold viewOf
            rw [he.keys_frame ht hkk]
  exact aux h rfl hp hu

theorem row_hears {ext rng A req m B s ks} (h : Trace ext (Store.init rng) (A ++ (req, m) :: B) s) (hks : ks.Nodup) (hne : ks ≠ [])
    (hp : ∀ p ∈ A ++ (req, m) :: B, Plain p.1) (hu : ∀ p ∈ A ++ (req, m) :: B, Agreed ks p.1) : HearsRow ks (lastRow ks A) req m := by
  obtain ⟨s1, it, s2, h1, ha, hB⟩ := h.mid
  clear hB
  have hv := row_trace h1 hks hne (fun p hq => hp p (by simp [hq])) (fun p hq => hu p (by simp [hq]))
  have ht := h1.typed (typed_init rng)
  have hpl : Plain req := hp (req, m) (by simp)
  have get : ∀ {k rest r}, k ∈ ks → Answers ext it s1 (b! "get" :: k :: rest) r s1 → r = .bulk (textIn ks (lastRow ks A) k) := by
    intro k rest r hk hg
    rw [((get_answers ht).mp hg).1, hv k hk]
    cases textIn ks (lastRow ks A) k <;> rfl
  constructor
  · rintro name ks' rfl hn hne' hsub
    have hlk : lookupCmd (toLower ext.lowerUni name) = some .mget := by rw [lower_eq (hpl.1 name rfl), hn]; rfl
    obtain ⟨a, ks'', rfl⟩ := List.exists_cons_of_ne_nil hne'
    have ha' : Answers ext it s1 (b! "mget" :: a :: ks'') m s2 := by
      rw [answers_iff (c := .mget) rfl]; exact (answers_iff hlk).mp ha
    obtain ⟨rfl, ms, hms, rfl⟩ := (C70_mget s1 a ks'').mp ha'
    congr 1
    clear ha' ha hpl hlk hne' h hp hu
    generalize a :: ks'' = l at hms hsub
    induction hms with
    | nil => rfl
    | cons hd _ ih =>
      rw [List.map_cons, get (hsub _ (by simp)) hd.1, ih (fun k hk => hsub k (by simp [hk]))]
  · rintro name k rest rfl hn hk
    have hlk : lookupCmd (toLower ext.lowerUni name) = some .get := by rw [lower_eq (hpl.1 name rfl), hn]; rfl
    have ha' : Answers ext it s1 (b! "get" :: k :: rest) m s2 := by
      rw [answers_iff (c := .get) rfl]; exact (answers_iff hlk).mp ha
    obtain ⟨_, rfl⟩ := (get_answers ht).mp ha'
    exact get hk ha'

end Godis

namespace Godis.Event
open Resp (Reply Denotes bulks)
open Linear (Before Op)
open StrSpec (lower isError)
open CoordSpec

/-! ## versions: the executed writes, in order, and how many of them come before request `i` -/

section
variable {W : Type} {write : Op → Option W} {ext : Ext} {rng : Rng} {L : List Label} {s : Store} {ops : List Op} {i j : Nat} {w : W}

/-- the executed writes with their request numbers -/
def versions (write : Op → Option W) (ops : List Op) : List (Nat × W) := ops.filterMap fun o => (write o).map fun w => (o.id, w)

/-- how many writes were executed before request `i` -/
def seenAt (write : Op → Option W) (ops : List Op) (i : Nat) : Nat := (versions write (upto ops i)).length

theorem mem_versions : (j, w) ∈ versions write ops ↔ ∃ o ∈ ops, o.id = j ∧ write o = some w := by
  unfold versions
  rw [List.mem_filterMap]
  constructor
  · rintro ⟨o, ho, h⟩
    obtain ⟨w', hw, h⟩ := Option.map_eq_some_iff.mp h
    cases h
    exact ⟨o, ho, rfl, hw⟩
  · rintro ⟨o, ho, rfl, hw⟩
    exact ⟨o, ho, by rw [hw]; rfl⟩

theorem versions_append (A B : List Op) : versions write (A ++ B) = versions write A ++ versions write B := List.filterMap_append

theorem versions_take (i : Nat) : (versions write ops).take (seenAt write ops i) = versions write (upto ops i) := by
  obtain ⟨B, e⟩ := upto_prefix ops i
  conv_lhs => rw [← e, versions_append]
  rw [List.take_left']
  unfold seenAt; rw [e]

theorem versions_nodup (he : Explains ext rng L s ops) : ((versions write ops).map (·.1)).Nodup := by
  have hs : ∀ l : List Op, ((versions write l).map (·.1)).Sublist (l.map (·.id)) := by
    intro l
    induction l with
    | nil => exact .slnil
    | cons o l ih =>
      unfold versions
      rw [List.filterMap_cons]
      cases ho : write o with
      | none => exact ih.cons _
      | some d => exact ih.cons_cons _
  exact (hs ops).nodup he.nodup

theorem versions_place (he : Explains ext rng L s ops) (h : (j, w) ∈ versions write ops) :
    (versions write ops)[seenAt write ops j]? = some (j, w) := by
  obtain ⟨o, ho, rfl, hw⟩ := mem_versions.mp h
  obtain ⟨A, B, e⟩ := List.mem_iff_append.mp ho
  unfold seenAt
  rw [upto_eq he.nodup e]
  conv_lhs => rw [e, versions_append]
  unfold versions
  rw [List.filterMap_cons, hw]
  simp

theorem versions_mono (he : Explains ext rng L s ops) (ha : Answered (visible L) i j) :
    seenAt write ops i ≤ seenAt write ops j ∧ ∀ w, (i, w) ∈ versions write ops → seenAt write ops i < seenAt write ops j := by
  obtain ⟨p, rfl, hp⟩ := upto_mono he ha
  obtain ⟨B, e⟩ := hp
  have hl : (versions write (upto ops j)).length = (versions write (upto ops p.id)).length + (versions write [p]).length + (versions write B).length := by
    rw [← e, versions_append, versions_append]; simp; omega
  refine ⟨by unfold seenAt; omega, fun w hw => ?_⟩
  obtain ⟨o, ho, hid, hwo⟩ := mem_versions.mp hw
  have hpo : p ∈ ops := (upto_prefix ops j).subset (by rw [← e]; simp)
  have : o = p := List.inj_on_of_nodup_map he.nodup ho hpo hid
  subst this
  have : (versions write [o]).length = 1 := by
    unfold versions
    rw [List.filterMap_cons, hwo]; rfl
  unfold seenAt; omega

theorem versions_late (he : Explains ext rng L s ops) (h : (j, w) ∈ (versions write ops).take (seenAt write ops i)) :
    ¬ Answered (visible L) i j := by
  rw [versions_take] at h
  obtain ⟨o, ho, rfl, _⟩ := mem_versions.mp h
  exact not_answered_of_upto he ho

end

theorem lastRow_versions (ks : List Bytes) (A : List Op) :
    lastRow ks (A.map pair) = ((versions (fun o => rowOf ks o.req) A).getLast?).map (·.2) := by
  induction A using List.reverseRecOn with
  | nil => rfl
  | append_singleton A o ih =>
    rw [List.map_append, List.map_singleton, lastRow_snoc, versions_append, ih]
    show (rowOf ks o.req).or _ = _
    have e : versions (fun o => rowOf ks o.req) [o] = ((rowOf ks o.req).map fun w => (o.id, w)).toList := by
      unfold versions
      cases h : rowOf ks o.req <;> simp [h]
    rw [e]
    cases h : rowOf ks o.req <;> simp

/-- **C82 (written together, read together).**  If all clients write the keys `ks` only together, with MSET, then there are a list
`rows` of MSETs with their texts, and for each request `i` a number `seen i`, such that
`rows` has every MSET of these keys that was answered, each once, and only some that were sent; request `j` of `rows` stands at
place `seen j`;
every MGET of some of the keys, and every GET of one, tells the texts of one row: the last of the first `seen i` (nil if that is none);
what is sent after a reply tells of a row at least as late, and later than `i` itself if `i` is an MSET;
and nobody is told of a row that was sent after the reply. -/
theorem C82_rows {ext rng L σ ks} (h : Run ext 1 rng L σ) (hks : ks.Nodup) (hne : ks ≠ []) (hr : OnlyTogether Decodes (visible L) ks) :
    ∃ (rows : List (Nat × List Bytes)) (seen : Nat → Nat),
      (rows.map (·.1)).Nodup ∧
      (∀ j vs, (j, vs) ∈ rows → (∃ r, Sent Decodes (visible L) j r ∧ Together ks r vs) ∧ rows[seen j]? = some (j, vs)) ∧
      (∀ j r vs m, Sent Decodes (visible L) j r → Together ks r vs → Got (visible L) j m → (j, vs) ∈ rows) ∧
      (∀ i req m, Sent Decodes (visible L) i req → Got (visible L) i m →
        HearsRow ks (((rows.take (seen i)).getLast?).map (·.2)) req m) ∧
      (∀ i j, Answered (visible L) i j → seen i ≤ seen j ∧ ∀ vs, (i, vs) ∈ rows → seen i < seen j) ∧
      ∀ i j vs, (j, vs) ∈ rows.take (seen i) → ¬ Answered (visible L) i j := by
  obtain ⟨ops, he⟩ := explained h
  refine ⟨versions (fun o => rowOf ks o.req) ops, seenAt (fun o => rowOf ks o.req) ops, versions_nodup he, ?_, ?_, ?_,
    fun i j ha => versions_mono he ha, fun i j vs hj => versions_late he hj⟩
  · intro j vs hj
    refine ⟨?_, versions_place he hj⟩
    obtain ⟨o, ho, rfl, hw⟩ := mem_versions.mp hj
    exact ⟨o.req, he.sent o ho, rowOf_iff.mp hw⟩
  · intro j r vs m sj ht gj
    obtain ⟨o, ho, rfl, rfl⟩ := he.got _ _ gj
    rw [sent_unique h sj (he.sent o ho)] at ht
    exact mem_versions.mpr ⟨o, ho, rfl, rowOf_iff.mpr ht⟩
  · intro i req m si gi
    obtain ⟨p, hp, rfl, rfl⟩ := he.got _ _ gi
    obtain rfl := sent_unique h si (he.sent p hp)
    obtain ⟨A, B, e⟩ := List.mem_iff_append.mp hp
    rw [versions_take, upto_eq he.nodup e, ← lastRow_versions]
    have e' : ops.map pair = A.map pair ++ (p.req, p.reply) :: B.map pair := by rw [e]; simp [pair]
    have hpl : ∀ q ∈ ops.map pair, ListSpec.Plain q.1 := by
      intro q hq
      obtain ⟨o, ho, rfl⟩ := List.mem_map.mp hq
      exact (hr _ _ (he.sent o ho)).1
    have hag : ∀ q ∈ ops.map pair, Agreed ks q.1 := by
      intro q hq
      obtain ⟨o, ho, rfl⟩ := List.mem_map.mp hq
      exact (hr _ _ (he.sent o ho)).2
    exact row_hears (e' ▸ he.trace) hks hne (e' ▸ hpl) (e' ▸ hag)

/-- **C82 (no torn read).**  An MGET of all the keys is answered with nil for each, or with exactly the texts of one MSET, which was not
sent after the reply. -/
theorem C82_whole {ext rng L σ ks} (h : Run ext 1 rng L σ) (hks : ks.Nodup) (hne : ks ≠ []) (hr : OnlyTogether Decodes (visible L) ks)
    {i name m} (si : Sent Decodes (visible L) i (name :: ks)) (hn : lower name = b! "mget") (gi : Got (visible L) i m) :
    m = .array (ks.map fun _ => .bulk none) ∨
    ∃ j r vs, Sent Decodes (visible L) j r ∧ Together ks r vs ∧ ¬ Answered (visible L) i j ∧ m = bulks vs := by
  obtain ⟨rows, seen, _, h2, _, h4, _, h6⟩ := C82_rows h hks hne hr
  have hm := (h4 i _ m si gi).1 name ks rfl hn hne (fun k hk => hk)
  cases hl : (rows.take (seen i)).getLast? with
  | none => rw [hl] at hm; exact .inl hm
  | some p =>
    obtain ⟨j, vs⟩ := p
    rw [hl] at hm
    have hmem : (j, vs) ∈ rows.take (seen i) := List.mem_of_getLast? hl
    obtain ⟨⟨r, sr, hT⟩, _⟩ := h2 j vs (List.mem_of_mem_take hmem)
    refine .inr ⟨j, r, vs, sr, hT, h6 i j vs hmem, ?_⟩
    obtain ⟨_, _, _, hlen⟩ := hT
    rw [hm]
    unfold bulks
    congr 1
    have key : ∀ {ks vs : List Bytes}, ks.Nodup → vs.length = ks.length →
        ks.map (fun k => (Reply.bulk ((ks.zip vs).lookup k))) = vs.map (fun v => .bulk (some v)) := by
      intro ks vs hn hl
      induction ks generalizing vs with
      | nil => cases vs with
        | nil => rfl
        | cons => cases hl
      | cons k ks ih =>
        cases vs with
        | nil => cases hl
        | cons v vs =>
          have hn' := List.nodup_cons.mp hn
          simp only [List.length_cons, Nat.add_right_cancel_iff] at hl
          rw [List.map_cons, List.map_cons, ← ih hn'.2 hl, List.zip_cons_cons, List.lookup_cons]
          congr 1
          · simp
          · refine List.map_congr_left fun k' hk' => ?_
            have : (k' == k) = false := by
              simp only [beq_eq_false_iff_ne, ne_eq]
              rintro rfl; exact hn'.1 hk'
            rw [List.lookup_cons, this]
    exact key hks hlen

/-! ## the hypotheses are met -/

def msetAB : Bytes := b! "*5\r\n$4\r\nMSET\r\n$1\r\na\r\n$1\r\n1\r\n$1\r\nb\r\n$1\r\n2\r\n"
def mgetAB : Bytes := b! "*3\r\n$4\r\nMGET\r\n$1\r\na\r\n$1\r\nb\r\n"
theorem msetAB_request : Decodes msetAB [b! "MSET", b! "a", b! "1", b! "b", b! "2"] :=
  decodes_of ⟨b! "5", _, by decide, (.cons (d := b! "4") (by decide) (.cons (d := b! "1") (by decide) (.cons (d := b! "1") (by decide) (.cons (d := b! "1") (by decide) (.cons (d := b! "1") (by decide) .nil))))), by decide⟩ (by decide) (by decide)
theorem mgetAB_request : Decodes mgetAB [b! "MGET", b! "a", b! "b"] :=
  decodes_of ⟨b! "3", _, by decide, (.cons (d := b! "4") (by decide) (.cons (d := b! "1") (by decide) (.cons (d := b! "1") (by decide) .nil))), by decide⟩ (by decide) (by decide)

/-- Case of the theorems: client 0 writes `a` and `b` together while client 1 reads something else, then client 1 reads both. -/
example : ∃ L σ, Run ext0 1 rng0 L σ ∧ ([b! "a", b! "b"] : List Bytes).Nodup ∧ OnlyTogether Decodes (visible L) [b! "a", b! "b"] ∧
    Sent Decodes (visible L) 0 [b! "MSET", b! "a", b! "1", b! "b", b! "2"] ∧
    Together [b! "a", b! "b"] [b! "MSET", b! "a", b! "1", b! "b", b! "2"] [b! "1", b! "2"] ∧
    Sent Decodes (visible L) 2 [b! "MGET", b! "a", b! "b"] ∧ Got (visible L) 2 (bulks [b! "1", b! "2"]) ∧
    Got (visible L) 0 (.simple (b! "OK")) ∧ Answered (visible L) 0 2 := by
  have hd : (trySchedule ext0 it0 1 rng0 (whole 0 0 msetAB ++ whole 1 1 getX ++ whole 2 1 mgetAB)).map (fun p => visible p.1) =
      some [.call 0 0 msetAB, .ret 0 0 (b! "+OK\r\n"), .call 1 1 getX, .ret 1 1 (b! "$-1\r\n"),
        .call 2 1 mgetAB, .ret 2 1 (b! "*2\r\n$1\r\n1\r\n$1\r\n2\r\n")] := by decide +kernel
  obtain ⟨r, hr, hv⟩ := Option.map_eq_some_iff.mp hd
  refine ⟨r.1, r.2, try_run hr, by decide, ?_, ⟨0, msetAB, by rw [hv]; simp, msetAB_request⟩, ⟨b! "MSET", by decide, by decide, by decide⟩,
    ⟨1, mgetAB, by rw [hv]; simp, mgetAB_request⟩, ⟨1, b! "*2\r\n$1\r\n1\r\n$1\r\n2\r\n", by rw [hv]; simp, ?_, nofun⟩,
    ⟨0, b! "+OK\r\n", by rw [hv]; simp, denotes_ok, nofun⟩,
    ⟨0, b! "+OK\r\n", 1, mgetAB, by rw [hv]; exact ⟨[_], [_, _], _, rfl⟩, fun h => by have := denotes_unique h denotes_ok; cases this⟩⟩
  · rintro i req ⟨c, b, h1, h2⟩
    rw [hv] at h1
    simp only [List.mem_cons, Linear.Ev.call.injEq, reduceCtorEq, List.not_mem_nil, or_false, false_or] at h1
    rcases h1 with ⟨_, _, rfl⟩ | ⟨_, _, rfl⟩ | ⟨_, _, rfl⟩
    · obtain rfl := decodes_det h2 msetAB_request
      exact ⟨by unfold ListSpec.Plain StrSpec.Ascii; decide, fun _ => .inl ⟨[b! "1", b! "2"], b! "MSET", by decide, by decide, by decide⟩⟩
    · obtain rfl := decodes_det h2 getX_request; exact ⟨by unfold ListSpec.Plain StrSpec.Ascii; decide, fun _ => .inr (by decide)⟩
    · obtain rfl := decodes_det h2 mgetAB_request; exact ⟨by unfold ListSpec.Plain StrSpec.Ascii; decide, fun _ => .inr (by decide)⟩
  · exact isRequest_denotes ⟨b! "2", _, by decide, (.cons (d := b! "1") (by decide) (.cons (d := b! "1") (by decide) .nil)), rfl⟩

end Godis.Event

namespace Godis.V1
open Resp (bulks)
open Event (Decodes visible)
open CoordSpec
open StrSpec (lower)

/-- C82, v1 server. -/
theorem C82_v1_rows {ext rng L v ks} (h : VRun ext rng L v) (hks : ks.Nodup) (hne : ks ≠ []) (hr : OnlyTogether Decodes (visible (sysLabels L)) ks) :
    ∃ (rows : List (Nat × List Bytes)) (seen : Nat → Nat),
      (rows.map (·.1)).Nodup ∧
      (∀ j vs, (j, vs) ∈ rows → (∃ r, Sent Decodes (visible (sysLabels L)) j r ∧ Together ks r vs) ∧ rows[seen j]? = some (j, vs)) ∧
      (∀ j r vs m, Sent Decodes (visible (sysLabels L)) j r → Together ks r vs → Got (visible (sysLabels L)) j m → (j, vs) ∈ rows) ∧
      (∀ i req m, Sent Decodes (visible (sysLabels L)) i req → Got (visible (sysLabels L)) i m →
        HearsRow ks (((rows.take (seen i)).getLast?).map (·.2)) req m) ∧
      (∀ i j, Answered (visible (sysLabels L)) i j → seen i ≤ seen j ∧ ∀ vs, (i, vs) ∈ rows → seen i < seen j) ∧
      ∀ i j vs, (j, vs) ∈ rows.take (seen i) → ¬ Answered (visible (sysLabels L)) i j :=
  Event.C82_rows h.run hks hne hr

/-- C82, v1 server. -/
theorem C82_v1_whole {ext rng L v ks} (h : VRun ext rng L v) (hks : ks.Nodup) (hne : ks ≠ []) (hr : OnlyTogether Decodes (visible (sysLabels L)) ks)
    {i name m} (si : Sent Decodes (visible (sysLabels L)) i (name :: ks)) (hn : lower name = b! "mget") (gi : Got (visible (sysLabels L)) i m) :
    m = .array (ks.map fun _ => .bulk none) ∨
    ∃ j r vs, Sent Decodes (visible (sysLabels L)) j r ∧ Together ks r vs ∧ ¬ Answered (visible (sysLabels L)) i j ∧ m = bulks vs :=
  Event.C82_whole h.run hks hne hr si hn gi

end Godis.V1
