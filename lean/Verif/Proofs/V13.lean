import Verif.Proofs.V12
/-!
# The v1 server: the bookkeeping of `Start` and `Stop`
-/
namespace Godis.V1
open Godis.Event (Sys Label Step Run Stopper upd upd_apply upd_same)

/-- the bookkeeping of `Start` and `Stop` -/
structure Life (L : List VLabel) (v : Srv) : Prop where
  begun : .begun ∈ L ↔ v.starter ≠ .no
  ctx : v.ctx = true ↔ v.starter ≠ .no
  serving : .serving ∈ L ↔ v.starter = .accepting ∨ v.starter = .waiting ∨ v.starter = .returned
  listener : v.listener = none ↔ .serving ∉ L
  closed : v.listener = some false → .stopCalled ∈ L
  stop : .stopCalled ∈ L ↔ v.closer ≠ .no
  ending : v.starter = .waiting ∨ v.starter = .returned → v.listener = some false
  started : .started ∈ L ↔ v.starter = .returned
  pool : .sys .stop ∈ L ↔ v.closer = .stopping ∨ v.closer = .returned
  ret : .stopReturned ∈ L ↔ v.closer = .returned
  cancelled : v.cancelled = true ↔ v.closer = .returned
  early : ¬ EarlyStop L → .serving ∈ L → .stopCalled ∈ L → v.listener = some false
  late : EarlyStop L → v.listener ≠ some false
  accepted : ∀ c b, .accept c b ∈ L → .serving ∈ L
  failed : .startFailed ∈ L ↔ v.starter = .failed
  none : .serving ∉ L → .stopCalled ∈ L → EarlyStop L

theorem early_snoc {L : List VLabel} {l : VLabel} : EarlyStop (L ++ [l]) ↔ EarlyStop L ∨ (l = .stopCalled ∧ .serving ∉ L) := by
  constructor
  · rintro ⟨A, B, hL, hA⟩
    rcases List.eq_nil_or_concat B with rfl | ⟨B, x, rfl⟩
    · have := List.append_inj' hL (by simp)
      obtain ⟨rfl, h2⟩ := this
      simp only [List.cons.injEq, and_true] at h2
      exact .inr ⟨h2, hA⟩
    · have hL' : L ++ [l] = (A ++ .stopCalled :: B) ++ [x] := by rw [hL]; simp
      have := List.append_inj' hL' (by simp)
      exact .inl ⟨A, B, this.1, hA⟩
  · rintro (⟨A, B, rfl, hA⟩ | ⟨rfl, hA⟩)
    · exact ⟨A, B ++ [l], by simp, hA⟩
    · exact ⟨L, [], rfl, hA⟩

theorem life {ext rng L v} (h : VRun ext rng L v) : Life L v := by
  induction h with
  | nil => constructor <;> simp [Srv.init, EarlyStop]
  | @snoc L q l q' h hc he hs ih =>
    obtain ⟨i1, i2, i3, i4, i5, i6, i7, i8, i9, i10, i11, i12, i13, i14, i15, i16⟩ := ih
    have hm : ∀ x, x ∈ L ++ [l] ↔ x ∈ L ∨ x = l := fun x => by simp
    have hearly := early_snoc (L := L) (l := l)
    cases hs with
    | sys l σ' h1 h2 =>
      have h2' : Label.stop ≠ l := fun e => h2 e.symm
      constructor <;> simp only [hm, hearly, reduceCtorEq, or_false, false_and, VLabel.sys.injEq, h2'] <;> assumption
    | handle | next | quit | gotError | writeFailed | closeConn | gone | goneNegative | decode | malformed | readClosed | request | error | closeReceive | closeError | decodePanic | handleNil | died | acceptFailed | cancelNil =>
      constructor <;> (try simp only [hm, hearly, reduceCtorEq, or_false, false_and]) <;> assumption
    | stopCalled h1 =>
      have hes : EarlyStop L → .stopCalled ∈ L := by rintro ⟨A, B, rfl, _⟩; simp
      have hmap : q.listener.map (fun _ => false) = none ↔ q.listener = none := by cases q.listener <;> simp
      have hmap' : q.listener.map (fun _ => false) = some false ↔ q.listener ≠ none := by cases q.listener <;> simp
      constructor <;> simp only [hm, hearly, hmap, hmap', reduceCtorEq, or_false, or_true, false_and, true_and, VLabel.sys.injEq] <;> grind
    | _ => constructor <;> simp only [hm, hearly, reduceCtorEq, or_false, or_true, false_and, true_and, VLabel.sys.injEq] <;> grind

/-- the connections -/
structure Conns (L : List VLabel) (v : Srv) : Prop where
  absent : ∀ c, (v.conn c).loop = .absent ↔ c ∉ accepted L
  nodup : (accepted L).Nodup
  count : v.wg = ((accepted L).filter fun c => (v.conn c).loop ≠ .gone).length
  closed : ∀ c, .closeConn c ∈ L ↔ (v.conn c).loop = .closed ∨ (v.conn c).loop = .gone
  gone : ∀ c, .gone c ∈ L ↔ (v.conn c).loop = .gone

theorem accepted_append (A B : List VLabel) : accepted (A ++ B) = accepted A ++ accepted B := List.filterMap_append ..

theorem mem_accepted {L c} : c ∈ accepted L ↔ ∃ b, .accept c b ∈ L := by
  simp only [accepted, List.mem_filterMap]
  constructor
  · rintro ⟨l, hl, he⟩
    cases l <;> simp at he
    subst he
    exact ⟨_, hl⟩
  · rintro ⟨b, h⟩; exact ⟨_, h, rfl⟩

/-- a connection changes, but is not absent or gone, before or after -/
theorem Conns.same {L : List VLabel} {v v' : Srv} {l : VLabel} (h : Conns L v) (hw : v'.wg = v.wg)
    (hl : ∀ c b, l ≠ .accept c b) (hg : ∀ c, l ≠ .gone c)
    (ha : ∀ c, (v'.conn c).loop = .absent ↔ (v.conn c).loop = .absent) (hgo : ∀ c, (v'.conn c).loop = .gone ↔ (v.conn c).loop = .gone)
    (hcl : ∀ c, l = .closeConn c ∨ (v.conn c).loop = .closed ↔ (v'.conn c).loop = .closed) : Conns (L ++ [l]) v' := by
  have hacc : accepted (L ++ [l]) = accepted L := by
    rw [accepted_append]
    cases l <;> simp_all [accepted]
  constructor
  · intro c; rw [hacc, ha, h.absent]
  · rw [hacc]; exact h.nodup
  · rw [hacc, hw, h.count]
    congr 1
    refine List.filter_congr fun c _ => ?_
    simp [hgo c]
  · intro c
    have := hcl c
    rw [List.mem_append, h.closed, List.mem_singleton, hgo, ← this, eq_comm]
    tauto
  · intro c
    rw [List.mem_append, h.gone, List.mem_singleton, hgo]
    exact or_iff_left fun e => hg c e.symm

theorem conns {ext rng L v} (h : VRun ext rng L v) : Conns L v := by
  induction h with
  | nil => constructor <;> simp [Srv.init, Conn.none, accepted]
  | @snoc L w l w' h hc hc' hs ih =>
    cases hs with
    | accept c b h1 h2 h3 =>
      have hn := (ih.absent c).mp h3
      have hacc : accepted (L ++ [.accept c b]) = accepted L ++ [c] := by rw [accepted_append]; rfl
      constructor
      · intro c'
        rw [hacc, List.mem_append, List.mem_singleton, not_or, ← ih.absent]
        simp only [upd_apply]
        split
        · next e => simp [Conn.new, e]
        · next e => simp [e]
      · rw [hacc, List.nodup_append]
        exact ⟨ih.nodup, by simp, by rintro a ha b' hb rfl; rw [List.mem_singleton] at hb; subst hb; exact hn ha⟩
      · rw [hacc, List.filter_append, List.length_append]
        show w.wg + 1 = _
        rw [ih.count]
        congr 1
        · congr 1
          refine List.filter_congr fun c' hm => ?_
          have : c' ≠ c := by rintro rfl; exact hn hm
          simp [upd_apply, this]
        · simp [Conn.new]
      · intro c'
        have := ih.closed c'
        simp only [List.mem_append, List.mem_singleton, reduceCtorEq, or_false, this, upd_apply]
        split
        · next e => subst e; simp [Conn.new, h3]
        · rfl
      · intro c'
        have := ih.gone c'
        simp only [List.mem_append, List.mem_singleton, reduceCtorEq, or_false, this, upd_apply]
        split
        · next e => subst e; simp [Conn.new, h3]
        · rfl
    | gone c h1 h2 =>
      have hacc : accepted (L ++ [.gone c]) = accepted L := by rw [accepted_append]; simp [accepted]
      have hm : c ∈ accepted L := by
        by_contra hm
        rw [(ih.absent c).mpr hm] at h1
        cases h1
      constructor
      · intro c'
        rw [hacc, ← ih.absent]
        simp only [upd_apply]
        split
        · next e => subst e; simp [h1]
        · rfl
      · rw [hacc]; exact ih.nodup
      · rw [hacc]
        have hfil : (accepted L).filter (fun c' => (upd w.conn c { w.conn c with loop := .gone } c').loop ≠ .gone) =
            ((accepted L).filter fun c' => (w.conn c').loop ≠ .gone).erase c := by
          rw [(ih.nodup.filter _).erase_eq_filter, List.filter_filter]
          refine List.filter_congr fun c' _ => ?_
          simp only [upd_apply]
          split
          · next e => simp [e]
          · next e => simp [e]
        show w.wg - 1 = _
        rw [hfil, List.length_erase_of_mem (List.mem_filter.mpr ⟨hm, by simp [h1]⟩), ih.count]
      · intro c'
        have := ih.closed c'
        simp only [List.mem_append, List.mem_singleton, reduceCtorEq, or_false, this, upd_apply]
        split
        · next e => subst e; simp [h1]
        · rfl
      · intro c'
        have := ih.gone c'
        simp only [List.mem_append, List.mem_singleton, this, upd_apply, VLabel.gone.injEq]
        split
        · next e => subst e; simp
        · next e => simp [e]
    | handle c | next c | quit c | gotError c | writeFailed c | closeConn c | decode c | malformed c | readClosed c | request c | error c | closeReceive c | closeError c =>
      refine ih.same rfl (by simp) (by simp) ?_ ?_ ?_ <;> intro c' <;> simp only [upd_apply] <;>
        by_cases hcc : c' = c <;> simp_all <;> (try (intro e; exact absurd e.symm hcc))
    | _ => exact ih.same rfl (by simp) (by simp) (fun _ => Iff.rfl) (fun _ => Iff.rfl) (by simp)

end Godis.V1
