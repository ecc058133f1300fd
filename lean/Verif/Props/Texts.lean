import Verif.Proofs.Texts3
import Verif.Spec.Texts
import Verif.Props.Coord
import Verif.Props.Register
import Verif.Props.Inverse
/-!
# C78: a reply shows no text that nobody sent
-/
namespace Godis
open Resp (Reply)
open TextSpec

variable {ext : Ext} {it : Iter} {rng : Rng} {s s' : Store} {tr : List (List Bytes × Reply)} {req : List Bytes} {m : Reply} {t : Bytes}

theorem made_grows (S : Bytes → Prop) : Grows S (Made S) := ⟨.word, .app, fun i hi => by rw [formatInt_eq]; exact .num hi⟩

theorem Made.mono {S S' : Bytes → Prop} (h : ∀ t, S t → S' t) (ht : Made S t) : Made S' t := by
  induction ht with
  | word hs => exact .word (h _ hs)
  | app _ hs ih => exact .app ih (h _ hs)
  | num hi => exact .num hi

theorem LObj.All.mono {S S' : Bytes → Prop} (h : ∀ t, S t → S' t) {l : List LNode} (H : LObj.All S l) : LObj.All S' l :=
  fun n hn => (H n hn).imp (h _) id

theorem Store.All.mono {S S' P P' : Bytes → Prop} (h : ∀ t, S t → S' t) (hp : ∀ t, P t → P' t) (H : s.All S P) : s.All S' P' := by
  refine ⟨H.keys.mono fun k i hk => ⟨h _ hk.1, hk.2.1, fun v hv => hp _ (hk.2.2 v hv)⟩, fun o ho => ?_⟩
  have := H.heap o ho
  cases o with
  | list l => exact LObj.All.mono h this
  | set o => exact SMap.All.mono this fun k _ hk => h k hk
  | zset z => exact fun n hn => (this n hn).imp (h _) id
  | hash _ => exact this

/-- `Source`, for the command behind the name -/
theorem says_source {S : Bytes → Prop} {c : Cmd} (h : c.Says ext S (Made S) t) : Source ext.formatFloat S c.name t := by
  cases c <;> exact h

/-- the texts of the items of a response -/
theorem item_shows {i : Item} {r : Reply} {R : Bytes → Prop} (hr : i.reply = some r) (hi : i.Ok R) :
    (∀ t, Quotes r t → R t) ∧ (∀ t, Prints r t → t ∈ lines) ∧ (∀ t, ¬ Complains r t) := by
  obtain ⟨v, ty⟩ := i
  cases ty <;> cases v <;> simp only [Item.reply] at hr <;> try contradiction
  · split at hr
    · cases hr
    · cases hr
      refine ⟨nofun, fun t h => ?_, nofun⟩
      cases h
      exact (by decide : ∀ x ∈ lineTexts, x ∈ lines) _ hi
  · cases hr; exact ⟨nofun, nofun, nofun⟩
  · cases hr; exact ⟨nofun, nofun, nofun⟩
  · cases hr
    refine ⟨fun t h => ?_, nofun, nofun⟩
    cases h
    exact hi

theorem items_shows {R : Bytes → Prop} : ∀ {is : List Item} {rs : List Reply}, itemReplies is = some rs → (∀ i ∈ is, i.Ok R) →
    ∀ r ∈ rs, (∀ t, Quotes r t → R t) ∧ (∀ t, Prints r t → t ∈ lines) ∧ (∀ t, ¬ Complains r t)
  | [], rs, h, _ => by cases h; simp
  | i :: is, rs, h, hi => by
    unfold itemReplies at h
    split at h
    · next h1 h2 =>
      cases h
      intro r hr
      rcases List.mem_cons.mp hr with rfl | hr
      · exact item_shows h1 (hi i (by simp))
      · exact items_shows h2 (fun i h => hi i (by simp [h])) r hr
    · cases h

theorem response_shows {rsp : Response} {R : Bytes → Prop} (hr : rsp.reply = some m) (hi : ∀ i ∈ rsp.items, i.Ok R) :
    (∀ t, Quotes m t → R t) ∧ (∀ t, Prints m t → t ∈ lines) ∧ (∀ t, ¬ Complains m t) := by
  unfold Response.reply at hr
  split at hr
  · obtain ⟨rs, h1, rfl⟩ := Option.map_eq_some_iff.mp hr
    have := items_shows h1 hi
    refine ⟨fun t h => ?_, fun t h => ?_, fun t h => ?_⟩
    · cases h with | inside hm h => exact (this _ hm).1 t h
    · cases h with | inside hm h => exact (this _ hm).2.1 t h
    · cases h with | inside hm h => exact (this _ hm).2.2 t h
  · split at hr
    · cases hr; exact ⟨nofun, nofun, nofun⟩
    · next e =>
      refine item_shows hr (hi _ ?_)
      rw [e]; simp

/-- one request: the texts of its reply, and of the store afterwards -/
theorem texts_step {S : Bytes → Prop} {w : Bytes} {args : List Bytes} (H : s.All S (Made S)) (ha : ∀ a ∈ args, S a) (h : Answers ext it s (w :: args) m s') :
    s'.All S (Made S) ∧ (∀ t, Quotes m t → Source ext.formatFloat S ((libOf ext).num.lower w) t) ∧ (∀ t, Prints m t → t ∈ lines) ∧ ∀ t, Complains m t → t ∈ errors := by
  have hl : (libOf ext).num.lower w = toLower ext.lowerUni w := rfl
  obtain ⟨rsp, h1, h2⟩ := h
  have herr : ∀ (e : Err) (m : Reply), (setRsp (.error e)).reply = some m → (∀ t, ¬ Quotes m t) ∧ (∀ t, ¬ Prints m t) ∧ ∀ t, Complains m t → t ∈ errors := by
    intro e m he
    have : m = .error e.msg := by cases e <;> cases he <;> rfl
    subst this
    exact ⟨nofun, nofun, fun t h => by cases h; cases e <;> decide⟩
  simp only [runRequest, newCommand, execute] at h1
  cases hc : lookupCmd (toLower ext.lowerUni w) with
  | none =>
    rw [hc] at h1
    cases h1
    obtain ⟨h3, h4, h5⟩ := herr _ _ h2
    exact ⟨H, fun t h => absurd h (h3 t), fun t h => absurd h (h4 t), h5⟩
  | some c =>
    rw [hc] at h1
    dsimp only at h1
    have hw := fn_texts (ext := ext) (it := it) (made_grows S) c H ha
    cases hf : c.fn ext it s args with
    | error p => rw [hf] at h1; cases h1
    | ok q =>
      rw [hf] at h1
      obtain ⟨hs, hr⟩ := hw q hf
      obtain ⟨s1, r⟩ := q
      cases h1
      refine ⟨hs, ?_⟩
      cases r with
      | error e =>
        obtain ⟨h3, h4, h5⟩ := herr _ _ h2
        exact ⟨fun t h => absurd h (h3 t), fun t h => absurd h (h4 t), h5⟩
      | ok rsp =>
        obtain ⟨h3, h4, h5⟩ := response_shows h2 (hr _ rfl)
        refine ⟨fun t h => ?_, h4, fun t h => absurd h (h5 t)⟩
        rw [hl, lookup_name hc]
        exact says_source (h3 t h)

/-- the texts of the store after a history -/
theorem texts_trace (h : Trace ext (Store.init rng) tr s) : s.All (Arg (tr.map (·.1))) (Made (Arg (tr.map (·.1)))) := by
  induction h with
  | nil => exact Store.All.init rng
  | @snoc tr s1 it req m s2 _ ha ih =>
    have hmono : ∀ t, Arg (tr.map (·.1)) t → Arg ((tr ++ [(req, m)]).map (·.1)) t := fun t ⟨r, hr, ht⟩ => ⟨r, by simp at hr ⊢; exact .inl hr, ht⟩
    cases req with
    | nil => obtain ⟨rsp, h1, _⟩ := ha; cases h1
    | cons w args =>
      exact (texts_step (ih.mono hmono fun t => Made.mono hmono) (fun a ha => ⟨w :: args, by simp, by simpa using ha⟩) ha).1

/-- **C78.**  Whatever was requested before: a bulk text in a reply is an argument of this or an earlier request, for GET and MGET
possibly with others appended or a decimal number, for list and sorted-set commands possibly empty, for sorted sets possibly
a score; the other texts are from a fixed list. -/
theorem C78_texts {w : Bytes} {args : List Bytes} (h : Trace ext (Store.init rng) (tr ++ [(w :: args, m)]) s) :
    (∀ t, Quotes m t → Source ext.formatFloat (Arg ((tr ++ [(w :: args, m)]).map (·.1))) ((libOf ext).num.lower w) t) ∧
    (∀ t, Prints m t → t ∈ lines) ∧ ∀ t, Complains m t → t ∈ errors := by
  obtain ⟨s1, it, h1, h2⟩ := h.last
  have hmono : ∀ t, Arg (tr.map (·.1)) t → Arg ((tr ++ [(w :: args, m)]).map (·.1)) t := fun t ⟨r, hr, ht⟩ => ⟨r, by simp at hr ⊢; exact .inl hr, ht⟩
  exact (texts_step ((texts_trace h1).mono hmono fun t => Made.mono hmono) (fun a ha => ⟨w :: args, by simp, by simpa using ha⟩) h2).2

theorem Source.mono {S S' : Bytes → Prop} (h : ∀ t, S t → S' t) {f : F64 → Bytes} {w : Bytes} (hs : Source f S w t) : Source f S' w t := by
  unfold Source at hs ⊢
  split
  · rw [if_pos ‹_›] at hs; exact Made.mono h hs
  · rw [if_neg ‹_›] at hs
    split
    · rw [if_pos ‹_›] at hs; exact h _ hs
    · rw [if_neg ‹_›] at hs
      split
      · rw [if_pos ‹_›] at hs; exact hs.imp (h _) id
      · rw [if_neg ‹_›] at hs
        split
        · rw [if_pos ‹_›] at hs; exact hs.imp (h _) id
        · rw [if_neg ‹_›] at hs; exact hs

/-- Case: an `APPEND` after an `INCR`: `GET` shows the number with the sent text; the members of a set are shown as sent. -/
example : replies [[b! "INCR", b! "k"], [b! "APPEND", b! "k", b! "x"], [b! "GET", b! "k"], [b! "SADD", b! "s", b! "m"], [b! "SMEMBERS", b! "s"]] =
    some [.int 1, .int 2, .bulk (some (b! "1x")), .int 1, .array [.bulk (some (b! "m"))]] := by decide +kernel

/-- C78 fails if the empty text is not allowed for lists and sorted sets: after an `LREM` that empties a list, an `RPUSH` and
an `LREM` from the other end that removes nothing, the list is answered as the one empty text, which nobody sent (the
server's own place-holder node became part of the list); `ZPOPMAX` with a count of more than the size answers with an empty
member. -/
theorem C78_empty_violated :
    replies [[b! "LPUSH", b! "l", b! "d"], [b! "LREM", b! "l", b! "0", b! "d"], [b! "RPUSH", b! "l", b! "b"], [b! "LREM", b! "l", b! "-1", b! "a"],
      [b! "LRANGE", b! "l", b! "0", b! "5"]] = some [.int 1, .int 1, .int 1, .int 0, .array [.bulk (some [])]] ∧
    replies [[b! "ZADD", b! "z", b! "1", b! "a"], [b! "ZPOPMAX", b! "z", b! "2"]] =
      some [.int 1, .array [.bulk (some (b! "a")), .bulk (some (b! "1")), .bulk (some []), .bulk (some (b! "0"))]] := by decide +kernel

end Godis
namespace Godis.Event
open Resp (Reply)
open TextSpec
open Linear (Before)

/-- **C78, concurrent clients.**  Whatever the schedule: a reply shows only texts (as in C78) of requests that were not sent
only after this reply was received.  Nobody reads a text before it is sent. -/
theorem C78_clients {ext rng L σ} (h : Run ext 1 rng L σ) {i w args m} (si : CoordSpec.Sent Decodes (visible L) i (w :: args)) (gi : CoordSpec.Got (visible L) i m) :
    (∀ t, Quotes m t → Source ext.formatFloat (fun u => ∃ j r, CoordSpec.Sent Decodes (visible L) j r ∧ ¬ CoordSpec.Answered (visible L) i j ∧ u ∈ r.tail)
      ((libOf ext).num.lower w) t) ∧
    (∀ t, Prints m t → t ∈ lines) ∧ ∀ t, Complains m t → t ∈ errors := by
  obtain ⟨ops, he⟩ := explained h
  have hnd : ops.Nodup := List.Nodup.of_map _ he.nodup
  obtain ⟨p, hp, rfl, rfl⟩ := he.got _ _ gi
  have hq : p.req = w :: args := (sent_unique h si (he.sent p hp)).symm
  obtain ⟨A, B, e⟩ := List.mem_iff_append.mp hp
  have ht := he.trace
  have e2 : ops.map pair = (A.map pair ++ [(w :: args, p.reply)]) ++ B.map pair := by rw [e]; simp [pair, hq]
  rw [e2] at ht
  obtain ⟨s1, h1, _⟩ := ht.split
  obtain ⟨h3, h4, h5⟩ := C78_texts h1
  refine ⟨fun t h => Godis.Source.mono (fun u ⟨r, hr, hu⟩ => ?_) (h3 t h), h4, h5⟩
  have : ∃ o ∈ A ++ [p], o.req = r := by
    simp only [List.map_append, List.map_map, List.map_cons, List.map_nil, List.mem_append, List.mem_singleton, List.mem_map] at hr
    rcases hr with ⟨o, ho, rfl⟩ | rfl
    · exact ⟨o, by simp [ho], rfl⟩
    · exact ⟨p, by simp, hq⟩
  obtain ⟨o, ho, rfl⟩ := this
  have hop : o ∈ ops := by rw [e]; simp at ho ⊢; tauto
  refine ⟨o.id, o.req, he.sent o hop, fun ha => ?_, hu⟩
  have b := he.order p hp o hop ha
  rcases List.mem_append.mp ho with ho | ho
  · exact before_asymm hnd (before_of_mem e ho) b
  · rw [List.mem_singleton.mp ho] at b
    exact before_asymm hnd b b

/-- Case: two clients; one sets, the other reads: the texts of the run above `C74`. -/
example : ∃ L σ, Run ext0 1 rng0 L σ ∧ CoordSpec.Sent Decodes (visible L) 1 [b! "GET", b! "x"] ∧ CoordSpec.Got (visible L) 1 (.bulk (some (b! "5"))) := by
  have hd : (trySchedule ext0 it0 1 rng0 (whole 0 0 setX5 ++ whole 1 1 getX)).map (fun p => visible p.1) =
      some [.call 0 0 setX5, .ret 0 0 (b! "+OK\r\n"), .call 1 1 getX, .ret 1 1 (b! "$1\r\n5\r\n")] := by decide +kernel
  obtain ⟨r, hr, hv⟩ := Option.map_eq_some_iff.mp hd
  exact ⟨r.1, r.2, try_run hr, ⟨1, getX, by rw [hv]; simp, getX_request⟩, ⟨1, b! "$1\r\n5\r\n", by rw [hv]; simp, ⟨1, fun f hf rest => by
    obtain ⟨f, rfl⟩ : ∃ g, f = g + 1 := ⟨f - 1, by omega⟩; rfl⟩, nofun⟩⟩

end Godis.Event
namespace Godis.V1
open Event (Decodes visible)
open TextSpec

/-- C78, v1 server. -/
theorem C78_v1_clients {ext rng L v} (h : VRun ext rng L v) {i w args m} (si : CoordSpec.Sent Decodes (visible (sysLabels L)) i (w :: args))
    (gi : CoordSpec.Got (visible (sysLabels L)) i m) :
    (∀ t, Quotes m t → Source ext.formatFloat
      (fun u => ∃ j r, CoordSpec.Sent Decodes (visible (sysLabels L)) j r ∧ ¬ CoordSpec.Answered (visible (sysLabels L)) i j ∧ u ∈ r.tail)
      ((libOf ext).num.lower w) t) ∧
    (∀ t, Prints m t → t ∈ lines) ∧ ∀ t, Complains m t → t ∈ errors :=
  Event.C78_clients h.run si gi

end Godis.V1
