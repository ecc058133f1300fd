import Verif.Proofs.Texts
import Verif.Proofs.Strconv
/-! # Where the texts of the replies come from: the store and the commands -/
namespace Godis

variable {W P R : Bytes → Prop} {ext : Ext} {it : Iter} {s : Store} {k : Bytes} {args : List Bytes}

/-- the texts stored in an object; no hash is ever stored -/
def Obj.All (W : Bytes → Prop) : Obj → Prop
  | .list l => LObj.All W l.nodes
  | .set o => o.All W
  | .zset z => z.All W
  | .hash _ => False

/-- all texts stored: keys and members are in `W` (or empty), values of string keys in `P` -/
structure Store.All (W P : Bytes → Prop) (s : Store) : Prop where
  keys : s.keys.All fun k i => W k ∧ i.type ≠ .hashTable ∧ ∀ v, i.value = .str v → P v
  heap : ∀ o ∈ s.heap, o.All W

/-- what can be done to a text of a string key -/
structure Grows (W P : Bytes → Prop) : Prop where
  word : ∀ {a}, W a → P a
  app : ∀ {a b}, P a → W b → P (a ++ b)
  int : ∀ i : Int, -2 ^ 63 ≤ i ∧ i < 2 ^ 63 → P (formatInt i)

/-- the single-line texts that are not errors -/
def lineTexts : List Bytes := [respOK, respNone, respPong, respCommand, KeyType.string.text, KeyType.list.text, KeyType.set.text,
  KeyType.sortedSet.text]

/-- a bulk text is in `R`, a single-line text one of the fixed ones -/
def Item.Ok (R : Bytes → Prop) (i : Item) : Prop :=
  match i.type, i.value with
  | .bulkStrings, .str t => R t
  | .simpleStrings, .str t => t ∈ lineTexts
  | .errors, _ => False
  | _, _ => True

/-- the store keeps to `W` and `P`, the reply to `R` -/
def TPost (W P R : Bytes → Prop) (q : Store × Except Err Response) : Prop :=
  q.1.All W P ∧ ∀ rsp, q.2 = .ok rsp → ∀ i ∈ rsp.items, i.Ok R

theorem Store.All.init (rng : Rng) : (Store.init rng).All W P := ⟨SMap.All.empty, fun _ h => by cases h⟩

theorem Store.All.write (H : s.All W P) {r : Nat} {o : Obj} (ho : o.All W) : (s.write r o).All W P := by
  refine ⟨H.keys, fun x hx => ?_⟩
  rcases List.mem_or_eq_of_mem_set hx with hx | rfl
  · exact H.heap _ hx
  · exact ho

theorem Store.All.putNew (H : s.All W P) (hk : W k) {tp : KeyType} (ht : tp ≠ .hashTable) {o : Obj} (ho : o.All W) : (s.putNew k tp o).All W P := by
  refine ⟨H.keys.set ⟨hk, ht, fun v hv => by cases hv⟩, fun x hx => ?_⟩
  rcases List.mem_append.mp hx with hx | hx
  · exact H.heap _ hx
  · rw [List.mem_singleton.mp hx]; exact ho

theorem Store.All.alias (H : s.All W P) (hk : W k) (r : Nat) : Store.All W P { s with keys := s.keys.set k ⟨.set, .ref r⟩ } :=
  ⟨H.keys.set ⟨hk, nofun, fun v hv => by cases hv⟩, H.heap⟩

theorem Store.All.reroll (H : s.All W P) (rng : Rng) : Store.All W P { s with rng := rng } := ⟨H.keys, H.heap⟩

theorem Store.All.setStr (H : s.All W P) (hk : W k) {v : Bytes} (hv : P v) {t : KeyType} (ht : t = .string) : Store.All W P { s with keys := s.keys.set k ⟨t, .str v⟩ } :=
  ⟨H.keys.set ⟨hk, by rw [ht]; exact nofun, fun v' h => by cases h; exact hv⟩, H.heap⟩

/-! ## the answers -/

theorem post_err (H : s.All W P) (e : Err) : Wp (retErr s e) (TPost W P R) := Wp.pure ⟨H, fun _ h => by cases h⟩
theorem post_short (H : s.All W P) : Wp (notEnough s) (TPost W P R) := Wp.pure ⟨H, fun _ h => by cases h⟩

theorem post_ok (H : s.All W P) {r : Response} (hr : ∀ i ∈ r.items, i.Ok R) : Wp (retOk s r) (TPost W P R) := Wp.pure ⟨H, fun _ h => by cases h; exact hr⟩

theorem post_int (H : s.All W P) (n : Int) : Wp (retOk s (newResponseWithInteger n)) (TPost W P R) :=
  post_ok H fun i hi => by rw [List.mem_singleton.mp hi]; trivial

theorem post_line (H : s.All W P) {t : Bytes} (ht : t ∈ lineTexts) : Wp (retOk s (newResponseWithSimpleString t)) (TPost W P R) :=
  post_ok H fun i hi => by rw [List.mem_singleton.mp hi]; exact ht

theorem post_bulk (H : s.All W P) {t : Bytes} (ht : R t) : Wp (retOk s (newResponseWithBulkString t)) (TPost W P R) :=
  post_ok H fun i hi => by rw [List.mem_singleton.mp hi]; exact ht

theorem post_nil (H : s.All W P) : Wp (retOk s newResponseWithNilBulk) (TPost W P R) := post_ok H fun i hi => by cases hi
theorem post_empty (H : s.All W P) : Wp (retOk s newResponseWithEmptyArray) (TPost W P R) := post_ok H fun i hi => by cases hi

theorem post_bulks (H : s.All W P) {vs : List Bytes} (hv : ∀ t ∈ vs, R t) (a : Bool) : Wp (retOk s (bulkStrings a vs)) (TPost W P R) := by
  refine post_ok H fun i hi => ?_
  obtain ⟨t, ht, rfl⟩ := List.mem_map.mp hi
  exact hv t ht

theorem post_intReply (H : s.All W P) (r : Ret Int) : Wp (intReply s r) (TPost W P R) := by
  unfold intReply
  split
  · exact post_err H _
  · exact post_int H _

theorem post_intReplyNilOk (H : s.All W P) (r : Ret Int) : Wp (intReplyNilOk s r) (TPost W P R) := by
  unfold intReplyNilOk
  split
  · exact post_int H _
  · exact post_err H _
  · exact post_int H _

theorem post_arrReply (H : s.All W P) {r : Ret (List Bytes)} (hr : ∀ t ∈ r.1, R t) {o : Response} (ho : o.items = []) :
    Wp (arrReply s o r) (TPost W P R) := by
  unfold arrReply
  split
  · exact post_ok H fun i hi => by rw [ho] at hi; cases hi
  · exact post_err H _
  · exact post_bulks H hr _

/-! ## loading an object -/

theorem all_loadList (H : s.All W P) (k : Bytes) (b : Bool) : Wp (s.loadList k b) (fun r => ∀ p, r = .ok p → LObj.All W p.2.nodes) := by
  unfold Store.loadList
  split
  · exact Wp.pure fun p hp => by cases hp
  · split
    · exact Wp.error
    · split
      · next hl =>
        have hl := H.heap _ (List.mem_of_getElem? hl)
        split
        · exact Wp.pure fun p hp => by cases hp
        · exact Wp.pure fun p hp => by cases hp; exact hl
      · exact Wp.error

theorem all_loadSet (H : s.All W P) (k : Bytes) (b : Bool) : Wp (s.loadSet k b) (fun r => ∀ p, r = .ok p → p.2.All W) := by
  unfold Store.loadSet
  split
  · exact Wp.pure fun p hp => by cases hp
  · split
    · exact Wp.error
    · split
      · next hl =>
        have hl := H.heap _ (List.mem_of_getElem? hl)
        split
        · exact Wp.pure fun p hp => by cases hp
        · exact Wp.pure fun p hp => by cases hp; exact hl
      · exact Wp.error

theorem all_loadZSet (H : s.All W P) (k : Bytes) (b : Bool) : Wp (s.loadZSet k b) (fun r => ∀ p, r = .ok p → p.2.All W) := by
  unfold Store.loadZSet
  split
  · exact Wp.pure fun p hp => by cases hp
  · split
    · exact Wp.error
    · split
      · next hl =>
        have hl := H.heap _ (List.mem_of_getElem? hl)
        split
        · exact Wp.pure fun p hp => by cases hp
        · exact Wp.pure fun p hp => by cases hp; exact hl
      · exact Wp.error

theorem no_loadHash (H : s.All W P) (k : Bytes) (b : Bool) : Wp (s.loadHash k b) (fun r => ∃ e, r = .error e) := by
  unfold Store.loadHash
  split
  · exact Wp.pure ⟨_, rfl⟩
  · split
    · exact Wp.error
    · split
      · next hl => exact (H.heap _ (List.mem_of_getElem? hl)).elim
      · exact Wp.error

/-! ## strings -/

theorem all_mSet (G : Grows W P) : ∀ (l : List Bytes) {s : Store}, s.All W P → (∀ a ∈ l, W a) → (s.mSet l).All W P
  | k :: v :: rest, s, H, ha => by
    unfold Store.mSet
    exact all_mSet G rest (H.setStr (ha k (by simp)) (G.word (ha v (by simp))) rfl) fun a h => ha a (by simp [h])
  | [], s, H, _ => by unfold Store.mSet; exact H
  | [_], s, H, _ => by unfold Store.mSet; exact H

theorem all_append (G : Grows W P) (H : s.All W P) (hk : W k) {v : Bytes} (hv : W v) : Wp (s.append k v) (fun q => q.1.All W P) := by
  unfold Store.append
  split
  · exact Wp.pure (H.setStr hk (G.word hv) rfl)
  · next hi =>
    have hp := (H.keys.get hi).2.2
    split
    · exact Wp.pure H
    · next ht =>
      split
      · next he => exact Wp.pure (H.setStr hk (G.app (hp _ he) hv) (not_not.mp ht))
      · exact Wp.error

theorem all_incrBy (G : Grows W P) (H : s.All W P) (hk : W k) {i : Int} (hi : -2 ^ 63 ≤ i ∧ i < 2 ^ 63) : Wp (s.incrBy k i) (fun q => q.1.All W P) := by
  unfold Store.incrBy
  split
  · exact Wp.pure (H.setStr hk (G.int _ hi) rfl)
  · split
    · exact Wp.pure H
    · next ht =>
      split
      · split
        · exact Wp.pure H
        · exact Wp.pure (H.setStr hk (G.int _ (wrap64_range _)) (not_not.mp ht))
      · exact Wp.error

theorem all_get (H : s.All W P) (k : Bytes) : Wp (s.get k) (fun q => q.2 = none → P q.1) := by
  unfold Store.get
  split
  · exact Wp.pure fun h => by cases h
  · next hi =>
    have hp := (H.keys.get hi).2.2
    split
    · exact Wp.pure fun h => by cases h
    · split
      · next he => exact Wp.pure fun _ => hp _ he
      · exact Wp.error

theorem all_mGet (H : s.All W P) : ∀ ks, Wp (s.mGet ks) (fun vs => ∀ t, Store.MGetItem.str t ∈ vs → P t)
  | [] => by unfold Store.mGet; exact Wp.pure fun _ h => by cases h
  | k :: ks => by
    unfold Store.mGet
    refine (all_get H k).bind fun q _ hq => (all_mGet H ks).bind fun rest _ hr => Wp.pure fun t ht => ?_
    rcases List.mem_cons.mp ht with ht | ht
    · split at ht
      · cases ht
      · cases ht
      · next he => cases ht; exact hq he
    · exact hr t ht

/-! ## lists, sets, sorted sets -/

theorem all_push (H : s.All W P) (hk : W k) {l : LObj} (hl : LObj.All W l.nodes) (n : Ret Int) :
    Wp (Except.ok (s.putNew k .list (.list l), n) : Go (Store × Ret Int)) (fun q => q.1.All W P) := Wp.pure (H.putNew hk (by decide) (o := .list l) hl)

theorem all_lPushS (H : s.All W P) (hk : W k) {vs : List Bytes} (hv : ∀ a ∈ vs, W a) : Wp (s.lPush k vs) (fun q => q.1.All W P) := by
  unfold Store.lPush
  refine (all_loadList H k false).bind fun r _ hr => ?_
  split
  · exact (LObj.all_lPushAll vs LObj.All.nil hv).bind fun l _ hl => all_push H hk hl _
  · exact Wp.pure H
  · exact (LObj.all_lPushAll vs (hr _ rfl) hv).bind fun l _ hl => Wp.pure (H.write (o := .list l) hl)

theorem all_rPushS (H : s.All W P) (hk : W k) {vs : List Bytes} (hv : ∀ a ∈ vs, W a) : Wp (s.rPush k vs) (fun q => q.1.All W P) := by
  unfold Store.rPush
  refine (all_loadList H k false).bind fun r _ hr => ?_
  split
  · exact (LObj.all_rPushAll vs LObj.All.nil hv).bind fun l _ hl => all_push H hk hl _
  · exact Wp.pure H
  · exact (LObj.all_rPushAll vs (hr _ rfl) hv).bind fun l _ hl => Wp.pure (H.write (o := .list l) hl)

theorem all_lPopS (H : s.All W P) (n : Int) : Wp (s.lPop k n) (fun q => q.1.All W P ∧ ∀ t ∈ q.2.1, W t ∨ t = []) := by
  unfold Store.lPop
  refine (all_loadList H k true).bind fun r _ hr => ?_
  split
  · exact Wp.pure ⟨H, fun _ h => by cases h⟩
  · exact (LObj.all_lPopLoop _ _ (hr _ rfl)).bind fun q _ ⟨h1, h2⟩ => Wp.pure ⟨H.write (o := .list q.1) h1, h2⟩

theorem all_rPopS (H : s.All W P) (n : Int) : Wp (s.rPop k n) (fun q => q.1.All W P ∧ ∀ t ∈ q.2.1, W t ∨ t = []) := by
  unfold Store.rPop
  refine (all_loadList H k false).bind fun r _ hr => ?_
  split
  · exact Wp.pure ⟨H, fun _ h => by cases h⟩
  · exact (LObj.all_rPopLoop _ _ (hr _ rfl)).bind fun q _ ⟨h1, h2⟩ => Wp.pure ⟨H.write (o := .list q.1) h1, h2⟩

theorem all_lRangeS (H : s.All W P) (a b : Int) : Wp (s.lRange k a b) (fun q => ∀ t ∈ q.1, W t ∨ t = []) := by
  unfold Store.lRange
  refine (all_loadList H k true).bind fun r _ hr => ?_
  split
  · exact Wp.pure fun _ h => by cases h
  · exact (LObj.all_lRange (hr _ rfl) _ _).bind fun vs _ h => Wp.pure h

theorem all_lRemS (H : s.All W P) (n : Int) (v : Bytes) : Wp (s.lRem k n v) (fun q => q.1.All W P) := by
  unfold Store.lRem
  refine (all_loadList H k true).bind fun r _ hr => ?_
  split
  · exact Wp.pure H
  · split
    · exact (LObj.all_lRemCountFromHead (hr _ rfl) _ _).bind fun q _ h => Wp.pure (H.write (o := .list q.1) h)
    · split
      · exact (LObj.all_lRemCountFromTail (hr _ rfl) _ _).bind fun q _ h => Wp.pure (H.write (o := .list q.1) h)
      · exact (LObj.all_lRemCountFromHead (hr _ rfl) _ _).bind fun q _ h => Wp.pure (H.write (o := .list q.1) h)

theorem all_lIndexS (H : s.All W P) (i : Int) : Wp (s.lIndex k i) (fun q => W q.1 ∨ q.1 = []) := by
  unfold Store.lIndex
  refine (all_loadList H k true).bind fun r _ hr => ?_
  split
  · exact Wp.pure (.inr rfl)
  · refine (LObj.all_lIndex (hr _ rfl) _).bind fun o _ h => ?_
    split
    · exact Wp.pure (.inr rfl)
    · exact Wp.pure (h _ rfl)

theorem all_lSetS (H : s.All W P) (i : Int) {v : Bytes} (hv : W v) : Wp (s.lSet k i v) (fun q => q.1.All W P) := by
  unfold Store.lSet
  refine (all_loadList H k true).bind fun r _ hr => ?_
  split
  · exact Wp.pure H
  · exact (LObj.all_lSet (hr _ rfl) _ hv).bind fun q _ h => Wp.pure (H.write (o := .list q.1) h)

theorem all_lInsertS (H : s.All W P) (p : Bytes) (i : Int) {v : Bytes} (hv : W v) : Wp (s.lInsert k p v i) (fun q => q.1.All W P) := by
  unfold Store.lInsert
  refine (all_loadList H k true).bind fun r _ hr => ?_
  split
  · exact Wp.pure H
  · refine (LObj.all_lInsert (hr _ rfl) _ hv _).bind fun q _ h => ?_
    dsimp only
    split
    · exact Wp.pure (H.write (o := .list q.1) h)
    · exact Wp.pure (H.write (o := .list q.1) h)

theorem all_sAddS (H : s.All W P) (hk : W k) {vs : List Bytes} (hv : ∀ a ∈ vs, W a) : Wp (s.sAdd k vs) (fun q => q.1.All W P) := by
  unfold Store.sAdd
  refine (all_loadSet H k false).bind fun r _ hr => ?_
  split
  · exact Wp.pure (H.putNew hk (by decide) (o := .set _) (SObj.All.sAddAll vs SObj.All.empty hv))
  · exact Wp.pure H
  · exact Wp.pure (H.write (o := .set _) (SObj.All.sAddAll vs (hr _ rfl) hv))

theorem all_sRemS (H : s.All W P) (vs : List Bytes) : Wp (s.sRem k vs) (fun q => q.1.All W P) := by
  unfold Store.sRem
  refine (all_loadSet H k true).bind fun r _ hr => ?_
  split
  · exact Wp.pure H
  · exact Wp.pure (H.write (o := .set _) (SObj.All.sRemAll vs (hr _ rfl)))

theorem all_sMembers (H : s.All W P) : Wp (Store.sMembers it s k) (fun q => ∀ t ∈ q.1, W t) := by
  unfold Store.sMembers
  refine (all_loadSet H k true).bind fun r _ hr => ?_
  split
  · exact Wp.pure fun _ h => by cases h
  · exact Wp.pure fun t ht => SMap.All.keys (hr _ rfl) it ht

theorem all_sMove (H : s.All W P) {dst v : Bytes} (hd : W dst) (hv : W v) : Wp (s.sMove k dst v) (fun q => q.1.All W P) := by
  unfold Store.sMove
  refine (all_loadSet H k true).bind fun r _ hr => ?_
  split
  · exact Wp.pure H
  · dsimp only
    have H1 := fun (r : Nat) (n : Int) => H.write (r := r) (o := .set ⟨_, n⟩) (SMap.All.deleteIfExists (hr _ rfl) v)
    split
    · exact Wp.pure (H1 _ _)
    · exact all_sAddS (H1 _ _) hd fun a ha => by rw [List.mem_singleton.mp ha]; exact hv

theorem all_setOp (op : Store.SetOp) {a b : SObj} (ha : a.All W) (hb : b.All W) : (op.apply it a b).All W := by
  cases op
  · exact ha.sDiff it b
  · exact ha.sInter it b
  · exact ha.sUnion hb it

theorem all_setOpLoop (H : s.All W P) (op : Store.SetOp) : ∀ keys res, (∀ p, res = some p → SObj.All W p.2) →
    Wp (Store.setOpLoop it op s keys res) (fun r => ∀ p, r = .ok (some p) → SObj.All W p.2)
  | [], res, hres => by
    unfold Store.setOpLoop
    exact Wp.pure fun p hp => by cases hp; exact hres _ rfl
  | key :: keys, res, hres => by
    unfold Store.setOpLoop
    refine (all_loadSet H key true).bind fun r _ hr => ?_
    split
    · exact Wp.pure fun p hp => by cases hp
    · split
      · exact all_setOpLoop H op keys _ fun p hp => by cases hp; exact hr _ rfl
      · exact all_setOpLoop H op keys _ fun p hp => by cases hp; exact all_setOp op (hres _ rfl) (hr _ rfl)

theorem all_sOp (H : s.All W P) (op : Store.SetOp) (keys : List Bytes) : Wp (Store.sOp it op s keys) (fun q => ∀ t ∈ q.1, W t) := by
  unfold Store.sOp
  refine (all_setOpLoop H op keys none fun _ h => by cases h).bind fun r _ hr => ?_
  split
  · exact Wp.pure fun _ h => by cases h
  · exact Wp.pure fun _ h => by cases h
  · split
    · exact Wp.pure fun _ h => by cases h
    · exact Wp.pure fun t ht => SMap.All.keys (hr _ rfl) it ht

theorem all_sOpStore (H : s.All W P) (op : Store.SetOp) (hk : W k) (keys : List Bytes) : Wp (Store.sOpStore it op s k keys) (fun q => q.1.All W P) := by
  unfold Store.sOpStore
  refine (all_setOpLoop H op keys none fun _ h => by cases h).bind fun r _ hr => ?_
  split
  · exact Wp.pure H
  · exact Wp.pure (H.putNew hk (by decide) (o := .set _) SObj.All.empty)
  · exact Wp.pure (H.putNew hk (by decide) (o := .set _) (hr _ rfl))
  · exact Wp.pure (H.alias hk _)

theorem all_sPopS (H : s.All W P) (n : Int) : Wp (Store.sPop it s k n) (fun q => q.1.All W P ∧ ∀ t ∈ q.2.1, W t) := by
  unfold Store.sPop
  refine (all_loadSet H k true).bind fun r _ hr => ?_
  split
  · exact Wp.pure ⟨H, fun _ h => by cases h⟩
  · have := SObj.All.sPop (hr _ rfl) it n
    exact Wp.pure ⟨H.write (o := .set _) this.1, this.2⟩

open ZSL (Seen)

theorem all_zAddS (H : s.All W P) (hk : W k) {ms : List (F64 × Bytes)} (hm : ∀ m ∈ ms, W m.2) (flag : ZAddFlags) :
    Wp (s.zAdd ext k ms flag) (fun q => q.1.All W P) := by
  unfold Store.zAdd
  refine (all_loadZSet H k false).bind fun r _ hr => ?_
  split
  · exact (ZObj.all_zAddAll flag ms _ ZObj.All.empty hm).bind fun q _ h => Wp.pure ((H.putNew hk (by decide) (o := .zset q.1) h).reroll _)
  · exact Wp.pure H
  · exact (ZObj.all_zAddAll flag ms _ (hr _ rfl) hm).bind fun q _ h => Wp.pure ((H.write (o := .zset q.1) h).reroll _)

theorem all_zRemS (H : s.All W P) (vs : List Bytes) : Wp (s.zRem k vs) (fun q => q.1.All W P) := by
  unfold Store.zRem
  refine (all_loadZSet H k true).bind fun r _ hr => ?_
  split
  · exact Wp.pure H
  · exact (ZObj.all_zRemAll vs (hr _ rfl)).bind fun q _ h => Wp.pure (H.write (o := .zset q.1) h)

theorem all_zIncr (H : s.All W P) (hk : W k) (sc : F64) {v : Bytes} (hv : W v) : Wp (s.zIncr ext k sc v) (fun q => q.1.All W P) := by
  unfold Store.zIncr
  refine (all_loadZSet H k false).bind fun r _ hr => ?_
  split
  · refine (ZObj.all_zAdd ZObj.All.empty sc hv _ _).bind fun q _ h => ?_
    have H1 := (H.putNew hk (tp := .sortedSet) (by decide) (o := .zset q.1) h).reroll q.2.2
    dsimp only
    split
    · exact Wp.pure H1
    · exact (Wp.triv _).bind fun n _ _ => Wp.pure H1
  · exact Wp.pure H
  · refine (ZObj.all_zAdd (hr _ rfl) sc hv _ _).bind fun q _ h => ?_
    have H1 := fun r => (H.write (r := r) (o := .zset q.1) h).reroll q.2.2
    dsimp only
    split
    · exact Wp.pure (H1 _)
    · exact (Wp.triv _).bind fun n _ _ => Wp.pure (H1 _)

theorem all_zRangeS (H : s.All W P) (a b : Bytes) (f : Store.ZRangeFlags) : Wp (s.zRange ext k a b f) (fun q => ∀ t ∈ q.1, Seen ext W t) := by
  unfold Store.zRange
  refine (all_loadZSet H k true).bind fun r _ hr => ?_
  split
  · exact Wp.pure fun _ h => by cases h
  · split
    · split
      · exact Wp.pure fun _ h => by cases h
      · split
        · exact Wp.pure fun _ h => by cases h
        · exact (ZSL.all_zRangeByScore (hr _ rfl) _ _ _ _ _).bind fun vs _ h => Wp.pure h
    · split
      · exact Wp.pure fun _ h => by cases h
      · split
        · exact Wp.pure fun _ h => by cases h
        · exact (ZSL.all_zRange (hr _ rfl) _ _ _).bind fun vs _ h => Wp.pure h

theorem all_zRevRangeS (H : s.All W P) (a b : Bytes) (f : Bool) : Wp (s.zRevRange ext k a b f) (fun q => ∀ t ∈ q.1, Seen ext W t) := by
  unfold Store.zRevRange
  refine (all_loadZSet H k true).bind fun r _ hr => ?_
  split
  · exact Wp.pure fun _ h => by cases h
  · split
    · exact Wp.pure fun _ h => by cases h
    · split
      · exact Wp.pure fun _ h => by cases h
      · exact (ZSL.all_zRevRange (hr _ rfl) _ _ _).bind fun vs _ h => Wp.pure h

theorem all_zPopMinS (H : s.All W P) (n : Int) : Wp (s.zPopMin ext k n) (fun q => q.1.All W P ∧ ∀ t ∈ q.2.1, Seen ext W t) := by
  unfold Store.zPopMin
  refine (all_loadZSet H k true).bind fun r _ hr => ?_
  split
  · exact Wp.pure ⟨H, fun _ h => by cases h⟩
  · exact (ZObj.all_zPopMinLoop _ (hr _ rfl)).bind fun q _ ⟨h1, h2⟩ => Wp.pure ⟨H.write (o := .zset ⟨_, q.1⟩) h1, h2⟩

theorem all_zPopMaxS (H : s.All W P) (n : Int) : Wp (s.zPopMax ext k n) (fun q => q.1.All W P ∧ ∀ t ∈ q.2.1, Seen ext W t) := by
  unfold Store.zPopMax
  refine (all_loadZSet H k true).bind fun r _ hr => ?_
  split
  · exact Wp.pure ⟨H, fun _ h => by cases h⟩
  · exact (ZObj.all_zPopMaxLoop _ (hr _ rfl)).bind fun q _ ⟨h1, h2⟩ => Wp.pure ⟨H.write (o := .zset ⟨_, q.1⟩) h1, h2⟩

end Godis
