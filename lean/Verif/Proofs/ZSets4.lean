import Verif.Proofs.ZSets3
/-! Sorted-set commands that read are answered. -/
namespace Godis
open Resp (Reply bulks)
open ZSpec
open ZSL (Elem)
open ListSpec (errType errArgs errNil errRange window)
open StrSpec (int64 lower isError Ascii setStores)
open KeySpec (KView foreign)

variable {s s' : Store} {k : Bytes} {ext : Ext} {it : Iter} {c : Cmd} {args : List Bytes} {m : Reply} {w : Bytes → ZView} {N : Num}

/-- the command is answered, and nothing changes -/
def Served (c : Cmd) (ext : Ext) (it : Iter) (s : Store) (args : List Bytes) : Prop :=
  ∃ o m, c.fn ext it s args = .ok (s, o) ∧ (setRsp o).reply = some m

theorem served_arr (r : Ret (List Bytes)) : ∃ o m, arrReply s newResponseWithNilBulk r = .ok (s, o) ∧ (setRsp o).reply = some m := by
  obtain ⟨l, _ | e⟩ := r
  · exact ⟨_, bulks l, rfl, by simp only [setRsp_ok, reply_bulks]⟩
  · cases e <;> exact ⟨_, _, rfl, rfl⟩

theorem served_zcard (ht : Typed s) (hw : ZAll s w) (hd : ∀ k ∈ args.head?, w k ≠ .here none) : Served .zCard ext it s args := by
  rcases args with _ | ⟨k, rest⟩
  · exact ⟨_, _, rfl, rfl⟩
  have hd := hd k rfl
  have hl := zload ht (hw k)
  generalize w k = v at hl hd
  unfold Served
  simp only [Cmd.fn, cmdZCard, Store.zCard]
  cases hl with
  | absent hg hl => simp only [hl, bind, Except.bind]; exact ⟨_, _, rfl, rfl⟩
  | other hl => simp only [hl, bind, Except.bind]; exact ⟨_, _, rfl, rfl⟩
  | @here r zs v hg ho hi hl =>
    cases v with
    | none => exact absurd rfl hd
    | some z =>
      rcases zload_true hi hl with ⟨h0, hl⟩ | ⟨h0, hl⟩ <;> (simp only [hl, bind, Except.bind]; exact ⟨_, _, rfl, rfl⟩)

theorem served_zscore (ht : Typed s) (hw : ZAll s w) (hd : ∀ k ∈ args.head?, w k ≠ .here none) : Served .zScore ext it s args := by
  rcases args with _ | ⟨k, _ | ⟨x, rest⟩⟩
  · exact ⟨_, _, rfl, rfl⟩
  · exact ⟨_, _, rfl, rfl⟩
  have hd := hd k rfl
  have hl := zload ht (hw k)
  generalize w k = v at hl hd
  unfold Served
  simp only [Cmd.fn, cmdZScore, Store.zScore]
  cases hl with
  | absent hg hl => simp only [hl, bind, Except.bind]; exact ⟨_, _, rfl, rfl⟩
  | other hl => simp only [hl, bind, Except.bind]; exact ⟨_, _, rfl, rfl⟩
  | @here r zs v hg ho hi hl =>
    cases v with
    | none => exact absurd rfl hd
    | some z =>
      rcases zload_true hi hl with ⟨h0, hl⟩ | ⟨h0, hl⟩
      · simp only [hl, bind, Except.bind]; exact ⟨_, _, rfl, rfl⟩
      · obtain ⟨q, hi⟩ := hi
        simp only [hl, bind, Except.bind]
        cases hd : z.dict x with
        | none => simp only [hi.dict_none hd]; exact ⟨_, _, rfl, rfl⟩
        | some sc =>
          obtain ⟨a, n, h1, h2, h3, h4⟩ := hi.dict_some hd
          simp only [h1, h3, h4]; exact ⟨_, _, rfl, rfl⟩

theorem served_zrank (ht : Typed s) (hw : ZAll s w) (hd : ∀ k ∈ args.head?, w k ≠ .here none) : Served .zRank ext it s args := by
  rcases args with _ | ⟨k, _ | ⟨x, rest⟩⟩
  · exact ⟨_, _, rfl, rfl⟩
  · exact ⟨_, _, rfl, rfl⟩
  have hd := hd k rfl
  have hl := zload ht (hw k)
  generalize w k = v at hl hd
  unfold Served
  simp only [Cmd.fn, cmdZRank, Store.zRank]
  cases hl with
  | absent hg hl => simp only [hl, bind, Except.bind]; exact ⟨_, _, rfl, rfl⟩
  | other hl => simp only [hl, bind, Except.bind]; exact ⟨_, _, rfl, rfl⟩
  | @here r zs v hg ho hi hl =>
    cases v with
    | none => exact absurd rfl hd
    | some z =>
      rcases zload_true hi hl with ⟨h0, hl⟩ | ⟨h0, hl⟩
      · simp only [hl, bind, Except.bind]; exact ⟨_, _, rfl, rfl⟩
      · obtain ⟨q, hi⟩ := hi
        simp only [hl, bind, Except.bind]
        cases hd : z.dict x with
        | none => simp only [hi.dict_none hd]; exact ⟨_, _, rfl, rfl⟩
        | some sc =>
          obtain ⟨a, n, h1, h2, h3, h4⟩ := hi.dict_some hd
          simp only [h1, h3, h4, rank_entry hi.rep hi.ord]
          exact ⟨_, _, rfl, rfl⟩

theorem served_zcount (ht : Typed s) (hw : ZAll s w) (hsm : ∀ k, zlen (w k) + args.length + 1 < 2 ^ 63) (hd : ∀ k ∈ args.head?, w k ≠ .here none) :
    Served .zCount ext it s args := by
  rcases args with _ | ⟨k, _ | ⟨a, _ | ⟨b, rest⟩⟩⟩
  · exact ⟨_, _, rfl, rfl⟩
  · exact ⟨_, _, rfl, rfl⟩
  · exact ⟨_, _, rfl, rfl⟩
  have hd := hd k rfl
  have hsm := hsm k
  have hl := zload ht (hw k)
  generalize w k = v at hl hd hsm
  unfold Served
  simp only [Cmd.fn, cmdZCount, Store.zCount]
  cases hl with
  | absent hg hl => simp only [hl, bind, Except.bind]; exact ⟨_, _, rfl, rfl⟩
  | other hl => simp only [hl, bind, Except.bind]; exact ⟨_, _, rfl, rfl⟩
  | @here r zs v hg ho hi hl =>
    cases v with
    | none => exact absurd rfl hd
    | some z =>
      rcases zload_true hi hl with ⟨h0, hl⟩ | ⟨h0, hl⟩
      · simp only [hl, bind, Except.bind]; exact ⟨_, _, rfl, rfl⟩
      · obtain ⟨q, hi⟩ := hi
        simp only [hl, bind, Except.bind, bound_eq]
        cases h1 : bound (numOf ext) (toLower ext.lowerUni a) with
        | none => simp only [Option.elim]; exact ⟨_, _, rfl, rfl⟩
        | some lo =>
          cases h2 : bound (numOf ext) (toLower ext.lowerUni b) with
          | none => simp only [Option.elim]; exact ⟨_, _, rfl, rfl⟩
          | some hi' =>
            simp only [zlen, hi.length] at hsm
            obtain ⟨n, c1, c2⟩ := count_eq hi.rep hi.ord (by omega) lo hi'
            simp only [c1, Option.elim]; exact ⟨_, _, rfl, rfl⟩

theorem served_byscore {zs : ZObj} {z : ZVal} {q : List Elem} (hi : ZRep zs z q) (hsm : q.length + 1 < 2 ^ 63) (a b : Bytes) (ws : Bool) :
    ∃ r, (match Store.handleFloatScoreStr ext a with
      | .error e => (Except.ok ([], some e) : Go (Ret (List Bytes)))
      | .ok (mn, mnO) =>
        match Store.handleFloatScoreStr ext b with
        | .error e => (Except.ok ([], some e) : Go (Ret (List Bytes)))
        | .ok (mx, mxO) => (do
          let vs ← zs.zsl.zRangeByScore ext mn mnO mx mxO ws
          .ok (vs, none) : Go (Ret (List Bytes)))) = .ok r := by
  simp only [bound_eq]
  cases h1 : bound (numOf ext) a with
  | none => exact ⟨_, rfl⟩
  | some lo =>
    cases h2 : bound (numOf ext) b with
    | none => exact ⟨_, rfl⟩
    | some hi' =>
      obtain ⟨l, c1, c2⟩ := zRangeByScore_eq (ext := ext) hi.rep hi.ord hsm lo hi' ws
      simp only [c1, bind, Except.bind, Option.elim]; exact ⟨_, rfl⟩

theorem served_zrangebyscore (ht : Typed s) (hw : ZAll s w) (hsm : ∀ k, zlen (w k) + args.length + 1 < 2 ^ 63) (hd : ∀ k ∈ args.head?, w k ≠ .here none) :
    Served .zRangeByScore ext it s args := by
  rcases args with _ | ⟨k, _ | ⟨a, _ | ⟨b, rest⟩⟩⟩
  · exact ⟨_, _, rfl, rfl⟩
  · exact ⟨_, _, rfl, rfl⟩
  · exact ⟨_, _, rfl, rfl⟩
  have hd := hd k rfl
  have hsm := hsm k
  have hl := zload ht (hw k)
  generalize w k = v at hl hd hsm
  unfold Served
  simp only [Cmd.fn, cmdZRangeByScore, Store.zRange]
  cases hl with
  | absent hg hl => simp only [hl, bind, Except.bind]; exact ⟨_, _, rfl, rfl⟩
  | other hl => simp only [hl, bind, Except.bind]; exact ⟨_, _, rfl, rfl⟩
  | @here r zs v hg ho hi hl =>
    cases v with
    | none => exact absurd rfl hd
    | some z =>
      rcases zload_true hi hl with ⟨h0, hl⟩ | ⟨h0, hl⟩
      · simp only [hl, bind, Except.bind]; exact ⟨_, _, rfl, rfl⟩
      · obtain ⟨q, hi⟩ := hi
        simp only [zlen, hi.length] at hsm
        obtain ⟨r', hr⟩ := served_byscore (ext := ext) hi (by omega) a b false
        simp only [hl, bind, Except.bind, if_true]
        split
        · next he => cases he.symm.trans hr
        · next v _ => exact served_arr v

theorem served_zrange (ht : Typed s) (hw : ZAll s w) (hsm : ∀ k, zlen (w k) + args.length + 1 < 2 ^ 63) (hd : ∀ k ∈ args.head?, w k ≠ .here none) :
    Served .zRange ext it s args := by
  rcases args with _ | ⟨k, _ | ⟨a, _ | ⟨b, rest⟩⟩⟩
  · exact ⟨_, _, rfl, rfl⟩
  · exact ⟨_, _, rfl, rfl⟩
  · exact ⟨_, _, rfl, rfl⟩
  have hd := hd k rfl
  have hsm := hsm k
  have hl := zload ht (hw k)
  generalize w k = v at hl hd hsm
  unfold Served
  simp only [Cmd.fn, cmdZRange, Store.zRange]
  cases hl with
  | absent hg hl => simp only [hl, bind, Except.bind]; exact ⟨_, _, rfl, rfl⟩
  | other hl => simp only [hl, bind, Except.bind]; exact ⟨_, _, rfl, rfl⟩
  | @here r zs v hg ho hi hl =>
    cases v with
    | none => exact absurd rfl hd
    | some z =>
      rcases zload_true hi hl with ⟨h0, hl⟩ | ⟨h0, hl⟩
      · simp only [hl, bind, Except.bind]; exact ⟨_, _, rfl, rfl⟩
      · obtain ⟨q, hi⟩ := hi
        simp only [zlen, hi.length] at hsm
        simp only [hl, bind, Except.bind]
        generalize Godis.hasWord ext (b! "withscores") (b :: rest) = ws
        by_cases hb : Godis.hasWord ext (b! "byscore") (b :: rest) = true
        · obtain ⟨r', hr⟩ := served_byscore (ext := ext) hi (by omega) a b ws
          simp only [hb, if_true]
          split
          · next he => cases he.symm.trans hr
          · next v _ => exact served_arr v
        · simp only [hb, Bool.false_eq_true, if_false]
          cases h1 : atoi a with
          | none => exact ⟨_, _, rfl, rfl⟩
          | some start =>
            cases h2 : atoi b with
            | none => exact ⟨_, _, rfl, rfl⟩
            | some stop => simp only [zRange_win hi.rep]; exact served_arr (_, none)

theorem served_zrevrange (ht : Typed s) (hw : ZAll s w) (hd : ∀ k ∈ args.head?, w k ≠ .here none) : Served .zRevRange ext it s args := by
  rcases args with _ | ⟨k, _ | ⟨a, _ | ⟨b, rest⟩⟩⟩
  · exact ⟨_, _, rfl, rfl⟩
  · exact ⟨_, _, rfl, rfl⟩
  · exact ⟨_, _, rfl, rfl⟩
  have hd := hd k rfl
  have hl := zload ht (hw k)
  generalize w k = v at hl hd
  unfold Served
  simp only [Cmd.fn, cmdZRevRange, Store.zRevRange]
  cases hl with
  | absent hg hl => simp only [hl, bind, Except.bind]; exact ⟨_, _, rfl, rfl⟩
  | other hl => simp only [hl, bind, Except.bind]; exact ⟨_, _, rfl, rfl⟩
  | @here r zs v hg ho hi hl =>
    cases v with
    | none => exact absurd rfl hd
    | some z =>
      rcases zload_true hi hl with ⟨h0, hl⟩ | ⟨h0, hl⟩
      · simp only [hl, bind, Except.bind]; exact ⟨_, _, rfl, rfl⟩
      · obtain ⟨q, hi⟩ := hi
        simp only [hl, bind, Except.bind]
        cases h1 : atoi a with
        | none => exact ⟨_, _, rfl, rfl⟩
        | some start =>
          cases h2 : atoi b with
          | none => exact ⟨_, _, rfl, rfl⟩
          | some stop => simp only [zRevRange_win hi.rep]; exact served_arr (_, none)

/-- the commands that read sorted sets -/
def zreaders : List Bytes :=
  [b! "zscore", b! "zrank", b! "zcard", b! "zcount", b! "zrange", b! "zrangebyscore", b! "zrevrange"]

theorem zset_served (hc : c.name ∈ zreaders) (ht : Typed s) (hw : ZAll s w) (hsm : ∀ k, zlen (w k) + args.length + 1 < 2 ^ 63)
    (hd : ∀ k ∈ args.head?, w k ≠ .here none) : Served c ext it s args := by
  cases c <;> first
    | exact absurd hc (by decide)
    | exact served_zscore ht hw hd
    | exact served_zrank ht hw hd
    | exact served_zcard ht hw hd
    | exact served_zcount ht hw hsm hd
    | exact served_zrange ht hw hsm hd
    | exact served_zrangebyscore ht hw hsm hd
    | exact served_zrevrange ht hw hd

/-- a reading command replies `m` if the specification allows nothing else -/
theorem ZGood.reads {name : Bytes} (hg : ZGood s w) (hn : Ascii name) (hc : lower name ∈ zreaders)
    (hsm : ∀ k, zlen (w k) + args.length + 1 < 2 ^ 63) (hd : ∀ k ∈ args.head?, w k ≠ .here none)
    (hm : ∀ m', Fits (numOf ext) w (lower name) args m' → m' = m) : Reads ext s (name :: args) m := by
  intro it
  have hl : ∃ c, lookupCmd (lower name) = some c := by
    have hall : ∀ n ∈ zreaders, (lookupCmd n).isSome := by decide
    exact Option.isSome_iff_exists.mp (hall _ hc)
  obtain ⟨c, hl⟩ := hl
  have hcn := lookup_name hl
  have hl' : lookupCmd (toLower ext.lowerUni name) = some c := by rw [lower_eq hn]; exact hl
  obtain ⟨o, m', h1, h2⟩ := zset_served (ext := ext) (it := it) (c := c) (by rw [← hcn]; exact hc) hg.typed hg.all hsm hd
  have ha : Answers ext it s (name :: args) m' s := (answers_iff hl').mpr ⟨o, h1, h2⟩
  have hcc : lower name ∈ commands := by
    have hall : ∀ n ∈ zreaders, n ∈ commands := by decide
    exact hall _ hc
  have hf := (hg.step (req := name :: args) (by simpa [Named] using hn) (fun k => by have := hsm k; simp; omega) ha).2 hcc
  rw [← hm m' hf]
  exact ha

theorem Trace.zreads {rng tr} {name : Bytes} (h : Trace ext (Store.init rng) tr s) (hp : ∀ p ∈ tr, Named p.1)
    (hsm : words tr + args.length < 2 ^ 62) (hn : Ascii name) (hc : lower name ∈ zreaders)
    (hd : ∀ k ∈ args.head?, after (numOf ext) tr k ≠ .here none)
    (hm : ∀ m', Fits (numOf ext) (after (numOf ext) tr) (lower name) args m' → m' = m) : Reads ext s (name :: args) m := by
  refine (h.zgood hp (by omega)).reads hn hc (fun k => ?_) hd hm
  have := zlen_after ext tr k
  omega

end Godis
