import Verif.Props.Defs
import Verif.Spec.ZSets
import Verif.Spec.Lists
/-! Vocabulary for the sorted-set properties. -/
namespace Godis
open Resp (Reply)
open ZSpec
open StrSpec (Ascii)

/-- the library functions the server uses: `strconv.ParseFloat`, `strconv.FormatFloat`, float64 addition,
`strings.ToLower` -/
def numOf (ext : Ext) : Num := ⟨ext.parseFloat, ext.formatFloat, ext.fadd, toLower ext.lowerUni⟩

/-- the request has an ASCII name -/
def Named (req : List Bytes) : Prop := ∀ name ∈ req.head?, Ascii name

instance (req : List Bytes) : Decidable (Named req) := by unfold Named Ascii; infer_instance

/-- `tr` is the complete history of a server that started empty (with some source of random heights) and is now in the
store `s`; command names are ASCII, and fewer than 2^61 words were sent. -/
def History (ext : Ext) (tr : List (List Bytes × Reply)) (s : Store) : Prop :=
  (∃ rng, Trace ext (Store.init rng) tr s) ∧ (∀ p ∈ tr, Named p.1) ∧ words tr < 2 ^ 61

/-- the entries are numbers in ascending order and every member occurs once -/
structure Entries (l : List Entry) : Prop where
  num : ∀ e ∈ l, e.1.isNaN = false
  ascending : l.Pairwise (fun a b => before a b = true)
  once : (members l).Nodup

/-- All views of the sorted set at `k` agree that its entries are `l`, in this order. -/
structure Shown (ext : Ext) (s : Store) (k : Bytes) (l : List Entry) : Prop where
  entries : Entries l
  /-- ZRANGE 0 -1 WITHSCORES lists them -/
  scores : Reads ext s [b! "zrange", k, b! "0", b! "-1", b! "WITHSCORES"] (if l = [] then .bulk none else listing (numOf ext) true l)
  /-- ZRANGE 0 -1 lists the members -/
  plain : Reads ext s [b! "zrange", k, b! "0", b! "-1"] (if l = [] then .bulk none else Resp.bulks (members l))
  /-- ZCARD counts them -/
  card : Reads ext s [b! "zcard", k] (.int l.length)
  /-- ZSCORE replies the score of each -/
  score : ∀ e ∈ l, Reads ext s [b! "zscore", k, e.2] (.bulk (some (ext.formatFloat e.1)))
  /-- ZRANK replies the position of each, counted from 1 -/
  rank : ∀ (i : Nat) (e : Entry), l[i]? = some e → Reads ext s [b! "zrank", k, e.2] (.int (i + 1))

/-- `x` is not a member, say ZSCORE and ZRANK -/
def Gone (ext : Ext) (s : Store) (k x : Bytes) : Prop :=
  Reads ext s [b! "zscore", k, x] (.bulk none) ∧ Reads ext s [b! "zrank", k, x] (.bulk none)

/-- the history never pops from `k` -/
def NeverPops (k : Bytes) (tr : List (List Bytes × Reply)) : Prop :=
  ∀ p ∈ tr, StrSpec.lower (p.1.headD []) ∈ [b! "zpopmin", b! "zpopmax"] → p.1[1]? ≠ some k

end Godis
