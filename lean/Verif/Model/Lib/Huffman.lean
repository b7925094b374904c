import Verif.Model.Lib.Bits
import Verif.Model.Basic

/-!
Model of `lib/compress/huffman.c`: building Huffman trees, and reading and writing with them.

Nodes are values; the nodes of the pool are never shared, so this differs from pointers
only in that `treefrom` sets the value of the node that `createnode` returns (here
`createnode` does that itself).  The pool is modelled by the number of nodes taken.
Writes past the end of an array and uses of `NULL` are a panic whose text begins with
"undefined".  `qsort` is a parameter:
C leaves the order of elements that compare equal open.  `printtree` and `printcodes`
are not modelled.
-/
namespace Che.Lib.Huffman
open Che.Lib.Bits

/-- `node_t`, lib/compress/huffman.c:4-9, or `NULL`. -/
inductive Node
  | null
  | mk (ischar : Bool) (val count : Nat) (left right : Node)
deriving DecidableEq

/-- `n->count`. -/
def Node.count : Node → Nat
  | .null => 0
  | .mk _ _ c _ _ => c

/-- `n->ischar`. -/
def Node.ischar : Node → Bool
  | .null => false
  | .mk b _ _ _ _ => b

/-- A node of the pool, which is allocated with zeros. -/
def fresh : Node := .mk false 0 0 .null .null

/-- `newnode`, lib/compress/huffman.c:24-29: the number of nodes taken. -/
def newnode (pos : Nat) : Res Empty Nat :=
  if pos = 512 then .panic "huffman.c:26: too many nodes" else .ok (pos + 1)

/-! ## Trees from code lengths -/

/-- The child to go down to, which is made if it is missing: lib/compress/huffman.c:71-73
and 78-80. -/
def child (n : Node) (pos : Nat) : Res Empty (Nat × Node) :=
  match n with
  | .null => do
    let pos ← newnode pos
    pure (pos, fresh)
  | n => pure (pos, n)

/-- `createnode`, lib/compress/huffman.c:58-88, with `n->val = ch` of line 51: the number of
nodes taken, the node, and whether it was made. -/
def createnode (ch : Nat) : Nat → Nat → Node → Res Empty (Nat × Node × Bool)
  | _, _, .null => .panic "huffman.c:59: n is null"
  | 0, _, _ => .diverge
  | 1, pos, .mk b v c l r =>
    match l with
    | .null => do
      let pos ← newnode pos
      pure (pos, .mk b v c (.mk true ch 0 .null .null) r, true)
    | _ =>
      match r with
      | .null => do
        let pos ← newnode pos
        pure (pos, .mk b v c l (.mk true ch 0 .null .null), true)
      | _ => pure (pos, .mk b v c l r, false)
  | d + 2, pos, .mk b v c l r => do
    let (pos, l) ← child l pos
    let (pos, l, done) ← if l.ischar then pure (pos, l, false) else createnode ch (d + 1) pos l
    if done then pure (pos, .mk b v c l r, true)
    else do
      let (pos, r) ← child r pos
      let (pos, r, done) ← if r.ischar then pure (pos, r, false) else createnode ch (d + 1) pos r
      pure (pos, .mk b v c l r, done)

/-- The inner loop of `treefrom`, lib/compress/huffman.c:45-52: `j` more values of length `len`. -/
def valsLoop (len : Nat) : Nat → List Nat → Nat → Node → Res Empty (List Nat × Nat × Node)
  | 0, vals, pos, root => pure (vals, pos, root)
  | _ + 1, [], _, _ => .panic "undefined: out of bounds"
  | j + 1, ch :: vals, pos, root => do
    let (pos, root, done) ← createnode ch len pos root
    if done then valsLoop len j vals pos root else .panic "huffman.c:49: failed to create a node"

/-- The outer loop of `treefrom`, lib/compress/huffman.c:42-53. -/
def lensLoop : Nat → List Nat → List Nat → Nat → Node → Res Empty Node
  | _, [], _, _, root => pure root
  | i, count :: counts, vals, pos, root => do
    let (vals, pos, root) ← valsLoop (i + 1) count vals pos root
    lensLoop (i + 1) counts vals pos root

/-- `treefrom`, lib/compress/huffman.c:37-55.  The counter of the loop is one byte, so
with more than 255 lengths the loop has no end. -/
def treefrom (lencounts vals : List UInt8) : Res Empty Node :=
  if 255 < lencounts.length then .diverge
  else do
    let pos ← newnode 0
    lensLoop 0 (lencounts.map (·.toNat)) (vals.map (·.toNat)) pos fresh

/-! ## Trees from text -/

/-- The array `counts`, lib/compress/huffman.c:95-100. -/
def countLoop : Bytes → List Nat → List Nat
  | [], counts => counts
  | b :: s, counts => countLoop s (counts.set b.toNat (counts.getD b.toNat 0 + 1))

/-- The loop over the characters, lib/compress/huffman.c:105-111: nodes taken and the list. -/
def listLoop (counts : List Nat) : List Nat → Nat → List Node → Res Empty (Nat × List Node)
  | [], pos, list => pure (pos, list)
  | i :: is, pos, list =>
    if counts.getD i 0 = 0 then listLoop counts is pos list
    else do
      let pos ← newnode pos
      listLoop counts is pos (list ++ [.mk false i (counts.getD i 0) .null .null])

/-- The merging loop, lib/compress/huffman.c:114-127; the first argument is `listlen`. -/
def mergeLoop (sort : List Node → List Node) : Nat → Nat → List Node → Res Empty (List Node)
  | n + 2, pos, list => do
    let list := sort list
    let a := list.getD (n + 1) .null
    let b := list.getD n .null
    let pos ← newnode pos
    mergeLoop sort (n + 1) pos (list.take n ++ [.mk false 0 (a.count + b.count) a b])
  | _, _, list => pure list

/-- `buildtree`, lib/compress/huffman.c:93-130, on the characters before the zero: the root. -/
def buildtree (sort : List Node → List Node) (s : Bytes) : Res Empty Node := do
  let counts := countLoop s (List.replicate 256 0)
  let (pos, list) ← listLoop counts (List.range 256) 0 []
  let list ← mergeLoop sort list.length pos list
  pure (list.getD 0 .null)

/-! ## Reading -/

/-- `EOF`. -/
def EOF : Int := -1

/-- The loop of `read`, lib/compress/huffman.c:164-183.  `top` tells whether `r->curr` is
`r->root`. -/
def readLoop : Node → Bool → BitReader → Res Empty (BitReader × Int)
  | .null, top, br =>
    let (br, bit) := read1 br
    if bit = EOF ∧ top = true then pure (br, EOF) else .panic "undefined: null pointer"
  | .mk _ _ _ l r, top, br =>
    let (br, bit) := read1 br
    if bit = EOF then
      if top then pure (br, EOF) else .panic "huffman.c:168: unexpected end of input"
    else if bit = 1 then
      match r with
      | .null => .panic "undefined: null pointer"
      | .mk _ v _ .null _ => pure (br, v)
      | r => readLoop r false br
    else
      match l with
      | .null => .panic "undefined: null pointer"
      | .mk _ v _ .null _ => pure (br, v)
      | l => readLoop l false br

/-- `read`, lib/compress/huffman.c:163-183; when it returns, `r->curr` is `r->root` again. -/
def read (root : Node) (br : BitReader) : Res Empty (BitReader × Int) := readLoop root true br

/-! ## Writing -/

/-- `bitslice_t`, lib/compress/huffman.c:185-188: the first `len` bits. -/
abbrev Table := List Bytes

/-- `inittable`, lib/compress/huffman.c:205-221; `pref` has `len` bits. -/
def inittable : Node → Bytes → Table → Res Empty Table
  | .null, _, _ => .panic "undefined: null pointer"
  | .mk _ v _ .null _, pref, table =>
    if 16 < pref.length then .panic "undefined: out of bounds"
    else if table.length ≤ v then .panic "undefined: out of bounds"
    else pure (table.set v pref)
  | .mk _ _ _ l r, pref, table =>
    if 16 ≤ pref.length then .panic "undefined: out of bounds"
    else do
      let table ← inittable l (pref ++ [0]) table
      inittable r (pref ++ [1]) table

/-- `writer_t`, lib/compress/huffman.c:190-194. -/
structure HWriter where
  table : Table
  w : BitWriter

/-- `newwriter`, lib/compress/huffman.c:197-203. -/
def newwriter (root : Node) (out : Writer) : Res Empty HWriter := do
  let table ← inittable root [] (List.replicate 256 [])
  pure { table := table, w := Bits.newwriter out false }

/-- `write`, lib/compress/huffman.c:230-238. -/
def write (w : HWriter) (b : UInt8) : HWriter × Bool :=
  let (bw, ok) := Bits.write w.w (w.table.getD b.toNat [])
  ({ w with w := bw }, ok)

/-- `closewriter`, lib/compress/huffman.c:223-228: the stream. -/
def closewriter (w : HWriter) : Res Empty Writer :=
  let (out, ok) := Bits.closewriter w.w
  if ok then pure out else .panic "huffman.c:225: !"

end Che.Lib.Huffman
