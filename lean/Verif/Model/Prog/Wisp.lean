import Verif.Model.Basic
import Verif.Model.Lib.Enc

/-!
Model of parts of `prog/wisp`: the table of symbols (`hashtab.c`), the values of symbols, the pools of objects (`mem.c`) and `addslashes` (`util.c`).

A pointer to an object is a number.  `usemap2` is false (prog/wisp/hashtab.c:69).
-/
namespace Che.Prog.Wisp
open Che Che.Lib

/-! ### `hashtab.c` -/

/-- One turn of the loop of `ht_hash`, prog/wisp/hashtab.c:288-290; `char` has a sign. -/
def hashStep (h : UInt32) (c : UInt8) : UInt32 :=
  let h := h + c.toInt8.toInt32.toUInt32
  let h := h + (h <<< 10)
  h ^^^ (h >>> 6)

/-- `ht_hash`, prog/wisp/hashtab.c:282-296. Keys are shorter than 2^32 bytes. -/
def ht_hash (key : Bytes) (size : Nat) : Nat :=
  let h := key.foldl hashStep 0
  let h := h + (h <<< 3)
  let h := h ^^^ (h >>> 11)
  let h := h + (h <<< 15)
  h.toNat % size

/-- `hashtab_node_t`, prog/wisp/hashtab.c:3-10; a key is its bytes, `next` is the order in a list. -/
structure Node where
  key : Bytes
  value : Nat
deriving DecidableEq, Repr

/-- `hashtab_t`, prog/wisp/hashtab.c:14-20. -/
structure Table where
  arr : List (List Node)
  count : Nat
deriving DecidableEq, Repr

/-- `new` and `ht_init`, prog/wisp/hashtab.c:40-67. -/
def Table.new : Table := { arr := List.replicate 2048 [], count := 0 }

/-- The loop of `ht_search`, prog/wisp/hashtab.c:83-91; 0 is `NULL`. -/
def searchIn : List Node → Bytes → Nat
  | [], _ => 0
  | n :: ns, key => if n.key.length = key.length ∧ n.key = key then n.value else searchIn ns key

/-- `ht_search`, prog/wisp/hashtab.c:73-92. -/
def ht_search (t : Table) (key : Bytes) : Res Unit Nat :=
  match t.arr[ht_hash key t.arr.length]? with
  | none => .panic "undefined: read outside of an array"
  | some ns => .ok (searchIn ns key)

/-- The search for an existing key and the new node at the end, prog/wisp/hashtab.c:102-135; says if there is a new node. -/
def insertIn : List Node → Bytes → Nat → List Node × Bool
  | [], key, value => ([{ key, value }], true)
  | n :: ns, key, value =>
    if n.key.length = key.length ∧ n.key = key then ({ n with value := value } :: ns, false)
    else
      let (ns, new) := insertIn ns key value
      (n :: ns, new)

/-- `ht_insert`, prog/wisp/hashtab.c:96-139. -/
def ht_insert (t : Table) (key : Bytes) (value : Nat) : Res Unit Table :=
  let index := ht_hash key t.arr.length
  match t.arr[index]? with
  | none => .panic "undefined: read outside of an array"
  | some ns =>
    let (ns, new) := insertIn ns key value
    .ok { arr := t.arr.set index ns, count := if new then t.count + 1 else t.count }

/-! ### `symbol`, `GET`, `SET`, `sympush` and `sympop` -/

/-- `symbol_t` with its array of 8 values, prog/wisp/eval.c:371-379. -/
structure Symbol where
  name : Bytes
  stack : List Nat
  vals : Nat
deriving DecidableEq, Repr

/-- The symbols and their table.  The number of a symbol is its position in `syms`, counted from 1 (0 is `NULL`); symbols are never released (prog/wisp/eval.c:443). -/
structure Symbols where
  table : Table
  syms : List Symbol
deriving DecidableEq, Repr

/-- Before the first symbol, prog/wisp/eval.c:627. -/
def Symbols.new : Symbols := { table := Table.new, syms := [] }

/-- `symbol_create`, prog/wisp/eval.c:371-379, with the name and the value that `symbol` gives it, prog/wisp/eval.c:411-416. -/
def symbol_create (name : Bytes) (self nil : Nat) : Symbol :=
  { name, stack := (List.replicate 8 0).set 0 (if name.head? = some 58 then self else nil), vals := 0 }

/-- `symbol`, prog/wisp/eval.c:405-419; `nil` is the global `NIL`. -/
def symbol (s : Symbols) (nil : Nat) (name : Bytes) : Res Unit (Symbols × Nat) := do
  let o ← ht_search s.table name
  if o ≠ 0 then .ok (s, o)
  else do
    let o := s.syms.length + 1
    let table ← ht_insert s.table name o
    .ok ({ table, syms := s.syms ++ [symbol_create name o nil] }, o)

/-- `GET`, prog/wisp/eval.c:351-354. -/
def GET (s : Symbol) : Res Unit Nat :=
  match s.stack[s.vals]? with
  | some v => .ok v
  | none => .panic "undefined: read outside of an array"

/-- `SET`, prog/wisp/eval.c:356-361. -/
def SET (s : Symbol) (o : Nat) : Res Unit Symbol :=
  if s.vals < s.stack.length then .ok { s with stack := s.stack.set s.vals o } else .panic "undefined: write outside of an array"

/-- `sympush`, prog/wisp/eval.c:382-393. -/
def sympush (s : Symbol) (o : Nat) : Res Unit Symbol :=
  let s := { s with vals := s.vals + 1 }
  if s.vals < s.stack.length then .ok { s with stack := s.stack.set s.vals o } else .panic "undefined: write outside of an array"

/-- `sympop`, prog/wisp/eval.c:396-400. -/
def sympop (s : Symbol) : Res Unit Symbol := do
  let _ ← GET s
  if s.vals = 0 then .panic "undefined: pointer outside of an array"
  else .ok { s with vals := s.vals - 1 }

/-! ### `mem.c` -/

/-- `mmanager_t`, prog/wisp/mem.c:5-10: `base` is the array, `stack` is a position in it.  Also the memory: objects from number `fresh` on do not exist yet, `heap` is what is in them. -/
structure Pool (α : Type) where
  base : List (Option Nat)
  stack : Nat
  fresh : Nat
  heap : Nat → α

/-- `mm->clearf(p)`. -/
def Pool.clear {α : Type} (clean : α) (mm : Pool α) (p : Nat) : Pool α := { mm with heap := fun q => if q = p then clean else mm.heap q }

/-- The loop of `mm_fill_stack`, prog/wisp/mem.c:15-21, `n` turns. -/
def fillLoop {α : Type} (clean : α) : Nat → Pool α → Pool α
  | 0, mm => mm
  | n + 1, mm =>
    let mm' := mm.clear clean mm.fresh
    fillLoop clean n { mm' with base := mm'.base.set mm'.stack (some mm.fresh), stack := mm'.stack + 1, fresh := mm.fresh + 1 }

/-- `mm_fill_stack`, prog/wisp/mem.c:13-23. -/
def mm_fill_stack {α : Type} (clean : α) (mm : Pool α) : Res Unit (Pool α) :=
  let mm := fillLoop clean (mm.base.length - mm.stack) mm
  if mm.stack = 0 then .panic "undefined: pointer outside of an array" else .ok { mm with stack := mm.stack - 1 }

/-- `mm_resize_stack`, prog/wisp/mem.c:25-34; the new half is not set. -/
def mm_resize_stack {α : Type} (mm : Pool α) : Pool α := { mm with base := mm.base ++ List.replicate mm.base.length none }

/-- `mm_create`, prog/wisp/mem.c:37-46. -/
def mm_create {α : Type} (clean : α) (heap : Nat → α) : Res Unit (Pool α) :=
  mm_fill_stack clean { base := List.replicate 1024 none, stack := 0, fresh := 0, heap }

/-- Lines 58-60 of `mm_alloc`. -/
def take {α : Type} (mm : Pool α) : Res Unit (Pool α × Nat) :=
  match mm.base[mm.stack]? with
  | some (some p) => if mm.stack = 0 then .panic "undefined: pointer outside of an array" else .ok ({ mm with stack := mm.stack - 1 }, p)
  | some none => .panic "undefined: read of what was not set"
  | none => .panic "undefined: read outside of an array"

/-- `mm_alloc`, prog/wisp/mem.c:54-61. -/
def mm_alloc {α : Type} (clean : α) (mm : Pool α) : Res Unit (Pool α × Nat) :=
  if mm.stack = 0 then do
    let mm ← mm_fill_stack clean mm
    take mm
  else take mm

/-- `mm_free`, prog/wisp/mem.c:63-70. -/
def mm_free {α : Type} (clean : α) (mm : Pool α) (o : Nat) : Res Unit (Pool α) :=
  let mm := { mm with stack := mm.stack + 1 }
  let mm := if mm.stack = mm.base.length then mm_resize_stack mm else mm
  if mm.stack < mm.base.length then
    let mm := { mm with base := mm.base.set mm.stack (some o) }
    .ok (mm.clear clean o)
  else .panic "undefined: write outside of an array"

/-! ### `util.c` -/

/-- The number of bytes that get a backslash, prog/wisp/util.c:3-8. -/
def countSlashes (s : Bytes) : Nat := (s.filter fun b => b = 92 ∨ b = 34).length

/-- `strlen` from a position in an array. -/
def lenFrom (a : Bytes) (i : Nat) : Nat := ((a.drop i).takeWhile (· ≠ 0)).length

/-- `memmove(c + 1, c, n)` in one array. -/
def shift (a : Bytes) (c n : Nat) : Res Unit Bytes :=
  if c + 1 + n > a.length then .panic "undefined: write outside of an array"
  else .ok (a.take (c + 1) ++ (a.drop c).take n ++ a.drop (c + 1 + n))

/-- The loop that places backslashes, prog/wisp/util.c:17-26. -/
def slashLoop : Nat → Bytes → Nat → Res Unit Bytes
  | 0, _, _ => .diverge
  | k + 1, a, c =>
    match a[c]? with
    | none => .panic "undefined: read outside of an array"
    | some b =>
      if b = 0 then .ok a
      else if b = 92 ∨ b = 34 then do
        let a ← shift a c (lenFrom a c + 1)
        slashLoop k (a.set c 92) (c + 2)
      else slashLoop k a (c + 1)

/-- A byte is written to an array. -/
def put (a : Bytes) (i : Nat) (b : UInt8) : Res Unit Bytes :=
  if i < a.length then .ok (a.set i b) else .panic "undefined: write outside of an array"

/-- `addslashes`, prog/wisp/util.c:1-34, for a text without zeros; gives the array that is returned. -/
def addslashes (s : Bytes) : Res Unit Bytes := do
  let size := s.length + countSlashes s + 2 + 1
  let a : Bytes := List.replicate size 0
  let a := a.take 1 ++ s ++ [0] ++ a.drop (s.length + 2)
  let a ← slashLoop (s.length + 1) a 1
  let a ← put a 0 34
  let a ← put a (lenFrom a 0 + 1) 0
  put a (lenFrom a 0) 34

end Che.Prog.Wisp
