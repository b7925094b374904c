import Verif.Model.Basic
import Verif.Model.Lib.IO

/-!
Models of the collections in `lib/clip`: `map.c`, `map2.c`, `stringtable.c`,
`buffer.c`, `vec.c`, `llist.c`.

Memory that is only ever reached through the collection is part of its value.
Capacities are kept because the code branches on them; memory beyond the used part
is not represented.  `realloc` succeeds (also for zero bytes).
-/
namespace Che.Lib

/-! ## map.c -/
namespace Map

/-- `entry_t`, lib/clip/map.c:1-8.  `keysize` is the length of `key`; `value` has
eight cells. -/
structure Entry where
  key : Bytes
  value : Bytes

/-- `map_t`, lib/clip/map.c:10-17.  `size` is the length of `entries`. -/
structure T where
  cap : Nat
  entries : List Entry
  valsize : Nat

/-- `new`, lib/clip/map.c:21-33. -/
def new (valsize : Nat) : Res Unit T :=
  if valsize > 8 then .panic "value sizes > 8 bytes are not supported"
  else .ok { cap := 16, entries := [], valsize := valsize }

/-- The loop of `find`, lib/clip/map.c:91-98: the index of the entry. -/
def findLoop (key : Bytes) : List Entry → Nat → Option Nat
  | [], _ => none
  | e :: rest, i =>
    if e.key.length ≠ key.length then findLoop key rest (i + 1)
    else if key = e.key then some i
    else findLoop key rest (i + 1)

/-- `find`, lib/clip/map.c:89-99. -/
def find (m : T) (key : Bytes) : Option Nat := findLoop key m.entries 0

/-- `create`, lib/clip/map.c:101-111: the new entry is the last one, all zeros. -/
def create (m : T) : T :=
  let m := if m.entries.length = m.cap then { m with cap := m.cap * 2 } else m
  { m with entries := m.entries ++ [{ key := [], value := List.replicate 8 0 }] }

/-- `memcpy` into the first `n` cells. -/
def copyInto (dst src : Bytes) (n : Nat) : Bytes := src.take n ++ dst.drop n

/-- Setting key and value of an entry, lib/clip/map.c:51-58. -/
def assign (m : T) (i : Nat) (key val : Bytes) : T :=
  { m with entries := m.entries.modify i fun e => { key := key, value := copyInto e.value val m.valsize } }

/-- `set`, lib/clip/map.c:46-59. -/
def set (m : T) (key val : Bytes) : T :=
  match find m key with
  | some i => assign m i key val
  | none => let m := create m; assign m (m.entries.length - 1) key val

/-- `get`, lib/clip/map.c:63-68: the bytes copied. -/
def get (m : T) (key : Bytes) : Option Bytes :=
  match find m key with
  | some i => (m.entries[i]?).map fun e => e.value.take m.valsize
  | none => none

/-- `has`, lib/clip/map.c:71-73. -/
def has (m : T) (key : Bytes) : Bool := (find m key).isSome

/-- `size`, lib/clip/map.c:75-77. -/
def size (m : T) : Nat := m.entries.length

/-- `iter_t`, lib/clip/map.c:113; `pos` is a `size_t`. -/
structure Iter where
  map : T
  pos : UInt64

/-- `iter`, lib/clip/map.c:115-120. -/
def iter (m : T) : Iter := { map := m, pos := -1 }

/-- `next`, lib/clip/map.c:122-128. -/
def next (it : Iter) : Iter × Bool :=
  if (it.pos + 1).toNat ≥ it.map.entries.length then (it, false)
  else ({ it with pos := it.pos + 1 }, true)

/-- `itkey`, lib/clip/map.c:133-141: the result and the bytes copied. -/
def itkey (it : Iter) (bufsize : Nat) : Nat × Bytes :=
  match it.map.entries[it.pos.toNat]? with
  | some e => if e.key.length > bufsize then (0, []) else (e.key.length, e.key)
  | none => (0, [])

/-- `itval`, lib/clip/map.c:144-148. -/
def itval (it : Iter) : Bytes :=
  match it.map.entries[it.pos.toNat]? with
  | some e => e.value.take it.map.valsize
  | none => []

end Map

/-! ## map2.c -/
namespace Map2

/-- `slot_t` and `slice_t`, lib/clip/map2.c:2-5, 66-70.  `key` is `none` for a slot
that is not in use (`key.bytes == NULL`, `key.size == 0`); the size of a key is the
length of the list.  `val` is what `val.bytes` points to (`none` for NULL) and
`valsize` is `val.size`. -/
structure Slot where
  hash : UInt32
  key : Option Bytes
  val : Option Bytes
  valsize : Nat

/-- `innermap_t`, lib/clip/map2.c:60-64. -/
structure Inner where
  nbuckets : Nat
  bucketsize : Nat
  slots : List Slot
  size : Nat

/-- `cap`, lib/clip/map2.c:72-74. -/
def cap (m : Inner) : Nat := m.nbuckets * m.bucketsize

/-- An empty slot, as `calloc` leaves it. -/
def emptySlot : Slot := { hash := 0, key := none, val := none, valsize := 0 }

/-- `innermap`, lib/clip/map2.c:76-82. -/
def innermap (nbuckets bucketsize : Nat) : Inner :=
  { nbuckets := nbuckets, bucketsize := bucketsize,
    slots := List.replicate (nbuckets * bucketsize) emptySlot, size := 0 }

/-- `hash`, lib/clip/map2.c:186-193. -/
def hash (s : Bytes) : UInt32 := s.foldl (fun r b => r * 31 + b.toUInt32) 0

/-- `clone`, lib/clip/map2.c:11-15.  Reading past the end of the source is undefined. -/
def clone (b : Bytes) (n : Nat) : Res Unit Bytes :=
  if n ≤ b.length then .ok (b.take n) else .panic "undefined: read past the end"

/-- `slice_eq(s->key, key)`, lib/clip/map2.c:7-9, 160. -/
def slotHas (s : Slot) (key : Bytes) : Bool := (s.key.getD []).length = key.length && s.key.getD [] = key

/-- The loop of `find_slot`, lib/clip/map2.c:158-165. -/
def findLoop (slots : List Slot) (n : Nat) (h : UInt32) (key : Bytes) : Nat → Nat → Option Nat
  | 0, _ => none
  | i + 1, pos =>
    let s := slots.getD pos emptySlot
    if s.hash = h && slotHas s key then some pos
    else findLoop slots n h key i ((pos + 1) % n)

/-- `find_slot`, lib/clip/map2.c:153-166. -/
def find_slot (m : Inner) (key : Bytes) : Option Nat :=
  let h := hash key
  findLoop m.slots (cap m) h key (cap m) ((h.toNat % m.nbuckets) * m.bucketsize)

/-- The loop of `alloc_slot`, lib/clip/map2.c:174-182. -/
def allocLoop (slots : List Slot) (n : Nat) : Nat → Nat → Option Nat
  | 0, _ => none
  | i + 1, pos =>
    if ((slots.getD pos emptySlot).key).isNone then some pos
    else allocLoop slots n i ((pos + 1) % n)

/-- `alloc_slot`, lib/clip/map2.c:168-184: the index of the slot. -/
def alloc_slot (m : Inner) (key : Bytes) : Res Unit Nat :=
  match allocLoop m.slots (cap m) (cap m) (((hash key).toNat % m.nbuckets) * m.bucketsize) with
  | some i => .ok i
  | none => .panic "failed to find an empty slot"

/-- `inner_set`, lib/clip/map2.c:97-112; `val` and `valsize` are the two parts of the
slice. -/
def inner_set (m : Inner) (key val : Bytes) (valsize : Nat) : Res Unit Inner :=
  match find_slot m key with
  | some i => do
    let v ← clone val valsize
    .ok { m with slots := m.slots.modify i fun s => { s with val := some v } }
  | none => do
    let i ← alloc_slot m key
    let v ← clone val valsize
    .ok { m with
      size := m.size + 1
      slots := m.slots.modify i fun _ => { hash := hash key, key := some key, val := some v, valsize := valsize } }

/-- `inner_get`, lib/clip/map2.c:114-120: what the pointer points to. -/
def inner_get (m : Inner) (key : Bytes) : Option Bytes :=
  match find_slot m key with
  | some i => (m.slots.getD i emptySlot).val
  | none => none

/-- The loop of `inner_copy`, lib/clip/map2.c:127-133. -/
def copyLoop (dest : Inner) : List Slot → Res Unit Inner
  | [] => .ok dest
  | s :: rest =>
    match s.key with
    | none => copyLoop dest rest
    | some k => do
      let dest ← inner_set dest k (s.val.getD []) s.valsize
      copyLoop dest rest

/-- `inner_copy`, lib/clip/map2.c:122-134. -/
def inner_copy (dest src : Inner) : Res Unit Inner :=
  if cap dest < cap src then .panic "dest is too small" else copyLoop dest src.slots

/-- `new`, lib/clip/map2.c:22-27. -/
def new : Inner := innermap 1 32

/-- `set`, lib/clip/map2.c:35-51. -/
def set (m : Inner) (key val : Bytes) : Res Unit Inner := do
  let m ← (if m.size * 100 / cap m > 75 then inner_copy (innermap (m.nbuckets * 2) m.bucketsize) m else .ok m)
  inner_set m key val val.length

/-- `get`, lib/clip/map2.c:55-58. -/
def get (m : Inner) (key : Bytes) : Option Bytes := inner_get m key

end Map2

/-! ## stringtable.c -/
namespace StringTable

/-- `t`, lib/clip/stringtable.c:8-12. -/
structure T where
  items : List (Bytes × Bytes)
  cap : Nat

/-- `new`, lib/clip/stringtable.c:14-20. -/
def new : T := { items := [], cap := 8 }

/-- The search loops of `set` and `get`, lib/clip/stringtable.c:33-39, 54-58. -/
def search (ks : Bytes) : List (Bytes × Bytes) → Nat → Option Nat
  | [], _ => none
  | (k, _) :: rest, i => if k = ks then some i else search ks rest (i + 1)

/-- `set`, lib/clip/stringtable.c:31-51. -/
def set (st : T) (ks v : Bytes) : T :=
  match search ks st.items 0 with
  | some i => { st with items := st.items.modify i fun e => (e.1, v) }
  | none =>
    let st := if st.items.length = st.cap then { st with cap := st.cap + 10 } else st
    { st with items := st.items ++ [(ks, v)] }

/-- `get`, lib/clip/stringtable.c:53-60. -/
def get (st : T) (ks : Bytes) : Option Bytes :=
  match search ks st.items 0 with
  | some i => (st.items[i]?).map (·.2)
  | none => none

end StringTable

/-! ## buffer.c -/
namespace Buffer

/-- `clip_t`, lib/clip/buffer.c:15-27.  `size` is the length of `data`. -/
structure Clip where
  data : Bytes
  pos : Nat

/-- `t`, lib/clip/buffer.c:5-8: the clips from `first` to `last`. -/
abbrev T := List Clip

/-- `new`, lib/clip/buffer.c:29-32. -/
def new : T := []

/-- `size`, lib/clip/buffer.c:44-52. -/
def size : T → Nat
  | [] => 0
  | c :: rest => (c.data.length - c.pos) + size rest

/-- `write`, lib/clip/buffer.c:58-75. -/
def write (b : T) (buf : Bytes) : T × Bool :=
  if buf.length = 0 then (b, false) else (b ++ [{ data := buf, pos := 0 }], true)

/-- `read`, lib/clip/buffer.c:81-99: the bytes moved. -/
def read : T → Nat → T × Bytes
  | b, 0 => (b, [])
  | [], _ => ([], [])
  | c :: rest, n + 1 =>
    let x := c.data.getD c.pos 0
    let c := { c with pos := c.pos + 1 }
    let b := if c.pos = c.data.length then rest else c :: rest
    let (b, got) := read b n
    (b, x :: got)

end Buffer

/-! ## vec.c -/
namespace Vec

/-- `t`, lib/clip/vec.c:1-6.  `data` holds `cap * itemsize` bytes. -/
structure T where
  cap : Nat
  len : Nat
  itemsize : Nat
  data : Bytes

/-- `new`, lib/clip/vec.c:11-15. -/
def new (itemsize : Nat) : T := { cap := 0, len := 0, itemsize := itemsize, data := [] }

/-- `alloc`, lib/clip/vec.c:30-44; the result is the offset of the new item. -/
def alloc (l : T) : T × Nat :=
  let l :=
    if l.len = l.cap then
      let newcap := if l.cap * 2 = 0 then 16 else l.cap * 2
      -- `realloc` keeps the old bytes; everything from item `len` on is cleared
      { l with cap := newcap
               data := l.data.take (l.itemsize * l.len) ++ List.replicate (l.itemsize * (newcap - l.len)) 0 }
    else l
  ({ l with len := l.len + 1 }, l.itemsize * l.len)

/-- Writing bytes at an offset. -/
def poke (data : Bytes) (off : Nat) (x : Bytes) : Bytes := data.take off ++ x ++ data.drop (off + x.length)

/-- `push`, lib/clip/vec.c:24-27. -/
def push (l : T) (x : Bytes) : T :=
  let (l, off) := alloc l
  { l with data := poke l.data off (x.take l.itemsize) }

/-- `index`, lib/clip/vec.c:47-51: the item behind the pointer. -/
def item (l : T) (i : Nat) : Bytes := (l.data.drop (l.itemsize * i)).take l.itemsize

end Vec

/-! ## llist.c -/
namespace LList

/-- `t`, lib/clip/llist.c:2-5: the data pointers of the nodes after the head; a null
pointer is 0. -/
abbrev T := List Nat

/-- `append`, lib/clip/llist.c:12-24. -/
def append (l : T) (data : Nat) : T := if data = 0 then l else l ++ [data]

/-- `remove`, lib/clip/llist.c:26-38. -/
def remove : T → Nat → T
  | [], _ => []
  | q :: rest, data => if q = data then rest else q :: remove rest data

end LList
end Che.Lib
