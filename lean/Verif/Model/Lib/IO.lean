/-!
Model of `lib/writer.c` and `lib/reader.c`: the byte streams of the library.

A `writer.t` is a struct with function pointers; here it is the kind of the
stream together with what has been written to it so far.  The same for readers.
Closing, freeing and allocating are not modelled (`calloc!` is assumed to
succeed).  `int` results are `Int`; the counts in the modelled functions are
bounded by the size of the data, so this differs from C only for buffers of
more than 2^31 bytes.
-/
namespace Che.Lib

abbrev Bytes := List UInt8

/-- The write functions of `lib/writer.c`: `file` (lines 44-52) and
`static_buffer` (lines 70-98).  A file has an optional limit, the point where
the disk is full.  Writers to file descriptors (lines 101-119) are not modelled. -/
inductive WKind
  | file (limit : Option Nat)
  | mem (size : Nat)

/-- `writer.t`, lib/writer.c:6-11.  `out` is what the destination holds. -/
structure Writer where
  kind : WKind
  out : Bytes
  nwritten : Nat

/-- The loop of `mem_write`, lib/writer.c:90-96. -/
def memWriteLoop (size : Nat) : Bytes → Int → Bytes → Bytes × Int
  | out, r, [] => (out, r)
  | out, r, b :: rest =>
    if out.length ≥ size then (out, r) else memWriteLoop size (out ++ [b]) (r + 1) rest

/-- `mem_write`, lib/writer.c:84-98. -/
def memWrite (size : Nat) (out data : Bytes) : Bytes × Int :=
  if out.length ≥ size then (out, -1) else memWriteLoop size out 0 data

/-- `file_write`, lib/writer.c:48-52, with `fwrite` writing what fits. -/
def fileWrite (limit : Option Nat) (out data : Bytes) : Bytes × Int :=
  match limit with
  | none => (out ++ data, data.length)
  | some l => (out ++ data.take (l - out.length), (data.take (l - out.length)).length)

/-- The call through the function pointer, lib/writer.c:16. -/
def WKind.write : WKind → Bytes → Bytes → Bytes × Int
  | .file limit, out, data => fileWrite limit out data
  | .mem size, out, data => memWrite size out data

/-- `write`, lib/writer.c:13-19. -/
def Writer.write (w : Writer) (data : Bytes) : Writer × Int :=
  let (out, r) := w.kind.write w.out data
  ({ w with out := out, nwritten := if r > 0 then w.nwritten + r.toNat else w.nwritten }, r)

/-- `file`, lib/writer.c:43-46, for a file that never gets full. -/
def Writer.toFile : Writer := { kind := .file none, out := [], nwritten := 0 }

/-- `static_buffer`, lib/writer.c:77-82. -/
def Writer.toBuffer (size : Nat) : Writer := { kind := .mem size, out := [], nwritten := 0 }

/-- The data behind a reader, lib/reader.c: `file` (lines 43-55), `static_buffer`
and `string` (lines 66-97), `fd` (lines 103-119).  What a descriptor delivers in
one call is up to the system: it is a list of chunks. -/
inductive Source
  | file (rest : Bytes)
  | mem (rest : Bytes)
  | fd (chunks : List Bytes)

/-- `reader.t`, lib/reader.c:6-11. -/
structure Reader where
  src : Source
  pos : Nat

/-- `file_read`, lib/reader.c:43-50: result and the bytes put into the buffer.
A read of zero bytes gives zero (in C, `EOF` once the end has been seen). -/
def fileRead (rest : Bytes) (n : Nat) : Bytes × Int × Bytes :=
  let got := rest.take n
  if got.length = 0 then (rest, if n = 0 then 0 else -1, [])
  else (rest.drop n, got.length, got)

/-- The loop of `mem_read`, lib/reader.c:78-83. -/
def memReadLoop : Nat → Bytes → Int → Bytes → Bytes × Int × Bytes
  | 0, rest, r, got => (rest, r, got)
  | _ + 1, [], r, got => ([], r, got)
  | n + 1, b :: rest, r, got => memReadLoop n rest (r + 1) (got ++ [b])

/-- `mem_read`, lib/reader.c:72-85. -/
def memRead (rest : Bytes) (n : Nat) : Bytes × Int × Bytes :=
  if rest = [] then (rest, 0, []) else memReadLoop n rest 0 []

/-- `fd_read`, lib/reader.c:107-110: `read(2)` gives at most `n` bytes of what is
there, and 0 at the end. -/
def fdRead (chunks : List Bytes) (n : Nat) : List Bytes × Int × Bytes :=
  match chunks with
  | [] => ([], 0, [])
  | c :: cs =>
    if c.length ≤ n then (cs, c.length, c) else (c.drop n :: cs, n, c.take n)

/-- The call through the function pointer, lib/reader.c:25. -/
def Source.read : Source → Nat → Source × Int × Bytes
  | .file rest, n => let (rest', r, got) := fileRead rest n; (.file rest', r, got)
  | .mem rest, n => let (rest', r, got) := memRead rest n; (.mem rest', r, got)
  | .fd chunks, n => let (chunks', r, got) := fdRead chunks n; (.fd chunks', r, got)

/-- `read`, lib/reader.c:21-28. -/
def Reader.read (rd : Reader) (n : Nat) : Reader × Int × Bytes :=
  let (src, r, got) := rd.src.read n
  ({ src := src, pos := if r > 0 then rd.pos + r.toNat else rd.pos }, r, got)

/-- `file`, lib/reader.c:52-55. -/
def Reader.ofFile (data : Bytes) : Reader := { src := .file data, pos := 0 }

/-- `static_buffer`, lib/reader.c:87-93. -/
def Reader.ofBuffer (data : Bytes) : Reader := { src := .mem data, pos := 0 }

end Che.Lib
