import Verif.Model.Prog.Torrent

/-!
Model of `prog/torrent/peerproto.c` and of how `prog/torrent/peer.c` reads messages and requests pieces.

What has come in (`stash`) is a list of bytes.  What is in a local variable before it is written to is `junk`.
-/
namespace Che.Prog.Peer
open Che Che.Lib Che.Lib.Torrent Che.Prog.Torrent

/-- A message, prog/torrent/peerproto.c:59-71 (`msg_t` and what its data is taken for). -/
inductive Msg where
  | request (r : Range)
  | piece (index begin length : UInt32) (data : Bytes)
  | bitfield (flags : List Bool)
deriving DecidableEq

/-- The bits of a byte, prog/torrent/peerproto.c:114-118. -/
def bits (b : UInt8) : List Bool := (List.range 8).map fun j => b &&& ((1 : UInt8) <<< UInt8.ofNat (7 - j)) ≠ 0

/-- The loop over the bytes of a bitfield, prog/torrent/peerproto.c:111-119.  `flags` has room for 1000. -/
def flagLoop (junk : UInt8) : Nat → Reader → List Bool → Res String (Reader × List Bool)
  | 0, rd, flags => .ok (rd, flags)
  | n + 1, rd, flags =>
    let (rd, _, byte) := Endian.read1 rd junk
    if flags.length + 8 > 1000 then .panic "undefined: write outside of an array" else flagLoop junk n rd (flags ++ bits byte)

/-- `read_message`, prog/torrent/peerproto.c:84-125. -/
def read_message (junk : Bytes) (rd : Reader) (msglen : UInt32) : Res String (Reader × Msg) :=
  let (rd, _, id) := Endian.read1 rd 0
  if id = 6 then
    let (rd, _, index) := Endian.read4be junk rd
    let (rd, _, begin) := Endian.read4be junk rd
    let (rd, _, length) := Endian.read4be junk rd
    .ok (rd, .request ⟨index, begin, length⟩)
  else if id = 7 then
    let (rd, _, index) := Endian.read4be junk rd
    let (rd, _, begin) := Endian.read4be junk rd
    let length := msglen - 9
    let (rd, _, got) := rd.read length.toNat
    .ok (rd, .piece index begin length (got ++ List.replicate (length.toNat - got.length) 0))
  else if id = 5 then
    (flagLoop (junk.getD 0 0) (msglen - 1).toNat rd []).bind fun (rd, flags) => .ok (rd, .bitfield flags)
  else .panic "unknown message"

/-- `handshake_t`, prog/torrent/peerproto.c:17-21, with the text of `proto`. -/
structure Handshake where
  proto : Bytes
  infohash : Bytes
  peer_id : Bytes
deriving DecidableEq

/-- `read_handshake`, prog/torrent/peerproto.c:23-38.  Arrays are zero before.  A reader of memory returns no negative count. -/
def read_handshake (rd : Reader) : Res String (Reader × Int × Handshake) :=
  let (rd, c, len) := Endian.read1 rd 0
  if len ≠ 19 then .panic "expected protocol string length 19"
  else
    let (rd, c1, proto) := rd.read 19
    let (rd, c2, _) := rd.read 8
    let (rd, c3, infohash) := rd.read 20
    let (rd, c4, peer_id) := rd.read 20
    let c := c + c1 + c2 + c3 + c4
    .ok (rd, if c < 68 then -1 else c, ⟨proto, infohash, peer_id⟩)

/-- `write_handshake`, prog/torrent/peerproto.c:40-51. -/
def write_handshake (w : Writer) (infohash peer_id : Bytes) : Writer × Int :=
  let (w, r) := w.write [19]
  let (w, r1) := w.write (cstr "BitTorrent protocol" ++ List.replicate 8 0)
  let (w, r2) := w.write infohash
  let (w, r3) := w.write peer_id
  let r := r + r1 + r2 + r3
  (w, if r ≠ 68 then -1 else r)

/-- `write_keepalive`, prog/torrent/peerproto.c:127-130. -/
def write_keepalive (w : Writer) : Writer × Int := Endian.write4be w 0

/-- `write_request`, prog/torrent/peerproto.c:132-142. -/
def write_request (w : Writer) (req : Range) : Writer × Int :=
  let (w, c) := Endian.write4be w 13
  let (w, c1) := Endian.write1 w 6
  let (w, c2) := Endian.write4be w req.index
  let (w, c3) := Endian.write4be w req.begin
  let (w, c4) := Endian.write4be w req.length
  let c := c + c1 + c2 + c3 + c4
  (w, if c ≠ 4 + 13 then -1 else c)

/-- `write_piece`, prog/torrent/peerproto.c:144-154, for data of fewer than 2^31 - 13 bytes. -/
def write_piece (w : Writer) (req : Range) (data : Bytes) : Writer × Int :=
  let (w, c) := Endian.write4be w (9 + req.length)
  let (w, c1) := Endian.write1 w 7
  let (w, c2) := Endian.write4be w req.index
  let (w, c3) := Endian.write4be w req.begin
  let (w, c4) := w.write (data.take req.length.toNat)
  let c := c + c1 + c2 + c3 + c4
  (w, if c ≠ 4 + 9 + req.length.toNat then -1 else c)

/-- A byte with its first bits set, prog/torrent/peerproto.c:167-170. -/
def ones (n : Nat) : UInt8 := (List.range n).foldl (fun b i => b ||| ((1 : UInt8) <<< UInt8.ofNat (7 - i))) 0

/-- The loop of `write_bitfield`, prog/torrent/peerproto.c:165-172, with `n` pieces left: `chunksize` is less than 8 in the last round only. -/
def fieldLoop : Nat → Nat → Writer → Int → Writer × Int
  | 0, _, w, c => (w, c)
  | k + 1, n, w, c =>
    if n = 0 then (w, c)
    else
      let (w, r) := w.write [ones (min n 8)]
      fieldLoop k (n - 8) w (c + r)

/-- `write_bitfield`, prog/torrent/peerproto.c:156-174. -/
def write_bitfield (w : Writer) (npieces : UInt64) : Writer × Int :=
  let nbytes := npieces / 8
  let nbytes := if nbytes * 8 < npieces then nbytes + 1 else nbytes
  let (w, c) := Endian.write4be w (1 + nbytes).toUInt32
  let (w, c1) := Endian.write1 w 5
  fieldLoop npieces.toNat npieces.toNat w (c + c1)

/-- What `read_request` reads, prog/torrent/peer.c:151-156. -/
inductive Req where
  | handshake (h : Handshake)
  | keepalive
  | msg (m : Msg)
deriving DecidableEq

/-- `read_request` before the handshake, prog/torrent/peer.c:159-173: what is read and how many bytes; nothing yet if there are not enough.
A negative result counts as one that has been read, prog/torrent/peer.c:123-126. -/
def read_first (stash : Bytes) : Res String (Option (Req × Nat)) :=
  if stash.length < 68 then .ok none
  else (read_handshake (Reader.ofBuffer stash)).bind fun (rd, _, hs) => .ok (some (.handshake hs, rd.pos))

/-- `read_request` after the handshake, prog/torrent/peer.c:174-199. -/
def read_next (junk : Bytes) (stash : Bytes) : Res String (Option (Req × Nat)) :=
  if stash.length < 4 then .ok none
  else
    let (rd, _, len) := Endian.read4be junk (Reader.ofBuffer stash)
    if ¬ stash.length ≥ (4 + len).toNat then .ok none
    else if len = 0 then .ok (some (.keepalive, rd.pos))
    else (read_message junk rd len).bind fun (rd, m) => .ok (some (.msg m, rd.pos))

/-- `append`, prog/torrent/peer.c:48-54: the stash has room for 1000000 bytes. -/
def append (stash data : Bytes) : Res String Bytes := if stash.length + data.length > 1000000 then .panic "stash too small" else .ok (stash ++ data)

/-- `shift`, prog/torrent/peer.c:43-47. -/
def shift (stash : Bytes) (n : Nat) : Res String Bytes := if n > stash.length then .panic "incorrect shift" else .ok (stash.drop n)

/-- `read_request`, prog/torrent/peer.c:158-201, before the handshake and after. -/
def read_request (junk : Bytes) (greeted : Bool) (stash : Bytes) : Res String (Option (Req × Nat)) := if greeted then read_next junk stash else read_first stash

/-- The loop of `handle` for data that has come in, prog/torrent/peer.c:119-142: what is read.  The answers are not modelled. -/
def drain (junk : Bytes) : Nat → Bool → Bytes → List Req → Res String (Bool × Bytes × List Req)
  | 0, _, _, _ => .diverge
  | k + 1, greeted, stash, got =>
    (read_request junk greeted stash).bind fun
      | none => .ok (greeted, stash, got)
      | some (req, nread) => (shift stash nread).bind fun stash => drain junk k true stash (got ++ [req])

/-- The events of data that comes in, prog/torrent/peer.c:111-143, one after another, with at most `k` rounds in each. -/
def receive (junk : Bytes) (k : Nat) : List Bytes → Bool → Bytes → List Req → Res String (Bool × Bytes × List Req)
  | [], greeted, stash, got => .ok (greeted, stash, got)
  | data :: rest, greeted, stash, got =>
    (append stash data).bind fun stash => (drain junk k greeted stash got).bind fun (greeted, stash, got) => receive junk k rest greeted stash got

/-- The loop of `request_pieces`, prog/torrent/peer.c:287-301. -/
def requestLoop (i : UInt32) (piecelen : UInt64) : Nat → UInt64 → UInt64 → Writer → Res String Writer
  | 0, _, _, _ => .diverge
  | n + 1, pos, slice_size, w =>
    if pos < piecelen then
      let slice_size := if pos + slice_size > piecelen then piecelen - pos else slice_size
      let (w, r) := write_request w { index := i, begin := pos.toUInt32, length := slice_size.toUInt32 }
      if r < 0 then .panic "write_request failed" else requestLoop i piecelen n (pos + slice_size) slice_size w
    else .ok w

/-- `request_pieces`, prog/torrent/peer.c:273-305: what is written for piece `i`. -/
def request_pieces (n : Nat) (tf : Info) (i : UInt64) : Res String Bytes :=
  (npieces tf).bind fun np =>
  if i ≥ np then .ok []
  else (get_piece_length tf i).bind fun piecelen =>
    (requestLoop i.toUInt32 piecelen n 0 (16 * 1024) (Writer.toBuffer 1000000)).bind fun w => .ok w.out
end Che.Prog.Peer
