import Verif.Proofs.Prog.Peer
import Verif.Proofs.Prog.Torrent

/-!
C136-C137: messages between peers and requests for pieces.
-/
namespace Che.Props
open Che Che.Lib Che.Lib.Torrent Che.Prog.Torrent Che.Prog.Peer Che.Spec.Peer Che.Spec.Torrent

/-! ### Writing -/

/-- Each function writes the encoding of its message and returns the number of bytes, if the writer has room for it. -/
theorem C136_write (w : Writer) :
    (Room w 4 → (write_keepalive w).1.out = w.out ++ encode .keepalive ∧ (write_keepalive w).2 = 4) ∧
    (∀ r, Room w 17 → (write_request w r).1.out = w.out ++ encode (.msg (.request r)) ∧ (write_request w r).2 = 17) ∧
    (∀ r data, 0 < r.length.toNat → r.length.toNat ≤ data.length → r.length.toNat + 13 < 2 ^ 31 → Room w (13 + r.length.toNat) →
      (write_piece w r data).1.out = w.out ++ encode (.msg (.piece r.index r.begin r.length (data.take r.length.toNat))) ∧ (write_piece w r data).2 = ((13 + r.length.toNat : Nat) : Int)) ∧
    (∀ np : UInt64, np.toNat < 2 ^ 31 → Room w (5 + (np.toNat + 7) / 8) →
      ∃ pad, pad < 8 ∧ (np.toNat + pad) % 8 = 0 ∧ (write_bitfield w np).1.out = w.out ++ encode (.msg (.bitfield (List.replicate np.toNat true ++ List.replicate pad false))) ∧
        (write_bitfield w np).2 = ((5 + (np.toNat + 7) / 8 : Nat) : Int)) ∧
    (∀ infohash peer_id : Bytes, infohash.length = 20 → peer_id.length = 20 → Room w 68 →
      (write_handshake w infohash peer_id).1.out = w.out ++ encode (.handshake ⟨cstr "BitTorrent protocol", infohash, peer_id⟩) ∧ (write_handshake w infohash peer_id).2 = 68) := by
  refine ⟨?_, ?_, ?_, ?_, ?_⟩
  · intro h
    obtain ⟨w', e, o, _⟩ := write4be_room w 0 0 h
    unfold write_keepalive
    rw [e]
    exact ⟨o, rfl⟩
  · intro r h
    obtain ⟨w', e, o, _⟩ := write_request_eq w r 0 h
    rw [e]
    exact ⟨o, rfl⟩
  · intro r data h0 hd hl h
    obtain ⟨w', e, o, _⟩ := write_piece_eq w r data 0 h0 hd (by omega) h
    rw [e]
    exact ⟨o, rfl⟩
  · intro np hn h
    obtain ⟨w', e, o, _⟩ := write_bitfield_eq w np 0 hn h
    rw [e]
    exact ⟨(8 - np.toNat % 8) % 8, by omega, by omega, o, rfl⟩
  · intro infohash peer_id hi hp h
    obtain ⟨w', e, o, _⟩ := write_handshake_eq w infohash peer_id hi hp 0 h
    rw [e]
    exact ⟨o, rfl⟩

example : (write_request Writer.toFile ⟨1, 2, 16384⟩).1.out = [0, 0, 0, 13, 6, 0, 0, 0, 1, 0, 0, 0, 2, 0, 0, 64, 0] ∧
    (write_bitfield Writer.toFile 10).1.out = [0, 0, 0, 3, 5, 255, 192] := by decide

/-! ### Reading -/

/-- A message is read as what it is, whatever follows it, and exactly its bytes are used; a part of it is waited with. -/
theorem C136_read (junk : Bytes) (m : Req) (h : Good m) :
    (∀ rest, read_next junk (encode m ++ rest) = .ok (some (m, (encode m).length))) ∧
    ∀ k, k < (encode m).length → read_next junk ((encode m).take k) = .ok none :=
  ⟨read_next_encode junk m h, fun k hk => read_next_wait junk m h _ k hk rfl⟩

/-- The same for the handshake. -/
theorem C136_handshake (h : Handshake) (g : GoodHandshake h) :
    (∀ rest, read_first (encode (.handshake h) ++ rest) = .ok (some (.handshake h, 68))) ∧
    ∀ t : Bytes, t.length < 68 → read_first t = .ok none :=
  ⟨read_first_encode h g, fun t ht => by rw [read_first, if_pos ht]⟩

/-- A handshake and messages come in, cut in any way.  At any time exactly the complete ones have been read, in order; the part of the next one is kept. -/
theorem C136_stream (junk : Bytes) (k : Nat) (h : Handshake) (ms : List Req) (chunks : List Bytes) (later : Bytes) (gh : GoodHandshake h) (gm : ∀ m ∈ ms, Good m) (hk : ms.length + 1 < k)
    (hw : chunks.flatten ++ later = ((.handshake h :: ms).map encode).flatten)
    (hroom : ∀ c ∈ chunks, ∀ m ∈ .handshake h :: ms, c.length + (encode m).length ≤ 1000000) :
    ∃ g a b t, .handshake h :: ms = a ++ b ∧ chunks.flatten = (a.map encode).flatten ++ t ∧ (b = [] → t = []) ∧ (∀ m c, b = m :: c → t.length < (encode m).length) ∧
      receive junk k chunks false [] [] = .ok (g, t, a) := by
  obtain ⟨g, a, b, t, e1, e2, e3, e4, e5⟩ := receive_eq junk k chunks false (.handshake h :: ms) [] later [] ⟨⟨h, rfl, gh⟩, gm⟩ (by simpa using hk) (by simpa [wire] using hw)
    (fun _ => rfl) (fun m c e => by
      simp only [List.cons.injEq] at e
      rw [← e.1, handshake_length h gh]; simp) hroom
  exact ⟨g, a, b, t, e1, by simpa [wire] using e2, e3, e4, by simpa using e5⟩

/-- When everything has come in, everything has been read. -/
theorem C136_stream_all (junk : Bytes) (k : Nat) (h : Handshake) (ms : List Req) (chunks : List Bytes) (gh : GoodHandshake h) (gm : ∀ m ∈ ms, Good m) (hk : ms.length + 1 < k)
    (hw : chunks.flatten = ((.handshake h :: ms).map encode).flatten)
    (hroom : ∀ c ∈ chunks, ∀ m ∈ .handshake h :: ms, c.length + (encode m).length ≤ 1000000) :
    ∃ g, receive junk k chunks false [] [] = .ok (g, [], .handshake h :: ms) := by
  obtain ⟨g, a, b, t, e1, e2, e3, e4, e5⟩ := C136_stream junk k h ms chunks [] gh gm hk (by simpa using hw) hroom
  have hb : b = [] := by
    cases b with
    | nil => rfl
    | cons m c =>
      have := e4 m c rfl
      rw [hw, e1] at e2
      have := congrArg List.length e2
      simp only [List.map_append, List.flatten_append, List.length_append, List.map_cons, List.flatten_cons] at this
      omega
  have ht := e3 hb
  subst hb ht
  exact ⟨g, by rw [e5, e1, List.append_nil]⟩

/-- Two messages in two chunks that are cut inside of the second one. -/
example : (receive [] 9 [[0, 0, 0, 0, 0, 0], [0, 3, 5, 255, 192]] true [] []) =
    .ok (true, [], [.keepalive, .msg (.bitfield [true, true, true, true, true, true, true, true, true, true, false, false, false, false, false, false])]) := by decide

/-! ### What goes wrong -/

theorem flagLoop_over (junk : UInt8) (n : Nat) (rd : Reader) (acc : List Bool) (h : 1000 < acc.length + 8 * n) (h0 : acc.length ≤ 1000) :
    flagLoop junk n rd acc = .panic "undefined: write outside of an array" := by
  induction n generalizing rd acc with
  | zero => omega
  | succ n ih =>
    rw [flagLoop]
    simp only
    by_cases hc : acc.length + 8 > 1000
    · rw [if_pos hc]
    · rw [if_neg hc]
      have hb : ∀ b, (bits b).length = 8 := fun b => by simp [bits]
      exact ih _ _ (by rw [List.length_append, hb]; omega) (by rw [List.length_append, hb]; omega)

/-- A torrent with more than 1000 pieces: the message that says which pieces a peer has is written outside of an array when it is read. -/
theorem C136_counterexample_bitfield (junk rest : Bytes) (np : UInt64) (h1 : 1000 < np.toNat) (h2 : np.toNat < 2 ^ 31) :
    read_next junk ((write_bitfield Writer.toFile np).1.out ++ rest) = .panic "undefined: write outside of an array" := by
  obtain ⟨w', e, o, _⟩ := write_bitfield_eq Writer.toFile np 0 h2 (.inl rfl)
  have hl := field_length np.toNat
  rw [e]
  simp only
  rw [o]
  have hpl : (pack (field np.toNat)).length = (np.toNat + 7) / 8 := by rw [pack_length, hl]; omega
  have hst : Writer.toFile.out ++ encode (.msg (.bitfield (field np.toNat))) ++ rest = be4 (1 + (np.toNat + 7) / 8) ++ (5 :: (pack (field np.toNat) ++ rest)) := by
    have : (field np.toNat).length / 8 = (np.toNat + 7) / 8 := by rw [hl]; omega
    simp [encode, Writer.toFile, this]
  rw [hst]
  obtain ⟨v, hv, hvn⟩ := read4be_mem junk (1 + (np.toNat + 7) / 8) (by omega) (5 :: (pack (field np.toNat) ++ rest)) 0
  unfold read_next
  rw [if_neg (by simp [be4_length]), show Reader.ofBuffer (be4 (1 + (np.toNat + 7) / 8) ++ (5 :: (pack (field np.toNat) ++ rest))) = mem (be4 (1 + (np.toNat + 7) / 8) ++ (5 :: (pack (field np.toNat) ++ rest))) 0 from rfl, hv]
  simp only
  have hne : v ≠ 0 := by intro e; rw [e] at hvn; simp only [UInt32.toNat_zero] at hvn; omega
  rw [four_add v (by omega), hvn, if_neg (by simp only [List.length_append, List.length_cons, be4_length, hpl]; omega), if_neg hne]
  have hsub : (v - 1).toNat = (np.toNat + 7) / 8 := by
    rw [UInt32.toNat_sub_of_le _ _ (by rw [UInt32.le_iff_toNat_le, hvn]; exact Nat.le_add_right _ _), hvn]
    exact Nat.add_sub_cancel_left _ _
  unfold read_message
  rw [read1_mem]
  simp only
  rw [if_neg (by decide), if_neg (by decide), if_pos (by decide), hsub, flagLoop_over _ _ _ _ (by simp; omega) (by simp)]
  rfl

/-- A length near 2^32: five bytes are taken for a complete message, and what was in the memory before is read as a request. -/
theorem C136_counterexample_length : read_next [1, 2, 3, 4] [255, 255, 255, 252, 6] = .ok (some (.msg (.request ⟨0x01020304, 0x01020304, 0x01020304⟩), 5)) := by decide

/-- A message of length 1 that is said to be a piece has 4294967288 bytes. -/
theorem C136_counterexample_piece : ∃ data, read_next [1, 2, 3, 4] [0, 0, 0, 1, 7] = .ok (some (.msg (.piece 0x01020304 0x01020304 4294967288 data), 5)) := ⟨_, rfl⟩

/-! ### Requests for pieces -/

/-- The requests for a piece are the blocks of 16384 bytes it consists of, the last of which may be shorter, if all of them fit into the buffer. -/
theorem C137_requests (tf : Info) (h : Fine tf) (i : UInt64) (hi : i.toNat < 2 ^ 32) (h0 : i.toNat * tf.piece_length.toNat < size (parts tf)) (l : Nat)
    (hl : l = min tf.piece_length.toNat (size (parts tf) - i.toNat * tf.piece_length.toNat)) (hfit : 17 * ((l + 16383) / 16384) ≤ 1000000) (fuel : Nat) (hf : (l + 16383) / 16384 < fuel) :
    ∃ rs : List Range, request_pieces fuel tf i = .ok ((rs.map fun r => encode (.msg (.request r))).flatten) ∧
      rs.length = (l + 16383) / 16384 ∧
      ∀ k (hk : k < rs.length), rs[k].index.toNat = i.toNat ∧ rs[k].begin.toNat = k * 16384 ∧ rs[k].length.toNat = min 16384 (l - k * 16384) := by
  obtain ⟨n, hn, hv⟩ := npieces_eq tf h
  obtain ⟨pl, hp, pv⟩ := piece_length_eq tf h i h0
  have hP := h.piece
  rw [← hl] at pv
  have hin : ¬ i ≥ n := by
    intro hc
    rw [ge_iff_le, UInt64.le_iff_toNat_le, hv] at hc
    have h1 := Nat.mul_le_mul_right tf.piece_length.toNat hc
    have h2 := Nat.lt_div_mul_add (a := size (parts tf) + tf.piece_length.toNat - 1) hP
    omega
  have hi32 : i.toUInt32.toNat = i.toNat := by rw [UInt64.toNat_toUInt32]; omega
  obtain ⟨w', e, o⟩ := requestLoop_eq i.toUInt32 pl (by omega) ((l + 16383) / 16384) fuel 0 0 (Writer.toBuffer 1000000) 0 rfl (by omega) (by omega) hf (.inr ⟨1000000, rfl, by simpa [Writer.toBuffer] using hfit⟩)
  refine ⟨(List.range ((l + 16383) / 16384)).map fun k => block i.toUInt32 l k, ?_, by simp, ?_⟩
  · unfold request_pieces
    rw [hn]
    simp only [Res.bind]
    rw [if_neg hin, hp]
    simp only
    rw [e]
    simp only
    rw [o, pv]
    simp only [Writer.toBuffer, wire, List.nil_append, List.map_map, Nat.zero_add]
    rfl
  · intro k hk
    simp only [List.length_map, List.length_range] at hk
    simp only [List.getElem_map, List.getElem_range, block, UInt32.toNat_ofNat']
    exact ⟨hi32, by omega, by omega⟩

/-- A piece of 40000 bytes is asked for in three requests. -/
example : request_pieces 9 { piece_length := 40000, name := [97], pieces := [], length := 50000, files := [] } 0 =
    .ok (encode (.msg (.request ⟨0, 0, 16384⟩)) ++ encode (.msg (.request ⟨0, 16384, 16384⟩)) ++ encode (.msg (.request ⟨0, 32768, 7232⟩))) := by decide +kernel
end Che.Props
