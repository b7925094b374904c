import Verif.Spec.Lib.Peer
import Verif.Props.Lib.Enc

namespace Che.Prog.Peer
open Che Che.Lib Che.Lib.Torrent Che.Prog.Torrent Che.Spec.Peer Che.Spec.Lib

/-- A reader of memory. -/
def mem (rest : Bytes) (pos : Nat) : Reader := { src := .mem rest, pos := pos }

theorem mem_read (bs rest : Bytes) (pos : Nat) : (mem (bs ++ rest) pos).read bs.length = (mem rest (pos + bs.length), (bs.length : Int), bs) := by
  unfold mem Reader.read Source.read memRead
  by_cases h : bs ++ rest = []
  · simp only [List.append_eq_nil_iff] at h
    obtain ⟨rfl, rfl⟩ := h
    rfl
  · simp only
    rw [if_neg h, memReadLoop_eq]
    simp only [List.drop_left, List.take_left, List.nil_append, Int.zero_add]
    refine Prod.ext ?_ rfl
    simp only [Reader.mk.injEq, true_and]
    split <;> omega

theorem read1_mem (b : UInt8) (rest : Bytes) (pos : Nat) (v : UInt8) : Endian.read1 (mem (b :: rest) pos) v = (mem rest (pos + 1), 1, b) := by
  have := mem_read [b] rest pos
  simp only [List.length_cons, List.length_nil, List.cons_append, List.nil_append] at this
  unfold Endian.read1
  rw [this]
  rfl

theorem be4_length (n : Nat) : (be4 n).length = 4 := rfl

theorem be4_value (n : Nat) (h : n < 2 ^ 32) : bigEndian (be4 n) = n := by
  simp [be4, bigEndian]
  omega

theorem read4be_mem (junk : Bytes) (n : Nat) (h : n < 2 ^ 32) (rest : Bytes) (pos : Nat) :
    ∃ v, Endian.read4be junk (mem (be4 n ++ rest) pos) = (mem rest (pos + 4), 4, v) ∧ v.toNat = n := by
  have hr := mem_read (be4 n) rest pos
  rw [be4_length] at hr
  obtain ⟨_, h2⟩ := Props.C48_read4be junk (be4 n) (mem (be4 n ++ rest) pos) ⟨rfl, rest, rfl⟩ rfl
  rw [be4_value n h] at h2
  refine ⟨_, ?_, h2⟩
  unfold Endian.read4be
  rw [hr]
  rfl

theorem read4be_mem' (junk : Bytes) (v : UInt32) (rest : Bytes) (pos : Nat) :
    Endian.read4be junk (mem (be4 v.toNat ++ rest) pos) = (mem rest (pos + 4), 4, v) := by
  obtain ⟨u, h1, h2⟩ := read4be_mem junk v.toNat v.toNat_lt rest pos
  rw [h1, UInt32.toNat_inj.mp h2]

theorem bits_pack (a b c d e f g h : Bool) : bits (UInt8.ofNat ([a, b, c, d, e, f, g, h].foldl (fun n x => 2 * n + x.toNat) 0)) = [a, b, c, d, e, f, g, h] := by
  revert a b c d e f g h
  decide +kernel

theorem pack_length (flags : List Bool) : (pack flags).length = flags.length / 8 := by
  fun_induction pack flags with
  | case1 a b c d e f g h rest ih => simp only [List.length_cons, ih]; omega
  | case2 flags hf =>
    match flags with
    | [] | [_] | [_, _] | [_, _, _] | [_, _, _, _] | [_, _, _, _, _] | [_, _, _, _, _, _] | [_, _, _, _, _, _, _] => simp
    | a :: b :: c :: d :: e :: f :: g :: h :: rest => exact absurd rfl (hf a b c d e f g h rest)

theorem flagLoop_pack (junk : UInt8) (flags : List Bool) (h8 : flags.length % 8 = 0) (rest : Bytes) (pos : Nat) (acc : List Bool) (ha : acc.length + flags.length ≤ 1000) :
    flagLoop junk (flags.length / 8) (mem (pack flags ++ rest) pos) acc = .ok (mem rest (pos + flags.length / 8), acc ++ flags) := by
  fun_induction pack flags generalizing pos acc with
  | case1 a b c d e f g h fs ih =>
    simp only [List.length_cons] at *
    have e : (fs.length + 1 + 1 + 1 + 1 + 1 + 1 + 1 + 1) / 8 = fs.length / 8 + 1 := by omega
    rw [e, flagLoop, List.cons_append, read1_mem]
    simp only
    rw [if_neg (by omega), bits_pack, ih (by omega) (pos + 1) _ (by simp only [List.length_append, List.length_cons, List.length_nil]; omega)]
    simp only [List.append_assoc, List.cons_append, List.nil_append]
    rw [show pos + 1 + fs.length / 8 = pos + (fs.length / 8 + 1) by omega]
  | case2 flags hf =>
    match flags with
    | [] => simp [flagLoop]
    | [_] | [_, _] | [_, _, _] | [_, _, _, _] | [_, _, _, _, _] | [_, _, _, _, _, _] | [_, _, _, _, _, _, _] => simp at h8
    | a :: b :: c :: d :: e :: f :: g :: h :: rest => exact absurd rfl (hf a b c d e f g h rest)

/-! ### Reading what has been encoded -/

/-- The number of bytes after the length. -/
def bodyLen : Req → Nat
  | .keepalive => 0
  | .msg (.request _) => 13
  | .msg (.piece _ _ n _) => 9 + n.toNat
  | .msg (.bitfield flags) => 1 + flags.length / 8
  | .handshake _ => 0

/-- The bytes after the length. -/
def body : Req → Bytes
  | .keepalive => []
  | .msg (.request r) => 6 :: (be4 r.index.toNat ++ (be4 r.begin.toNat ++ be4 r.length.toNat))
  | .msg (.piece i b _ data) => 7 :: (be4 i.toNat ++ (be4 b.toNat ++ data))
  | .msg (.bitfield flags) => 5 :: pack flags
  | .handshake _ => []

theorem encode_shape (m : Req) (h : Good m) : encode m = be4 (bodyLen m) ++ body m ∧ (body m).length = bodyLen m ∧ bodyLen m + 4 < 2 ^ 32 := by
  match m, h with
  | .keepalive, _ => exact ⟨rfl, rfl, by decide⟩
  | .msg (.request r), _ => exact ⟨by simp [encode, bodyLen, body], rfl, by simp [bodyLen]⟩
  | .msg (.piece i b n data), h =>
    refine ⟨by simp [encode, bodyLen, body], ?_, by have := h.2; simp only [bodyLen]; omega⟩
    simp only [bodyLen, body, List.length_cons, List.length_append, be4_length, h.1]; omega
  | .msg (.bitfield flags), h =>
    refine ⟨by simp [encode, bodyLen, body], ?_, by have := h.2; simp only [bodyLen]; omega⟩
    simp only [bodyLen, body, List.length_cons, pack_length]; omega

theorem encode_length (m : Req) (h : Good m) : (encode m).length = 4 + bodyLen m := by
  obtain ⟨e, l, _⟩ := encode_shape m h
  rw [e, List.length_append, be4_length, l]

theorem read_body (junk : Bytes) (m : Msg) (h : Good (.msg m)) (v : UInt32) (hv : v.toNat = bodyLen (.msg m)) (rest : Bytes) (pos : Nat) :
    v ≠ 0 ∧ read_message junk (mem (body (.msg m) ++ rest) pos) v = .ok (mem rest (pos + bodyLen (.msg m)), m) := by
  cases m with
  | request r =>
    simp only [bodyLen] at hv
    refine ⟨by intro e; rw [e] at hv; exact absurd hv (by decide), ?_⟩
    unfold read_message
    simp only [body, List.cons_append, List.append_assoc, read1_mem, read4be_mem', if_pos]
    rfl
  | piece i b n data =>
    simp only [bodyLen] at hv
    have hsub : v - 9 = n := by
      apply UInt32.toNat_inj.mp
      rw [UInt32.toNat_sub_of_le _ _ (by rw [UInt32.le_iff_toNat_le, hv]; exact Nat.le_add_right _ _), hv]
      exact Nat.add_sub_cancel_left _ _
    refine ⟨by intro e; rw [e] at hv; simp only [UInt32.toNat_zero] at hv; omega, ?_⟩
    have hd := h.1
    unfold read_message
    simp only [body, List.cons_append, List.append_assoc, read1_mem, read4be_mem', hsub]
    rw [if_neg (by decide), if_pos trivial, ← hd, mem_read]
    simp only [Nat.sub_self, List.replicate_zero, List.append_nil, bodyLen, ← hd]
    rw [show pos + 1 + 4 + 4 + data.length = pos + (9 + data.length) by omega]
  | bitfield flags =>
    simp only [bodyLen] at hv
    have hsub : (v - 1).toNat = flags.length / 8 := by
      rw [UInt32.toNat_sub_of_le _ _ (by rw [UInt32.le_iff_toNat_le, hv]; exact Nat.le_add_right _ _), hv]
      exact Nat.add_sub_cancel_left _ _
    refine ⟨by intro e; rw [e] at hv; simp only [UInt32.toNat_zero] at hv; omega, ?_⟩
    unfold read_message
    simp only [body, List.cons_append, read1_mem, hsub]
    rw [if_neg (by decide), if_neg (by decide), if_pos trivial, flagLoop_pack _ flags h.1 rest _ [] (by have := h.2; simpa using this)]
    simp only [Res.bind, bodyLen, List.nil_append]
    rw [show pos + 1 + flags.length / 8 = pos + (1 + flags.length / 8) by omega]

theorem four_add (v : UInt32) (h : v.toNat + 4 < 2 ^ 32) : (4 + v).toNat = 4 + v.toNat := by
  rw [UInt32.toNat_add, show (4 : UInt32).toNat = 4 from rfl]
  omega

theorem read_next_encode (junk : Bytes) (m : Req) (h : Good m) (rest : Bytes) : read_next junk (encode m ++ rest) = .ok (some (m, (encode m).length)) := by
  have hl := encode_length m h
  obtain ⟨e, l, hb⟩ := encode_shape m h
  have hst : Reader.ofBuffer (encode m ++ rest) = mem (be4 (bodyLen m) ++ (body m ++ rest)) 0 := by rw [e, List.append_assoc]; rfl
  obtain ⟨v, hv, hvn⟩ := read4be_mem junk (bodyLen m) (by omega) (body m ++ rest) 0
  unfold read_next
  rw [hst, hv, if_neg (by rw [List.length_append]; omega)]
  simp only
  rw [four_add v (by omega), hvn, if_neg (by rw [List.length_append, hl]; omega), hl]
  cases m with
  | keepalive =>
    have : v = 0 := UInt32.toNat_inj.mp hvn
    rw [if_pos this]
    rfl
  | handshake _ => exact absurd h id
  | msg m =>
    obtain ⟨hne, hr⟩ := read_body junk m h v hvn rest (0 + 4)
    rw [if_neg hne, hr]
    simp only [Res.bind, mem, Nat.zero_add]

theorem read_next_wait (junk : Bytes) (m : Req) (h : Good m) (t : Bytes) (k : Nat) (hk : k < (encode m).length) (ht : t = (encode m).take k) : read_next junk t = .ok none := by
  have hl := encode_length m h
  obtain ⟨e, l, hb⟩ := encode_shape m h
  have htl : t.length = k := by rw [ht, List.length_take]; omega
  unfold read_next
  by_cases h4 : k < 4
  · rw [if_pos (by omega)]
  · have ht2 : t = be4 (bodyLen m) ++ (body m).take (k - 4) := by
      rw [ht, e, List.take_append, be4_length, List.take_of_length_le (by rw [be4_length]; omega)]
    obtain ⟨v, hv, hvn⟩ := read4be_mem junk (bodyLen m) (by omega) ((body m).take (k - 4)) 0
    rw [if_neg (by omega)]
    have hst : Reader.ofBuffer t = mem (be4 (bodyLen m) ++ (body m).take (k - 4)) 0 := by rw [ht2]; rfl
    rw [hst, hv]
    simp only
    rw [four_add v (by omega), hvn, if_pos (by omega)]

theorem handshake_length (h : Handshake) (g : GoodHandshake h) : (encode (.handshake h)).length = 68 := by
  obtain ⟨a, b, c⟩ := g
  simp [encode, a, b, c]

theorem read_first_encode (h : Handshake) (g : GoodHandshake h) (rest : Bytes) : read_first (encode (.handshake h) ++ rest) = .ok (some (.handshake h, 68)) := by
  have hl := handshake_length h g
  obtain ⟨a, b, c⟩ := g
  unfold read_first
  rw [if_neg (by rw [List.length_append]; omega)]
  have hst : Reader.ofBuffer (encode (.handshake h) ++ rest) = mem (19 :: (h.proto ++ (List.replicate 8 0 ++ (h.infohash ++ (h.peer_id ++ rest))))) 0 := by
    simp only [encode, List.append_assoc]; rfl
  rw [hst]
  unfold read_handshake
  rw [read1_mem]
  simp only
  have r1 := mem_read h.proto (List.replicate 8 0 ++ (h.infohash ++ (h.peer_id ++ rest))) (0 + 1)
  rw [a] at r1
  have r2 := mem_read (List.replicate 8 0) (h.infohash ++ (h.peer_id ++ rest)) (0 + 1 + 19)
  rw [List.length_replicate] at r2
  have r3 := mem_read h.infohash (h.peer_id ++ rest) (0 + 1 + 19 + 8)
  rw [b] at r3
  have r4 := mem_read h.peer_id rest (0 + 1 + 19 + 8 + 20)
  rw [c] at r4
  rw [if_neg (by decide), r1]
  simp only
  rw [r2]
  simp only
  rw [r3]
  simp only
  rw [r4]
  rfl

/-! ### Streams -/

/-- What may come before the handshake and after it. -/
def Stream : Bool → List Req → Prop
  | true, ms => ∀ m ∈ ms, Good m
  | false, [] => True
  | false, m :: ms => (∃ h, m = .handshake h ∧ GoodHandshake h) ∧ ∀ m ∈ ms, Good m

/-- Messages one after another. -/
def wire (ms : List Req) : Bytes := (ms.map encode).flatten

theorem wire_cons (m : Req) (ms : List Req) : wire (m :: ms) = encode m ++ wire ms := rfl

theorem stream_tail {g : Bool} {m : Req} {ms : List Req} (h : Stream g (m :: ms)) : Stream true ms := by
  cases g with
  | true => exact fun x hx => h x (by simp [hx])
  | false => exact h.2

theorem read_stream (junk : Bytes) {g : Bool} {m : Req} {ms : List Req} (h : Stream g (m :: ms)) (rest : Bytes) :
    read_request junk g (encode m ++ rest) = .ok (some (m, (encode m).length)) := by
  cases g with
  | true => exact read_next_encode junk m (h m (by simp)) rest
  | false =>
    obtain ⟨⟨hs, rfl, gh⟩, _⟩ := h
    rw [handshake_length hs gh]
    exact read_first_encode hs gh rest

theorem wait_stream (junk : Bytes) {g : Bool} {m : Req} {ms : List Req} (h : Stream g (m :: ms)) (t y : Bytes) (ht : t ++ y = encode m) (hl : t.length < (encode m).length) :
    read_request junk g t = .ok none := by
  cases g with
  | true => exact read_next_wait junk m (h m (by simp)) t t.length hl (by rw [← ht, List.take_left])
  | false =>
    obtain ⟨⟨hs, rfl, gh⟩, _⟩ := h
    rw [handshake_length hs gh] at hl
    simp only [read_request, read_first, if_pos hl]
    rfl

theorem wait_empty (junk : Bytes) (g : Bool) : read_request junk g [] = .ok none := by
  cases g <;> rfl

/-- The part of a stream that has come in: complete messages and a part of one. -/
theorem cut (ms : List Req) (x y : Bytes) (h : x ++ y = wire ms) :
    ∃ a b t, ms = a ++ b ∧ x = wire a ++ t ∧ t ++ y = wire b ∧ (b = [] → t = []) ∧ ∀ m c, b = m :: c → t.length < (encode m).length := by
  induction ms generalizing x with
  | nil =>
    simp only [wire, List.map_nil, List.flatten_nil, List.append_eq_nil_iff] at h
    obtain ⟨rfl, rfl⟩ := h
    exact ⟨[], [], [], rfl, rfl, rfl, fun _ => rfl, by simp⟩
  | cons m ms ih =>
    by_cases hl : x.length < (encode m).length
    · exact ⟨[], m :: ms, x, rfl, rfl, h, by simp, fun m' c e => by simp only [List.cons.injEq] at e; rw [← e.1]; exact hl⟩
    · rw [wire_cons] at h
      have hx : x = encode m ++ x.drop (encode m).length := by
        have h1 := congrArg (List.take (encode m).length) h
        rw [List.take_append_of_le_length (by omega), List.take_left] at h1
        rw [← h1, List.length_take, Nat.min_eq_left (by omega), List.take_append_drop]
      rw [hx, List.append_assoc] at h
      obtain ⟨a, b, t, e1, e2, e3, e4, e5⟩ := ih _ (List.append_cancel_left h)
      exact ⟨m :: a, b, t, by rw [e1]; rfl, by rw [hx, e2, wire_cons, List.append_assoc], e3, e4, e5⟩

/-- Complete messages are read, and nothing else. -/
theorem drain_eq (junk : Bytes) (k : Nat) (g : Bool) (a b : List Req) (t : Bytes) (y : Bytes) (got : List Req) (hs : Stream g (a ++ b)) (hk : a.length < k)
    (ht : t ++ y = wire b) (h1 : b = [] → t = []) (h2 : ∀ m c, b = m :: c → t.length < (encode m).length) :
    drain junk k g (wire a ++ t) got = .ok (g || !a.isEmpty, t, got ++ a) ∧ Stream (g || !a.isEmpty) b := by
  induction a generalizing k g got with
  | nil =>
    obtain ⟨k, rfl⟩ : ∃ n, k = n + 1 := ⟨k - 1, by simp at hk; omega⟩
    have hn : read_request junk g t = .ok none := by
      cases b with
      | nil => rw [h1 rfl]; exact wait_empty junk g
      | cons m c =>
        have hl := h2 m c rfl
        rw [wire_cons] at ht
        refine wait_stream junk hs t ((encode m).drop t.length) ?_ hl
        have h3 := congrArg (List.take t.length) ht
        rw [List.take_left, List.take_append_of_le_length (by omega)] at h3
        conv => lhs; lhs; rw [h3]
        rw [List.take_append_drop]
    have hw : wire [] ++ t = t := rfl
    rw [hw]
    simp only [drain, hn, Res.bind, List.isEmpty_nil, Bool.not_true, Bool.or_false, List.append_nil, true_and]
    exact hs
  | cons m a ih =>
    obtain ⟨k, rfl⟩ : ∃ n, k = n + 1 := ⟨k - 1, by simp at hk; omega⟩
    simp only [List.length_cons] at hk
    obtain ⟨i1, i2⟩ := ih k true (got ++ [m]) (stream_tail hs) (by omega)
    rw [wire_cons, List.append_assoc]
    simp only [drain, read_stream junk hs, Res.bind, shift]
    rw [if_neg (by rw [List.length_append]; omega)]
    simp only [List.drop_left, i1, List.append_assoc, List.cons_append, List.nil_append, List.isEmpty_cons, Bool.not_false, Bool.or_true, Bool.true_or, true_and]
    simpa using i2

theorem receive_eq (junk : Bytes) (k : Nat) (chunks : List Bytes) (g : Bool) (todo : List Req) (s y : Bytes) (got : List Req) (hs : Stream g todo) (hk : todo.length < k)
    (hw : s ++ chunks.flatten ++ y = wire todo) (h1 : todo = [] → s = []) (h2 : ∀ m c, todo = m :: c → s.length < (encode m).length)
    (hroom : ∀ c ∈ chunks, ∀ m ∈ todo, c.length + (encode m).length ≤ 1000000) :
    ∃ g' a b t, todo = a ++ b ∧ s ++ chunks.flatten = wire a ++ t ∧ (b = [] → t = []) ∧ (∀ m c, b = m :: c → t.length < (encode m).length) ∧
      receive junk k chunks g s got = .ok (g', t, got ++ a) := by
  induction chunks generalizing g todo s got with
  | nil => exact ⟨g, [], todo, s, rfl, by simp [wire], h1, h2, by simp [receive]⟩
  | cons c chunks ih =>
    simp only [List.flatten_cons] at hw
    have hap : append s c = .ok (s ++ c) := by
      unfold append
      rw [if_neg]
      cases todo with
      | nil =>
        simp only [wire, List.map_nil, List.flatten_nil, List.append_eq_nil_iff] at hw
        rw [hw.1.1, hw.1.2.1]; simp
      | cons m d =>
        have := hroom c (by simp) m (by simp)
        have := h2 m d rfl
        omega
    obtain ⟨a, b, t, e1, e2, e3, e4, e5⟩ := cut todo (s ++ c) (chunks.flatten ++ y) (by rw [← hw]; simp)
    rw [e1] at hs
    obtain ⟨d1, d2⟩ := drain_eq junk k g a b t _ got hs (by rw [e1, List.length_append] at hk; omega) e3 e4 e5
    obtain ⟨g', a', b', t', f1, f2, f3, f4, f5⟩ := ih (g || !a.isEmpty) b t (got ++ a) d2 (by rw [e1, List.length_append] at hk; omega) (by rw [← e3]; simp) e4 e5
      (fun x hx m hm => hroom x (by simp [hx]) m (by rw [e1]; simp [hm]))
    refine ⟨g', a ++ a', b', t', by rw [e1, f1, List.append_assoc], ?_, f3, f4, ?_⟩
    · rw [List.flatten_cons, ← List.append_assoc, e2, List.append_assoc, f2]
      simp [wire]
    · rw [receive, hap]
      simp only [Res.bind]
      rw [e2, d1]
      simp only
      rw [f5, List.append_assoc]

/-! ### Writing -/

/-- A writer that takes everything, or has room. -/
def Room (w : Writer) (n : Nat) : Prop := w.kind = .file none ∨ ∃ size, w.kind = .mem size ∧ w.out.length + n ≤ size

theorem write_room (w : Writer) (data : Bytes) (n : Nat) (hd : data ≠ []) (h : Room w (data.length + n)) :
    (w.write data).2 = data.length ∧ (w.write data).1.out = w.out ++ data ∧ Room (w.write data).1 n := by
  rcases h with h | ⟨size, h, hl⟩
  · obtain ⟨a, b⟩ := w.write_file data h
    exact ⟨b, a, .inl h⟩
  · have hpos := List.length_pos_iff.mpr hd
    have hw : w.kind.write w.out data = (w.out ++ data, (data.length : Int)) := by
      rw [h]
      unfold WKind.write
      simp only
      unfold memWrite
      rw [if_neg (by omega), memWriteLoop_eq _ _ _ _ (by omega), List.take_of_length_le (by omega), Int.zero_add]
    refine ⟨by simp only [Writer.write, hw], by simp only [Writer.write, hw], .inr ⟨size, h, ?_⟩⟩
    simp only [Writer.write, hw, List.length_append]
    omega

theorem write4be_eq (w : Writer) (v : UInt32) : Endian.write4be w v = w.write (be4 v.toNat) := by
  unfold Endian.write4be be4
  simp only
  congr 1
  have := v.toNat_lt
  simp only [List.cons.injEq, and_true]
  refine ⟨?_, ?_, ?_, ?_⟩ <;> apply UInt8.toNat_inj.mp <;> simp <;> omega

theorem write4be_room (w : Writer) (v : UInt32) (n : Nat) (h : Room w (4 + n)) :
    ∃ w', Endian.write4be w v = (w', 4) ∧ w'.out = w.out ++ be4 v.toNat ∧ Room w' n := by
  obtain ⟨a, b, c⟩ := write_room w (be4 v.toNat) n (by simp [be4]) h
  exact ⟨_, by rw [write4be_eq]; exact Prod.ext rfl a, b, c⟩

theorem write1_room (w : Writer) (v : UInt8) (n : Nat) (h : Room w (1 + n)) :
    ∃ w', Endian.write1 w v = (w', 1) ∧ w'.out = w.out ++ [v] ∧ Room w' n := by
  obtain ⟨a, b, c⟩ := write_room w [v] n (by simp) h
  exact ⟨_, Prod.ext rfl a, b, c⟩

theorem write_some_room (w : Writer) (data : Bytes) (n : Nat) (hd : data ≠ []) (h : Room w (data.length + n)) :
    ∃ w', w.write data = (w', (data.length : Int)) ∧ w'.out = w.out ++ data ∧ Room w' n := by
  obtain ⟨a, b, c⟩ := write_room w data n hd h
  exact ⟨_, Prod.ext rfl a, b, c⟩

theorem write_request_eq (w : Writer) (r : Range) (n : Nat) (h : Room w (17 + n)) :
    ∃ w', write_request w r = (w', 17) ∧ w'.out = w.out ++ encode (.msg (.request r)) ∧ Room w' n := by
  obtain ⟨w1, e1, o1, r1⟩ := write4be_room w 13 (13 + n) (by rw [show 4 + (13 + n) = 17 + n by omega]; exact h)
  obtain ⟨w2, e2, o2, r2⟩ := write1_room w1 6 (12 + n) (by rw [show 1 + (12 + n) = 13 + n by omega]; exact r1)
  obtain ⟨w3, e3, o3, r3⟩ := write4be_room w2 r.index (8 + n) (by rw [show 4 + (8 + n) = 12 + n by omega]; exact r2)
  obtain ⟨w4, e4, o4, r4⟩ := write4be_room w3 r.begin (4 + n) (by rw [show 4 + (4 + n) = 8 + n by omega]; exact r3)
  obtain ⟨w5, e5, o5, r5⟩ := write4be_room w4 r.length n r4
  refine ⟨w5, ?_, ?_, r5⟩
  · simp only [write_request, e1, e2, e3, e4, e5]; rfl
  · rw [o5, o4, o3, o2, o1]; simp [encode]

theorem write_piece_eq (w : Writer) (r : Range) (data : Bytes) (n : Nat) (h0 : 0 < r.length.toNat) (hd : r.length.toNat ≤ data.length) (hl : r.length.toNat + 13 < 2 ^ 32)
    (h : Room w (13 + r.length.toNat + n)) :
    ∃ w', write_piece w r data = (w', ((13 + r.length.toNat : Nat) : Int)) ∧ w'.out = w.out ++ encode (.msg (.piece r.index r.begin r.length (data.take r.length.toNat))) ∧ Room w' n := by
  have ht : (data.take r.length.toNat).length = r.length.toNat := by rw [List.length_take]; omega
  have hv : (9 + r.length).toNat = 9 + r.length.toNat := by rw [UInt32.toNat_add, show (9 : UInt32).toNat = 9 from rfl]; omega
  obtain ⟨w1, e1, o1, r1⟩ := write4be_room w (9 + r.length) (9 + (r.length.toNat + n)) (by rw [show 4 + (9 + (r.length.toNat + n)) = 13 + r.length.toNat + n by omega]; exact h)
  obtain ⟨w2, e2, o2, r2⟩ := write1_room w1 7 (8 + (r.length.toNat + n)) (by rw [show 1 + (8 + (r.length.toNat + n)) = 9 + (r.length.toNat + n) by omega]; exact r1)
  obtain ⟨w3, e3, o3, r3⟩ := write4be_room w2 r.index (4 + (r.length.toNat + n)) (by rw [show 4 + (4 + (r.length.toNat + n)) = 8 + (r.length.toNat + n) by omega]; exact r2)
  obtain ⟨w4, e4, o4, r4⟩ := write4be_room w3 r.begin (r.length.toNat + n) r3
  obtain ⟨w5, e5, o5, r5⟩ := write_some_room w4 (data.take r.length.toNat) n (by intro e; rw [e] at ht; simp only [List.length_nil] at ht; omega) (by rw [ht]; exact r4)
  refine ⟨w5, ?_, ?_, r5⟩
  · simp only [write_piece, e1, e2, e3, e4, e5, ht]
    rw [if_neg (by omega)]
    refine Prod.ext rfl ?_
    simp only
    omega
  · rw [o5, o4, o3, o2, o1, hv]; simp [encode]

theorem write_handshake_eq (w : Writer) (infohash peer_id : Bytes) (hi : infohash.length = 20) (hp : peer_id.length = 20) (n : Nat) (h : Room w (68 + n)) :
    ∃ w', write_handshake w infohash peer_id = (w', 68) ∧ w'.out = w.out ++ encode (.handshake ⟨cstr "BitTorrent protocol", infohash, peer_id⟩) ∧ Room w' n := by
  have hc : (cstr "BitTorrent protocol" ++ List.replicate 8 0).length = 27 := by decide
  obtain ⟨w1, e1, o1, r1⟩ := write_some_room w [19] (67 + n) (by simp) (by rw [show [(19 : UInt8)].length + (67 + n) = 68 + n by simp; omega]; exact h)
  obtain ⟨w2, e2, o2, r2⟩ := write_some_room w1 (cstr "BitTorrent protocol" ++ List.replicate 8 0) (40 + n) (by intro e; rw [e] at hc; simp at hc) (by rw [hc, show 27 + (40 + n) = 67 + n by omega]; exact r1)
  obtain ⟨w3, e3, o3, r3⟩ := write_some_room w2 infohash (20 + n) (by intro e; rw [e] at hi; simp at hi) (by rw [hi, show 20 + (20 + n) = 40 + n by omega]; exact r2)
  obtain ⟨w4, e4, o4, r4⟩ := write_some_room w3 peer_id n (by intro e; rw [e] at hp; simp at hp) (by rw [hp]; exact r3)
  refine ⟨w4, ?_, ?_, r4⟩
  · simp only [write_handshake, e1, e2, e3, e4, hc, hi, hp]; rfl
  · rw [o4, o3, o2, o1]; simp [encode]

/-- Flags for `n` pieces, in eights. -/
def field (n : Nat) : List Bool := List.replicate n true ++ List.replicate ((8 - n % 8) % 8) false

theorem field_length (n : Nat) : (field n).length = 8 * ((n + 7) / 8) := by
  simp [field]; omega

theorem ones_small (n : Nat) (h0 : 0 < n) (h : n ≤ 8) : [ones n] = pack (field n) := by
  have : ∀ n : Fin 9, 0 < n.val → [ones n.val] = pack (field n.val) := by decide +kernel
  exact this ⟨n, by omega⟩ h0

theorem field_more (n : Nat) (h : 8 < n) : pack (field n) = ones 8 :: pack (field (n - 8)) := by
  have e : field n = List.replicate 8 true ++ field (n - 8) := by
    unfold field
    rw [show (n - 8) % 8 = n % 8 by omega, ← List.append_assoc, List.replicate_append_replicate, show 8 + (n - 8) = n by omega]
  rw [e]
  have : ∀ l : List Bool, pack (List.replicate 8 true ++ l) = ones 8 :: pack l := by
    intro l
    have h1 : List.replicate 8 true ++ l = true :: true :: true :: true :: true :: true :: true :: true :: l := rfl
    rw [h1, pack]
    congr 1
  exact this _

theorem fieldLoop_eq (k n : Nat) (w : Writer) (c : Int) (m : Nat) (hk : n ≤ k) (h : Room w ((n + 7) / 8 + m)) :
    ∃ w', fieldLoop k n w c = (w', c + ((n + 7) / 8 : Nat)) ∧ w'.out = w.out ++ pack (field n) ∧ Room w' m := by
  induction k generalizing n w c with
  | zero =>
    have : n = 0 := by omega
    subst this
    exact ⟨w, by simp [fieldLoop], by simp [field, pack], by simpa using h⟩
  | succ k ih =>
    unfold fieldLoop
    by_cases h0 : n = 0
    · subst h0
      exact ⟨w, by simp, by simp [field, pack], by simpa using h⟩
    · rw [if_neg h0]
      have e : (n + 7) / 8 = 1 + (n - 8 + 7) / 8 ∨ n < 8 ∧ (n + 7) / 8 = 1 := by omega
      by_cases h8 : n ≤ 8
      · have e1 : (n + 7) / 8 = 1 := by omega
        rw [e1] at h ⊢
        obtain ⟨w1, e1, o1, r1⟩ := write1_room w (ones (min n 8)) m h
        unfold Endian.write1 at e1
        refine ⟨w1, ?_, ?_, r1⟩
        · rw [e1]
          simp only
          rw [show n - 8 = 0 by omega]
          cases k <;> simp [fieldLoop]
        · rw [o1, ← ones_small n (by omega) h8, Nat.min_eq_left h8]
      · have e1 : (n + 7) / 8 = 1 + (n - 8 + 7) / 8 := by omega
        rw [e1, Nat.add_assoc] at h
        obtain ⟨w1, f1, o1, r1⟩ := write1_room w (ones (min n 8)) _ h
        unfold Endian.write1 at f1
        obtain ⟨w2, f2, o2, r2⟩ := ih (n - 8) w1 (c + 1) (by omega) r1
        refine ⟨w2, ?_, ?_, r2⟩
        · rw [f1]
          simp only
          rw [f2, e1]
          refine Prod.ext rfl ?_
          simp only
          omega
        · rw [o2, o1, field_more n (by omega), Nat.min_eq_right (by omega)]; simp

theorem write_bitfield_eq (w : Writer) (np : UInt64) (m : Nat) (hn : np.toNat < 2 ^ 31) (h : Room w (5 + (np.toNat + 7) / 8 + m)) :
    ∃ w', write_bitfield w np = (w', ((5 + (np.toNat + 7) / 8 : Nat) : Int)) ∧ w'.out = w.out ++ encode (.msg (.bitfield (field np.toNat))) ∧ Room w' m := by
  have hb : (if np / 8 * 8 < np then np / 8 + 1 else np / 8).toNat = (np.toNat + 7) / 8 := by
    have e8 : (np / 8).toNat = np.toNat / 8 := by rw [UInt64.toNat_div]; rfl
    have em : (np / 8 * 8).toNat = np.toNat / 8 * 8 := by
      rw [UInt64.toNat_mul, e8, show (8 : UInt64).toNat = 8 from rfl]; omega
    by_cases hc : np / 8 * 8 < np
    · rw [if_pos hc, UInt64.toNat_add, e8, show (1 : UInt64).toNat = 1 from rfl]
      rw [UInt64.lt_iff_toNat_lt, em] at hc
      omega
    · rw [if_neg hc, e8]
      rw [UInt64.lt_iff_toNat_lt, em] at hc
      omega
  generalize hnb : (if np / 8 * 8 < np then np / 8 + 1 else np / 8) = nb at hb
  have hv : (1 + nb).toUInt32.toNat = 1 + (np.toNat + 7) / 8 := by
    rw [UInt64.toNat_toUInt32, UInt64.toNat_add, hb, show (1 : UInt64).toNat = 1 from rfl]; omega
  obtain ⟨w1, e1, o1, r1⟩ := write4be_room w (1 + nb).toUInt32 (1 + ((np.toNat + 7) / 8 + m)) (by rw [show 4 + (1 + ((np.toNat + 7) / 8 + m)) = 5 + (np.toNat + 7) / 8 + m by omega]; exact h)
  obtain ⟨w2, e2, o2, r2⟩ := write1_room w1 5 _ r1
  obtain ⟨w3, e3, o3, r3⟩ := fieldLoop_eq np.toNat np.toNat w2 (4 + 1) m (Nat.le_refl _) r2
  refine ⟨w3, ?_, ?_, r3⟩
  · unfold write_bitfield
    simp only
    rw [hnb, e1]
    simp only
    rw [e2]
    simp only
    rw [e3]
    refine Prod.ext rfl ?_
    simp only
    omega
  · rw [o3, o2, o1, hv]
    have : (field np.toNat).length / 8 = (np.toNat + 7) / 8 := by rw [field_length]; omega
    simp [encode, this]

/-! ### Requests for a piece -/

/-- The request number `k` for a piece of `l` bytes. -/
def block (i : UInt32) (l k : Nat) : Range := { index := i, begin := UInt32.ofNat (k * 16384), length := UInt32.ofNat (min 16384 (l - k * 16384)) }

theorem wire_append (a b : List Req) : wire (a ++ b) = wire a ++ wire b := by simp [wire]

theorem requestLoop_eq (i : UInt32) (l : UInt64) (hl : l.toNat < 2 ^ 32) (j : Nat) : ∀ (fuel k : Nat) (pos : UInt64) (w : Writer) (n : Nat),
    pos.toNat = k * 16384 → l.toNat ≤ (k + j) * 16384 → (k + j) * 16384 < l.toNat + 16384 → j < fuel → Room w (17 * j + n) →
    ∃ w', requestLoop i l fuel pos (16 * 1024) w = .ok w' ∧
      w'.out = w.out ++ wire (((List.range j).map fun d => .msg (.request (block i l.toNat (k + d))))) := by
  induction j with
  | zero =>
    intro fuel k pos w n hp h1 h2 hf hr
    obtain ⟨fuel, rfl⟩ : ∃ f, fuel = f + 1 := ⟨fuel - 1, by omega⟩
    refine ⟨w, ?_, by simp [wire]⟩
    rw [requestLoop, if_neg (by rw [UInt64.lt_iff_toNat_lt]; omega)]
  | succ j ih =>
    intro fuel k pos w n hp h1 h2 hf hr
    obtain ⟨fuel, rfl⟩ : ∃ f, fuel = f + 1 := ⟨fuel - 1, by omega⟩
    have hlt : pos.toNat < l.toNat := by omega
    have hll := l.toNat_lt
    have hk : (16 * 1024 : UInt64).toNat = 16384 := rfl
    have hadd : (pos + 16 * 1024).toNat = pos.toNat + 16384 := by rw [UInt64.toNat_add, hk]; omega
    obtain ⟨w1, e1, o1, r1⟩ := write_request_eq w (block i l.toNat k) (17 * j + n) (by rw [show 17 + (17 * j + n) = 17 * (j + 1) + n by omega]; exact hr)
    have hpos : pos.toUInt32 = UInt32.ofNat (k * 16384) := by
      apply UInt32.toNat_inj.mp
      rw [UInt64.toNat_toUInt32, hp, UInt32.toNat_ofNat']
    have hrange : (List.range (j + 1)).map (fun d => Req.msg (.request (block i l.toNat (k + d)))) =
        .msg (.request (block i l.toNat k)) :: (List.range j).map (fun d => Req.msg (.request (block i l.toNat (k + 1 + d)))) := by
      rw [List.range_succ_eq_map, List.map_cons, List.map_map]
      rw [Nat.add_zero]
      refine congrArg (List.cons _) ?_
      apply List.map_congr_left
      intro d _
      simp only [Function.comp_apply]
      rw [show k + d.succ = k + 1 + d by omega]
    rw [hrange, wire_cons, requestLoop, if_pos (by rw [UInt64.lt_iff_toNat_lt]; exact hlt)]
    simp only
    by_cases hlast : l.toNat < pos.toNat + 16384
    · have hj : j = 0 := by omega
      subst hj
      have hsub : (l - pos).toNat = l.toNat - pos.toNat := UInt64.toNat_sub_of_le _ _ (by rw [UInt64.le_iff_toNat_le]; omega)
      have hlen : (l - pos).toUInt32 = UInt32.ofNat (min 16384 (l.toNat - k * 16384)) := by
        apply UInt32.toNat_inj.mp
        rw [UInt64.toNat_toUInt32, hsub, UInt32.toNat_ofNat', Nat.min_eq_right (by omega), hp]
      rw [if_pos (show pos + 16 * 1024 > l by rw [gt_iff_lt, UInt64.lt_iff_toNat_lt, hadd]; exact hlast), hpos, hlen]
      have e1' := e1
      unfold block at e1'
      rw [e1']
      simp only
      rw [if_neg (by omega)]
      obtain ⟨fuel, rfl⟩ : ∃ f, fuel = f + 1 := ⟨fuel - 1, by omega⟩
      rw [requestLoop, if_neg (by rw [UInt64.lt_iff_toNat_lt, UInt64.toNat_add, hsub]; omega)]
      exact ⟨w1, rfl, by rw [o1]; simp [wire]⟩
    · have hlen : (16 * 1024 : UInt64).toUInt32 = UInt32.ofNat (min 16384 (l.toNat - k * 16384)) := by
        rw [Nat.min_eq_left (by omega)]; rfl
      rw [if_neg (show ¬ pos + 16 * 1024 > l by rw [gt_iff_lt, UInt64.lt_iff_toNat_lt, hadd]; omega), hpos, hlen]
      have e1' := e1
      unfold block at e1'
      rw [e1']
      simp only
      rw [if_neg (by omega)]
      obtain ⟨w2, f1, f2⟩ := ih fuel (k + 1) (pos + 16 * 1024) w1 n (by rw [hadd]; omega) (by rw [show k + 1 + j = k + (j + 1) by omega]; exact h1)
        (by rw [show k + 1 + j = k + (j + 1) by omega]; exact h2) (by omega) r1
      exact ⟨w2, f1, by rw [f2, o1, List.append_assoc]⟩
end Che.Prog.Peer
