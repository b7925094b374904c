import Verif.Model.Lib.Bmp
import Verif.Spec.Lib.Bmp
import Verif.Proofs.Lib.Png
import Verif.Proofs.Lib.Time
import Verif.Props.Lib.Enc

namespace Che.Lib.Bmp
open Che.Lib Che.Lib.Image Che.Spec.Bmp Che.Spec.Lib
open Che.Lib.Png (byte row ok_bind)

/-- A file that has `out` in it. -/
def Has (w : Writer) (out : Bytes) : Prop := w.kind = .file none ∧ w.out = out

theorem has_write {w : Writer} {out : Bytes} (h : Has w out) (bs : Bytes) : Has (w.write bs).1 (out ++ bs) := by
  obtain ⟨h1, h2⟩ := h
  unfold Writer.write
  rw [h1, h2]
  exact ⟨rfl, rfl⟩

/-- Four bytes of a number, the least significant first. -/
def le4 (n : Nat) : Bytes := [UInt8.ofNat n, UInt8.ofNat (n / 256), UInt8.ofNat (n / 65536), UInt8.ofNat (n / 16777216)]
def le2 (n : Nat) : Bytes := [UInt8.ofNat n, UInt8.ofNat (n / 256)]

theorem le4_value (n : Nat) (h : n < 2 ^ 32) : littleEndian (le4 n) = n := by
  simp only [le4, littleEndian, UInt8.toNat_ofNat']
  omega

theorem has_write4 {w : Writer} {out : Bytes} (h : Has w out) (n : Nat) (hn : n < 2 ^ 32) : Has (write4 w n) (out ++ le4 n) := by
  have : write4 w n = (w.write (le4 n)).1 := by
    unfold write4 Endian.write4le le4
    simp only
    congr 2
    simp only [List.cons.injEq, and_true]
    refine ⟨?_, ?_, ?_, ?_⟩ <;> apply UInt8.toNat_inj.mp <;> simp <;> omega
  rw [this]
  exact has_write h _

theorem has_write2 {w : Writer} {out : Bytes} (h : Has w out) (n : Nat) (hn : n < 2 ^ 16) : Has (write2 w n) (out ++ le2 n) := by
  have : write2 w n = (w.write (le2 n)).1 := by
    unfold write2 Endian.write2le le2
    simp only
    congr 2
    simp only [List.cons.injEq, and_true]
    refine ⟨?_, ?_⟩ <;> apply UInt8.toNat_inj.mp <;> simp <;> omega
  rw [this]
  exact has_write h _

def pixBytes (c : Rgba) : Bytes := [byte c.blue, byte c.green, byte c.red]

theorem has_pixel {w : Writer} {out : Bytes} (h : Has w out) (c : Rgba) : Has (writePixel c w) (out ++ pixBytes c) := by
  have := has_write (has_write (has_write h [byte c.blue]) [byte c.green]) [byte c.red]
  rw [List.append_assoc, List.append_assoc] at this
  exact this

theorem has_pad {w : Writer} : ∀ {out : Bytes} (n : Nat), Has w out → Has (writePad n w) (out ++ List.replicate n 0) := by
  intro out n
  induction n generalizing w out with
  | zero => intro h; simpa [writePad] using h
  | succ n ih =>
    intro h
    have := ih (has_write h [0])
    rw [List.append_assoc] at this
    exact this

theorem has_row (img : Image) (hd : img.data.length = img.width * img.height) (y : Nat) (hy : y < img.height) :
    ∀ (n x : Nat) (w : Writer) (out : Bytes), x + n = img.width → Has w out →
      ∃ w', loop (fun x w => pixelAt img x y w) x n w = .ok w' ∧
        Has w' (out ++ ((img.data.drop (y * img.width + x)).take n).flatMap pixBytes) := by
  intro n
  induction n with
  | zero => intro x w out _ h; exact ⟨w, rfl, by simpa using h⟩
  | succ n ih =>
    intro x w out hx h
    have hlt : y * img.width + x < img.data.length := by
      rw [hd]; exact (by
        have : y * img.width + img.width ≤ img.height * img.width := by rw [← Nat.succ_mul]; exact Nat.mul_le_mul_right _ hy
        rw [Nat.mul_comm img.width img.height]; omega)
    unfold loop
    have e : pixelAt img x y w = .ok (writePixel img.data[y * img.width + x] w) := by
      unfold pixelAt
      rw [List.getElem?_eq_getElem hlt]
    rw [e, ok_bind]
    obtain ⟨w', h1, h2⟩ := ih (x + 1) _ _ (by omega) (has_pixel h img.data[y * img.width + x])
    refine ⟨w', h1, ?_⟩
    rw [List.drop_eq_getElem_cons hlt, List.take_succ_cons, List.flatMap_cons, ← List.append_assoc]
    exact h2

/-- A row with its padding. -/
def rowBytes (img : Image) (pad y : Nat) : Bytes := (row img y).flatMap pixBytes ++ List.replicate pad 0

/-- The rows, the last one first. -/
def rowsBytes (img : Image) (pad : Nat) : Nat → Bytes
  | 0 => []
  | y + 1 => rowBytes img pad y ++ rowsBytes img pad y

theorem has_rows (img : Image) (hd : img.data.length = img.width * img.height) (pad : Nat) :
    ∀ (n : Nat) (w : Writer) (out : Bytes), n ≤ img.height → Has w out →
      ∃ w', writeRows img pad n w = .ok w' ∧ Has w' (out ++ rowsBytes img pad n) := by
  intro n
  induction n with
  | zero => intro w out _ h; exact ⟨w, rfl, by simpa [rowsBytes] using h⟩
  | succ n ih =>
    intro w out hn h
    obtain ⟨w1, h1, h2⟩ := has_row img hd n (by omega) img.width 0 w out (by omega) h
    obtain ⟨w2, h3, h4⟩ := ih _ _ (by omega) (has_pad pad h2)
    refine ⟨w2, ?_, ?_⟩
    · unfold writeRows
      rw [h1, ok_bind]
      exact h3
    · rw [Nat.add_zero] at h4
      have e : rowsBytes img pad (n + 1) = rowBytes img pad n ++ rowsBytes img pad n := rfl
      rw [e, rowBytes, row]
      simpa [List.append_assoc] using h4

theorem rowBytes_length (img : Image) (hd : img.data.length = img.width * img.height) (pad y : Nat) (hy : y < img.height) :
    (rowBytes img pad y).length = 3 * img.width + pad := by
  have : ∀ l : List Rgba, (l.flatMap pixBytes).length = 3 * l.length := by
    intro l
    induction l with
    | nil => rfl
    | cons c l ih => rw [List.flatMap_cons, List.length_append, ih, List.length_cons]; simp [pixBytes]; omega
  rw [rowBytes, List.length_append, this, List.length_replicate, Png.row_length img hd y hy]

theorem rowsBytes_length (img : Image) (hd : img.data.length = img.width * img.height) (pad : Nat) :
    ∀ n, n ≤ img.height → (rowsBytes img pad n).length = n * (3 * img.width + pad) := by
  intro n
  induction n with
  | zero => intro _; simp [rowsBytes]
  | succ n ih =>
    intro hn
    rw [rowsBytes, List.length_append, rowBytes_length img hd pad n (by omega), ih (by omega), Nat.succ_mul n]
    omega

theorem rowsBytes_drop (img : Image) (hd : img.data.length = img.width * img.height) (pad : Nat) :
    ∀ n k, k < n → n ≤ img.height → ∃ rest, (rowsBytes img pad n).drop ((n - 1 - k) * (3 * img.width + pad)) = rowBytes img pad k ++ rest := by
  intro n
  induction n with
  | zero => intro k hk; omega
  | succ n ih =>
    intro k hk hn
    have hl := rowBytes_length img hd pad n (by omega)
    by_cases h : k = n
    · subst h
      refine ⟨rowsBytes img pad k, ?_⟩
      rw [show k + 1 - 1 - k = 0 by omega, Nat.zero_mul, List.drop_zero]
      rfl
    · obtain ⟨rest, hr⟩ := ih k (by omega) (by omega)
      refine ⟨rest, ?_⟩
      rw [rowsBytes, show n + 1 - 1 - k = (n - 1 - k) + 1 by omega, Nat.succ_mul, Nat.add_comm, ← List.drop_drop, List.drop_left' hl]
      exact hr

theorem flatMap_drop (l : List Rgba) (x : Nat) (c : Rgba) (h : l[x]? = some c) : ∃ rest, (l.flatMap pixBytes).drop (3 * x) = pixBytes c ++ rest := by
  induction l generalizing x with
  | nil => simp at h
  | cons d l ih =>
    cases x with
    | zero => simp at h; subst h; exact ⟨_, rfl⟩
    | succ x =>
      obtain ⟨rest, hr⟩ := ih x (by simpa using h)
      refine ⟨rest, ?_⟩
      rw [List.flatMap_cons, show 3 * (x + 1) = 3 + 3 * x by omega, ← List.drop_drop, List.drop_left' (by rfl)]
      exact hr

def pad (w : Nat) : Nat := (4 - w * 3 % 4) % 4

theorem stride_eq (w : Nat) : stride w = 3 * w + pad w := by
  unfold stride pad
  omega

def headerBytes (w h fs ds : Nat) : Bytes :=
  [0x42, 0x4d] ++ le4 fs ++ le4 0 ++ le4 54 ++ le4 40 ++ le4 w ++ le4 h ++ le2 1 ++ le2 24 ++ le4 0 ++ le4 ds ++ le4 0 ++ le4 0 ++ le4 0 ++ le4 0

theorem has_headers (w h fs ds : Nat) (hw : w < 2 ^ 32) (hh : h < 2 ^ 32) (hf : fs < 2 ^ 32) (hd : ds < 2 ^ 32) :
    Has (writeHeaders Writer.toFile w h fs ds) (headerBytes w h fs ds) := by
  have h0 : Has Writer.toFile [] := ⟨rfl, rfl⟩
  have h2 : Has (Endian.write1 (Endian.write1 Writer.toFile 0x42).1 0x4d).1 [0x42, 0x4d] := has_write (has_write h0 [0x42]) [0x4d]
  exact has_write4 (has_write4 (has_write4 (has_write4 (has_write4 (has_write4 (has_write2 (has_write2 (has_write4 (has_write4
    (has_write4 (has_write4 (has_write4 (has_write4 h2 fs hf) 0 (by omega)) (14 + 40) (by omega)) 40 (by omega)) w hw) h hh) 1 (by omega)) 24 (by omega)) 0
    (by omega)) ds hd) 0 (by omega)) 0 (by omega)) 0 (by omega)) 0 (by omega)

theorem write_eq (img : Image) (hd : img.data.length = img.width * img.height) (hw : img.width < 2 ^ 32) (hh : img.height < 2 ^ 32)
    (hs : 54 + img.height * stride img.width < 2 ^ 32) :
    write img = .ok (headerBytes img.width img.height (54 + img.height * stride img.width) (img.height * stride img.width) ++
      rowsBytes img (pad img.width) img.height) := by
  have e : img.width * 3 + (4 - img.width * 3 % 4) % 4 = stride img.width := by rw [stride_eq, pad]; omega
  have hhd := has_headers img.width img.height (54 + img.height * stride img.width) (img.height * stride img.width) hw hh hs (by omega)
  obtain ⟨w', h1, h2⟩ := has_rows img hd (pad img.width) img.height _ _ (by omega) hhd
  unfold write
  simp only [e]
  rw [show (4 - img.width * 3 % 4) % 4 = pad img.width from rfl, show 14 + 40 + img.height * stride img.width = 54 + img.height * stride img.width by omega,
    h1, ok_bind, h2.2]

theorem header_fields (w h fs ds : Nat) (rest : Bytes) :
    (headerBytes w h fs ds ++ rest).take 2 = [0x42, 0x4d] ∧
    ((headerBytes w h fs ds ++ rest).drop 2).take 4 = le4 fs ∧ ((headerBytes w h fs ds ++ rest).drop 10).take 4 = le4 54 ∧
    ((headerBytes w h fs ds ++ rest).drop 14).take 4 = le4 40 ∧ ((headerBytes w h fs ds ++ rest).drop 18).take 4 = le4 w ∧
    ((headerBytes w h fs ds ++ rest).drop 22).take 4 = le4 h ∧ ((headerBytes w h fs ds ++ rest).drop 26).take 2 = le2 1 ∧
    ((headerBytes w h fs ds ++ rest).drop 28).take 2 = le2 24 ∧ ((headerBytes w h fs ds ++ rest).drop 30).take 4 = le4 0 ∧
    ((headerBytes w h fs ds ++ rest).drop 34).take 4 = le4 ds ∧ ((headerBytes w h fs ds ++ rest).drop 46).take 4 = le4 0 ∧
    (headerBytes w h fs ds).length = 54 := by
  simp [headerBytes, le4, le2]

theorem write_bmp (img : Image) (hd : img.data.length = img.width * img.height) (hw : img.width < 2 ^ 32) (hh : img.height < 2 ^ 32)
    (hs : 54 + img.height * stride img.width < 2 ^ 32) (px : Nat → Nat → UInt8 × UInt8 × UInt8)
    (hpx : ∀ x y c, x < img.width → y < img.height → img.data[y * img.width + x]? = some c → px x y = (byte c.red, byte c.green, byte c.blue)) :
    ∃ f, write img = .ok f ∧ IsBmp f img.width img.height px := by
  have hlen : (rowsBytes img (pad img.width) img.height).length = img.height * stride img.width := by
    rw [rowsBytes_length img hd _ _ (by omega), stride_eq]
  refine ⟨_, write_eq img hd hw hh hs, ?_⟩
  generalize hds : img.height * stride img.width = ds at *
  obtain ⟨f1, f2, f3, f4, f5, f6, f7, f8, f9, f10, f11, f12⟩ := header_fields img.width img.height (54 + ds) ds (rowsBytes img (pad img.width) img.height)
  generalize headerBytes img.width img.height (54 + ds) ds = hb at *
  have hfl : (hb ++ rowsBytes img (pad img.width) img.height).length = 54 + ds := by
    rw [List.length_append, hlen, f12]
  refine ⟨f1, ?_, ?_, ?_, ?_, ?_, ?_, ?_, ?_, ?_, ?_, ?_, ?_⟩
  · unfold field; rw [f2, hfl]; exact le4_value (54 + ds) hs
  · unfold field; rw [f3]; exact le4_value 54 (by omega)
  · unfold field; rw [f4]; exact le4_value 40 (by omega)
  · unfold field; rw [f5]; exact le4_value img.width hw
  · unfold field; rw [f6]; exact le4_value img.height hh
  · unfold field; rw [f7]; rfl
  · unfold field; rw [f8]; rfl
  · unfold field; rw [f9]; exact le4_value 0 (by omega)
  · unfold field; rw [f10, hds]; exact le4_value ds (by omega)
  · unfold field; rw [f11]; exact le4_value 0 (by omega)
  · rw [hfl, hds]
  · intro x y hx hy
    rw [Nat.add_assoc, ← List.drop_drop, List.drop_left' f12, ← List.drop_drop, stride_eq]
    obtain ⟨rest, hr⟩ := rowsBytes_drop img hd (pad img.width) img.height y hy (by omega)
    rw [hr]
    have hlt : y * img.width + x < img.data.length := by
      rw [hd]
      have : y * img.width + img.width ≤ img.height * img.width := by rw [← Nat.succ_mul]; exact Nat.mul_le_mul_right _ hy
      rw [Nat.mul_comm img.width img.height]; omega
    have hc := List.getElem?_eq_getElem hlt
    have hrow : (row img y)[x]? = some img.data[y * img.width + x] := by
      unfold row
      rw [List.getElem?_take_of_lt hx, List.getElem?_drop, hc]
    obtain ⟨rest', hr'⟩ := flatMap_drop (row img y) x _ hrow
    have hle : 3 * x ≤ ((row img y).flatMap pixBytes).length := by
      have := congrArg List.length hr'
      rw [List.length_drop, List.length_append] at this
      have : (pixBytes img.data[y * img.width + x]).length = 3 := rfl
      omega
    rw [rowBytes, List.append_assoc, List.drop_append_of_le_length hle, hr', hpx x y _ hx hy hc]
    rfl
end Che.Lib.Bmp

namespace Che.Lib.Ppm
open Che.Lib Che.Lib.Image Che.Spec.Ppm
open Che.Lib.Png (byte row ok_bind Valid)

/-- The samples of a pixel as they are written. -/
theorem buf_bytes (c : Rgba) (h : Valid c) : (Png.memory (buf c)).take 3 = [byte c.blue, byte c.green, byte c.red] := by
  obtain ⟨r, g, b, t⟩ := c
  obtain ⟨h1, h2, h3, h4, h5, h6, h7, h8⟩ := h
  simp only at h1 h2 h3 h4 h5 h6 h7 h8
  obtain ⟨r, rfl⟩ := Int.eq_ofNat_of_zero_le h1
  obtain ⟨g, rfl⟩ := Int.eq_ofNat_of_zero_le h3
  obtain ⟨b, rfl⟩ := Int.eq_ofNat_of_zero_le h5
  have hb : buf ⟨(r : Int), (g : Int), (b : Int), t⟩ = Png.pack32 ⟨(b : Int), (g : Int), (r : Int), ((0 : Nat) : Int)⟩ := by
    unfold buf Png.pack32
    simp only
    rw [show UInt32.ofInt ((0 : Nat) : Int) <<< 24 = 0 from rfl]
    rw [UInt32.or_zero, UInt32.or_comm (UInt32.ofInt (b : Int)), UInt32.or_assoc, UInt32.or_comm (UInt32.ofInt (r : Int) <<< 16)]
  have hp := Png.pack32_nat b g r 0 (by omega) (by omega) (by omega) (by omega)
  rw [hb]
  generalize Png.pack32 ⟨(b : Int), (g : Int), (r : Int), ((0 : Nat) : Int)⟩ = v at *
  have e16 := Png.toNat_shr v 16 (by omega)
  have e8 := Png.toNat_shr v 8 (by omega)
  rw [show UInt32.ofNat 16 = (16 : UInt32) from rfl] at e16
  rw [show UInt32.ofNat 8 = (8 : UInt32) from rfl] at e8
  unfold Png.memory
  simp only [List.take_succ_cons, List.take_zero, List.cons.injEq, and_true]
  refine ⟨?_, ?_, ?_⟩ <;> apply UInt8.toNat_inj.mp <;> rw [Png.byte_nat _ (by omega), UInt32.toNat_toUInt8]
  · omega
  · rw [e8]; omega
  · rw [e16]; omega

theorem loop_row (img : Image) (hv : ∀ c ∈ img.data, Valid c) (hd : img.data.length = img.width * img.height) (y : Nat) (hy : y < img.height) :
    ∀ (n x : Nat) (out : Bytes), x + n = img.width →
      loop (fun x out => (get img x y).bind fun c => .ok (out ++ (Png.memory (buf c)).take 3)) x n out =
        .ok (out ++ ((img.data.drop (y * img.width + x)).take n).flatMap Bmp.pixBytes) := by
  intro n
  induction n with
  | zero => intro x out _; simp [loop]
  | succ n ih =>
    intro x out hx
    obtain ⟨c, h1, h2⟩ := Png.get_ok img hd x y (by omega) hy
    unfold loop
    rw [h1]
    simp only [ok_bind]
    obtain ⟨hlt, hc⟩ := List.getElem?_eq_some_iff.mp h2
    rw [ih (x + 1) _ (by omega), buf_bytes c (hv c (List.mem_of_getElem? h2)), List.drop_eq_getElem_cons hlt, List.take_succ_cons, hc, List.flatMap_cons,
      ← Nat.add_assoc, ← List.append_assoc]
    rfl

theorem loop_rows (img : Image) (hv : ∀ c ∈ img.data, Valid c) (hd : img.data.length = img.width * img.height) :
    ∀ (n y : Nat) (out : Bytes), y + n = img.height →
      loop (fun y out => loop (fun x out => (get img x y).bind fun c => .ok (out ++ (Png.memory (buf c)).take 3)) 0 img.width out) y n out =
        .ok (out ++ (img.data.drop (y * img.width)).flatMap Bmp.pixBytes) := by
  intro n
  induction n with
  | zero =>
    intro y out hy
    rw [List.drop_of_length_le (by rw [hd, Nat.mul_comm, ← hy]; simp)]
    simp [loop]
  | succ n ih =>
    intro y out hy
    unfold loop
    rw [loop_row img hv hd y (by omega) img.width 0 out (by omega)]
    simp only [ok_bind]
    rw [ih (y + 1) _ (by omega), Nat.add_zero, List.append_assoc, ← List.flatMap_append]
    congr 3
    conv => rhs; rw [← List.take_append_drop img.width (img.data.drop (y * img.width))]
    rw [List.drop_drop, Nat.succ_mul]

theorem triples_eq (l : List Rgba) : triples (l.flatMap Bmp.pixBytes) = some (l.map fun c => (byte c.blue, byte c.green, byte c.red)) := by
  induction l with
  | nil => rfl
  | cons c l ih =>
    rw [List.flatMap_cons, List.map_cons]
    show (triples (l.flatMap Bmp.pixBytes)).map _ = _
    rw [ih]
    rfl

theorem decimal_parts {s : Bytes} {n : Nat} (h : Spec.Opt.Decimal s n) : s ≠ [] ∧ (∀ c ∈ s, isDigit c = true) ∧ value s = n := by
  obtain ⟨h1, h2, h3⟩ := (Opt.decimal_iff s n).mp h
  exact ⟨h1, List.all_eq_true.mp h2, h3⟩

theorem write_ppm (img : Image) (hv : ∀ c ∈ img.data, Valid c) (hd : img.data.length = img.width * img.height) :
    ∃ f, writeimg img = .ok f ∧ decode f = some (img.width, img.height, img.data.map fun c => (byte c.blue, byte c.green, byte c.red)) := by
  obtain ⟨a1, a2, a3⟩ := decimal_parts (Time.fmtInt_field 0 img.width).1
  obtain ⟨b1, b2, b3⟩ := decimal_parts (Time.fmtInt_field 0 img.height).1
  refine ⟨_, loop_rows img hv hd img.height 0 _ (by omega), ?_⟩
  rw [Nat.zero_mul, List.drop_zero]
  generalize Time.fmtInt 0 (img.width : Int) = a at *
  generalize Time.fmtInt 0 (img.height : Int) = b at *
  have ht : ∀ (s : Bytes) (c : UInt8) (rest : Bytes), (∀ d ∈ s, isDigit d = true) → isDigit c = false →
      (s ++ c :: rest).takeWhile isDigit = s ∧ (s ++ c :: rest).dropWhile isDigit = c :: rest := by
    intro s c rest h1 h2
    exact Url.takeWhile_stop h1 (by intro x hx; simp at hx; subst hx; exact h2)
  have ta := ht a 32 (b ++ 10 :: (50 :: 53 :: 53 :: 10 :: img.data.flatMap Bmp.pixBytes)) a2 rfl
  have tb := ht b 10 (50 :: 53 :: 53 :: 10 :: img.data.flatMap Bmp.pixBytes) b2 rfl
  have e : [80, 54, 10] ++ a ++ [32] ++ b ++ [10, 50, 53, 53, 10] ++ img.data.flatMap Bmp.pixBytes =
      80 :: 54 :: 10 :: (a ++ 32 :: (b ++ 10 :: (50 :: 53 :: 53 :: 10 :: img.data.flatMap Bmp.pixBytes))) := by simp
  rw [e]
  unfold decode
  simp only [ta.1, ta.2, tb.1, tb.2, triples_eq, Option.bind_some]
  rw [if_neg, a3, b3]
  rw [a3, b3, List.length_map, hd]
  intro h
  rcases h with h | h | h
  · exact a1 h
  · exact b1 h
  · exact h rfl
end Che.Lib.Ppm
