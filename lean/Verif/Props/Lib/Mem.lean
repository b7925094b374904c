import Verif.Model.Lib.Mem
import Verif.Spec.Lib.Mem
import Verif.Proofs.Lib.Bits

/-!
C61: memory files.
-/
namespace Che.Props
open Che.Lib Che.Spec.Lib

namespace MemFiles
open Che.Lib.Mem

/-- The buffer holds the file. -/
structure Is (m : T) (f : MemFile) : Prop where
  size : m.data.length = m.size
  pos : m.pos = f.pos
  contents : m.data.take m.datalen = f.contents
  datalen : m.datalen ≤ m.size
  inside : m.pos ≤ m.datalen

theorem Is.len {m : T} {f : MemFile} (h : Is m f) : f.contents.length = m.datalen := by
  have := h.size; have := h.datalen
  rw [← h.contents, List.length_take]; omega

theorem double_ge (next need : Nat) (h : 0 < next) : need ≤ double next need ∧ next ≤ double next need := by
  fun_induction double next need with
  | case1 next hc ih => have := ih (by omega); omega
  | case2 next hc => omega

theorem makespace_spec (junk : Nat → UInt8) (m : T) (n : Nat) (hs : m.data.length = m.size) :
    ∃ extra, makespace junk m n = { m with data := m.data ++ extra, size := m.size + extra.length } ∧ m.pos + n ≤ m.size + extra.length := by
  unfold makespace
  by_cases h : m.pos + n ≤ m.size
  · rw [if_pos h]
    exact ⟨[], by simp, by simpa using h⟩
  · rw [if_neg h]
    have hd := double_ge (if m.size = 0 then 32 else m.size) (m.pos + n) (by split <;> omega)
    simp only
    generalize double (if m.size = 0 then 32 else m.size) (m.pos + n) = next at *
    have hle : m.size ≤ next := by
      have := hd.2; split at this <;> omega
    refine ⟨(List.range (next - m.size)).map fun i => junk (m.size + i), ?_, ?_⟩
    · have : m.size + (List.map (fun i => junk (m.size + i)) (List.range (next - m.size))).length = next := by simp; omega
      rw [this]
    · simp; omega

theorem writeLoop_spec (bs : Bytes) (m : T) (hroom : m.pos + bs.length ≤ m.data.length) :
    writeLoop m bs = { m with data := m.data.take m.pos ++ bs ++ m.data.drop (m.pos + bs.length), pos := m.pos + bs.length } := by
  induction bs generalizing m with
  | nil => simp [writeLoop]
  | cons b bs ih =>
    simp only [List.length_cons] at hroom
    rw [writeLoop, ih _ (by simp; omega)]
    simp only [List.length_cons]
    have e : m.pos + 1 + bs.length = m.pos + (bs.length + 1) := by omega
    rw [e]
    congr 1
    rw [List.take_add_one, List.getElem?_set_self (by omega), List.take_set_of_le (Nat.le_refl _), List.drop_set_of_lt (by omega)]
    simp

theorem write_is (junk : Nat → UInt8) (m : T) (f : MemFile) (bs : Bytes) (h : Is m f) :
    Is (advance (writeLoop (makespace junk m bs.length) bs)) (f.write bs) := by
  obtain ⟨extra, he, hroom⟩ := makespace_spec junk m bs.length h.size
  have h1 := h.size; have h2 := h.pos; have h3 := h.contents; have h4 := h.datalen; have h5 := h.inside
  have hl := h.len
  rw [he, writeLoop_spec bs _ (by simp; omega)]
  have hdata : (m.data ++ extra).take m.pos ++ bs ++ (m.data ++ extra).drop (m.pos + bs.length) =
      m.data.take m.pos ++ bs ++ (m.data ++ extra).drop (m.pos + bs.length) := by
    rw [List.take_append_of_le_length (by omega)]
  have hlen : (m.data.take m.pos ++ bs ++ (m.data ++ extra).drop (m.pos + bs.length)).length = m.size + extra.length := by
    simp only [List.length_append, List.length_take, List.length_drop]; omega
  simp only [hdata]
  unfold advance
  simp only
  have hft : f.contents.take f.pos = m.data.take m.pos := by
    rw [← h3, ← h2, List.take_take]; congr 1; omega
  split
  · rename_i hgt
    refine ⟨hlen, by simp [MemFile.write, h2], ?_, by simp only; omega, by simp⟩
    simp only [MemFile.write]
    have hd : f.contents.drop (f.pos + bs.length) = [] := List.drop_of_length_le (by omega)
    rw [hd, List.append_nil, hft]
    rw [List.take_append_of_le_length (by simp; omega), List.take_of_length_le (by simp only [List.length_append, List.length_take]; omega)]
  · rename_i hle
    refine ⟨hlen, by simp [MemFile.write, h2], ?_, by simp only; omega, by simp only; omega⟩
    simp only [MemFile.write]
    rw [hft, List.take_append, List.take_of_length_le (by simp; omega)]
    congr 1
    rw [← h3, ← h2, List.drop_take]
    have e1 : (m.data.take m.pos ++ bs).length = m.pos + bs.length := by simp; omega
    rw [e1, List.drop_append_of_le_length (by omega), List.take_append_of_le_length (by simp; omega)]

theorem readLoop_spec (n : Nat) (m : T) (h : m.pos + n ≤ m.data.length) :
    readLoop m n = ({ m with pos := m.pos + n }, (m.data.drop m.pos).take n) := by
  induction n generalizing m with
  | zero => simp [readLoop]
  | succ n ih =>
    rw [readLoop, ih _ (by simp only; omega)]
    simp only
    have e : m.pos + 1 + n = m.pos + (n + 1) := by omega
    rw [e, List.drop_eq_getElem_cons (show m.pos < m.data.length by omega), List.take_succ_cons]
    rw [List.getD_eq_getElem?_getD, List.getElem?_eq_getElem (by omega)]
    rfl

theorem read_is (m : T) (f : MemFile) (n : Nat) (h : Is m f) :
    (memread m n).2 = (f.contents.drop f.pos).take n ∧
    Is (memread m n).1 ⟨f.contents, f.pos + ((f.contents.drop f.pos).take n).length⟩ := by
  have h1 := h.size; have h2 := h.pos; have h3 := h.contents; have h4 := h.datalen; have h5 := h.inside
  have hl := h.len
  have hk : (if m.datalen - m.pos > n then n else m.datalen - m.pos) = min n (m.datalen - m.pos) := by
    split <;> omega
  unfold memread
  simp only [hk]
  rw [readLoop_spec _ _ (by omega)]
  have hb : (m.data.drop m.pos).take (min n (m.datalen - m.pos)) = (f.contents.drop f.pos).take n := by
    rw [← h3, ← h2, List.drop_take, List.take_take]
  refine ⟨hb, ⟨h1, ?_, h3, h4, ?_⟩⟩
  · simp only [List.length_take, List.length_drop, ← h2, hl]
  · simp only; omega

/-- What the module answers, in the terms of the specification; a byte is what the
caller gets by converting the `int` to `uint8_t`. -/
def op (junk : Nat → UInt8) (m : T) : MemOp → T × MemAnswer
  | .write bs => ((memwrite junk m bs).1, .number (memwrite junk m bs).2)
  | .read n => ((memread m n).1, .bytes (memread m n).2)
  | .put c => ((memputc junk c.toNat m).1, .byte (some (UInt8.ofNat (memputc junk c.toNat m).2.toNat)))
  | .get =>
    let (m', r) := memgetc m
    (m', .byte (if r = -1 then none else some (UInt8.ofNat (r % 256).toNat)))
  | .rewind => (rewind m, .nothing)
  | .clear => (Mem.reset m, .nothing)
  | .tell => (m, .number (memtell m))

def run (junk : Nat → UInt8) (m : T) : List MemOp → List MemAnswer
  | [] => []
  | o :: rest => (op junk m o).2 :: run junk (op junk m o).1 rest

theorem signed_spec (b : UInt8) (h : b ≠ 0xFF) : signed b ≠ -1 ∧ UInt8.ofNat (signed b % 256).toNat = b := by
  revert b
  apply Che.Lib.Bits.forall_byte
  decide +kernel

/-- No byte 0xFF is met by a `get`. -/
def NoFF (f : MemFile) : List MemOp → Prop
  | [] => True
  | o :: rest => (match o with | .get => f.contents[f.pos]? ≠ some 0xFF | _ => True) ∧ NoFF (f.op o).1 rest

theorem op_is (junk : Nat → UInt8) (m : T) (f : MemFile) (o : MemOp) (h : Is m f)
    (hff : match o with | .get => f.contents[f.pos]? ≠ some 0xFF | _ => True) :
    (op junk m o).2 = (f.op o).2 ∧ Is (op junk m o).1 (f.op o).1 := by
  have h1 := h.size; have h2 := h.pos; have h3 := h.contents; have h4 := h.datalen; have h5 := h.inside
  cases o with
  | write bs => exact ⟨rfl, write_is junk m f bs h⟩
  | read n =>
    obtain ⟨a, b⟩ := read_is m f n h
    exact ⟨by simp only [op, MemFile.op, a], b⟩
  | put c =>
    have hc : ¬ ((c.toNat : Int) = -1) := by omega
    have hlow : UInt8.ofNat (((c.toNat : Nat) : Int) % 256).toNat = c := by
      have : (((c.toNat : Nat) : Int) % 256).toNat = c.toNat := by
        have := c.toNat_lt; omega
      rw [this]; simp
    have hw := write_is junk m f [c] h
    unfold op memputc
    simp only [if_neg hc, hlow]
    refine ⟨by simp [MemFile.op], ?_⟩
    exact hw
  | get =>
    unfold op memgetc MemFile.op
    by_cases hp : m.pos ≥ m.datalen
    · have : f.contents[f.pos]? = none := List.getElem?_eq_none (by rw [h.len]; omega)
      simp only [if_pos hp, this]
      exact ⟨by simp, h⟩
    · have hg : f.contents[f.pos]? = m.data[m.pos]? := by
        rw [← h3, ← h2, List.getElem?_take_of_lt (by omega)]
      have hsome : m.data[m.pos]? = some (m.data.getD m.pos 0) := by
        rw [List.getD_eq_getElem?_getD, List.getElem?_eq_getElem (by omega)]; rfl
      simp only at hff
      rw [hg, hsome] at hff
      have hne : m.data.getD m.pos 0 ≠ 0xFF := fun e => hff (by rw [e])
      obtain ⟨s1, s2⟩ := signed_spec _ hne
      simp only [if_neg hp, hg, hsome, if_neg s1, s2]
      refine ⟨trivial, h1, by simp [h2], h3, h4, by simp only; omega⟩
  | rewind => exact ⟨rfl, h1, rfl, h3, h4, by simp [op, rewind]⟩
  | clear => exact ⟨rfl, h1, rfl, by simp [op, Mem.reset, MemFile.op], by simp [op, Mem.reset], by simp [op, Mem.reset]⟩
  | tell => exact ⟨by simp [op, memtell, MemFile.op, h2], h⟩

end MemFiles

/-- C61, what holds of it: for every sequence of calls in which `memgetc` never meets a
byte 0xFF the module answers like a file, whatever new memory contains. -/
theorem C61_file_partial (junk : Nat → UInt8) (ops : List MemOp) (hff : MemFiles.NoFF ⟨[], 0⟩ ops) :
    MemFiles.run junk Mem.memopen ops = (MemFile.mk [] 0).run ops := by
  have key : ∀ (ops : List MemOp) (m : Mem.T) (f : MemFile), MemFiles.Is m f → MemFiles.NoFF f ops → MemFiles.run junk m ops = f.run ops := by
    intro ops
    induction ops with
    | nil => intros; rfl
    | cons o ops ih =>
      intro m f h hff
      obtain ⟨a, b⟩ := MemFiles.op_is junk m f o h hff.1
      rw [MemFiles.run, MemFile.run, a, ih _ _ b hff.2]
  exact key ops Mem.memopen ⟨[], 0⟩ ⟨rfl, rfl, rfl, Nat.le_refl _, Nat.le_refl _⟩ hff

/-- C61, files that are only read with `memread`: any bytes. -/
theorem C61_read (junk : Nat → UInt8) (ops : List MemOp) (hget : .get ∉ ops) :
    MemFiles.run junk Mem.memopen ops = (MemFile.mk [] 0).run ops := by
  refine C61_file_partial junk ops ?_
  have : ∀ (ops : List MemOp) (f : MemFile), .get ∉ ops → MemFiles.NoFF f ops := by
    intro ops
    induction ops with
    | nil => intros; trivial
    | cons o ops ih =>
      intro f h
      refine ⟨?_, ih _ (fun e => h (List.mem_cons_of_mem _ e))⟩
      cases o <;> first | trivial | exact absurd List.mem_cons_self h
  exact this ops _ hget

/-- C61 is false of `memgetc`: the byte 0xFF is taken for the end. -/
theorem C61_counterexample_ff (junk : Nat → UInt8) (m : Mem.T) (h : m.pos < m.datalen) (hb : m.data[m.pos]? = some 0xFF) :
    (Mem.memgetc m).2 = -1 := by
  unfold Mem.memgetc
  rw [if_neg (by omega), List.getD_eq_getElem?_getD, hb]
  rfl

/-- C61 is false of `memprintf`: it reports the length, but neither the position nor the
length of the file changes. -/
theorem C61_counterexample_printf (junk : Nat → UInt8) (m : Mem.T) (text : Bytes) :
    (Mem.memprintf junk m text).2 = text.length ∧ (Mem.memprintf junk m text).1.pos = m.pos ∧
    (Mem.memprintf junk m text).1.datalen = m.datalen := by
  have hm : ∀ (m : Mem.T) (n : Nat), (Mem.makespace junk m n).pos = m.pos ∧ (Mem.makespace junk m n).datalen = m.datalen := by
    intro m n
    unfold Mem.makespace
    simp only
    split <;> exact ⟨rfl, rfl⟩
  unfold Mem.memprintf
  simp only
  split
  · exact ⟨rfl, (hm _ _).1, (hm _ _).2⟩
  · exact ⟨rfl, rfl, rfl⟩

theorem vsnprintf_at {data : Bytes} {pos room : Nat} {text : Bytes} (h0 : 0 < room) (h : pos + room ≤ data.length) :
    (Mem.vsnprintf data pos room text).length = data.length ∧
    ((Mem.vsnprintf data pos room text).drop pos).take (min text.length (room - 1) + 1) =
      text.take (room - 1) ++ [0] := by
  have hl : (text.take (room - 1) ++ [(0 : UInt8)]).length = min text.length (room - 1) + 1 := by
    simp [Nat.min_comm]
  unfold Mem.vsnprintf
  rw [if_neg (by omega)]
  simp only
  constructor
  · simp only [List.length_append, List.length_take, List.length_drop, List.length_cons, List.length_nil]
    omega
  · rw [List.append_assoc, List.drop_append_of_le_length (by simp; omega), List.drop_eq_nil_of_le (by simp; omega),
      List.nil_append, ← hl, List.take_left']
    rfl

/-- C61, what `memprintf` does instead: from the position on it stores the text, but no
more of it than there is memory behind the end of the file, and a zero byte.  The
rest of the text is lost although memory is allotted for it. -/
theorem C61_counterexample_printf_text (junk : Nat → UInt8) (m : Mem.T) (text : Bytes)
    (hs : m.data.length = m.size) (hp : m.pos ≤ m.datalen) (hd : m.datalen < m.size) :
    (((Mem.memprintf junk m text).1.data.drop m.pos).take (min text.length (m.size - m.datalen - 1) + 1)) =
      text.take (m.size - m.datalen - 1) ++ [0] := by
  have h0 : 0 < m.size - m.datalen := by omega
  obtain ⟨h1, h2⟩ := vsnprintf_at (data := m.data) (pos := m.pos) (text := text) h0 (by omega)
  unfold Mem.memprintf
  simp only
  split
  · obtain ⟨extra, he, _⟩ := MemFiles.makespace_spec junk
      { m with data := Mem.vsnprintf m.data m.pos (m.size - m.datalen) text } (text.length + 1) (by simp [h1, hs])
    rw [he]
    exact (vsnprintf_at h0 (by simp; omega)).2
  · exact h2

example : (MemFile.mk [] 0).run [.write [1, 2, 3], .rewind, .write [9], .read 5, .tell] =
    [.number 3, .nothing, .number 1, .bytes [2, 3], .number 3] := rfl

end Che.Props
