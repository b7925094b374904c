import Verif.Proofs.Lib.Tok

/-!
C68: the tokenizer answers as the text that it reads says, whatever calls are made.
-/
namespace Che.Props
open Che.Lib Che.Lib.Tok Che.Spec.Lib

/-- C68.  A tokenizer of a file or of a string, and any calls made one after another
with buffers that are large enough: every answer is the one for the place in the text
that the calls before have reached, and nothing is written past the end of an array. -/
theorem C68_tokenizer (data : Bytes) (calls : List Call) (hf : Cursor.AllFit ⟨[], data⟩ calls) :
    (run (file data) calls).2 = Cursor.run ⟨[], data⟩ calls ∧ (run (file data) calls).1.sound = true ∧
    (run (from_str data) calls).2 = Cursor.run ⟨[], data⟩ calls ∧ (run (from_str data) calls).1.sound = true := by
  obtain ⟨t, e, h⟩ := run_is calls (new_is (Reader.ofFile data) rfl) hf
  obtain ⟨t', e', h'⟩ := run_is calls (new_is (Reader.ofBuffer data) rfl) hf
  refine ⟨?_, ?_, ?_, ?_⟩
  · unfold file; rw [e]; rfl
  · unfold file; rw [e]; exact h
  · unfold from_str; rw [e']; rfl
  · unfold from_str; rw [e']; exact h'

/-- The pieces that the calls go over are the text itself, in its order. -/
theorem C68_pieces (c : Cursor) (k : Call) : (c.call k).1.seen ++ (c.call k).1.rest = c.seen ++ c.rest := by
  have hs : ∀ (c : Cursor) (n : Nat), (c.skip n).seen ++ (c.skip n).rest = c.seen ++ c.rest := by
    intro c n; simp [Cursor.skip]
  cases k <;> simp only [Cursor.call, Cursor.past] <;> (try split) <;> (try split) <;> first | rfl | exact hs _ _

/-- Reading from a descriptor, a literal can be missed: it has arrived in two pieces. -/
theorem C68_counterexample :
    (skip_literal (new { src := .fd [[116, 114], [117, 101]], pos := 0 }) [116, 114, 117, 101]).2 = false ∧
    (skip_literal (from_str [116, 114, 117, 101]) [116, 114, 117, 101]).2 = true := by decide +kernel

/-- A literal of more than 100 bytes is read past the end of the cache. -/
theorem C68_long_literal (data : Bytes) (lit : Bytes) (hl : 100 < lit.length) (hd : lit.length ≤ data.length) :
    (literal_follows (from_str data) lit).1.sound = false := by
  obtain ⟨src', r, hr, hw, hb, h1, h2⟩ := read_whole (Source.mem data) rfl lit.length
  have hne : (data.take lit.length) ≠ [] := by
    intro e; have := congrArg List.length e; rw [List.length_take, List.length_nil] at this; omega
  have hlen : (data.take lit.length).length = lit.length := by rw [List.length_take]; omega
  have hrl := h1 hne
  have hp : r > 0 := by rw [show bytes (Source.mem data) = data from rfl] at hrl; omega
  have he : prefetch (from_str data) lit.length =
      { reader := { src := src', pos := 0 + r.toNat }, row := 0, col := 0, cache := data.take lit.length, sound := false } := by
    unfold prefetch
    rw [if_neg (by show ¬ (0 ≥ lit.length); omega)]
    simp only [from_str, new, Reader.ofBuffer, Reader.read, List.length_nil, Nat.sub_zero, hr]
    rw [if_pos hp, if_pos hp]
    simp only [bytes, List.nil_append, Bool.true_and, hlen]
    congr 1
    simp; omega
  unfold literal_follows
  simp only [he]
  split <;> rfl

/-- `  x1 = -2.5e3;` read by calls; the position is line 1, byte 14. -/
example : (run (from_str [32, 32, 120, 49, 32, 61, 32, 45, 50, 46, 53, 101, 51, 59])
    [.spaces, .id 10, .hspaces, .skip 61, .spaces, .num 100, .position, .skipLiteral [59], .more]).2 =
    [.flag true, .maybe (some [120, 49]), .nothing, .flag true, .flag true, .maybe (some [45, 50, 46, 53, 101, 51]),
      .text [49, 58, 49, 52], .flag true, .flag false] := by decide +kernel

example : Cursor.AllFit ⟨[], [32, 32, 120, 49, 32, 61, 32, 45, 50, 46, 53, 101, 51, 59]⟩
    [.spaces, .id 10, .hspaces, .skip 61, .spaces, .num 100, .position, .skipLiteral [59], .more] := by
  refine ⟨trivial, ?_, trivial, ?_, trivial, ?_, trivial, ?_, trivial, trivial⟩ <;> simp [Cursor.Fits] <;> decide +kernel

end Che.Props
