import Verif.Model.Prog.Chargen

/-!
C162: the characters that chargen sends.
-/
namespace Che.Props
open Che.Lib Che.Prog.Chargen

/-- One round of characters: the printable ones from 33 to 126, the blank, and a zero. -/
def chargenRound (i : Nat) : UInt8 := if i < 94 then UInt8.ofNat (33 + i) else if i = 94 then 32 else 0

/-- The first characters of the rounds one after another. -/
def chargenFirst (n : Nat) : Bytes := (List.range n).map fun i => chargenRound (i % 96)

private theorem round_ok : ∀ i : Fin 96, linechars.getD i.val 0 = chargenRound i.val := by decide +kernel
private theorem length_ok : linechars.length = 96 := by decide +kernel

/-- After so many characters. -/
private structure After (c : Client) (m : Nat) : Prop where
  pos : c.charpos = m % 96
  all : c.sent ++ c.data = chargenFirst m
  room : c.data.length < 2048
  whole : c.sent.length % 2048 = 0

private theorem first_length (m : Nat) : (chargenFirst m).length = m := by simp [chargenFirst]

private theorem first_succ (m : Nat) : chargenFirst (m + 1) = chargenFirst m ++ [chargenRound (m % 96)] := by
  simp [chargenFirst, List.range_succ]

private theorem first_prefix (m k : Nat) : chargenFirst m <+: chargenFirst (m + k) := by
  induction k with
  | zero => exact List.prefix_refl _
  | succ k ih =>
    rw [← Nat.add_assoc, first_succ]
    exact ih.trans (List.prefix_append _ _)

private theorem sent_of {c : Client} {m : Nat} (h : After c m) : c.sent = chargenFirst (2048 * (m / 2048)) := by
  have hl := congrArg List.length h.all
  rw [List.length_append, first_length] at hl
  have hs : c.sent.length = 2048 * (m / 2048) := by have := h.room; have := h.whole; omega
  have hp : c.sent <+: chargenFirst m := ⟨c.data, h.all⟩
  have hq : chargenFirst (2048 * (m / 2048)) <+: chargenFirst m := by
    have := first_prefix (2048 * (m / 2048)) (m % 2048)
    rwa [Nat.div_add_mod] at this
  exact (List.prefix_of_prefix_length_le hp hq (by rw [first_length]; omega)).eq_of_length (by rw [first_length]; exact hs)

private theorem nextch_ok {c : Client} {m : Nat} (h : c.charpos = m % 96) :
    nextch c = ({ c with charpos := (m + 1) % 96 }, chargenRound (m % 96)) := by
  have hb : m % 96 < 96 := Nat.mod_lt _ (by decide)
  have h1 : linechars.getD c.charpos 0 = chargenRound (m % 96) := by rw [h]; exact round_ok ⟨m % 96, hb⟩
  have h2 : (if c.charpos + 1 = linechars.length then 0 else c.charpos + 1) = (m + 1) % 96 := by
    rw [h, length_ok]
    split <;> omega
  unfold nextch
  simp only
  rw [h1, h2]

private theorem step_ok (w : Nat → Int) {c : Client} {m : Nat} (h : After c m) :
    ∃ c' ok, writech w (nextch c).1 (nextch c).2 = (c', ok) ∧ (ok = true → After c' (m + 1)) ∧ (ok = false → c'.sent = c.sent ∧ ∃ k, w k < 2048) := by
  rw [nextch_ok h.pos]
  unfold writech
  simp only
  by_cases hl : (c.data ++ [chargenRound (m % 96)]).length = 2048
  · rw [if_pos hl]
    by_cases hw : w c.writes < 0 ∨ (w c.writes).toNat < (c.data ++ [chargenRound (m % 96)]).length
    · rw [if_pos hw]
      refine ⟨_, _, rfl, fun h => (by cases h), fun _ => ⟨rfl, c.writes, ?_⟩⟩
      rw [hl] at hw; omega
    · rw [if_neg hw]
      refine ⟨_, _, rfl, fun _ => ⟨rfl, ?_, by simp, ?_⟩, fun h => (by cases h)⟩
      · rw [first_succ, ← h.all]; simp
      · show (c.sent ++ (c.data ++ [chargenRound (m % 96)])).length % 2048 = 0
        rw [List.length_append, hl]
        have := h.whole
        omega
  · rw [if_neg hl]
    refine ⟨_, _, rfl, fun _ => ⟨rfl, ?_, ?_, h.whole⟩, fun h => (by cases h)⟩
    · rw [first_succ, ← h.all]; simp
    · have := h.room
      simp only [List.length_append, List.length_singleton] at hl ⊢
      omega

private theorem line_ok (w : Nat → Int) : ∀ (n : Nat) {c : Client} {m : Nat}, After c m →
    ∃ c' ok, lineLoop w n c = (c', ok) ∧ (ok = true → After c' (m + n)) ∧ (ok = false → (∃ j, c'.sent = chargenFirst j) ∧ ∃ k, w k < 2048)
  | 0, c, m, h => ⟨c, true, rfl, fun _ => h, fun h => by cases h⟩
  | n + 1, c, m, h => by
    obtain ⟨c1, ok, h1, h2, h3⟩ := step_ok w h
    rw [lineLoop]
    simp only
    rw [h1]
    cases ok with
    | true =>
      obtain ⟨c2, ok2, h4, h5, h6⟩ := line_ok w n (h2 rfl)
      exact ⟨c2, ok2, h4, fun e => by rw [show m + (n + 1) = m + 1 + n by omega]; exact h5 e, h6⟩
    | false => exact ⟨c1, false, rfl, fun h => (by cases h), fun _ => ⟨⟨_, by rw [(h3 rfl).1]; exact sent_of h⟩, (h3 rfl).2⟩⟩

private theorem client_sent (w : Nat → Int) : ∀ (rs : List Int) {c : Client} {m : Nat}, After c m →
    (∃ j, (clientLoop w rs c).sent = chargenFirst j) ∧
    ((∀ k, 2048 ≤ w k) → (clientLoop w rs c).sent = chargenFirst (2048 * ((m + 72 * (rs.takeWhile fun r => decide (r ≠ 0)).length) / 2048)))
  | [], c, m, h => ⟨⟨_, sent_of h⟩, fun _ => sent_of h⟩
  | r :: rs, c, m, h => by
    rw [clientLoop]
    by_cases hr : r = 0
    · rw [if_pos hr]
      subst hr
      exact ⟨⟨_, sent_of h⟩, fun _ => sent_of h⟩
    · rw [if_neg hr]
      unfold send_line
      obtain ⟨c1, ok, h1, h2, h3⟩ := line_ok w 72 h
      rw [h1]
      simp only
      cases ok with
      | true =>
        obtain ⟨h4, h5⟩ := client_sent w rs (h2 rfl)
        refine ⟨h4, fun hw => ?_⟩
        rw [if_pos rfl, h5 hw, List.takeWhile_cons_of_pos (by simpa using hr), List.length_cons]
        congr 3
        omega
      | false =>
        obtain ⟨h4, k, h5⟩ := h3 rfl
        exact ⟨h4, fun hw => by have := hw k; omega⟩

/-- What a client gets, whatever reads and writes return, is the beginning of the rounds of characters.
If all writes are complete, it has 72 characters for each read until one that returns zero, as far as they fill buffers of 2048. -/
theorem C162_partial (w : Nat → Int) (rs : List Int) :
    (∃ j, process_client w rs = chargenFirst j) ∧
    ((∀ k, 2048 ≤ w k) → process_client w rs = chargenFirst (2048 * (72 * (rs.takeWhile fun r => decide (r ≠ 0)).length / 2048))) := by
  have := client_sent w rs (c := { charpos := 0, data := [], sent := [], writes := 0 }) (m := 0) ⟨rfl, rfl, by decide, rfl⟩
  rwa [Nat.zero_add] at this

/-- A zero, which is not printable, is sent after every 95 characters: it is the 96th of what a client gets that has sent 29 packets. -/
theorem C162_counterexample_zero (rs : List Int) (h : rs = List.replicate 29 1) : (process_client (fun _ => 2048) rs)[95]? = some 0 := by
  have hl : (rs.takeWhile fun r => decide (r ≠ 0)).length = 29 := by subst h; decide
  rw [(C162_partial _ rs).2 (fun _ => by omega), hl]
  decide +kernel

/-- Nothing is sent to a client that has sent up to 28 packets. -/
theorem C162_counterexample_nothing (w : Nat → Int) (hw : ∀ k, 2048 ≤ w k) (rs : List Int) (h : rs.length ≤ 28) : process_client w rs = [] := by
  rw [(C162_partial w rs).2 hw]
  have : (rs.takeWhile fun r => decide (r ≠ 0)).length ≤ rs.length := List.Sublist.length_le (List.takeWhile_sublist _)
  rw [show 72 * (rs.takeWhile fun r => decide (r ≠ 0)).length / 2048 = 0 by omega]
  rfl

/-- Reads that fail, which return -1, are answered like packets. -/
theorem C162_counterexample_failed : process_client (fun _ => 2048) (List.replicate 29 (-1)) ≠ [] := by
  rw [(C162_partial _ _).2 (fun _ => by omega)]
  intro h
  have := congrArg List.length h
  rw [first_length] at this
  revert this
  decide

example : (process_client (fun _ => 2048) (List.replicate 30 256)).take 96 = (List.range 96).map chargenRound := by
  rw [(C162_partial _ _).2 (fun _ => by omega)]
  decide +kernel
end Che.Props
