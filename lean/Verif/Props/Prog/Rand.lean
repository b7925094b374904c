import Verif.Model.Prog.Rand
import Verif.Spec.Prog.Rand
import Verif.Props.Lib.Rnd

/-!
C168: what rand prints.
-/
namespace Che.Props
open Che.Lib Che.Prog.Rand Che.Spec.Rand

private theorem select_ok : ∀ (a : Bytes) (x : Sel), (∀ c ∈ a, c = 97 ∨ c = 110 ∨ c = 115) →
    select a x = .inl ⟨x.a || decide (97 ∈ a), x.n || decide (110 ∈ a), x.s || decide (115 ∈ a)⟩
  | [], x, _ => by simp [select]
  | c :: a, x, h => by
    have ih := fun y => select_ok a y (fun d hd => h d (List.mem_cons_of_mem _ hd))
    rw [select]
    rcases h c List.mem_cons_self with rfl | rfl | rfl
    · rw [if_pos rfl, ih]; simp
    · rw [if_neg (by decide), if_pos rfl, ih]; simp
    · rw [if_neg (by decide), if_neg (by decide), if_pos rfl, ih]; simp

private theorem select_bad : ∀ (p : Bytes) (c : UInt8) (r : Bytes) (x : Sel), (∀ d ∈ p, d = 97 ∨ d = 110 ∨ d = 115) → c ≠ 97 → c ≠ 110 → c ≠ 115 → select (p ++ c :: r) x = .inr c
  | [], c, r, x, _, h1, h2, h3 => by rw [List.nil_append, select, if_neg h1, if_neg h2, if_neg h3]
  | d :: p, c, r, x, h, h1, h2, h3 => by
    have ih := fun y => select_bad p c r y (fun d hd => h d (List.mem_cons_of_mem _ hd)) h1 h2 h3
    rw [List.cons_append, select]
    rcases h d List.mem_cons_self with rfl | rfl | rfl
    · rw [if_pos rfl, ih]
    · rw [if_neg (by decide), if_pos rfl, ih]
    · rw [if_neg (by decide), if_neg (by decide), if_pos rfl, ih]

/-- The characters of a selector, as the program has them. -/
private def chosen (a : Bytes) : Bytes := set ⟨decide (97 ∈ a), decide (110 ∈ a), decide (115 ∈ a)⟩

set_option maxRecDepth 20000 in
private theorem mem_alpha : ∀ n : Fin 256, UInt8.ofNat n ∈ alpha ↔ Letter (UInt8.ofNat n) ∨ Digit (UInt8.ofNat n) := by decide +kernel
set_option maxRecDepth 20000 in
private theorem mem_nums : ∀ n : Fin 256, UInt8.ofNat n ∈ nums ↔ Digit (UInt8.ofNat n) := by decide +kernel
set_option maxRecDepth 20000 in
private theorem mem_special : ∀ n : Fin 256, UInt8.ofNat n ∈ special ↔ Special (UInt8.ofNat n) := by decide +kernel

/-- The program chooses from just the characters of the selector. -/
private theorem mem_chosen (a : Bytes) (c : UInt8) : c ∈ chosen a ↔ Allowed a c := by
  have e : c = UInt8.ofNat (⟨c.toNat, c.toNat_lt⟩ : Fin 256) := by simp
  have h1 := mem_alpha ⟨c.toNat, c.toNat_lt⟩
  have h2 := mem_nums ⟨c.toNat, c.toNat_lt⟩
  have h3 := mem_special ⟨c.toNat, c.toNat_lt⟩
  rw [← e] at h1 h2 h3
  unfold chosen Che.Prog.Rand.set Allowed
  rw [List.mem_append, List.mem_append, ← h1, ← h2, ← h3, or_assoc]
  by_cases ha : 97 ∈ a <;> by_cases hn : 110 ∈ a <;> by_cases hs : 115 ∈ a <;> simp [ha, hn, hs]

private theorem chosen_length (a : Bytes) (h : Selector a) : 0 < (chosen a).length ∧ (chosen a).length < 200 := by
  have l1 : alpha.length = 62 := by decide +kernel
  have l2 : nums.length = 10 := by decide +kernel
  have l3 : special.length = 32 := by decide +kernel
  unfold chosen Che.Prog.Rand.set
  obtain ⟨c, r, rfl⟩ := List.exists_cons_of_ne_nil h.1
  have := h.2 c List.mem_cons_self
  simp only [List.length_append]
  constructor
  · rcases this with rfl | rfl | rfl <;> simp <;> omega
  · split <;> split <;> split <;> simp only [l1, l2, l3, List.length_nil] <;> omega

/-- Character number `k`, from 0, of an endless output without ends of lines. -/
private def charAt (set : Bytes) (v : UInt64) (k : Nat) : UInt8 := set.getD ((Rnd.value v k).toNat % set.length) 0

private theorem value_after (v : UInt64) (m k : Nat) : Rnd.value (Rnd.after v m) k = Rnd.value v (m + k) := by
  unfold Rnd.value
  rw [← Rnd.after_add]

private theorem charLoop_ok (set : Bytes) (h1 : 0 < set.length) (h2 : set.length < 200) : ∀ (len : Nat) (v : UInt64),
    charLoop set len v = .ok (Rnd.after v len, (List.range len).map (charAt set v))
  | 0, v => rfl
  | len + 1, v => by
    have hn : UInt32.ofNat set.length ≠ 0 := by
      intro e
      have := congrArg UInt32.toNat e
      rw [UInt32.toNat_ofNat_of_lt' (show set.length < 2 ^ 32 by omega)] at this
      rw [show UInt32.toNat 0 = 0 from rfl] at this
      omega
    have ha : Rnd.after v (len + 1) = Rnd.after (Rnd.after v 1) len := by rw [Nat.add_comm, Rnd.after_add]
    rw [charLoop, Rnd.intn, if_neg hn]
    show (charLoop set len (Rnd.after v 1)).bind _ = _
    rw [charLoop_ok set h1 h2 len]
    show Res.ok _ = Res.ok _
    rw [ha, List.range_succ_eq_map, List.map_cons, List.map_map]
    have e1 : set.getD ((Rnd.pcg32 v).2 % UInt32.ofNat set.length).toNat 0 = charAt set v 0 := by
      unfold charAt
      rw [UInt32.toNat_mod, UInt32.toNat_ofNat_of_lt' (show set.length < 2 ^ 32 by omega)]
      rfl
    have e2 : (List.range len).map (charAt set (Rnd.after v 1)) = (List.range len).map (charAt set v ∘ Nat.succ) := by
      apply List.map_congr_left
      intro k _
      unfold charAt
      rw [value_after, Nat.add_comm]
      rfl
    rw [← e2, ← e1]

private theorem lineLoop_ok (set : Bytes) (len : Nat) (h1 : 0 < set.length) (h2 : set.length < 200) : ∀ (n : Nat) (v : UInt64),
    lineLoop set len n v = .ok ((List.range n).flatMap fun i => ((List.range len).map fun j => charAt set v (i * len + j)) ++ [10])
  | 0, v => rfl
  | n + 1, v => by
    rw [lineLoop, charLoop_ok set h1 h2]
    show (lineLoop set len n (Rnd.after v len)).bind _ = _
    rw [lineLoop_ok set len h1 h2 n]
    show Res.ok _ = Res.ok _
    rw [List.range_succ_eq_map, List.flatMap_cons, List.flatMap_map]
    have e : ∀ i, (List.range len).map (fun j => charAt set (Rnd.after v len) (i * len + j)) = (List.range len).map fun j => charAt set v (i.succ * len + j) := by
      intro i
      apply List.map_congr_left
      intro j _
      unfold charAt
      rw [value_after, show len + (i * len + j) = i.succ * len + j by rw [Nat.succ_mul]; omega]
    simp only [e, Nat.zero_mul, Nat.zero_add]

private theorem main_ok (n len : Nat) (seed : UInt64) (a : Bytes) (h : Selector a) : Che.Prog.Rand.main n len seed a =
    .ok ((List.range n).flatMap fun i => ((List.range len).map fun j => charAt (chosen a) seed (i * len + j)) ++ [10], [], 0) := by
  unfold Che.Prog.Rand.main
  rw [select_ok a _ h.2]
  simp only [Bool.false_or]
  show (lineLoop (chosen a) len n (Rnd.seed seed)).bind _ = _
  rw [lineLoop_ok _ len (chosen_length a h).1 (chosen_length a h).2]
  rfl

private theorem charAt_mem (a : Bytes) (h : Selector a) (v : UInt64) (k : Nat) : charAt (chosen a) v k ∈ chosen a := by
  unfold charAt
  have hl : (Rnd.value v k).toNat % (chosen a).length < (chosen a).length := Nat.mod_lt _ (chosen_length a h).1
  rw [List.getD_eq_getElem?_getD, List.getElem?_eq_getElem hl]
  exact List.getElem_mem hl

/-- rand prints as many lines as it is asked for, each of the length that it is asked for, of the characters of the selector. -/
theorem C168_partial (n len : Nat) (seed : UInt64) (a : Bytes) (h : Selector a) : ∃ lines : List Bytes,
    Che.Prog.Rand.main n len seed a = .ok (lines.flatMap (· ++ [10]), [], 0) ∧ lines.length = n ∧ ∀ l ∈ lines, l.length = len ∧ ∀ c ∈ l, Allowed a c := by
  refine ⟨(List.range n).map fun i => (List.range len).map fun j => charAt (chosen a) seed (i * len + j), ?_, by simp, ?_⟩
  · rw [main_ok n len seed a h, List.flatMap_map]
  · intro l hl
    obtain ⟨i, _, rfl⟩ := List.mem_map.mp hl
    refine ⟨by simp, fun c hc => ?_⟩
    obtain ⟨j, _, rfl⟩ := List.mem_map.mp hc
    exact (mem_chosen a _).mp (charAt_mem a h _ _)

/-- Every character is chosen with the next number of the generator that begins with the seed (C122). -/
theorem C168_numbers (a : Bytes) (h : Selector a) : ∃ chars : Bytes, (∀ c, c ∈ chars ↔ Allowed a c) ∧ ∀ (n len : Nat) (seed : UInt64), Che.Prog.Rand.main n len seed a =
    .ok ((List.range n).flatMap fun i => ((List.range len).map fun j => chars.getD ((Rnd.value seed (i * len + j)).toNat % chars.length) 0) ++ [10], [], 0) :=
  ⟨chosen a, mem_chosen a, fun n len seed => main_ok n len seed a h⟩

/-- With any seed, each character of the selector is in the output if it is long enough. -/
theorem C168_all (seed : UInt64) (a : Bytes) (h : Selector a) (c : UInt8) (hc : Allowed a c) :
    ∃ line, Che.Prog.Rand.main 1 (2 ^ 64) seed a = .ok (line ++ [10], [], 0) ∧ c ∈ line := by
  refine ⟨(List.range (2 ^ 64)).map fun j => charAt (chosen a) seed j, ?_, ?_⟩
  · rw [main_ok 1 _ seed a h]
    simp [List.range_one]
  · obtain ⟨i, hi, e⟩ := List.getElem_of_mem ((mem_chosen a c).mpr hc)
    have hlen := (chosen_length a h).2
    have hcard := C122_numbers seed (UInt32.ofNat i)
    have hne : ((Finset.range (2 ^ 64)).filter fun n => Rnd.value seed n = UInt32.ofNat i).Nonempty := by
      rw [← Finset.card_pos, hcard]
      exact Nat.two_pow_pos 32
    obtain ⟨k, hk⟩ := hne
    obtain ⟨hk1, hk2⟩ := Finset.mem_filter.mp hk
    refine List.mem_map.mpr ⟨k, List.mem_range.mpr (Finset.mem_range.mp hk1), ?_⟩
    unfold charAt
    rw [hk2, UInt32.toNat_ofNat_of_lt' (show i < 2 ^ 32 by omega), Nat.mod_eq_of_lt hi, List.getD_eq_getElem?_getD, List.getElem?_eq_getElem hi]
    exact e

/-- Other letters in the selector are errors, and nothing is printed. -/
theorem C168_refused (n len : Nat) (seed : UInt64) (p : Bytes) (c : UInt8) (r : Bytes) (hp : ∀ d ∈ p, d = 97 ∨ d = 110 ∨ d = 115) (h1 : c ≠ 97) (h2 : c ≠ 110) (h3 : c ≠ 115) :
    Che.Prog.Rand.main n len seed (p ++ c :: r) = .ok ([], cstr "unknown chars selector: " ++ [c, 10], 1) := by
  unfold Che.Prog.Rand.main
  rw [select_bad p c r _ hp h1 h2 h3]

/-- The letter `a` is said to select alphabetic characters; it selects digits too. -/
theorem C168_counterexample_alpha : Che.Prog.Rand.main 1 20 1 (cstr "a") = .ok (cstr "n9o99FE4JGTO4JWjQixj\n", [], 0) := by decide +kernel

/-- With letters and numbers, every digit is there twice, and comes twice as often as a letter. -/
theorem C168_counterexample_twice : ∀ c, (Digit c → (Che.Prog.Rand.set ⟨true, true, false⟩).count c = 2) ∧ (Letter c → (Che.Prog.Rand.set ⟨true, true, false⟩).count c = 1) := by
  have h : ∀ n : Fin 256, (Digit (UInt8.ofNat n) → (Che.Prog.Rand.set ⟨true, true, false⟩).count (UInt8.ofNat n) = 2) ∧ (Letter (UInt8.ofNat n) → (Che.Prog.Rand.set ⟨true, true, false⟩).count (UInt8.ofNat n) = 1) := by
    decide +kernel
  intro c
  have e : c = UInt8.ofNat (⟨c.toNat, c.toNat_lt⟩ : Fin 256) := by simp
  rw [e]
  exact h _

/-- An empty selector stops the program. -/
theorem C168_counterexample_empty (n len : Nat) (seed : UInt64) : Che.Prog.Rand.main (n + 1) (len + 1) seed [] = .panic "got n = 0 in rand.intn" := by
  rfl

example : Selector (cstr "an") := ⟨by decide +kernel, by decide +kernel⟩
example : Che.Prog.Rand.main 2 4 7 (cstr "n") = .ok (cstr "4108\n9335\n", [], 0) := by decide +kernel
end Che.Props
