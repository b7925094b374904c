import Verif.Proofs.Prog.Lc3

namespace Che.Props
open Che.Lib Che.Prog.Lc3 Che.Spec.Lc3

/-- The instructions that the emulator gets right: all but `JSRR R7`, the reserved ones, those that read the status of the keyboard
(see `C110_keyboard`), and `IN` when the key is no ASCII character.  A trap must be one that the specification has. -/
structure C110_Fine (m : Machine) : Prop where
  fetch : m.pc ≠ 0xFE00
  instr : ∃ i, m.mem m.pc = encode i ∧ i ≠ .jsrr 7 ∧ (∀ a ∈ reads m.toState.fetched i, a ≠ 0xFE00) ∧
    ∀ v, i = .trap v → (∃ m', Trap (m.toState.fetched.set 7 (m.pc + 1)) m.keys m.screen v m') ∧ (v = 0x23 → ∃ c rest, m.keys = c :: rest ∧ c < 128)

/-- C110, as far as it goes: a step of the emulator is a step of the LC-3. -/
theorem C110_step_partial {σ : Vm} {m : Machine} (h : Shows σ m) (hh : m.halted = false) (hf : C110_Fine m) :
    ∃ σ' m', step σ = .ok σ' ∧ Step m m' ∧ Shows σ' m' := by
  obtain ⟨hk, i, he, hj, hr, ht⟩ := hf
  have hpc : Same (σ.setReg 8 (σ.reg 8 + 1)) m.toState.fetched := by
    rw [pc_eq h.same]
    exact same_pc h.same (m.pc + 1)
  have e : step σ = run1 (σ.setReg 8 (σ.reg 8 + 1)) ⟨encode i⟩ := by
    rw [step_eq, read_plain _ _ (by rw [pc_eq h.same]; exact not_kb hk)]
    show run1 _ (σ.mem (σ.reg 8)) = _
    rw [pc_eq h.same, mem_eq h.same, he]
  rw [e]
  have hrun : σ.running = true := by rw [h.running, hh]; rfl
  by_cases hi : ∃ v, i = .trap v
  · obtain ⟨v, rfl⟩ := hi
    obtain ⟨⟨m', hm'⟩, ha⟩ := ht v rfl
    obtain ⟨σ', m'', h1, h2, h3⟩ := run_trap hpc (keys := m.keys) (screen := m.screen) h.keys h.screen hrun v m' hm' ha
    exact ⟨σ', m'', h1, Step.trap m m'' v hh he h2, h3⟩
  · have hnt : ∀ v, i ≠ .trap v := fun v e => hi ⟨v, e⟩
    obtain ⟨σ', h1, h2, h3⟩ := run_plain hpc i hnt hj hr
    refine ⟨σ', _, h1, Step.plain m i hh he hnt, h2, ?_, ?_, ?_⟩
    · rw [h3.input]; exact h.keys
    · rw [h3.out]; exact h.screen
    · rw [h3.running]; exact hrun

/-- C110, as far as it goes: a run of the emulator is a run of the LC-3, until an instruction comes that is not fine or the machine is halted. -/
theorem C110_run_partial (n : Nat) : ∀ {σ : Vm} {m : Machine}, Shows σ m →
    ∃ k ≤ n, ∃ σ' m', loop k σ = .ok σ' ∧ Steps k m m' ∧ Shows σ' m' ∧
      (k = n ∨ (m'.halted = true ∧ loop n σ = .ok σ') ∨ ¬ C110_Fine m') := by
  induction n with
  | zero => intro σ m h; exact ⟨0, Nat.le_refl 0, σ, m, rfl, .none m, h, .inl rfl⟩
  | succ n ih =>
    intro σ m h
    by_cases hh : m.halted = true
    · refine ⟨0, Nat.zero_le _, σ, m, rfl, .none m, h, .inr (.inl ⟨hh, ?_⟩)⟩
      unfold loop
      rw [if_neg (by rw [h.running, hh]; simp)]
    · by_cases hf : C110_Fine m
      · obtain ⟨σ1, m1, h1, h2, h3⟩ := C110_step_partial h (by simpa using hh) hf
        obtain ⟨k, hk, σ', m', g1, g2, g3, g4⟩ := ih h3
        have hl : ∀ j, loop (j + 1) σ = loop j σ1 := by
          intro j
          conv => lhs; unfold loop
          rw [if_pos (by rw [h.running]; simpa using hh), h1]
          rfl
        refine ⟨k + 1, by omega, σ', m', by rw [hl]; exact g1, .more k m m1 m' h2 g2, g3, ?_⟩
        rcases g4 with g | g | g
        · exact .inl (by omega)
        · exact .inr (.inl ⟨g.1, by rw [hl]; exact g.2⟩)
        · exact .inr (.inr g)
      · exact ⟨0, Nat.zero_le _, σ, m, rfl, .none m, h, .inr (.inr hf)⟩

/-- C110: the keyboard.  When the status is read, it is ready if and only if there is a key; then the key is in the data register. -/
theorem C110_keyboard (σ : Vm) (polls : List Bool) (c : UInt8) (rest : Bytes) (hi : σ.input = c :: rest) :
    (σ.polls = true :: polls → ∃ σ', mem_read σ 0xFE00 = (0x8000, σ') ∧ σ'.mem 0xFE02 = ⟨c.toBitVec.zeroExtend 16⟩ ∧ σ'.input = rest ∧
      σ'.reg = σ.reg ∧ ∀ a, a ≠ 0xFE00 → a ≠ 0xFE02 → σ'.mem a = σ.mem a) ∧
    (σ.polls = false :: polls → ∃ σ', mem_read σ 0xFE00 = (0, σ') ∧ σ'.input = σ.input ∧ σ'.reg = σ.reg ∧ ∀ a, a ≠ 0xFE00 → σ'.mem a = σ.mem a) := by
  constructor
  · intro hp
    unfold mem_read poll getchar mem_write
    simp only [hp, hi, if_true, key_word]
    refine ⟨_, rfl, rfl, rfl, rfl, ?_⟩
    intro a h1 h2
    simp only [if_neg h1, if_neg h2]
  · intro hp
    unfold mem_read poll mem_write
    simp only [hp, if_true, Bool.false_eq_true, if_false]
    refine ⟨_, rfl, rfl, rfl, ?_⟩
    intro a h1
    simp only [if_neg h1]

/-- A machine with a program at 0x3000. -/
def C110_machine (program : List UInt16) (r7 : UInt16) (keys : Bytes) : Vm where
  reg := fun i => if i = 9 then 2 else if i = 8 then 0x3000 else if i = 7 then r7 else 0
  mem := fun a => program.getD (a.toNat - 0x3000) 0
  polls := []
  input := keys
  out := []
  running := true

/-- C110 fails for `JSRR R7`: the LC-3 jumps to where R7 points, the emulator goes on after the instruction. -/
theorem C110_counterexample_jsrr :
    (match step (C110_machine [⟨encode (.jsrr 7)⟩] 0x4000 []) with | .ok σ => some (σ.reg 8) | _ => none) = some 0x3001 ∧
    (exec (State.fetched ⟨fun i => if i = 7 then 0x4000 else 0, 0x3000, .z, fun _ => 0⟩) (.jsrr 7)).pc = 0x4000 := by
  decide +kernel

/-- C110 fails for `IN` with a key that is no ASCII character: its high bits are set. -/
theorem C110_counterexample_in :
    (match step (C110_machine [⟨encode (.trap 0x23)⟩] 0 [0xE4]) with | .ok σ => some (σ.reg 0) | _ => none) = some 0xFFE4 := by
  decide +kernel

/-- C110 fails for programs that look at the keyboard's status twice: the first key is lost. -/
theorem C110_counterexample_key :
    (let (_, σ) := mem_read { C110_machine [] 0 (cstr "ab") with polls := [true, true] } 0xFE00
     let (_, σ) := mem_read σ 0xFE00
     (σ.mem 0xFE02, σ.input)) = (98, []) := by
  decide +kernel

/-- C110 on a program: it prints a text, adds and branches. -/
example : (match loop 10 (C110_machine [⟨encode (.lea 0 4)⟩, ⟨encode (.trap 0x22)⟩, ⟨encode (.addi 1 1 0b11111)⟩, ⟨encode (.br true false false 4)⟩, 0, 72, 105, 0,
      ⟨encode (.trap 0x25)⟩] 0 []) with | .ok σ => some (σ.reg 1, σ.out, σ.running) | _ => none) =
    some (0xFFFF, cstr "HiHALT\n", false) := by decide +kernel

/-- A word in a file: the high byte first. -/
def C111_word (w : UInt16) : Bytes := [⟨w.toBitVec.extractLsb' 8 8⟩, ⟨w.toBitVec.extractLsb' 0 8⟩]

/-- The file of an image. -/
def C111_image (origin : UInt16) (ws : List UInt16) : Bytes := C111_word origin ++ ws.flatMap C111_word

theorem read_word (w : UInt16) (rest : Bytes) : read16 ⟨C111_word w ++ rest, false⟩ = (w, ⟨rest, false⟩) := by
  unfold read16 readc C111_word
  simp only [List.cons_append, List.nil_append]
  congr 1
  apply UInt16.toNat_inj.mp
  have hw := w.toNat_lt
  show (UInt16.ofNat (((((w.toBitVec.extractLsb' 8 8).toNat : Int) * 256 + ((w.toBitVec.extractLsb' 0 8).toNat : Int)) % 65536).toNat)).toNat = w.toNat
  rw [UInt16.toNat_ofNat', BitVec.extractLsb'_toNat, BitVec.extractLsb'_toNat, Nat.shiftRight_eq_div_pow, Nat.shiftRight_zero]
  show ((((w.toNat / 2 ^ 8 % 2 ^ 8 : Nat) : Int) * 256 + ((w.toNat % 2 ^ 8 : Nat) : Int)) % 65536).toNat % 2 ^ 16 = w.toNat
  omega

theorem read_end : read16 ⟨[], false⟩ = (0xFEFF, ⟨[], true⟩) := rfl

theorem read_mem (ws : List UInt16) : ∀ (k : Nat) (mem : UInt16 → UInt16), k ≤ 65536 →
    (ws.length < k → ∃ mem', readMem k mem ⟨ws.flatMap C111_word, false⟩ = (mem', ⟨[], true⟩) ∧
      ∀ a : UInt16, mem' a = if h : 65536 - k ≤ a.toNat ∧ a.toNat - (65536 - k) < ws.length then ws[a.toNat - (65536 - k)]
        else if a.toNat = 65536 - k + ws.length then 0xFEFF else mem a) ∧
    (k ≤ ws.length → (readMem k mem ⟨ws.flatMap C111_word, false⟩).2.eof = false) := by
  induction ws with
  | nil =>
    intro k mem hk
    refine ⟨?_, ?_⟩
    · intro h
      obtain ⟨k, rfl⟩ : ∃ j, k = j + 1 := ⟨k - 1, by simp at h; omega⟩
      unfold readMem
      simp only [List.flatMap_nil, read_end]
      refine ⟨_, rfl, ?_⟩
      intro a
      simp only [List.length_nil, Nat.not_lt_zero, and_false, dite_false, Nat.add_zero]
      have ha := a.toNat_lt
      have e : (a = UInt16.ofNat (65536 - (k + 1))) ↔ a.toNat = 65536 - (k + 1) := by
        rw [← UInt16.toNat_inj, UInt16.toNat_ofNat']
        have : (65536 - (k + 1)) % 2 ^ 16 = 65536 - (k + 1) := by omega
        rw [this]
      simp only [e]
    · intro h
      obtain rfl : k = 0 := by simpa using h
      rfl
  | cons w ws ih =>
    intro k mem hk
    refine ⟨?_, ?_⟩
    · intro h
      obtain ⟨k, rfl⟩ : ∃ j, k = j + 1 := ⟨k - 1, by simp at h; omega⟩
      unfold readMem
      simp only [List.flatMap_cons, read_word, Bool.false_eq_true, if_false]
      obtain ⟨mem', h1, h2⟩ := (ih k (fun a => if a = .ofNat (65536 - (k + 1)) then w else mem a) (by omega)).1 (by simp at h; omega)
      refine ⟨mem', h1, ?_⟩
      intro a
      rw [h2]
      have ha := a.toNat_lt
      have e : (a = UInt16.ofNat (65536 - (k + 1))) ↔ a.toNat = 65536 - (k + 1) := by
        rw [← UInt16.toNat_inj, UInt16.toNat_ofNat']
        have : (65536 - (k + 1)) % 2 ^ 16 = 65536 - (k + 1) := by omega
        rw [this]
      simp only [e, List.length_cons]
      simp only [List.length_cons] at h
      by_cases c1 : 65536 - k ≤ a.toNat ∧ a.toNat - (65536 - k) < ws.length
      · rw [dif_pos c1, dif_pos (by omega)]
        have : a.toNat - (65536 - (k + 1)) = a.toNat - (65536 - k) + 1 := by omega
        simp only [this, List.getElem_cons_succ]
      · rw [dif_neg c1]
        by_cases c2 : a.toNat = 65536 - (k + 1)
        · rw [if_neg (by omega), if_pos c2, dif_pos (by omega)]
          simp only [c2, Nat.sub_self, List.getElem_cons_zero]
        · rw [dif_neg (by omega), if_neg c2]
          by_cases c3 : a.toNat = 65536 - k + ws.length
          · rw [if_pos c3, if_pos (by omega)]
          · rw [if_neg c3, if_neg (by omega)]
    · intro h
      cases k with
      | zero => rfl
      | succ k =>
        unfold readMem
        simp only [List.flatMap_cons, read_word, Bool.false_eq_true, if_false]
        exact (ih k _ (by omega)).2 (by simpa using h)

/-- C111, as far as it goes: an image that leaves a cell free is loaded at its origin, and the machine begins at 0x3000 with the
condition code zero.  The cell after the image gets the word 0xFEFF. -/
theorem C111_load_partial (origin : UInt16) (ws : List UInt16) (polls : List Bool) (keys : Bytes) (h : origin.toNat + ws.length < 65536) :
    ∃ σ, load (C111_image origin ws) polls keys = some σ ∧ σ.reg 8 = 0x3000 ∧ σ.reg 9 = code .z ∧ (∀ i < 8, σ.reg i = 0) ∧
      σ.polls = polls ∧ σ.input = keys ∧ σ.out = [] ∧ σ.running = true ∧
      ∀ a : UInt16, σ.mem a = if h : origin.toNat ≤ a.toNat ∧ a.toNat - origin.toNat < ws.length then ws[a.toNat - origin.toNat]
        else if a.toNat = origin.toNat + ws.length then 0xFEFF else 0 := by
  have ho := origin.toNat_lt
  obtain ⟨mem', h1, h2⟩ := (read_mem ws (65536 - origin.toNat) (fun _ => 0) (by omega)).1 (by omega)
  unfold load C111_image
  simp only [read_word, h1, Bool.not_true, Bool.false_eq_true, if_false]
  refine ⟨_, rfl, rfl, rfl, ?_, rfl, rfl, rfl, rfl, ?_⟩
  · intro i hi
    show (if i = 9 then (2 : UInt16) else if i = 8 then 0x3000 else 0) = 0
    rw [if_neg (by omega), if_neg (by omega)]
  · intro a
    show mem' a = _
    rw [h2]
    have e : 65536 - (65536 - origin.toNat) = origin.toNat := by omega
    simp only [e]

/-- C111: all other images are refused, also those that fit exactly. -/
theorem C111_refused (origin : UInt16) (ws : List UInt16) (polls : List Bool) (keys : Bytes) (h : 65536 ≤ origin.toNat + ws.length) :
    load (C111_image origin ws) polls keys = none := by
  have ho := origin.toNat_lt
  have h1 := (read_mem ws (65536 - origin.toNat) (fun _ => 0) (by omega)).2 (by omega)
  unfold load C111_image
  simp only [read_word]
  rw [if_pos (by rw [h1]; rfl)]

/-- C111 fails: an image of one word at the last address fits, and is refused; and the word after an image is not zero. -/
theorem C111_counterexample : (load (C111_image 0xFFFF [1]) [] []).isNone = true ∧
    (load (C111_image 0x3000 [⟨encode (.trap 0x25)⟩]) [] []).map (fun σ => σ.mem 0x3001) = some 0xFEFF := by
  refine ⟨?_, ?_⟩
  · rw [C111_refused _ _ _ _ (by decide)]; rfl
  · obtain ⟨σ, h1, _, _, _, _, _, _, _, h2⟩ := C111_load_partial 0x3000 [⟨encode (.trap 0x25)⟩] [] [] (by decide)
    rw [h1, Option.map_some, h2]
    decide +kernel
end Che.Props
