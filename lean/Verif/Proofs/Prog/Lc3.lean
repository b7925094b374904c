import Verif.Proofs.Prog.Lc3Fields

namespace Che.Prog.Lc3
open Che.Lib Che.Spec.Lc3

/-! ### States -/

structure Same (σ : Vm) (s : State) : Prop where
  reg : ∀ i : BitVec 3, (σ.reg i.toNat).toBitVec = s.r i
  pc : (σ.reg 8).toBitVec = s.pc
  cc : σ.reg 9 = code s.cc
  mem : ∀ a, (σ.mem ⟨a⟩).toBitVec = s.mem a

theorem reg_eq {σ : Vm} {s : State} (h : Same σ s) (i : BitVec 3) : σ.reg i.toNat = ⟨s.r i⟩ := by
  rw [← h.reg]

theorem pc_eq {σ : Vm} {s : State} (h : Same σ s) : σ.reg 8 = ⟨s.pc⟩ := by
  rw [← h.pc]

theorem mem_eq {σ : Vm} {s : State} (h : Same σ s) (a : Word) : σ.mem ⟨a⟩ = ⟨s.mem a⟩ := by
  rw [← h.mem]

theorem same_set {σ : Vm} {s : State} (h : Same σ s) (r : BitVec 3) (v : Word) : Same (σ.setReg r.toNat ⟨v⟩) (s.set r v) where
  reg := by
    intro i
    show (if i.toNat = r.toNat then (⟨v⟩ : UInt16) else σ.reg i.toNat).toBitVec = if i = r then v else s.r i
    by_cases hi : i = r
    · rw [if_pos (by rw [hi]), if_pos hi]
    · rw [if_neg (fun e => hi (BitVec.eq_of_toNat_eq e)), if_neg hi, h.reg]
  pc := by
    show (if 8 = r.toNat then (⟨v⟩ : UInt16) else σ.reg 8).toBitVec = s.pc
    have := r.isLt
    rw [if_neg (by omega), h.pc]
  cc := by
    show (if 9 = r.toNat then (⟨v⟩ : UInt16) else σ.reg 9) = code s.cc
    have := r.isLt
    rw [if_neg (by omega), h.cc]
  mem := h.mem

theorem same_pc {σ : Vm} {s : State} (h : Same σ s) (v : Word) : Same (σ.setReg 8 ⟨v⟩) { s with pc := v } where
  reg := by
    intro i
    have := i.isLt
    show (if i.toNat = 8 then (⟨v⟩ : UInt16) else σ.reg i.toNat).toBitVec = s.r i
    rw [if_neg (by omega), h.reg]
  pc := rfl
  cc := h.cc
  mem := h.mem

theorem same_cc {σ : Vm} {s : State} (h : Same σ s) (cc : Cc) : Same (σ.setReg 9 (code cc)) { s with cc := cc } where
  reg := by
    intro i
    have := i.isLt
    show (if i.toNat = 9 then code cc else σ.reg i.toNat).toBitVec = s.r i
    rw [if_neg (by omega), h.reg]
  pc := h.pc
  cc := rfl
  mem := h.mem

theorem same_store {σ : Vm} {s : State} (h : Same σ s) (a v : Word) : Same (mem_write σ ⟨a⟩ ⟨v⟩) (s.store a v) where
  reg := h.reg
  pc := h.pc
  cc := h.cc
  mem := by
    intro b
    show (if (⟨b⟩ : UInt16) = ⟨a⟩ then (⟨v⟩ : UInt16) else σ.mem ⟨b⟩).toBitVec = if b = a then v else s.mem b
    by_cases hb : b = a
    · rw [if_pos (by rw [hb]), if_pos hb]
    · rw [if_neg (fun e => hb (congrArg UInt16.toBitVec e)), if_neg hb, h.mem]

theorem top_bit (v : Word) : ((⟨v⟩ : UInt16) >>> 15 ≠ 0) ↔ v.toInt < 0 := by
  rw [BitVec.toInt_neg_iff]
  have h1 : ((⟨v⟩ : UInt16) >>> 15).toNat = v.toNat / 32768 := by
    rw [UInt16.toNat_shiftRight]
    show v.toNat >>> 15 = _
    rw [Nat.shiftRight_eq_div_pow]
  have h2 : ((⟨v⟩ : UInt16) >>> 15 ≠ 0) ↔ v.toNat / 32768 ≠ 0 := by
    rw [← h1]
    constructor
    · intro h e; exact h (UInt16.toNat_inj.mp e)
    · intro h e; exact h (by rw [e]; rfl)
  rw [h2]
  have := v.isLt
  omega

theorem flags {σ : Vm} (v : Word) (r : Nat) (hr : σ.reg r = ⟨v⟩) : update_flags σ r = σ.setReg 9 (code (ccOf v)) := by
  unfold update_flags ccOf
  rw [hr]
  by_cases h0 : v = 0
  · subst h0; rfl
  · have hz : ¬ (⟨v⟩ : UInt16) = 0 := fun e => h0 (congrArg UInt16.toBitVec e)
    have hi : ¬ v.toInt = 0 := fun e => h0 (BitVec.eq_of_toInt_eq (by rw [e]; rfl))
    rw [if_neg hz]
    by_cases hn : v.toInt < 0
    · rw [if_pos ((top_bit v).mpr hn), if_pos hn]; rfl
    · rw [if_neg (fun h => hn ((top_bit v).mp h)), if_neg hn, if_neg hi]; rfl

theorem same_result {σ : Vm} {s : State} (h : Same σ s) (r : BitVec 3) (v : Word) :
    Same (update_flags (σ.setReg r.toNat ⟨v⟩) r.toNat) (s.result r v) := by
  rw [flags v r.toNat (by unfold Vm.setReg; simp)]
  exact same_cc (same_set h r v) (ccOf v)

theorem read_plain (σ : Vm) (a : UInt16) (h : a ≠ 0xFE00) : mem_read σ a = (σ.mem a, σ) := by
  unfold mem_read
  rw [if_neg h]

theorem add_eq (a b : Word) : (⟨a⟩ : UInt16) + ⟨b⟩ = ⟨a + b⟩ := rfl
theorem and_eq (a b : Word) : (⟨a⟩ : UInt16) &&& ⟨b⟩ = ⟨a &&& b⟩ := rfl
theorem not_eq (a : Word) : ~~~ (⟨a⟩ : UInt16) = ⟨~~~ a⟩ := rfl

/-- What is around the processor is as it was. -/
structure Quiet (σ σ' : Vm) : Prop where
  polls : σ'.polls = σ.polls
  input : σ'.input = σ.input
  out : σ'.out = σ.out
  running : σ'.running = σ.running

theorem quiet_flags (σ : Vm) (i r : Nat) (v : UInt16) : Quiet σ (update_flags (σ.setReg i v) r) := by
  unfold update_flags
  split
  · exact ⟨rfl, rfl, rfl, rfl⟩
  · split <;> exact ⟨rfl, rfl, rfl, rfl⟩

theorem not_kb {a : Word} (h : a ≠ 0xFE00) : (⟨a⟩ : UInt16) ≠ 0xFE00 := fun e => h (congrArg UInt16.toBitVec e)

/-- After the fetch, everything but traps. -/
def run1 (σ : Vm) (instr : UInt16) : Res String Vm :=
  match (instr >>> 12).toNat with
  | 0 => .ok (op_br σ instr)
  | 1 => .ok (op_add σ instr)
  | 2 => .ok (op_ld σ instr)
  | 3 => .ok (op_st σ instr)
  | 4 => .ok (op_jsr σ instr)
  | 5 => .ok (op_and σ instr)
  | 6 => .ok (op_ldr σ instr)
  | 7 => .ok (op_str σ instr)
  | 9 => .ok (op_not σ instr)
  | 10 => .ok (op_ldi σ instr)
  | 11 => .ok (op_sti σ instr)
  | 12 => .ok (op_jmp σ instr)
  | 14 => .ok (op_lea σ instr)
  | 15 => op_trap σ instr
  | _ => .panic "!"

theorem step_eq (σ : Vm) : step σ = run1 (mem_read (σ.setReg 8 (σ.reg 8 + 1)) (σ.reg 8)).2 (mem_read (σ.setReg 8 (σ.reg 8 + 1)) (σ.reg 8)).1 := rfl

theorem run_plain {σ : Vm} {s : State} (h : Same σ s) (i : Instr) (ht : ∀ v, i ≠ .trap v) (hj : i ≠ .jsrr 7) (hr : ∀ a ∈ reads s i, a ≠ 0xFE00) :
    ∃ σ', run1 σ ⟨encode i⟩ = .ok σ' ∧ Same σ' (exec s i) ∧ Quiet σ σ' := by
  cases i with
  | add dr sr1 sr2 =>
    obtain ⟨f1, f2, f3, f4, f5⟩ := add_fields dr sr1 sr2
    refine ⟨op_add σ _, by unfold run1; simp only [f1]; rfl, ?_, ?_⟩
    · unfold op_add
      simp only [f2, f3, f4, f5, ne_eq, not_true_eq_false, if_false, reg_eq h, add_eq]
      exact same_result h dr _
    · unfold op_add
      simp only [f4, ne_eq, not_true_eq_false, if_false]
      exact quiet_flags _ _ _ _
  | addi dr sr1 imm =>
    obtain ⟨f1, f2, f3, f4, f5⟩ := addi_fields dr sr1 imm
    refine ⟨op_add σ _, by unfold run1; simp only [f1]; rfl, ?_, ?_⟩
    · unfold op_add
      simp only [f2, f3, f4, f5, ne_eq, Nat.one_ne_zero, not_false_eq_true, if_true, reg_eq h, add_eq]
      exact same_result h dr _
    · unfold op_add
      simp only [f4, ne_eq, Nat.one_ne_zero, not_false_eq_true, if_true]
      exact quiet_flags _ _ _ _
  | and dr sr1 sr2 =>
    obtain ⟨f1, f2, f3, f4, f5⟩ := and_fields dr sr1 sr2
    refine ⟨op_and σ _, by unfold run1; simp only [f1]; rfl, ?_, ?_⟩
    · unfold op_and
      simp only [f2, f3, f4, f5, ne_eq, not_true_eq_false, if_false, reg_eq h, and_eq]
      exact same_result h dr _
    · unfold op_and
      simp only [f4, ne_eq, not_true_eq_false, if_false]
      exact quiet_flags _ _ _ _
  | andi dr sr1 imm =>
    obtain ⟨f1, f2, f3, f4, f5⟩ := andi_fields dr sr1 imm
    refine ⟨op_and σ _, by unfold run1; simp only [f1]; rfl, ?_, ?_⟩
    · unfold op_and
      simp only [f2, f3, f4, f5, ne_eq, Nat.one_ne_zero, not_false_eq_true, if_true, reg_eq h, and_eq]
      exact same_result h dr _
    · unfold op_and
      simp only [f4, ne_eq, Nat.one_ne_zero, not_false_eq_true, if_true]
      exact quiet_flags _ _ _ _
  | br n z p off =>
    obtain ⟨f1, ⟨fn, fz, fp⟩, f3⟩ := br_fields n z p off
    have ht : decide (((⟨encode (.br n z p off)⟩ : UInt16) >>> 9 &&& 7) &&& σ.reg 9 ≠ 0) = taken n z p s.cc := by
      rw [h.cc]
      cases s.cc with
      | n => exact fn
      | z => exact fz
      | p => exact fp
    refine ⟨op_br σ _, by unfold run1; simp only [f1]; rfl, ?_, ?_⟩
    · unfold op_br
      show Same _ (if taken n z p s.cc = true then _ else _)
      rw [← ht]
      by_cases hc : ((⟨encode (.br n z p off)⟩ : UInt16) >>> 9 &&& 7) &&& σ.reg 9 ≠ 0
      · rw [if_pos hc, if_pos (by simpa using hc), f3, pc_eq h, add_eq]
        exact same_pc h _
      · rw [if_neg hc, if_neg (by simpa using hc)]
        exact h
    · unfold op_br
      split <;> exact ⟨rfl, rfl, rfl, rfl⟩
  | jmp base =>
    obtain ⟨f1, f2⟩ := jmp_fields base
    refine ⟨op_jmp σ _, by unfold run1; simp only [f1]; rfl, ?_, ⟨rfl, rfl, rfl, rfl⟩⟩
    unfold op_jmp
    rw [f2, reg_eq h]
    exact same_pc h _
  | jsr off =>
    obtain ⟨f1, f2, f3⟩ := jsr_fields off
    have h7 : Same (σ.setReg 7 (σ.reg 8)) (s.set 7 s.pc) := by rw [pc_eq h]; exact same_set h 7 s.pc
    refine ⟨op_jsr σ _, by unfold run1; simp only [f1]; rfl, ?_, ?_⟩
    · unfold op_jsr
      simp only [f2, f3, ne_eq, Nat.one_ne_zero, not_false_eq_true, if_true]
      rw [pc_eq h7, add_eq]
      exact same_pc h7 _
    · unfold op_jsr
      simp only [f2, ne_eq, Nat.one_ne_zero, not_false_eq_true, if_true]
      exact ⟨rfl, rfl, rfl, rfl⟩
  | jsrr base =>
    obtain ⟨f1, f2, f3⟩ := jsrr_fields base
    have h7 : Same (σ.setReg 7 (σ.reg 8)) (s.set 7 s.pc) := by rw [pc_eq h]; exact same_set h 7 s.pc
    have hb : base ≠ 7 := fun e => hj (by rw [e])
    refine ⟨op_jsr σ _, by unfold run1; simp only [f1]; rfl, ?_, ?_⟩
    · unfold op_jsr
      simp only [f2, f3, ne_eq, not_true_eq_false, if_false]
      rw [reg_eq h7]
      have := same_pc h7 ((s.set 7 s.pc).r base)
      have e : (s.set 7 s.pc).r base = s.r base := by
        show (if base = 7 then s.pc else s.r base) = s.r base
        rw [if_neg hb]
      rw [e] at this ⊢
      exact this
    · unfold op_jsr
      simp only [f2, ne_eq, not_true_eq_false, if_false]
      exact ⟨rfl, rfl, rfl, rfl⟩
  | ld dr off =>
    obtain ⟨f1, f2, f3⟩ := ld_fields dr off
    have ha := not_kb (hr (s.pc + off.signExtend 16) (by simp [reads]))
    have e : op_ld σ ⟨encode (.ld dr off)⟩ = update_flags (σ.setReg dr.toNat ⟨s.mem (s.pc + off.signExtend 16)⟩) dr.toNat := by
      unfold op_ld
      simp only [f2, f3, pc_eq h, add_eq, read_plain _ _ ha, mem_eq h]
    refine ⟨op_ld σ _, by unfold run1; simp only [f1]; rfl, ?_, ?_⟩
    · rw [e]; exact same_result h dr _
    · rw [e]; exact quiet_flags _ _ _ _
  | ldi dr off =>
    obtain ⟨f1, f2, f3⟩ := ldi_fields dr off
    have ha := not_kb (hr (s.pc + off.signExtend 16) (by simp [reads]))
    have hb := not_kb (hr (s.mem (s.pc + off.signExtend 16)) (by simp [reads]))
    have e : op_ldi σ ⟨encode (.ldi dr off)⟩ = update_flags (σ.setReg dr.toNat ⟨s.mem (s.mem (s.pc + off.signExtend 16))⟩) dr.toNat := by
      unfold op_ldi
      simp only [f2, f3, pc_eq h, add_eq, read_plain _ _ ha, mem_eq h, read_plain _ _ hb]
    refine ⟨op_ldi σ _, by unfold run1; simp only [f1]; rfl, ?_, ?_⟩
    · rw [e]; exact same_result h dr _
    · rw [e]; exact quiet_flags _ _ _ _
  | ldr dr base off =>
    obtain ⟨f1, f2, f3, f4⟩ := ldr_fields dr base off
    have ha := not_kb (hr (s.r base + off.signExtend 16) (by simp [reads]))
    have e : op_ldr σ ⟨encode (.ldr dr base off)⟩ = update_flags (σ.setReg dr.toNat ⟨s.mem (s.r base + off.signExtend 16)⟩) dr.toNat := by
      unfold op_ldr
      simp only [f2, f3, f4, reg_eq h, add_eq, read_plain _ _ ha, mem_eq h]
    refine ⟨op_ldr σ _, by unfold run1; simp only [f1]; rfl, ?_, ?_⟩
    · rw [e]; exact same_result h dr _
    · rw [e]; exact quiet_flags _ _ _ _
  | lea dr off =>
    obtain ⟨f1, f2, f3⟩ := lea_fields dr off
    have e : op_lea σ ⟨encode (.lea dr off)⟩ = update_flags (σ.setReg dr.toNat ⟨s.pc + off.signExtend 16⟩) dr.toNat := by
      unfold op_lea
      simp only [f2, f3, pc_eq h, add_eq]
    refine ⟨op_lea σ _, by unfold run1; simp only [f1]; rfl, ?_, ?_⟩
    · rw [e]; exact same_result h dr _
    · rw [e]; exact quiet_flags _ _ _ _
  | not dr sr =>
    obtain ⟨f1, f2, f3⟩ := not_fields dr sr
    have e : op_not σ ⟨encode (.not dr sr)⟩ = update_flags (σ.setReg dr.toNat ⟨~~~ s.r sr⟩) dr.toNat := by
      unfold op_not
      simp only [f2, f3, reg_eq h, not_eq]
    refine ⟨op_not σ _, by unfold run1; simp only [f1]; rfl, ?_, ?_⟩
    · rw [e]; exact same_result h dr _
    · rw [e]; exact quiet_flags _ _ _ _
  | st sr off =>
    obtain ⟨f1, f2, f3⟩ := st_fields sr off
    refine ⟨op_st σ _, by unfold run1; simp only [f1]; rfl, ?_, ⟨rfl, rfl, rfl, rfl⟩⟩
    unfold op_st
    rw [f2, f3, pc_eq h, add_eq, reg_eq h]
    exact same_store h _ _
  | sti sr off =>
    obtain ⟨f1, f2, f3⟩ := sti_fields sr off
    have ha := not_kb (hr (s.pc + off.signExtend 16) (by simp [reads]))
    have e : op_sti σ ⟨encode (.sti sr off)⟩ = mem_write σ ⟨s.mem (s.pc + off.signExtend 16)⟩ ⟨s.r sr⟩ := by
      unfold op_sti
      simp only [f2, f3, pc_eq h, add_eq, read_plain _ _ ha, mem_eq h, reg_eq h]
    refine ⟨op_sti σ _, by unfold run1; simp only [f1]; rfl, ?_, ?_⟩
    · rw [e]; exact same_store h _ _
    · rw [e]; exact ⟨rfl, rfl, rfl, rfl⟩
  | str sr base off =>
    obtain ⟨f1, f2, f3, f4⟩ := str_fields sr base off
    refine ⟨op_str σ _, by unfold run1; simp only [f1]; rfl, ?_, ⟨rfl, rfl, rfl, rfl⟩⟩
    unfold op_str
    rw [f2, f3, f4, reg_eq h, add_eq, reg_eq h]
    exact same_store h _ _
  | trap v => exact absurd rfl (ht v)

/-! ### Traps -/

theorem char_low (w : Word) : char ⟨w⟩ = low w := by
  apply UInt8.toNat_inj.mp
  show (UInt16.toUInt8 ⟨w⟩).toNat = (w.extractLsb' 0 8).toNat
  rw [UInt16.toNat_toUInt8, BitVec.extractLsb'_toNat]
  rfl

theorem char_mask (w : Word) : char (⟨w⟩ &&& 0xFF) = low w := by
  apply UInt8.toNat_inj.mp
  show (UInt16.toUInt8 (⟨w⟩ &&& 0xFF)).toNat = (w.extractLsb' 0 8).toNat
  rw [UInt16.toNat_toUInt8, BitVec.extractLsb'_toNat, UInt16.toNat_and]
  show (w.toNat &&& (2 ^ 8 - 1)) % 256 = w.toNat >>> 0 % 2 ^ 8
  rw [Nat.and_two_pow_sub_one_eq_mod, Nat.shiftRight_zero]
  omega

theorem char_high (w : Word) : char ((⟨w⟩ : UInt16) >>> 8) = high w := by
  apply UInt8.toNat_inj.mp
  show (UInt16.toUInt8 ((⟨w⟩ : UInt16) >>> 8)).toNat = (w.extractLsb' 8 8).toNat
  rw [UInt16.toNat_toUInt8, BitVec.extractLsb'_toNat, UInt16.toNat_shiftRight]
  rfl

theorem string_tail {mem : Word → Word} {a w : Word} {ws : List Word} (h : IsString mem a (w :: ws)) :
    mem a = w ∧ w ≠ 0 ∧ IsString mem (a + 1) ws ∧ (a + 1).toNat = a.toNat + 1 := by
  obtain ⟨h1, h2, h3⟩ := h
  simp only [List.length_cons] at h1 h3
  have hn : (a + 1).toNat = a.toNat + 1 := by
    rw [BitVec.toNat_add]
    show (a.toNat + 1) % 65536 = _
    omega
  have h0 := h2 0 (by simp)
  have shift : ∀ i, a + 1 + BitVec.ofNat 16 i = a + BitVec.ofNat 16 (i + 1) := by
    intro i
    rw [BitVec.add_assoc]
    congr 1
    apply BitVec.eq_of_toNat_eq
    rw [BitVec.toNat_add, BitVec.toNat_ofNat, BitVec.toNat_ofNat]
    show (1 + i % 65536) % 65536 = (i + 1) % 65536
    omega
  refine ⟨?_, h0.1, ⟨by rw [hn]; omega, ?_, ?_⟩, hn⟩
  · have := h0.2
    rwa [show BitVec.ofNat 16 0 = 0#16 from rfl, BitVec.add_zero] at this
  · intro i hi
    have := h2 (i + 1) (by simp; omega)
    rw [shift]
    simpa using this
  · rw [shift]; exact h3

theorem at_word (a : Word) (k : Nat) (hk : k + 1 = 65536 - a.toNat) : UInt16.ofNat (65536 - (k + 1)) = ⟨a⟩ := by
  have := a.isLt
  rw [show 65536 - (k + 1) = a.toNat by omega]
  apply UInt16.toNat_inj.mp
  rw [UInt16.toNat_ofNat']
  show a.toNat % 65536 = a.toNat
  omega

theorem word_zero {w : Word} : (⟨w⟩ : UInt16) = 0 ↔ w = 0 := ⟨fun e => congrArg UInt16.toBitVec e, fun e => by rw [e]; rfl⟩

theorem puts_string {σ : Vm} {mem : Word → Word} (hm : ∀ a, σ.mem ⟨a⟩ = ⟨mem a⟩) : ∀ (ws : List Word) (a : Word), IsString mem a ws →
    puts σ.mem (65536 - a.toNat) = .ok (ws.map low) ∧ putsp σ.mem (65536 - a.toNat) = .ok (ws.flatMap pair) := by
  intro ws
  induction ws with
  | nil =>
    intro a h
    have hz : mem a = 0 := by
      have := h.2.2
      rwa [show BitVec.ofNat 16 ([] : List Word).length = 0#16 from rfl, BitVec.add_zero] at this
    obtain ⟨k, hk⟩ : ∃ k, k + 1 = 65536 - a.toNat := ⟨65536 - a.toNat - 1, by have := a.isLt; omega⟩
    rw [← hk]
    unfold puts putsp
    simp only [at_word a k hk, hm, hz]
    exact ⟨rfl, rfl⟩
  | cons w ws ih =>
    intro a h
    obtain ⟨h1, h2, h3, h4⟩ := string_tail h
    obtain ⟨k, hk⟩ : ∃ k, k + 1 = 65536 - a.toNat := ⟨65536 - a.toNat - 1, by have := a.isLt; omega⟩
    have hk' : k = 65536 - (a + 1).toNat := by omega
    obtain ⟨i1, i2⟩ := ih (a + 1) h3
    rw [← hk'] at i1 i2
    rw [← hk]
    unfold puts putsp
    simp only [at_word a k hk, hm, h1, word_zero, h2, if_false, i1, i2, char_low, char_mask, char_high]
    refine ⟨rfl, ?_⟩
    show Res.ok _ = Res.ok (pair w ++ ws.flatMap pair)
    unfold pair
    by_cases hh : high w = 0
    · rw [if_neg (by simpa using hh), if_pos hh]; rfl
    · rw [if_pos (by simpa using hh), if_neg hh]; rfl

theorem key_word (c : UInt8) : u16 c.toNat = ⟨c.toBitVec.zeroExtend 16⟩ := by
  apply UInt16.toNat_inj.mp
  have := c.toNat_lt
  show (UInt16.ofNat (((c.toNat : Int) % 65536).toNat)).toNat = (c.toBitVec.zeroExtend 16).toNat
  rw [UInt16.toNat_ofNat', BitVec.toNat_setWidth]
  show _ = c.toNat % 65536
  have e : ((c.toNat : Int) % 65536).toNat = c.toNat := by omega
  rw [e]

theorem key_char (c : UInt8) : char (u16 c.toNat) = c := by
  rw [key_word, char_low]
  apply UInt8.toNat_inj.mp
  have := c.toNat_lt
  show ((c.toBitVec.zeroExtend 16).extractLsb' 0 8).toNat = c.toNat
  rw [BitVec.extractLsb'_toNat, BitVec.toNat_setWidth]
  show (c.toNat % 65536) >>> 0 % 256 = c.toNat
  rw [Nat.shiftRight_zero]
  omega

theorem ascii_word (c : UInt8) (h : c < 128) : ofChar c = ⟨c.toBitVec.zeroExtend 16⟩ := by
  unfold ofChar
  rw [if_pos h]
  apply UInt16.toNat_inj.mp
  have := c.toNat_lt
  rw [UInt8.toNat_toUInt16]
  show _ = (c.toBitVec.zeroExtend 16).toNat
  rw [BitVec.toNat_setWidth]
  show c.toNat = c.toNat % 65536
  omega

/-- A machine of the specification and the emulator are in the same state. -/
structure Shows (σ : Vm) (m : Machine) : Prop where
  same : Same σ m.toState
  keys : σ.input = m.keys
  screen : σ.out = m.screen
  running : σ.running = !m.halted

theorem same_of {σ σ' : Vm} {s : State} (h : Same σ s) (h1 : σ'.reg = σ.reg) (h2 : σ'.mem = σ.mem) : Same σ' s :=
  ⟨by rw [h1]; exact h.reg, by rw [h1]; exact h.pc, by rw [h1]; exact h.cc, by rw [h2]; exact h.mem⟩

theorem run_trap {σ : Vm} {s : State} (h : Same σ s) {keys screen : Bytes} (hk : σ.input = keys) (hs : σ.out = screen) (hr : σ.running = true)
    (v : BitVec 8) (m : Machine) (ht : Trap (s.set 7 s.pc) keys screen v m) (ha : v = 0x23 → ∃ c rest, keys = c :: rest ∧ c < 128) :
    ∃ σ' m', run1 σ ⟨encode (.trap v)⟩ = .ok σ' ∧ Trap (s.set 7 s.pc) keys screen v m' ∧ Shows σ' m' := by
  obtain ⟨f1, f2⟩ := trap_fields v
  have h7 : Same (σ.setReg 7 (σ.reg 8)) (s.set 7 s.pc) := by rw [pc_eq h]; exact same_set h 7 s.pc
  have e : run1 σ ⟨encode (.trap v)⟩ = op_trap σ ⟨encode (.trap v)⟩ := by unfold run1; simp only [f1]
  rw [e]
  unfold op_trap
  simp only [f2]
  generalize hτ : σ.setReg 7 (σ.reg 8) = τ at h7
  have tk : τ.input = keys := by rw [← hτ]; exact hk
  have ts : τ.out = screen := by rw [← hτ]; exact hs
  have tr : τ.running = true := by rw [← hτ]; exact hr
  clear hτ
  cases ht with
  | getc c rest cc hc =>
    rw [if_pos (by decide)]
    have eg : getchar τ = ((c.toNat : Int), { τ with input := rest }) := by unfold getchar; rw [tk, hc]
    simp only [eg]
    have hs' : Same { τ with input := rest } (s.set 7 s.pc) := same_of h7 rfl rfl
    refine ⟨_, _, rfl, Trap.getc c rest (ccOf (c.toBitVec.zeroExtend 16)) hc, ?_⟩
    rw [key_word]
    refine ⟨same_result hs' 0 _, ?_, ?_, ?_⟩
    · rw [show (0 : Nat) = (0 : BitVec 3).toNat from rfl]; exact (quiet_flags _ _ _ _).input
    · exact (quiet_flags _ _ _ _).out.trans ts
    · exact (quiet_flags _ _ _ _).running.trans tr
  | out =>
    rw [if_neg (by decide), if_pos (by decide)]
    refine ⟨_, _, rfl, Trap.out, same_of h7 rfl rfl, tk, ?_, tr⟩
    show τ.out ++ [char (τ.reg 0)] = _
    rw [ts, show (0 : Nat) = (0 : BitVec 3).toNat from rfl, reg_eq h7, char_low]
  | puts ws hw =>
    rw [if_neg (by decide), if_neg (by decide), if_pos (by decide)]
    have := puts_string (σ := τ) (mem_eq h7) ws _ hw
    rw [show (τ.reg 0) = ⟨(s.set 7 s.pc).r 0⟩ from reg_eq h7 0]
    show ∃ σ' m', (puts τ.mem (65536 - BitVec.toNat ((s.set 7 s.pc).r 0))).bind _ = _ ∧ _
    rw [this.1]
    refine ⟨_, _, rfl, Trap.puts ws hw, same_of h7 rfl rfl, tk, ?_, tr⟩
    show τ.out ++ _ = _
    rw [ts]
  | in_ c rest prompt cc hc =>
    rw [if_neg (by decide), if_neg (by decide), if_neg (by decide), if_pos (by decide)]
    obtain ⟨c', rest', hc', hlt⟩ := ha rfl
    obtain ⟨rfl, rfl⟩ : c' = c ∧ rest' = rest := by rw [hc] at hc'; simpa [eq_comm] using hc'
    have eg : getchar { τ with out := τ.out ++ cstr "Enter a character: " } = ((c'.toNat : Int), { τ with input := rest', out := τ.out ++ cstr "Enter a character: " }) := by
      unfold getchar; simp only [tk, hc]
    simp only [eg, key_char, ascii_word c' hlt]
    have hs' : Same { τ with input := rest', out := τ.out ++ cstr "Enter a character: " ++ [c'] } (s.set 7 s.pc) := same_of h7 rfl rfl
    refine ⟨_, _, rfl, Trap.in_ c' rest' (cstr "Enter a character: ") (ccOf (c'.toBitVec.zeroExtend 16)) hc, ?_⟩
    refine ⟨same_result hs' 0 _, ?_, ?_, ?_⟩
    · rw [show (0 : Nat) = (0 : BitVec 3).toNat from rfl]; exact (quiet_flags _ _ _ _).input
    · refine (quiet_flags _ _ _ _).out.trans ?_
      show τ.out ++ _ ++ _ = _
      rw [ts]
    · exact (quiet_flags _ _ _ _).running.trans tr
  | putsp ws hw =>
    rw [if_neg (by decide), if_neg (by decide), if_neg (by decide), if_neg (by decide), if_pos (by decide)]
    have := puts_string (σ := τ) (mem_eq h7) ws _ hw
    rw [show (τ.reg 0) = ⟨(s.set 7 s.pc).r 0⟩ from reg_eq h7 0]
    show ∃ σ' m', (putsp τ.mem (65536 - BitVec.toNat ((s.set 7 s.pc).r 0))).bind _ = _ ∧ _
    rw [this.2]
    refine ⟨_, _, rfl, Trap.putsp ws hw, same_of h7 rfl rfl, tk, ?_, tr⟩
    show τ.out ++ _ = _
    rw [ts]
  | halt message =>
    rw [if_neg (by decide), if_neg (by decide), if_neg (by decide), if_neg (by decide), if_neg (by decide), if_pos (by decide)]
    refine ⟨_, _, rfl, Trap.halt (cstr "HALT\n"), same_of h7 rfl rfl, tk, ?_, rfl⟩
    show τ.out ++ _ = _
    rw [ts]
end Che.Prog.Lc3
