import Verif.Spec.Lib.Opt
import Verif.Proofs.Prog.Regexp9Conv

namespace Che.Lib.Opt
open Che.Lib Che.Spec.Opt

theorem number_snoc (s : Bytes) (d : UInt8) : number (s ++ [d]) = 10 * number s + (d.toNat - 48) := by
  simp [number, List.foldl_append]

theorem digit_ofNat {d : Nat} (h : d < 10) : isdigit (UInt8.ofNat (48 + d)) = true ∧ (UInt8.ofNat (48 + d)).toNat = 48 + d := by
  have : (UInt8.ofNat (48 + d)).toNat = 48 + d := by
    rw [UInt8.toNat_ofNat']; omega
  refine ⟨?_, this⟩
  simp only [isdigit, Bool.and_eq_true, decide_eq_true_eq, UInt8.le_iff_toNat_le, this]
  have e1 : (48 : UInt8).toNat = 48 := rfl
  have e2 : (57 : UInt8).toNat = 57 := rfl
  omega

theorem digit_inv {c : UInt8} (h : isdigit c = true) : ∃ d, d < 10 ∧ c = UInt8.ofNat (48 + d) ∧ c.toNat - 48 = d := by
  simp only [isdigit, Bool.and_eq_true, decide_eq_true_eq, UInt8.le_iff_toNat_le] at h
  have e1 : (48 : UInt8).toNat = 48 := rfl
  have e2 : (57 : UInt8).toNat = 57 := rfl
  refine ⟨c.toNat - 48, by omega, ?_, rfl⟩
  apply UInt8.toNat_inj.mp
  rw [UInt8.toNat_ofNat']; omega

theorem decimal_iff (s : Bytes) (n : Nat) : Decimal s n ↔ s ≠ [] ∧ s.all isdigit = true ∧ number s = n := by
  constructor
  · intro h
    induction h with
    | one d hd => exact ⟨by simp, by rw [List.all_cons, (digit_ofNat hd).1]; rfl, by rw [number, List.foldl_cons, (digit_ofNat hd).2]; show 10 * 0 + _ = d; omega⟩
    | snoc s n d _ hd ih =>
      refine ⟨by simp, ?_, ?_⟩
      · rw [List.all_append, ih.2.1, List.all_cons, (digit_ofNat hd).1]; rfl
      · rw [number_snoc, ih.2.2, (digit_ofNat hd).2]; omega
  · rintro ⟨hne, hall, rfl⟩
    induction hl : s.length generalizing s with
    | zero => exact absurd (List.length_eq_zero_iff.mp hl) hne
    | succ k ih =>
      obtain ⟨c, s', rfl⟩ : ∃ c s', s = s' ++ [c] := ⟨s.getLast hne, s.dropLast, (List.dropLast_concat_getLast hne).symm⟩
      rw [List.all_append, Bool.and_eq_true] at hall
      obtain ⟨d, hd, e, ed⟩ := digit_inv (c := c) (by simpa using hall.2)
      rw [number_snoc, ed, e]
      by_cases h0 : s' = []
      · subst h0; simpa [number] using Decimal.one d hd
      · exact .snoc _ _ _ (ih s' h0 hall.1 (by simpa using hl)) hd

theorem decimal_head {s : Bytes} {n : Nat} (h : Decimal s n) : ∃ c t, s = c :: t ∧ c ≠ 45 := by
  obtain ⟨hne, hall, _⟩ := (decimal_iff s n).mp h
  cases s with
  | nil => exact absurd rfl hne
  | cons c t =>
    refine ⟨c, t, rfl, ?_⟩
    rintro rfl
    simp [isdigit] at hall

theorem findFrom_iff (c : UInt8) (hc : c ≠ 0) (specs : List Spec) (hn : ∀ s ∈ specs, s.name.length ≤ 1) (k i : Nat) (ty : Ty) :
    findFrom c specs k = some (i, ty) ↔ k ≤ i ∧ Known specs c (i - k) ty := by
  induction specs generalizing k with
  | nil => simp [findFrom, Known]
  | cons s rest ih =>
    have hs := hn s (by simp)
    have hr : ∀ s ∈ rest, s.name.length ≤ 1 := fun x hx => hn x (by simp [hx])
    rw [findFrom]
    have hname : first s.name = c ↔ s.name = [c] := by
      unfold first
      match h : s.name with
      | [] => simp [Ne.symm hc]
      | [x] => simp
      | x :: y :: z => simp [h] at hs
    by_cases hf : first s.name = c
    · rw [if_pos hf]
      have hnm := hname.mp hf
      constructor
      · intro h
        simp only [Option.some.injEq, Prod.mk.injEq] at h
        obtain ⟨rfl, rfl⟩ := h
        refine ⟨Nat.le_refl _, ?_, ?_⟩
        · simp only [Nat.sub_self, List.getElem?_cons_zero]
          cases s; simp_all
        · intro j hj; omega
      · rintro ⟨hk, h1, h2⟩
        rcases Nat.eq_zero_or_pos (i - k) with h0 | h0
        · rw [h0] at h1
          simp only [List.getElem?_cons_zero, Option.some.injEq] at h1
          subst h1
          rw [show i = k by omega]
        · exact absurd (by cases s; simp_all) (h2 0 h0 s.ty)
    · rw [if_neg hf, ih hr]
      have hnm : s.name ≠ [c] := fun h => hf (hname.mpr h)
      constructor
      · rintro ⟨hk, h1, h2⟩
        refine ⟨by omega, ?_, ?_⟩
        · rw [show i - k = (i - (k + 1)) + 1 by omega, List.getElem?_cons_succ]; exact h1
        · intro j hj ty'
          cases j with
          | zero =>
            intro h
            simp only [List.getElem?_cons_zero, Option.some.injEq] at h
            subst h; exact hnm rfl
          | succ j => rw [List.getElem?_cons_succ]; exact h2 j (by omega) ty'
      · rintro ⟨hk, h1, h2⟩
        rcases Nat.eq_zero_or_pos (i - k) with h0 | h0
        · rw [h0] at h1
          simp only [List.getElem?_cons_zero, Option.some.injEq] at h1
          subst h1; exact absurd rfl hnm
        · rw [show i - k = (i - (k + 1)) + 1 by omega, List.getElem?_cons_succ] at h1
          refine ⟨by omega, h1, ?_⟩
          intro j hj ty'
          have := h2 (j + 1) (by omega) ty'
          rwa [List.getElem?_cons_succ] at this

/-- Names of at most one letter. -/
def Short (o : Opts) : Prop := ∀ s ∈ o.specs, s.name.length ≤ 1

theorem find_iff {o : Opts} (ho : Short o) {c : UInt8} (hc : c ≠ 0) (i : Nat) (ty : Ty) :
    find o c = some (i, ty) ↔ Known o.specs c i ty := by
  rw [find, findFrom_iff c hc o.specs ho]
  simp

section
variable {F : Type} (scan : Bytes → Option F)

theorem numeric_iff (s : Bytes) : is_numeric s = true ↔ s = [] ∨ s = [45] ∨ (∃ n, Decimal s n) ∨ ∃ t n, s = 45 :: t ∧ Decimal t n := by
  unfold is_numeric
  split
  · rename_i rest
    constructor
    · intro h
      by_cases h0 : rest = []
      · subst h0; exact .inr (.inl rfl)
      · exact .inr (.inr (.inr ⟨rest, _, rfl, (decimal_iff _ _).mpr ⟨h0, h, rfl⟩⟩))
    · rintro (h | h | ⟨n, h⟩ | ⟨t, n, h, hd⟩)
      · cases h
      · cases h; rfl
      · obtain ⟨c, t, e, hc⟩ := decimal_head h
        cases e; exact absurd rfl hc
      · cases h; exact ((decimal_iff _ _).mp hd).2.1
  · rename_i hne
    constructor
    · intro h
      by_cases h0 : s = []
      · exact .inl h0
      · exact .inr (.inr (.inl ⟨_, (decimal_iff _ _).mpr ⟨h0, h, rfl⟩⟩))
    · rintro (h | h | ⟨n, h⟩ | ⟨t, n, h, hd⟩)
      · subst h; rfl
      · exact absurd h (hne [])
      · exact ((decimal_iff _ _).mp h).2.1
      · exact absurd h (hne t)

theorem scanInt_pos {s : Bytes} {n : Nat} (h : Decimal s n) :
    scanInt s = if n < 2 ^ 31 then .ok (some (n : Int)) else .panic "undefined: sscanf out of range" := by
  obtain ⟨c, t, rfl, hc⟩ := decimal_head h
  obtain ⟨-, -, hn⟩ := (decimal_iff _ _).mp h
  unfold scanInt
  split
  · rename_i heq
    split at heq
    · rename_i e; cases e; exact absurd rfl hc
    · cases heq
      simp only [reduceCtorEq, if_false, hn, Bool.false_eq_true]
      by_cases hlt : n < 2 ^ 31
      · rw [if_pos hlt, if_pos (by omega)]
      · rw [if_neg hlt, if_neg (by omega)]

theorem scanInt_neg {s : Bytes} {n : Nat} (h : Decimal s n) :
    scanInt (45 :: s) = if n ≤ 2 ^ 31 then .ok (some (-(n : Int))) else .panic "undefined: sscanf out of range" := by
  obtain ⟨hne, -, hn⟩ := (decimal_iff _ _).mp h
  show (if s = [] then _ else _) = _
  rw [if_neg hne]
  simp only [if_true, hn]
  by_cases hlt : n ≤ 2 ^ 31
  · rw [if_pos hlt, if_pos (by omega)]
  · rw [if_neg hlt, if_neg (by omega)]

theorem decimal_unique {s : Bytes} {n m : Nat} (h : Decimal s n) (h' : Decimal s m) : n = m :=
  ((decimal_iff _ _).mp h).2.2.symm.trans ((decimal_iff _ _).mp h').2.2

theorem not_decimal_neg {t : Bytes} {n : Nat} : ¬ Decimal (45 :: t) n := by
  intro h
  obtain ⟨c, t', e, hc⟩ := decimal_head h
  cases e; exact hc rfl

/-- What `set_flag` does. -/
inductive SetSpec (ty : Ty) (v : Bytes) : Res String (Val F) → Prop where
  | ok (x : Val F) : Value scan ty v x → (∀ y, Value scan ty v y → y = x) → ¬ TooLarge ty v → SetSpec ty v (.ok x)
  | err (m : String) : (∀ y, ¬ Value scan ty v y) → ¬ TooLarge ty v → SetSpec ty v (.err m)
  | panic (m : String) : (∀ y, ¬ Value scan ty v y) → TooLarge ty v → SetSpec ty v (.panic m)

theorem set_flag_spec (ty : Ty) (v : Bytes) : SetSpec scan ty v (set_flag scan ty v) := by
  cases ty with
  | str => exact .ok _ (.str v) (by rintro y ⟨⟩; rfl) (by rintro ⟨⟩)
  | bool => exact .err _ (by rintro y ⟨⟩) (by rintro ⟨⟩)
  | float =>
    unfold set_flag
    cases h : scan v with
    | none => exact .err _ (by rintro y ⟨⟩; simp_all) (by rintro ⟨⟩)
    | some x => exact .ok _ (.float v x h) (by rintro y ⟨⟩; simp_all) (by rintro ⟨⟩)
  | int =>
    unfold set_flag
    by_cases hn : is_numeric v = true
    · simp only [hn, Bool.not_true, Bool.false_eq_true, if_false]
      rcases (numeric_iff v).mp hn with rfl | rfl | ⟨n, h⟩ | ⟨t, n, rfl, h⟩
      · refine .err _ ?_ ?_
        · rintro y ⟨⟩
          rename_i _ h; exact absurd rfl ((decimal_iff _ _).mp h).1
        · rintro ⟨⟩
          rename_i _ h; exact absurd rfl ((decimal_iff _ _).mp h).1
      · refine .err _ ?_ ?_
        · intro y hy
          cases hy with
          | pos _ _ h => exact not_decimal_neg h
          | neg _ _ h => exact absurd rfl ((decimal_iff _ _).mp h).1
        · intro hy
          cases hy with
          | pos _ _ h => exact not_decimal_neg h
          | neg _ _ h => exact absurd rfl ((decimal_iff _ _).mp h).1
      · rw [scanInt_pos h]
        by_cases hlt : n < 2 ^ 31
        · rw [if_pos hlt]
          refine .ok _ (.pos v n h hlt) ?_ ?_
          · intro y hy
            cases hy with
            | pos _ m h' => rw [decimal_unique h h']
            | neg _ _ h' => exact absurd h not_decimal_neg
          · intro hy
            cases hy with
            | pos _ m h' => have := decimal_unique h h'; omega
            | neg _ _ h' => exact absurd h not_decimal_neg
        · rw [if_neg hlt]
          refine .panic _ ?_ (.pos v n h (by omega))
          intro y hy
          cases hy with
          | pos _ m h' => have := decimal_unique h h'; omega
          | neg _ _ h' => exact absurd h not_decimal_neg
      · rw [scanInt_neg h]
        by_cases hlt : n ≤ 2 ^ 31
        · rw [if_pos hlt]
          refine .ok _ (.neg t n h hlt) ?_ ?_
          · intro y hy
            cases hy with
            | pos _ m h' => exact absurd h' not_decimal_neg
            | neg _ _ h' => rw [decimal_unique h h']
          · intro hy
            cases hy with
            | pos _ m h' => exact absurd h' not_decimal_neg
            | neg _ _ h' => have := decimal_unique h h'; omega
        · rw [if_neg hlt]
          refine .panic _ ?_ (.neg t n h (by omega))
          intro y hy
          cases hy with
          | pos _ m h' => exact absurd h' not_decimal_neg
          | neg _ _ h' => have := decimal_unique h h'; omega
    · simp only [hn, Bool.not_false, if_true]
      refine .err _ ?_ ?_
      · intro y hy
        cases hy with
        | pos _ m h' => exact hn ((numeric_iff v).mpr (.inr (.inr (.inl ⟨m, h'⟩))))
        | neg t m h' => exact hn ((numeric_iff _).mpr (.inr (.inr (.inr ⟨t, m, rfl, h'⟩))))
      · intro hy
        cases hy with
        | pos _ m h' => exact hn ((numeric_iff v).mpr (.inr (.inr (.inl ⟨m, h'⟩))))
        | neg t m h' => exact hn ((numeric_iff _).mpr (.inr (.inr (.inr ⟨t, m, rfl, h'⟩))))
  | size =>
    unfold set_flag
    by_cases hn : is_numeric v = true
    · simp only [hn, Bool.not_true, Bool.false_eq_true, if_false]
      have neg : ∀ t : Bytes, SetSpec scan .size (45 :: t) (.err "Option expects a non-negative value") := by
        intro t
        refine .err _ ?_ ?_
        · intro y hy; cases hy with | size _ _ h => exact not_decimal_neg h
        · intro hy; cases hy with | size _ _ h => exact not_decimal_neg h
      rcases (numeric_iff v).mp hn with rfl | rfl | ⟨n, h⟩ | ⟨t, n, rfl, h⟩
      · refine .err _ ?_ ?_
        · intro y hy; cases hy with | size _ _ h => exact absurd rfl ((decimal_iff _ _).mp h).1
        · intro hy; cases hy with | size _ _ h => exact absurd rfl ((decimal_iff _ _).mp h).1
      · exact neg []
      · obtain ⟨c, t, rfl, hc⟩ := decimal_head h
        obtain ⟨-, -, e⟩ := (decimal_iff _ _).mp h
        rw [if_neg (show first (c :: t) ≠ 45 from hc), scanSize, if_neg (by simp), e]
        by_cases hlt : n < 2 ^ 64
        · rw [if_pos hlt]
          refine .ok _ (.size _ n h hlt) ?_ ?_
          · intro y hy; cases hy with | size _ m h' => rw [decimal_unique h h']
          · intro hy; cases hy with | size _ m h' => have := decimal_unique h h'; omega
        · rw [if_neg hlt]
          refine .panic _ ?_ (.size _ n h (by omega))
          intro y hy; cases hy with | size _ m h' => have := decimal_unique h h'; omega
      · exact neg t
    · simp only [hn, Bool.not_false, if_true]
      refine .err _ ?_ ?_
      · intro y hy; cases hy with | size _ m h' => exact hn ((numeric_iff v).mpr (.inr (.inr (.inl ⟨m, h'⟩))))
      · intro hy; cases hy with | size _ m h' => exact hn ((numeric_iff v).mpr (.inr (.inr (.inl ⟨m, h'⟩))))

/-- Each letter is a flag. -/
def Flags (specs : List Spec) (cs : Bytes) (is : List Nat) : Prop :=
  is.length = cs.length ∧
    ∀ (k : Nat) (c : UInt8) (i : Nat), cs[k]? = some c → is[k]? = some i → Known specs c i .bool

theorem Flags.cons {specs : List Spec} {c : UInt8} {i : Nat} {cs : Bytes} {is : List Nat} :
    Flags specs (c :: cs) (i :: is) ↔ Known specs c i .bool ∧ Flags specs cs is := by
  constructor
  · rintro ⟨h1, h2⟩
    refine ⟨h2 0 c i rfl rfl, by simpa using h1, fun k d j hd hj => h2 (k + 1) d j (by simpa using hd) (by simpa using hj)⟩
  · rintro ⟨h0, h1, h2⟩
    refine ⟨by simp [h1], ?_⟩
    intro k d j hd hj
    cases k with
    | zero =>
      simp only [List.getElem?_cons_zero, Option.some.injEq] at hd hj
      subst hd hj; exact h0
    | succ k => exact h2 k d j (by simpa using hd) (by simpa using hj)

theorem known_unique {o : Opts} (ho : Short o) {c : UInt8} (hc : c ≠ 0) {i j : Nat} {ty ty' : Ty}
    (h : Known o.specs c i ty) (h' : Known o.specs c j ty') : i = j ∧ ty = ty' := by
  have e := (find_iff ho hc i ty).mpr h
  rw [(find_iff ho hc j ty').mpr h'] at e
  simp only [Option.some.injEq, Prod.mk.injEq] at e
  exact ⟨e.1.symm, e.2.symm⟩

theorem boolrun_spec {o : Opts} (ho : Short o) (cs : Bytes) (hcs : (0 : UInt8) ∉ cs) (st : List (Nat × Val F)) :
    (∃ is, Flags o.specs cs is ∧ boolrun o cs st = .ok (st ++ is.map (fun i => (i, Val.true)))) ∨
    ((∀ is, ¬ Flags o.specs cs is) ∧ ∃ m, boolrun o cs st = .err m) := by
  induction cs generalizing st with
  | nil => exact .inl ⟨[], ⟨rfl, by simp⟩, by simp [boolrun]⟩
  | cons c cs ih =>
    have hc : c ≠ 0 := fun h => hcs (by simp [h])
    have hcs' : (0 : UInt8) ∉ cs := fun h => hcs (by simp [h])
    rw [boolrun]
    cases hf : find o c with
    | none =>
      refine .inr ⟨?_, ?_⟩
      · rintro (_ | ⟨i, is⟩) h
        · exact absurd h.1 (by simp)
        · have := (find_iff ho hc i .bool).mpr (Flags.cons.mp h).1
          rw [hf] at this; cases this
      · simp only
        by_cases h : c = 104
        · exact ⟨_, if_pos h⟩
        · exact ⟨_, if_neg h⟩
    | some p =>
      obtain ⟨i, ty⟩ := p
      have hk := (find_iff ho hc i ty).mp hf
      simp only
      by_cases ht : ty = .bool
      · subst ht
        rw [if_neg (by simp)]
        rcases ih hcs' (st ++ [(i, .true)]) with ⟨is, h1, h2⟩ | ⟨h1, m, h2⟩
        · exact .inl ⟨i :: is, Flags.cons.mpr ⟨hk, h1⟩, by rw [h2]; simp⟩
        · refine .inr ⟨?_, m, h2⟩
          rintro (_ | ⟨j, is⟩) h
          · exact absurd h.1 (by simp)
          · exact h1 is (Flags.cons.mp h).2
      · rw [if_pos ht]
        refine .inr ⟨?_, _, rfl⟩
        rintro (_ | ⟨j, is⟩) h
        · exact absurd h.1 (by simp)
        · exact ht (known_unique ho hc hk (Flags.cons.mp h).1).2

theorem flags_unique {o : Opts} (ho : Short o) (cs : Bytes) (hcs : (0 : UInt8) ∉ cs) {is js : List Nat}
    (h : Flags o.specs cs is) (h' : Flags o.specs cs js) : is = js := by
  induction cs generalizing is js with
  | nil =>
    rw [List.length_eq_zero_iff.mp h.1, List.length_eq_zero_iff.mp h'.1]
  | cons c cs ih =>
    cases is with
    | nil => exact absurd h.1 (by simp)
    | cons i is =>
      cases js with
      | nil => exact absurd h'.1 (by simp)
      | cons j js =>
        rw [Flags.cons] at h h'
        rw [(known_unique ho (fun e => hcs (by simp [e])) h.1 h'.1).1, ih (fun e => hcs (by simp [e])) h.2 h'.2]

/-- What the loop does. -/
inductive LoopSpec (specs : List Spec) (args : List Bytes) (st0 : List (Nat × Val F)) :
    Res String (List Bytes × List (Nat × Val F)) → Prop where
  | ok (st : List (Nat × Val F)) (r : List Bytes) : Line scan specs args st r →
      (∀ st' r', Line scan specs args st' r' → st' = st ∧ r' = r) → ¬ Overflow scan specs args →
      LoopSpec specs args st0 (.ok (r, st0 ++ st))
  | err (m : String) : (∀ st r, ¬ Line scan specs args st r) → ¬ Overflow scan specs args → LoopSpec specs args st0 (.err m)
  | panic (m : String) : (∀ st r, ¬ Line scan specs args st r) → Overflow scan specs args → LoopSpec specs args st0 (.panic m)

theorem parseLoop_spec {o : Opts} (ho : Short o) (n : Nat) (args : List Bytes) (h0 : ∀ a ∈ args, (0 : UInt8) ∉ a)
    (hn : args.length < n) (st0 : List (Nat × Val F)) : LoopSpec scan o.specs args st0 (parseLoop scan o n args st0) := by
  induction n generalizing args st0 with
  | zero => omega
  | succ n ih =>
    cases args with
    | nil =>
      show LoopSpec scan o.specs [] st0 (.ok ([], st0))
      have := LoopSpec.ok (scan := scan) (specs := o.specs) (args := []) (st0 := st0) [] [] .none (by rintro _ _ ⟨⟩; exact ⟨rfl, rfl⟩) (by rintro ⟨⟩)
      simpa using this
    | cons arg rest =>
      have hr0 : ∀ a ∈ rest, (0 : UInt8) ∉ a := fun a h => h0 a (by simp [h])
      have ha0 := h0 arg (by simp)
      have hlen : rest.length < n := by simp at hn; omega
      rw [parseLoop]
      by_cases hp : arg = [45] ∨ first arg ≠ 45
      · rw [if_pos hp]
        have hpl : Plain arg := by
          rcases hp with h | h
          · exact .inr h
          · left; intro e; apply h
            cases arg with
            | nil => cases e
            | cons c t => simpa [first] using e
        have no : ∀ cs : Bytes, cs ≠ [] → arg ≠ 45 :: cs := by
          rintro cs hcs rfl
          rcases hpl with h | h
          · exact h rfl
          · simp at h; exact hcs h
        have := LoopSpec.ok (scan := scan) (specs := o.specs) (args := arg :: rest) (st0 := st0) [] (arg :: rest) (.rest arg rest hpl) ?_ ?_
        · simpa using this
        · intro st' r' h
          cases h with
          | rest => exact ⟨rfl, rfl⟩
          | flags cs is as st r hcs => exact absurd rfl (no cs hcs)
          | value => exact absurd rfl (no _ (by simp))
        · intro h
          cases h with
          | here => exact absurd rfl (no _ (by simp))
          | flags cs is as hcs => exact absurd rfl (no cs hcs)
          | value => exact absurd rfl (no _ (by simp))
      · rw [if_neg hp]
        have h45 : ∃ cs, arg = 45 :: cs ∧ cs ≠ [] := by
          cases arg with
          | nil => exact absurd (.inr (by simp [first])) hp
          | cons c t =>
            by_cases hc : c = 45
            · subst hc; exact ⟨t, rfl, fun h => hp (.inl (by rw [h]))⟩
            · exact absurd (.inr (by simpa [first] using hc)) hp
        obtain ⟨cs, rfl, hcs⟩ := h45
        have hnp : ¬ Plain (45 :: cs) := by
          rintro (h | h)
          · exact h rfl
          · simp at h; exact hcs h
        have hcs0 : (0 : UInt8) ∉ cs := fun h => ha0 (by simp [h])
        by_cases hl : (45 :: cs).length > 2
        · rw [if_pos hl]
          have hl1 : ∀ c : UInt8, cs ≠ [c] := by rintro c rfl; simp at hl
          show LoopSpec scan o.specs _ st0 ((boolrun o cs st0).bind _)
          rcases boolrun_spec ho cs hcs0 st0 with ⟨is, h1, h2⟩ | ⟨h1, m, h2⟩
          · rw [h2]
            show LoopSpec scan o.specs _ st0 (parseLoop scan o n rest _)
            have := ih rest hr0 hlen (st0 ++ is.map fun i => (i, Val.true))
            generalize parseLoop scan o n rest _ = res at this
            cases this with
            | ok st r hL hu hno =>
              rw [List.append_assoc]
              refine .ok _ r (.flags cs is rest st r hcs h1.1 h1.2 hL) ?_ ?_
              · intro st' r' h
                cases h with
                | rest _ _ hpl => exact absurd hpl hnp
                | flags _ js _ st2 r2 _ ha hb hL2 =>
                  rw [flags_unique ho cs hcs0 ⟨ha, hb⟩ h1, (hu _ _ hL2).1, (hu _ _ hL2).2]
                  exact ⟨rfl, rfl⟩
                | value c => exact absurd rfl (hl1 c)
              · intro h
                cases h with
                | here c => exact absurd rfl (hl1 c)
                | flags _ _ _ _ _ _ h => exact hno h
                | value c => exact absurd rfl (hl1 c)
            | err m hL hno =>
              refine .err m ?_ ?_
              · intro st' r' h
                cases h with
                | rest _ _ hpl => exact absurd hpl hnp
                | flags _ js _ st2 r2 _ ha hb hL2 => exact hL _ _ hL2
                | value c => exact absurd rfl (hl1 c)
              · intro h
                cases h with
                | here c => exact absurd rfl (hl1 c)
                | flags _ _ _ _ _ _ h => exact hno h
                | value c => exact absurd rfl (hl1 c)
            | panic m hL ho' =>
              refine .panic m ?_ (.flags cs is rest hcs h1.1 h1.2 ho')
              intro st' r' h
              cases h with
              | rest _ _ hpl => exact absurd hpl hnp
              | flags _ js _ st2 r2 _ ha hb hL2 => exact hL _ _ hL2
              | value c => exact absurd rfl (hl1 c)
          · rw [h2]
            refine .err m ?_ ?_
            · intro st' r' h
              cases h with
              | rest _ _ hpl => exact absurd hpl hnp
              | flags _ js _ st2 r2 _ ha hb hL2 => exact h1 js ⟨ha, hb⟩
              | value c => exact absurd rfl (hl1 c)
            · intro h
              cases h with
              | here c => exact absurd rfl (hl1 c)
              | flags _ js _ _ ha hb => exact h1 js ⟨ha, hb⟩
              | value c => exact absurd rfl (hl1 c)
        · rw [if_neg hl]
          obtain ⟨c, rfl⟩ : ∃ c, cs = [c] := by
            match cs, hcs, hl with
            | [c], _, _ => exact ⟨c, rfl⟩
            | _ :: _ :: _, _, hl => simp at hl
          have hc : c ≠ 0 := fun h => hcs0 (by simp [h])
          rw [if_pos (by rfl)]
          show LoopSpec scan o.specs _ st0 ((readarg scan o c rest st0).bind _)
          rw [readarg]
          cases hf : find o c with
          | none =>
            have nk : ∀ i ty, ¬ Known o.specs c i ty := by
              intro i ty h
              rw [(find_iff ho hc i ty).mpr h] at hf; cases hf
            have key : ∀ m, LoopSpec scan o.specs ([45, c] :: rest) st0 (.err m) := by
              intro m
              refine .err m ?_ ?_
              · intro st' r' h
                cases h with
                | rest _ _ hpl => exact absurd hpl hnp
                | flags _ js _ st2 r2 _ ha hb hL2 =>
                  match js, ha with
                  | [j], _ => exact nk _ _ (hb 0 c j rfl rfl)
                | value _ i ty _ _ _ _ _ hk => exact nk _ _ hk
              · intro h
                cases h with
                | here _ i ty _ _ hk => exact nk _ _ hk
                | flags _ js _ _ ha hb =>
                  match js, ha with
                  | [j], _ => exact nk _ _ (hb 0 c j rfl rfl)
                | value _ i ty _ _ _ hk => exact nk _ _ hk
            simp only
            by_cases h : c = 104
            · rw [if_pos h]; exact key _
            · rw [if_neg h]; exact key _
          | some p =>
            obtain ⟨i, ty⟩ := p
            have hk := (find_iff ho hc i ty).mp hf
            simp only
            by_cases ht : ty = .bool
            · subst ht
              rw [if_pos rfl]
              show LoopSpec scan o.specs _ st0 (parseLoop scan o n rest _)
              have hfl : Flags o.specs [c] [i] := Flags.cons.mpr ⟨hk, rfl, by simp⟩
              have nv : ∀ i' ty' v x, Known o.specs c i' ty' → ¬ Value scan ty' v x := by
                intro i' ty' v x h hv
                have := (known_unique ho hc hk h).2
                subst this; cases hv
              have nt : ∀ i' ty' v, Known o.specs c i' ty' → ¬ TooLarge ty' v := by
                intro i' ty' v h hv
                have := (known_unique ho hc hk h).2
                subst this; cases hv
              have := ih rest hr0 hlen (st0 ++ [(i, Val.true)])
              generalize parseLoop scan o n rest _ = res at this
              cases this with
              | ok st r hL hu hno =>
                rw [List.append_assoc]
                refine .ok _ r (.flags [c] [i] rest st r (by simp) hfl.1 hfl.2 hL) ?_ ?_
                · intro st' r' h
                  cases h with
                  | rest _ _ hpl => exact absurd hpl hnp
                  | flags _ js _ st2 r2 _ ha hb hL2 =>
                    rw [flags_unique ho [c] hcs0 ⟨ha, hb⟩ hfl, (hu _ _ hL2).1, (hu _ _ hL2).2]
                    exact ⟨rfl, rfl⟩
                  | value _ i' ty' v x as st2 r2 hk' hv => exact absurd hv (nv _ _ _ _ hk')
                · intro h
                  cases h with
                  | here _ i' ty' v as hk' hv => exact nt _ _ _ hk' hv
                  | flags _ _ _ _ _ _ h => exact hno h
                  | value _ i' ty' v x as hk' hv => exact nv _ _ _ _ hk' hv
              | err m hL hno =>
                refine .err m ?_ ?_
                · intro st' r' h
                  cases h with
                  | rest _ _ hpl => exact absurd hpl hnp
                  | flags _ js _ st2 r2 _ ha hb hL2 => exact hL _ _ hL2
                  | value _ i' ty' v x as st2 r2 hk' hv => exact nv _ _ _ _ hk' hv
                · intro h
                  cases h with
                  | here _ i' ty' v as hk' hv => exact nt _ _ _ hk' hv
                  | flags _ _ _ _ _ _ h => exact hno h
                  | value _ i' ty' v x as hk' hv => exact nv _ _ _ _ hk' hv
              | panic m hL ho' =>
                refine .panic m ?_ (.flags [c] [i] rest (by simp) hfl.1 hfl.2 ho')
                intro st' r' h
                cases h with
                | rest _ _ hpl => exact absurd hpl hnp
                | flags _ js _ st2 r2 _ ha hb hL2 => exact hL _ _ hL2
                | value _ i' ty' v x as st2 r2 hk' hv => exact nv _ _ _ _ hk' hv
            · rw [if_neg ht]
              have nf : ∀ (js : List Nat), ¬ Flags o.specs [c] js := by
                intro js h
                match js, h with
                | [j], h => exact ht (known_unique ho hc hk (Flags.cons.mp h).1).2
                | [], h => exact absurd h.1 (by simp)
                | _ :: _ :: _, h => exact absurd h.1 (by simp)
              cases rest with
              | nil =>
                refine .err _ ?_ ?_
                · intro st' r' h
                  cases h with
                  | rest _ _ hpl => exact absurd hpl hnp
                  | flags _ js _ st2 r2 _ ha hb hL2 => exact nf js ⟨ha, hb⟩
                · intro h
                  cases h with
                  | flags _ js _ _ ha hb => exact nf js ⟨ha, hb⟩
              | cons v rest =>
                simp only
                have hs := set_flag_spec scan ty v
                generalize set_flag scan ty v = sres at hs
                have same : ∀ i' ty', Known o.specs c i' ty' → i' = i ∧ ty' = ty := fun i' ty' h =>
                  ⟨(known_unique ho hc h hk).1, (known_unique ho hc h hk).2⟩
                cases hs with
                | ok x hv hu hnt =>
                  show LoopSpec scan o.specs _ st0 (parseLoop scan o n rest _)
                  have := ih rest (fun a h => hr0 a (by simp [h])) (by simp at hlen; omega) (st0 ++ [(i, x)])
                  generalize parseLoop scan o n rest _ = res at this
                  cases this with
                  | ok st r hL hu2 hno =>
                    rw [List.append_assoc]
                    refine .ok _ r (.value c i ty v x rest st r hk hv hL) ?_ ?_
                    · intro st' r' h
                      cases h with
                      | rest _ _ hpl => exact absurd hpl hnp
                      | flags _ js _ st2 r2 _ ha hb hL2 => exact absurd ⟨ha, hb⟩ (nf js)
                      | value _ i' ty' _ x' _ st2 r2 hk' hv' hL2 =>
                        obtain ⟨rfl, rfl⟩ := same _ _ hk'
                        rw [hu _ hv', (hu2 _ _ hL2).1, (hu2 _ _ hL2).2]
                        exact ⟨rfl, rfl⟩
                    · intro h
                      cases h with
                      | here _ i' ty' _ as hk' hv' =>
                        obtain ⟨rfl, rfl⟩ := same _ _ hk'
                        exact hnt hv'
                      | flags _ js _ _ ha hb => exact nf js ⟨ha, hb⟩
                      | value _ i' ty' _ x as hk' hv' h => exact hno h
                  | err m hL hno =>
                    refine .err m ?_ ?_
                    · intro st' r' h
                      cases h with
                      | rest _ _ hpl => exact absurd hpl hnp
                      | flags _ js _ st2 r2 _ ha hb hL2 => exact nf js ⟨ha, hb⟩
                      | value _ i' ty' _ x' _ st2 r2 hk' hv' hL2 => exact hL _ _ hL2
                    · intro h
                      cases h with
                      | here _ i' ty' _ as hk' hv' =>
                        obtain ⟨rfl, rfl⟩ := same _ _ hk'
                        exact hnt hv'
                      | flags _ js _ _ ha hb => exact nf js ⟨ha, hb⟩
                      | value _ i' ty' _ x as hk' hv' h => exact hno h
                  | panic m hL ho' =>
                    refine .panic m ?_ (.value c i ty v x rest hk hv ho')
                    intro st' r' h
                    cases h with
                    | rest _ _ hpl => exact absurd hpl hnp
                    | flags _ js _ st2 r2 _ ha hb hL2 => exact nf js ⟨ha, hb⟩
                    | value _ i' ty' _ x' _ st2 r2 hk' hv' hL2 => exact hL _ _ hL2
                | err m hnv hnt =>
                  refine .err m ?_ ?_
                  · intro st' r' h
                    cases h with
                    | rest _ _ hpl => exact absurd hpl hnp
                    | flags _ js _ st2 r2 _ ha hb hL2 => exact nf js ⟨ha, hb⟩
                    | value _ i' ty' _ x' _ st2 r2 hk' hv' hL2 =>
                      obtain ⟨rfl, rfl⟩ := same _ _ hk'
                      exact hnv _ hv'
                  · intro h
                    cases h with
                    | here _ i' ty' _ as hk' hv' =>
                      obtain ⟨rfl, rfl⟩ := same _ _ hk'
                      exact hnt hv'
                    | flags _ js _ _ ha hb => exact nf js ⟨ha, hb⟩
                    | value _ i' ty' _ x as hk' hv' h =>
                      obtain ⟨rfl, rfl⟩ := same _ _ hk'
                      exact hnv _ hv'
                | panic m hnv htl =>
                  refine .panic m ?_ (.here c i ty v rest hk htl)
                  intro st' r' h
                  cases h with
                  | rest _ _ hpl => exact absurd hpl hnp
                  | flags _ js _ st2 r2 _ ha hb hL2 => exact nf js ⟨ha, hb⟩
                  | value _ i' ty' _ x' _ st2 r2 hk' hv' hL2 =>
                    obtain ⟨rfl, rfl⟩ := same _ _ hk'
                    exact hnv _ hv'

end

/-- The declarations of a program, in order. -/
def declareAll (nargs : Option (Nat × Bool)) : List (Ty × Bytes) → Opts → Res String Opts
  | [], o => .ok { o with nargs := nargs }
  | (ty, name) :: rest, o => (declare o ty name).bind fun o => declareAll nargs rest o

theorem declareAll_spec (nargs : Option (Nat × Bool)) (ds : List (Ty × Bytes)) (o o' : Opts) (h : declareAll nargs ds o = .ok o')
    (ho : Short o) : Short o' ∧ o'.specs = o.specs ++ ds.map (fun d => ⟨d.1, d.2⟩) ∧ o'.nargs = nargs := by
  induction ds generalizing o with
  | nil => cases h; exact ⟨ho, by simp, rfl⟩
  | cons d ds ih =>
    obtain ⟨ty, name⟩ := d
    rw [declareAll] at h
    obtain ⟨o1, h1, h2⟩ := Res.bind_eq_ok' h
    unfold declare at h1
    split at h1
    · cases h1
    · rename_i hl
      split at h1
      · cases h1
      · cases h1
        have := ih _ h2 (by
          intro s hs
          simp only [List.mem_append, List.mem_singleton] at hs
          rcases hs with hs | rfl
          · exact ho s hs
          · show name.length ≤ 1; omega)
        refine ⟨this.1, ?_, this.2.2⟩
        rw [this.2.1]; simp

theorem checkNargs_spec (o : Opts) (k : Nat) : (checkNargs o k = .ok () ∧ ∀ n b, o.nargs = some (n, b) → k = n) ∨
    ((∃ m, checkNargs o k = .err m) ∧ ∃ n b, o.nargs = some (n, b) ∧ k ≠ n) := by
  unfold checkNargs
  cases h : o.nargs with
  | none => exact .inl ⟨rfl, by simp⟩
  | some p =>
    obtain ⟨n, b⟩ := p
    simp only
    by_cases hk : k = n
    · subst hk
      rw [if_neg (by omega), if_neg (by simp)]
      exact .inl ⟨rfl, by rintro _ _ ⟨⟩; rfl⟩
    · refine .inr ⟨?_, n, b, rfl, hk⟩
      by_cases h1 : n = 0 ∧ k > 0
      · exact ⟨_, if_pos h1⟩
      · rw [if_neg h1, if_pos hk]
        cases b with
        | true => exact ⟨_, rfl⟩
        | false =>
          by_cases h2 : n = 1
          · exact ⟨_, by rw [if_pos h2]; rfl⟩
          · exact ⟨_, by rw [if_neg h2]; rfl⟩

theorem stored_last {F : Type} (i : Nat) (st : List (Nat × Val F)) (acc : Option (Val F)) :
    st.foldl (fun acc p => if p.1 = i then some p.2 else acc) acc =
      match (st.filter (fun p => p.1 = i)).getLast? with
      | some p => some p.2
      | none => acc := by
  induction st generalizing acc with
  | nil => rfl
  | cons p st ih =>
    rw [List.foldl_cons, ih]
    by_cases h : p.1 = i
    · simp only [h, if_true, List.filter_cons, decide_true]
      cases hl : (st.filter (fun p => p.1 = i)) with
      | nil => simp
      | cons q t => simp [List.getLast?_cons]
    · simp [h]
end Che.Lib.Opt
