import Verif.Spec.Prog.WispReader
import Verif.Proofs.Prog.WispMem

/-!
`eater.c` of `prog/wisp` as functions on the characters that are to come.
-/
namespace Che.Prog.Wisp
open Che Che.Lib Che.Spec.Wisp

private theorem bind_ok {ε α β : Type} (a : α) (f : α → Res ε β) : ((Res.ok a : Res ε α) >>= f) = f a := rfl

/-- The positions are inside of the arrays. -/
structure Fits (e : Eater) : Prop where
  back : e.back.length < e.readbuflen
  buf : e.buf.length ≤ e.buflen
  buflen : 0 < e.buflen

theorem init_fits (src : Src) : Fits (Eater.init src) := ⟨by show (0 : Nat) < 8; decide, by show (0 : Nat) ≤ 1024; decide, by show (0 : Nat) < 1024; decide⟩

theorem getc_eq (e : Eater) : (getc e).1 = (inp e).headD (-1) ∧ inp (getc e).2 = (inp e).tail ∧ (getc e).2.buf = e.buf ∧ (getc e).2.buflen = e.buflen ∧
    (Fits e → Fits (getc e).2) := by
  obtain ⟨src, buf, buflen, back, rbl⟩ := e
  cases back with
  | cons c back =>
    refine ⟨rfl, rfl, rfl, rfl, fun h => ⟨?_, h.buf, h.buflen⟩⟩
    have := h.back
    simp only [List.length_cons, getc] at this ⊢
    omega
  | nil =>
    cases src with
    | str r =>
      cases r with
      | nil => exact ⟨rfl, rfl, rfl, rfl, id⟩
      | cons b r => exact ⟨rfl, rfl, rfl, rfl, fun h => ⟨h.back, h.buf, h.buflen⟩⟩
    | file r =>
      cases r with
      | nil => exact ⟨rfl, rfl, rfl, rfl, id⟩
      | cons b r => exact ⟨rfl, rfl, rfl, rfl, fun h => ⟨h.back, h.buf, h.buflen⟩⟩

theorem getc_cons {e : Eater} (hf : Fits e) {c : Int} {t : List Int} (h : inp e = c :: t) : ∃ e', getc e = (c, e') ∧ inp e' = t ∧ e'.buf = e.buf ∧ Fits e' := by
  obtain ⟨h1, h2, h3, _, h5⟩ := getc_eq e
  rw [h] at h1 h2
  exact ⟨(getc e).2, by rw [← show (getc e).1 = c from h1], h2, h3, h5 hf⟩

theorem getc_nil {e : Eater} (hf : Fits e) (h : inp e = []) : ∃ e', getc e = (-1, e') ∧ inp e' = [] ∧ e'.buf = e.buf ∧ Fits e' := by
  obtain ⟨h1, h2, h3, _, h5⟩ := getc_eq e
  rw [h] at h1 h2
  exact ⟨(getc e).2, by rw [← show (getc e).1 = -1 from h1], h2, h3, h5 hf⟩

theorem putc_ok {e : Eater} (hf : Fits e) (c : Int) : ∃ e', putc e c = .ok e' ∧ inp e' = c :: inp e ∧ e'.buf = e.buf ∧ Fits e' := by
  have hb := hf.back
  unfold putc
  by_cases h : e.back.length + 1 = e.readbuflen
  · simp only [if_pos h]
    rw [if_pos (by omega)]
    exact ⟨_, rfl, rfl, rfl, ⟨by simp; omega, hf.buf, hf.buflen⟩⟩
  · simp only [if_neg h]
    rw [if_pos (by omega)]
    exact ⟨_, rfl, rfl, rfl, ⟨by simp; omega, hf.buf, hf.buflen⟩⟩

theorem buf_append_ok {e : Eater} (hf : Fits e) (c : Int) : ∃ e', buf_append e c = .ok e' ∧ inp e' = inp e ∧ e'.buf = e.buf ++ [toByte c] ∧ Fits e' := by
  have hb := hf.buf
  have hp := hf.buflen
  unfold buf_append
  by_cases h : e.buf.length = e.buflen
  · simp only [if_pos h]
    rw [if_pos (by omega)]
    exact ⟨_, rfl, rfl, rfl, ⟨hf.back, by simp; omega, by simp; omega⟩⟩
  · simp only [if_neg h]
    rw [if_pos (by omega)]
    exact ⟨_, rfl, rfl, rfl, ⟨hf.back, by simp; omega, hp⟩⟩

theorem left_eq (e : Eater) : e.left = (inp e).length + 2 := by
  unfold Eater.left inp
  rcases e with ⟨src, _, _, back, _⟩
  cases src <;> simp

theorem clearBuf_fits {e : Eater} (hf : Fits e) : Fits { e with buf := [] } := ⟨hf.back, Nat.zero_le _, hf.buflen⟩

/-! ### White space and lines -/

theorem skipLoop_ok : ∀ (k : Nat) (e : Eater) (c : Int), Fits e → (inp e).length + 1 < k → ∃ e' c', skipLoop k e c = .ok (e', c') ∧ e'.buf = e.buf ∧ Fits e' ∧
    (if c' = 10 then inp e' else c' :: inp e') = afterWs (c :: inp e) := by
  intro k
  induction k with
  | zero => intro e c _ h; omega
  | succ k ih =>
    intro e c hf hk
    unfold skipLoop afterWs
    by_cases h : strchr (cstr " \t\r") c = true
    · rw [if_pos h, List.dropWhile_cons_of_pos h]
      cases hi : inp e with
      | nil =>
        obtain ⟨e1, g1, i1, b1, f1⟩ := getc_nil hf hi
        rw [g1]
        simp only
        cases k with
        | zero => omega
        | succ k =>
          unfold skipLoop
          rw [if_neg (by decide)]
          exact ⟨e1, -1, rfl, b1, f1, by rw [i1]; rfl⟩
      | cons d t =>
        obtain ⟨e1, g1, i1, b1, f1⟩ := getc_cons hf hi
        rw [g1]
        simp only
        obtain ⟨e2, c2, h2, b2, f2, m2⟩ := ih e1 d f1 (by rw [hi] at hk; rw [i1]; simp at hk; omega)
        refine ⟨e2, c2, h2, b2.trans b1, f2, ?_⟩
        rw [i1] at m2
        exact m2
    · rw [if_neg h, List.dropWhile_cons_of_neg h]
      exact ⟨e, c, rfl, rfl, hf, rfl⟩

theorem consume_whitespace_ok {e : Eater} (hf : Fits e) : ∃ e', consume_whitespace e = .ok e' ∧ inp e' = afterWs (inp e) ∧ e'.buf = e.buf ∧ Fits e' := by
  unfold consume_whitespace
  rw [left_eq]
  obtain ⟨e1, c1, g1, i1, l1, b1, f1⟩ : ∃ e1 c1, getc e = (c1, e1) ∧ afterWs (c1 :: inp e1) = afterWs (inp e) ∧ (inp e1).length ≤ (inp e).length ∧ e1.buf = e.buf ∧ Fits e1 := by
    cases hi : inp e with
    | nil =>
      obtain ⟨e1, g1, i1, b1, f1⟩ := getc_nil hf hi
      exact ⟨e1, -1, g1, by rw [i1]; rfl, by rw [i1]; simp, b1, f1⟩
    | cons c t =>
      obtain ⟨e1, g1, i1, b1, f1⟩ := getc_cons hf hi
      exact ⟨e1, c, g1, by rw [i1], by rw [i1]; simp, b1, f1⟩
  rw [g1]
  simp only
  obtain ⟨e2, c2, h2, b2, f2, m2⟩ := skipLoop_ok ((inp e).length + 2) e1 c1 f1 (by omega)
  rw [h2, bind_ok]
  simp only
  rw [i1] at m2
  by_cases hc : c2 = 10
  · rw [if_neg (fun x => x hc)]
    rw [if_pos hc] at m2
    exact ⟨e2, rfl, m2, b2.trans b1, f2⟩
  · rw [if_pos hc]
    rw [if_neg hc] at m2
    obtain ⟨e3, h3, i3, b3, f3⟩ := putc_ok f2 c2
    exact ⟨e3, h3, by rw [i3, m2], b3.trans (b2.trans b1), f3⟩

/-- The rest of the line is dropped, also its end; at the end of the input, `EOF` is put back. -/
def afterLine (l : List Int) : List Int :=
  match l.dropWhile (fun c => c ≠ 10 ∧ c ≠ -1) with
  | [] => [-1]
  | c :: t => if c = 10 then t else c :: t

theorem lineLoop_ok : ∀ (k : Nat) (e : Eater) (c : Int), Fits e → (inp e).length + 1 < k → ∃ e' c', lineLoop k e c = .ok (e', c') ∧ e'.buf = e.buf ∧ Fits e' ∧
    (if c' = 10 then inp e' else c' :: inp e') = afterLine (c :: inp e) := by
  intro k
  induction k with
  | zero => intro e c _ h; omega
  | succ k ih =>
    intro e c hf hk
    unfold lineLoop afterLine
    by_cases h : c ≠ 10 ∧ c ≠ -1
    · rw [if_pos h, List.dropWhile_cons_of_pos (by simpa using h)]
      cases hi : inp e with
      | nil =>
        obtain ⟨e1, g1, i1, b1, f1⟩ := getc_nil hf hi
        rw [g1]
        simp only
        cases k with
        | zero => omega
        | succ k =>
          unfold lineLoop
          rw [if_neg (by decide)]
          exact ⟨e1, -1, rfl, b1, f1, by rw [i1]; rfl⟩
      | cons d t =>
        obtain ⟨e1, g1, i1, b1, f1⟩ := getc_cons hf hi
        rw [g1]
        simp only
        obtain ⟨e2, c2, h2, b2, f2, m2⟩ := ih e1 d f1 (by rw [hi] at hk; rw [i1]; simp at hk; omega)
        refine ⟨e2, c2, h2, b2.trans b1, f2, ?_⟩
        rw [i1] at m2
        exact m2
    · rw [if_neg h, List.dropWhile_cons_of_neg (by simpa using h)]
      exact ⟨e, c, rfl, rfl, hf, rfl⟩

theorem consume_line_ok {e : Eater} (hf : Fits e) : ∃ e', consume_line e = .ok e' ∧ inp e' = afterLine (inp e) ∧ e'.buf = e.buf ∧ Fits e' := by
  unfold consume_line
  rw [left_eq]
  obtain ⟨e1, c1, g1, i1, l1, b1, f1⟩ : ∃ e1 c1, getc e = (c1, e1) ∧ afterLine (c1 :: inp e1) = afterLine (inp e) ∧ (inp e1).length ≤ (inp e).length ∧ e1.buf = e.buf ∧ Fits e1 := by
    cases hi : inp e with
    | nil =>
      obtain ⟨e1, g1, i1, b1, f1⟩ := getc_nil hf hi
      exact ⟨e1, -1, g1, by rw [i1]; rfl, by rw [i1]; simp, b1, f1⟩
    | cons c t =>
      obtain ⟨e1, g1, i1, b1, f1⟩ := getc_cons hf hi
      exact ⟨e1, c, g1, by rw [i1], by rw [i1]; simp, b1, f1⟩
  rw [g1]
  simp only
  obtain ⟨e2, c2, h2, b2, f2, m2⟩ := lineLoop_ok ((inp e).length + 2) e1 c1 f1 (by omega)
  rw [h2, bind_ok]
  simp only
  rw [i1] at m2
  by_cases hc : c2 = 10
  · rw [if_neg (fun x => x hc)]
    rw [if_pos hc] at m2
    exact ⟨e2, rfl, m2, b2.trans b1, f2⟩
  · rw [if_pos hc]
    rw [if_neg hc] at m2
    obtain ⟨e3, h3, i3, b3, f3⟩ := putc_ok f2 c2
    exact ⟨e3, h3, by rw [i3, m2], b3.trans (b2.trans b1), f3⟩

/-! ### Reading into the buffer -/

/-- What `buf_read` takes, and what it leaves. -/
def readTo (halt : Bytes) : List Int → Bytes × List Int
  | [] => ([], [-1])
  | [c] => if c = 92 then ([], [-1]) else if strchr halt c = true ∨ c = -1 then ([], [c]) else ([toByte c], [-1])
  | c :: d :: t =>
    if c = 92 then
      if d = -1 then ([], d :: t) else (toByte d :: (readTo halt t).1, (readTo halt t).2)
    else if strchr halt c = true ∨ c = -1 then ([], c :: d :: t)
    else (toByte c :: (readTo halt (d :: t)).1, (readTo halt (d :: t)).2)

theorem readTo_cons (halt : Bytes) (c : Int) (t : List Int) (h : c ≠ 92) :
    readTo halt (c :: t) = if strchr halt c = true ∨ c = -1 then ([], c :: t) else (toByte c :: (readTo halt t).1, (readTo halt t).2) := by
  cases t with
  | nil => simp only [readTo, if_neg h]
  | cons d t => simp only [readTo, if_neg h]

theorem readLoop_ok (halt : Bytes) : ∀ (k : Nat) (e : Eater), Fits e → (inp e).length < k →
    ∃ e' c', readLoop halt k (getesc e).2.2 (getesc e).1 (getesc e).2.1 = .ok (e', c') ∧ c' :: inp e' = (readTo halt (inp e)).2 ∧ e'.buf = e.buf ++ (readTo halt (inp e)).1 ∧ Fits e' := by
  intro k
  induction k with
  | zero => intro e _ h; omega
  | succ k ih =>
    intro e hf hk
    have go : ∀ (e1 : Eater) (c : Int) (esc : Bool) (t : List Int), (esc = true ∨ strchr halt c = false) → c ≠ -1 → Fits e1 → inp e1 = t → e1.buf = e.buf → t.length < k →
        ∃ e' c', readLoop halt (k + 1) e1 c esc = .ok (e', c') ∧ c' :: inp e' = (readTo halt t).2 ∧ e'.buf = e.buf ++ toByte c :: (readTo halt t).1 ∧ Fits e' := by
      intro e1 c esc t h1 h2 f1 i1 b1 l1
      unfold readLoop
      rw [if_pos ⟨h1, h2⟩]
      obtain ⟨e2, a2, i2, b2, f2⟩ := buf_append_ok f1 c
      rw [a2, bind_ok]
      obtain ⟨e3, c3, h3, i3, b3, f3⟩ := ih e2 f2 (by rw [i2, i1]; exact l1)
      rw [i2, i1] at i3 b3
      refine ⟨e3, c3, h3, i3, ?_, f3⟩
      rw [b3, b2, b1]
      simp
    have stop : ∀ (e1 : Eater) (c : Int) (esc : Bool), ¬ ((esc = true ∨ strchr halt c = false) ∧ c ≠ -1) → readLoop halt (k + 1) e1 c esc = .ok (e1, c) := by
      intro e1 c esc h
      unfold readLoop
      rw [if_neg h]
    cases hi : inp e with
    | nil =>
      obtain ⟨e1, g1, i1, b1, f1⟩ := getc_nil hf hi
      have : getesc e = (-1, false, e1) := by unfold getesc; rw [g1]; rfl
      rw [this]
      refine ⟨e1, -1, stop _ _ _ (fun x => x.2 rfl), ?_, ?_, f1⟩
      · rw [i1]; rfl
      · rw [b1]; simp [readTo]
    | cons c t =>
      obtain ⟨e1, g1, i1, b1, f1⟩ := getc_cons hf hi
      by_cases hc : c = 92
      · subst hc
        cases t with
        | nil =>
          obtain ⟨e2, g2, i2, b2, f2⟩ := getc_nil f1 i1
          have : getesc e = (-1, true, e2) := by unfold getesc; rw [g1]; simp [g2]
          rw [this]
          refine ⟨e2, -1, stop _ _ _ (fun x => x.2 rfl), ?_, ?_, f2⟩
          · rw [i2]; rfl
          · rw [b2, b1]; simp [readTo]
        | cons d t =>
          obtain ⟨e2, g2, i2, b2, f2⟩ := getc_cons f1 i1
          have : getesc e = (d, true, e2) := by unfold getesc; rw [g1]; simp [g2]
          rw [this]
          by_cases hd : d = -1
          · refine ⟨e2, d, stop _ _ _ (fun x => x.2 hd), ?_, ?_, f2⟩
            · rw [i2]; simp [readTo, hd]
            · rw [b2, b1]; simp [readTo, hd]
          · obtain ⟨e3, c3, h3, i3, b3, f3⟩ := go e2 d true t (.inl rfl) hd f2 i2 (b2.trans b1) (by rw [hi] at hk; simp at hk; omega)
            refine ⟨e3, c3, h3, ?_, ?_, f3⟩
            · rw [i3]; simp [readTo, hd]
            · rw [b3]; simp [readTo, hd]
      · have : getesc e = (c, false, e1) := by unfold getesc; rw [g1]; simp [hc]
        rw [this, readTo_cons halt c t hc]
        by_cases hs : strchr halt c = true ∨ c = -1
        · rw [if_pos hs]
          refine ⟨e1, c, stop _ _ _ ?_, by rw [i1], by rw [b1]; simp, f1⟩
          rintro ⟨x | x, y⟩
          · cases x
          · rcases hs with z | z
            · rw [x] at z; cases z
            · exact y z
        · rw [if_neg hs]
          have h1 : strchr halt c = false := by
            cases e : strchr halt c
            · rfl
            · exact absurd (Or.inl e) hs
          exact go e1 c false t (.inr h1) (fun x => hs (.inr x)) f1 i1 b1 (by rw [hi] at hk; simp at hk; omega)

theorem buf_read_ok {e : Eater} (hf : Fits e) (halt : Bytes) :
    ∃ e', buf_read e halt = .ok e' ∧ inp e' = (readTo halt (inp e)).2 ∧ e'.buf = e.buf ++ (readTo halt (inp e)).1 ∧ Fits e' := by
  obtain ⟨e1, c1, h1, i1, b1, f1⟩ := readLoop_ok halt ((inp e).length + 2) e hf (by omega)
  obtain ⟨e2, h2, i2, b2, f2⟩ := putc_ok f1 c1
  unfold buf_read
  rw [left_eq]
  simp only
  rw [h1, bind_ok]
  exact ⟨e2, h2, i2.trans i1, b2.trans b1, f2⟩

/-! ### Characters and bytes -/

theorem spells_cons {cs : List Int} {b : UInt8} {bs : Bytes} (h : Spells cs (b :: bs)) : ∃ c t, cs = c :: t ∧ toByte c = b ∧ c ≠ -1 ∧ -128 ≤ c ∧ c ≤ 255 ∧ Spells t bs := by
  obtain ⟨h1, h2⟩ := h
  cases cs with
  | nil => cases h1
  | cons c t =>
    simp only [List.map_cons, List.cons.injEq] at h1
    obtain ⟨a, b, c'⟩ := h2 c (by simp)
    exact ⟨c, t, rfl, h1.1, a, b, c', h1.2, fun x hx => h2 x (by simp [hx])⟩

theorem spells_nil {cs : List Int} (h : Spells cs []) : cs = [] := by simpa using h.1

theorem spells_append {cs : List Int} {a b : Bytes} (h : Spells cs (a ++ b)) : ∃ x y, cs = x ++ y ∧ Spells x a ∧ Spells y b := by
  obtain ⟨h1, h2⟩ := h
  obtain ⟨x, y, rfl, hx, hy⟩ := List.map_eq_append_iff.mp h1
  exact ⟨x, y, rfl, ⟨hx, fun c hc => h2 c (by simp [hc])⟩, ⟨hy, fun c hc => h2 c (by simp [hc])⟩⟩

theorem toByte_toNat (c : Int) : ((toByte c).toNat : Int) = c % 256 := by
  unfold toByte
  have h1 := Int.emod_nonneg c (show (256 : Int) ≠ 0 by decide)
  have h2 := Int.emod_lt_of_pos c (show (0 : Int) < 256 by decide)
  rw [UInt8.toNat_ofNat_of_lt' (by show (c % 256).toNat < 2 ^ 8; omega)]
  omega

theorem ascii {c : Int} {b : UInt8} (h : toByte c = b) (h1 : -128 ≤ c) (h2 : c ≤ 255) (hb : b.toNat < 128) : c = b.toNat := by
  have := toByte_toNat c
  rw [h] at this
  omega

theorem spells_lit {cs : List Int} {b : UInt8} {bs : Bytes} (h : Spells cs (b :: bs)) (hb : b.toNat < 128) : ∃ t, cs = (b.toNat : Int) :: t ∧ Spells t bs := by
  obtain ⟨c, t, e, h1, _, h3, h4, h5⟩ := spells_cons h
  exact ⟨t, by rw [e, ascii h1 h3 h4 hb], h5⟩

theorem spells_file (bs : Bytes) : Spells (bs.map fun b => (b.toNat : Int)) bs := by
  refine ⟨?_, ?_⟩
  · rw [List.map_map]
    have : ∀ b : UInt8, toByte (b.toNat : Int) = b := by
      intro b
      have h := toByte_toNat (b.toNat : Int)
      have hb := b.toNat_lt
      rw [Int.emod_eq_of_lt (by omega) (by omega)] at h
      exact UInt8.toNat_inj.mp (by omega)
    rw [show (toByte ∘ fun b : UInt8 => (b.toNat : Int)) = id from funext this]
    simp
  · intro c hc
    obtain ⟨b, _, rfl⟩ := List.mem_map.mp hc
    have hb := b.toNat_lt
    omega

theorem toChar_range (b : UInt8) : -128 ≤ toChar b ∧ toChar b ≤ 127 ∧ (toChar b = -1 ↔ b = 255) ∧ toByte (toChar b) = b := by
  have hb := b.toNat_lt
  unfold toChar
  by_cases h : b < 128
  · rw [if_pos h]
    have hlt : b.toNat < 128 := UInt8.lt_iff_toNat_lt.mp h
    refine ⟨by omega, by omega, ⟨fun e => by omega, fun e => by subst e; exact absurd hlt (by decide)⟩, ?_⟩
    have h := toByte_toNat (b.toNat : Int)
    exact UInt8.toNat_inj.mp (by omega)
  · rw [if_neg h]
    have hge : ¬ b.toNat < 128 := fun x => h (UInt8.lt_iff_toNat_lt.mpr x)
    refine ⟨by omega, by omega, ⟨fun e => UInt8.toNat_inj.mp (by show b.toNat = 255; omega), fun e => by subst e; rfl⟩, ?_⟩
    have h := toByte_toNat ((b.toNat : Int) - 256)
    exact UInt8.toNat_inj.mp (by omega)

theorem spells_str (bs : Bytes) (h : (255 : UInt8) ∉ bs) : Spells (bs.map toChar) bs := by
  refine ⟨?_, ?_⟩
  · rw [List.map_map, show (toByte ∘ toChar) = id from funext fun b => (toChar_range b).2.2.2]
    simp
  · intro c hc
    obtain ⟨b, hb, rfl⟩ := List.mem_map.mp hc
    obtain ⟨h1, h2, h3, _⟩ := toChar_range b
    refine ⟨fun e => h (h3.mp e ▸ hb), h1, by omega⟩

/-- A text in quotes is read back. -/
theorem readTo_quoted (raw : Bytes) : ∀ (cs rest : List Int), (0 : UInt8) ∉ raw → Spells cs (escape raw) → readTo (cstr "\"") (cs ++ 34 :: rest) = (raw, 34 :: rest) := by
  induction raw with
  | nil =>
    intro cs rest _ h
    rw [spells_nil h]
    show readTo _ (34 :: rest) = _
    rw [readTo_cons _ _ _ (by decide), if_pos (by decide)]
  | cons b raw ih =>
    intro cs rest hz h
    have hb : b ≠ 0 := fun e => hz (by simp [e])
    have hz' : (0 : UInt8) ∉ raw := fun e => hz (by simp [e])
    have he : escape (b :: raw) = (if b = 92 ∨ b = 34 then [92, b] else [b]) ++ escape raw := rfl
    rw [he] at h
    by_cases hs : b = 92 ∨ b = 34
    · rw [if_pos hs] at h
      obtain ⟨t, rfl, h'⟩ := spells_lit h (by decide)
      clear h
      have h := h'
      clear h'
      obtain ⟨d, u, rfl, hd, hd1, _, _, h⟩ := spells_cons h
      show readTo _ (92 :: d :: (u ++ 34 :: rest)) = _
      simp only [readTo, if_true]
      rw [if_neg hd1, ih u rest hz' h, hd]
    · rw [if_neg hs] at h
      obtain ⟨c, u, rfl, hc, hc1, h3, h4, h⟩ := spells_cons h
      show readTo _ (c :: (u ++ 34 :: rest)) = _
      have h92 : c ≠ 92 := fun e => hs (.inl (by rw [← hc, e]; rfl))
      rw [readTo_cons _ _ _ h92, if_neg, ih u rest hz' h, hc]
      rintro (e | e)
      · have e' : toByte c = 0 ∨ toByte c ∈ cstr "\"" := by simpa [strchr] using e
        rw [hc] at e'
        rcases e' with e' | e'
        · exact hb e'
        · have : b = 34 := by simpa [cstr] using e'
          exact hs (.inr this)
      · exact hc1 e

end Che.Prog.Wisp
