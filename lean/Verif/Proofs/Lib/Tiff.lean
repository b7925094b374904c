import Verif.Spec.Lib.Tiff

namespace Che.Lib.Tiff
open Che.Lib Che.Spec.Tiff

theorem bind_iff {α β : Type} {x : Res String α} {g : α → Res String β} {y : β} : x.bind g = .ok y ↔ ∃ a, x = .ok a ∧ g a = .ok y := by
  cases x with
  | ok a => exact ⟨fun h => ⟨a, rfl, h⟩, fun ⟨b, h1, h2⟩ => by cases h1; exact h2⟩
  | err => exact ⟨fun h => (by cases h), fun ⟨b, h1, _⟩ => by cases h1⟩
  | panic => exact ⟨fun h => (by cases h), fun ⟨b, h1, _⟩ => by cases h1⟩
  | diverge => exact ⟨fun h => (by cases h), fun ⟨b, h1, _⟩ => by cases h1⟩

theorem byte_lt (c : UInt8) : c.toNat < 256 := c.toNat_lt

/-- Bytes at a place. -/
def Has (data : Bytes) (pos : Nat) (bs : Bytes) : Prop := ∃ a c, data = a ++ bs ++ c ∧ a.length = pos

theorem has_cons {data : Bytes} {pos : Nat} {x : UInt8} {bs : Bytes} : Has data pos (x :: bs) ↔ data[pos]? = some x ∧ Has data (pos + 1) bs := by
  constructor
  · rintro ⟨a, c, rfl, rfl⟩
    exact ⟨by simp, a ++ [x], c, by simp, by simp⟩
  · rintro ⟨h, a, c, e, hl⟩
    rcases List.eq_nil_or_concat a with rfl | ⟨a', y, rfl⟩
    · simp at hl
    · rw [List.concat_eq_append] at e hl
      simp only [List.length_append, List.length_singleton, Nat.add_right_cancel_iff] at hl
      subst hl e
      simp at h
      subst h
      exact ⟨a', c, by simp, rfl⟩

theorem has_nil {data : Bytes} {pos : Nat} : Has data pos [] ↔ pos ≤ data.length := by
  constructor
  · rintro ⟨a, c, rfl, rfl⟩; simp
  · intro h
    exact ⟨data.take pos, data.drop pos, by simp, by rw [List.length_take]; omega⟩

theorem bigLoop_iff : ∀ (n k : Nat) (f f' : F) (val v : Nat), val < 256 ^ k → k + n ≤ 4 → f.pos ≤ f.data.length →
    (bigLoop n f val = .ok (f', v) ↔ f' = { f with pos := f.pos + n } ∧ ∃ bs : Bytes, bs.length = n ∧ Has f.data f.pos bs ∧ bs.foldl (fun v c => 256 * v + c.toNat) val = v)
  | 0, k, f, f', val, v, _, _, hp => by
    rw [bigLoop]
    constructor
    · intro h; cases h; exact ⟨rfl, [], rfl, has_nil.mpr hp, rfl⟩
    · rintro ⟨rfl, bs, h1, _, h2⟩
      cases List.length_eq_zero_iff.mp h1
      rw [← h2]; rfl
  | n + 1, k, f, f', val, v, hv, hk, hp => by
    rw [bigLoop]
    cases hx : f.data[f.pos]? with
    | none =>
      refine ⟨fun h => (by cases h), fun ⟨_, bs, h1, h2, _⟩ => ?_⟩
      obtain ⟨x, bs, rfl⟩ : ∃ x b, bs = x :: b := by
        cases bs with
        | nil => simp at h1
        | cons x b => exact ⟨x, b, rfl⟩
      rw [(has_cons.mp h2).1] at hx; cases hx
    | some x =>
      have hlt : f.pos < f.data.length := by
        cases Nat.lt_or_ge f.pos f.data.length with
        | inl h => exact h
        | inr h => rw [List.getElem?_eq_none h] at hx; cases hx
      have hx' := byte_lt x
      have b1 : val * 256 + x.toNat < 256 ^ (k + 1) := by rw [Nat.pow_succ]; omega
      have b2 : 256 ^ (k + 1) ≤ 2 ^ 32 := Nat.le_trans (Nat.pow_le_pow_right (by decide) (show k + 1 ≤ 4 by omega)) (by decide)
      have e : (val * 256 + x.toNat) % 2 ^ 32 = 256 * val + x.toNat := by rw [Nat.mod_eq_of_lt (by omega)]; omega
      simp only
      rw [e, bigLoop_iff n (k + 1) _ f' _ v (by omega) (by omega) (show f.pos + 1 ≤ f.data.length by omega)]
      constructor
      · rintro ⟨rfl, bs, h1, h2, h3⟩
        exact ⟨by simp only [F.mk.injEq, true_and, and_true]; omega, x :: bs, by simp [h1], has_cons.mpr ⟨hx, h2⟩, h3⟩
      · rintro ⟨rfl, bs, h1, h2, h3⟩
        obtain ⟨y, bs, rfl⟩ : ∃ x b, bs = x :: b := by
          cases bs with
          | nil => simp at h1
          | cons x b => exact ⟨x, b, rfl⟩
        obtain ⟨h4, h5⟩ := has_cons.mp h2
        rw [hx] at h4; cases h4
        exact ⟨by simp only [F.mk.injEq, true_and, and_true]; omega, bs, by simpa using h1, h5, h3⟩

theorem littleLoop_iff : ∀ (n k : Nat) (f f' : F) (val v scale : Nat), val < 256 ^ k → k + n ≤ 4 → (0 < n → scale = 256 ^ k) → f.pos ≤ f.data.length →
    (littleLoop n f val scale = .ok (f', v) ↔ f' = { f with pos := f.pos + n } ∧ ∃ bs : Bytes, bs.length = n ∧ Has f.data f.pos bs ∧ val + 256 ^ k * bs.foldr (fun c v => c.toNat + 256 * v) 0 = v)
  | 0, k, f, f', val, v, scale, _, _, _, hp => by
    rw [littleLoop]
    constructor
    · intro h; cases h; exact ⟨rfl, [], rfl, has_nil.mpr hp, by simp⟩
    · rintro ⟨rfl, bs, h1, _, h2⟩
      cases List.length_eq_zero_iff.mp h1
      rw [← h2]; simp
  | n + 1, k, f, f', val, v, scale, hv, hk, hs, hp => by
    rw [littleLoop]
    have hs := hs (by omega)
    subst hs
    cases hx : f.data[f.pos]? with
    | none =>
      refine ⟨fun h => (by cases h), fun ⟨_, bs, h1, h2, _⟩ => ?_⟩
      obtain ⟨x, bs, rfl⟩ : ∃ x b, bs = x :: b := by
        cases bs with
        | nil => simp at h1
        | cons x b => exact ⟨x, b, rfl⟩
      rw [(has_cons.mp h2).1] at hx; cases hx
    | some x =>
      have hlt : f.pos < f.data.length := by
        cases Nat.lt_or_ge f.pos f.data.length with
        | inl h => exact h
        | inr h => rw [List.getElem?_eq_none h] at hx; cases hx
      have hx' := byte_lt x
      have b1 : val + x.toNat * 256 ^ k < 256 ^ (k + 1) := by
        have : x.toNat * 256 ^ k ≤ 255 * 256 ^ k := Nat.mul_le_mul_right _ (by omega)
        rw [Nat.pow_succ]; omega
      have b2 : 256 ^ (k + 1) ≤ 2 ^ 32 := Nat.le_trans (Nat.pow_le_pow_right (by decide) (show k + 1 ≤ 4 by omega)) (by decide)
      have e : (val + x.toNat * 256 ^ k) % 2 ^ 32 = val + x.toNat * 256 ^ k := Nat.mod_eq_of_lt (by omega)
      have es : 0 < n → 256 ^ k * 256 % 2 ^ 32 = 256 ^ (k + 1) := by
        intro hn
        rw [← Nat.pow_succ]
        have : 256 ^ (k + 1) ≤ 256 ^ 3 := Nat.pow_le_pow_right (by decide) (by omega)
        have : (256 : Nat) ^ 3 < 2 ^ 32 := by decide
        exact Nat.mod_eq_of_lt (by omega)
      have key : ∀ w : Nat, val + x.toNat * 256 ^ k + 256 ^ (k + 1) * w = val + 256 ^ k * (x.toNat + 256 * w) := by
        intro w
        rw [Nat.pow_succ, Nat.mul_add, Nat.mul_comm x.toNat, Nat.mul_assoc, Nat.add_assoc]
      simp only
      rw [e, littleLoop_iff n (k + 1) _ f' _ v _ b1 (by omega) es (show f.pos + 1 ≤ f.data.length by omega)]
      constructor
      · rintro ⟨rfl, bs, h1, h2, h3⟩
        refine ⟨by simp only [F.mk.injEq, true_and, and_true]; omega, x :: bs, by simp [h1], has_cons.mpr ⟨hx, h2⟩, ?_⟩
        rw [← h3, key]; rfl
      · rintro ⟨rfl, bs, h1, h2, h3⟩
        obtain ⟨y, bs, rfl⟩ : ∃ x b, bs = x :: b := by
          cases bs with
          | nil => simp at h1
          | cons x b => exact ⟨x, b, rfl⟩
        obtain ⟨h4, h5⟩ := has_cons.mp h2
        rw [hx] at h4; cases h4
        refine ⟨by simp only [F.mk.injEq, true_and, and_true]; omega, bs, by simpa using h1, h5, ?_⟩
        rw [← h3, key]; rfl

theorem past_end (n : Nat) (f : F) (h : f.data.length < f.pos) : readbytes f (n + 1) = .panic "undefined: read past the end of the data" := by
  unfold readbytes
  have : f.data[f.pos]? = none := List.getElem?_eq_none (by omega)
  split
  · rw [bigLoop, this]
  · rw [littleLoop, this]

/-- Reading a number of up to four bytes. -/
theorem readbytes_iff (f f' : F) (n v : Nat) (hn : n < 4) : readbytes f (n + 1) = .ok (f', v) ↔ f' = { f with pos := f.pos + (n + 1) } ∧ At f.data f.big f.pos (n + 1) v := by
  have at_iff : At f.data f.big f.pos (n + 1) v ↔ ∃ bs : Bytes, bs.length = n + 1 ∧ Has f.data f.pos bs ∧ number f.big bs = v := by
    constructor
    · rintro ⟨a, bs, c, h1, h2, h3, h4⟩; exact ⟨bs, h3, ⟨a, c, h1, h2⟩, h4⟩
    · rintro ⟨bs, h3, ⟨a, c, h1, h2⟩, h4⟩; exact ⟨a, bs, c, h1, h2, h3, h4⟩
  rw [at_iff]
  by_cases hp : f.pos ≤ f.data.length
  · unfold readbytes
    cases hb : f.big with
    | true =>
      rw [if_pos rfl, bigLoop_iff (n + 1) 0 f f' 0 v (by decide) (by omega) hp, hb]
      rfl
    | false =>
      rw [if_neg (by decide), littleLoop_iff (n + 1) 0 f f' 0 v 1 (by decide) (by omega) (fun _ => rfl) hp, hb]
      simp only [Nat.pow_zero, Nat.one_mul, Nat.zero_add]
      rfl
  · rw [past_end n f (by omega)]
    refine ⟨fun h => (by cases h), fun ⟨_, bs, h1, ⟨a, c, h2, h3⟩, _⟩ => ?_⟩
    rw [h2] at hp; simp at hp; omega

theorem entries_iff : ∀ (n : Nat) (f f' : F) (es : List Entry), entries n f = .ok (f', es) ↔
    es.length = n ∧ f' = { f with pos := f.pos + 12 * n } ∧ ∀ i e, es[i]? = some e → EntryAt f.data f.big (f.pos + 12 * i) e
  | 0, f, f', es => by
    rw [entries]
    constructor
    · intro h; cases h; exact ⟨rfl, rfl, by simp⟩
    · rintro ⟨h1, rfl, _⟩
      cases List.length_eq_zero_iff.mp h1
      rfl
  | n + 1, f, f', es => by
    rw [entries]
    constructor
    · intro h
      obtain ⟨⟨f1, tag⟩, h1, h⟩ := bind_iff.mp h
      obtain ⟨rfl, a1⟩ := (readbytes_iff _ _ 1 _ (by decide)).mp h1
      obtain ⟨⟨f2, type⟩, h2, h⟩ := bind_iff.mp h
      obtain ⟨rfl, a2⟩ := (readbytes_iff _ _ 1 _ (by decide)).mp h2
      obtain ⟨⟨f3, count⟩, h3, h⟩ := bind_iff.mp h
      obtain ⟨rfl, a3⟩ := (readbytes_iff _ _ 3 _ (by decide)).mp h3
      obtain ⟨⟨f4, value⟩, h4, h⟩ := bind_iff.mp h
      obtain ⟨rfl, a4⟩ := (readbytes_iff _ _ 3 _ (by decide)).mp h4
      obtain ⟨⟨f5, es'⟩, h5, h⟩ := bind_iff.mp h
      obtain ⟨l5, rfl, a5⟩ := (entries_iff n _ _ _).mp h5
      cases h
      refine ⟨by simp [l5], by simp only [F.mk.injEq, true_and, and_true]; omega, fun i e he => ?_⟩
      cases i with
      | zero => cases he; exact ⟨a1, a2, a3, a4⟩
      | succ i =>
        have := a5 i e he
        simp only at this
        rwa [show f.pos + (1 + 1) + (1 + 1) + (3 + 1) + (3 + 1) + 12 * i = f.pos + 12 * (i + 1) by omega] at this
    · rintro ⟨h1, rfl, h2⟩
      obtain ⟨⟨tag, type, count, value⟩, es', rfl⟩ : ∃ e es', es = e :: es' := by
        cases es with
        | nil => simp at h1
        | cons e es' => exact ⟨e, es', rfl⟩
      obtain ⟨a1, a2, a3, a4⟩ := h2 0 _ rfl
      refine bind_iff.mpr ⟨_, (readbytes_iff _ _ 1 tag (by decide)).mpr ⟨rfl, a1⟩, bind_iff.mpr ⟨_, (readbytes_iff _ _ 1 type (by decide)).mpr ⟨rfl, a2⟩,
        bind_iff.mpr ⟨_, (readbytes_iff _ _ 3 count (by decide)).mpr ⟨rfl, a3⟩, bind_iff.mpr ⟨_, (readbytes_iff _ _ 3 value (by decide)).mpr ⟨rfl, a4⟩,
        bind_iff.mpr ⟨({ f with pos := f.pos + 12 * (n + 1) }, es'), (entries_iff n _ _ _).mpr ⟨by simpa using h1, ?_, fun i e he => ?_⟩, rfl⟩⟩⟩⟩⟩
      · simp only [F.mk.injEq, true_and, and_true]; omega
      · have := h2 (i + 1) e he
        simp only
        rwa [show f.pos + (1 + 1) + (1 + 1) + (3 + 1) + (3 + 1) + 12 * i = f.pos + 12 * (i + 1) by omega]

theorem read_dir_iff (f f' : F) (es : List Entry) : read_dir f = .ok (f', es) ↔
    f' = { f with pos := f.pos + 2 + 12 * es.length } ∧ At f.data f.big f.pos 2 es.length ∧ ∀ i e, es[i]? = some e → EntryAt f.data f.big (f.pos + 2 + 12 * i) e := by
  unfold read_dir
  constructor
  · intro h
    obtain ⟨⟨f1, n⟩, h1, h⟩ := bind_iff.mp h
    obtain ⟨rfl, a1⟩ := (readbytes_iff _ _ 1 _ (by decide)).mp h1
    obtain ⟨rfl, rfl, a2⟩ := (entries_iff _ _ _ _).mp h
    exact ⟨rfl, a1, a2⟩
  · rintro ⟨rfl, h1, h2⟩
    exact bind_iff.mpr ⟨_, (readbytes_iff _ _ 1 _ (by decide)).mpr ⟨rfl, h1⟩, (entries_iff _ _ _ _).mpr ⟨rfl, rfl, h2⟩⟩

theorem dirLoop_sound : ∀ (k : Nat) (f : F) (ds : List (List Entry)), dirLoop k f = .ok ds → Dirs f.data f.big f.pos ds
  | 0, _, _, h => by cases h
  | k + 1, f, ds, h => by
    rw [dirLoop] at h
    obtain ⟨⟨f1, p⟩, h1, h⟩ := bind_iff.mp h
    obtain ⟨rfl, a1⟩ := (readbytes_iff _ _ 3 _ (by decide)).mp h1
    simp only at h
    split at h
    · next hp => cases h; subst hp; exact .nil _ a1
    · next hp =>
      obtain ⟨⟨f2, d⟩, h2, h⟩ := bind_iff.mp h
      obtain ⟨rfl, a2, a3⟩ := (read_dir_iff _ _ _).mp h2
      obtain ⟨ds', h3, h⟩ := bind_iff.mp h
      cases h
      exact .cons _ p d ds' a1 hp a2 a3 (dirLoop_sound k _ ds' h3)

theorem dirLoop_complete {data : Bytes} {big : Bool} {pos : Nat} {ds : List (List Entry)} (h : Dirs data big pos ds) : ∀ k, ds.length < k → dirLoop k { data, pos, big } = .ok ds := by
  induction h with
  | nil pos h =>
    intro k hk
    obtain ⟨k, rfl⟩ : ∃ j, k = j + 1 := ⟨k - 1, by omega⟩
    rw [dirLoop]
    exact bind_iff.mpr ⟨_, (readbytes_iff _ _ 3 _ (by decide)).mpr ⟨rfl, h⟩, rfl⟩
  | cons pos p es ds h1 h2 h3 h4 _ ih =>
    intro k hk
    obtain ⟨k, rfl⟩ : ∃ j, k = j + 1 := ⟨k - 1, by omega⟩
    rw [dirLoop]
    refine bind_iff.mpr ⟨_, (readbytes_iff _ _ 3 _ (by decide)).mpr ⟨rfl, h1⟩, ?_⟩
    simp only
    rw [if_neg h2]
    exact bind_iff.mpr ⟨_, (read_dir_iff _ _ _).mpr ⟨rfl, h3, h4⟩, bind_iff.mpr ⟨_, ih k (by simp at hk; omega), rfl⟩⟩

theorem mark_iff (data : Bytes) (x : UInt8) : At data false 0 2 (257 * x.toNat) ∧ (257 * x.toNat = 0x4949 ∨ 257 * x.toNat = 0x4D4D) → [x, x] <+: data := by
  rintro ⟨⟨a, bs, c, rfl, h1, h2, h3⟩, hx⟩
  cases List.length_eq_zero_iff.mp h1
  obtain ⟨y, z, rfl⟩ : ∃ y z, bs = [y, z] := by
    match bs, h2 with
    | [y, z], _ => exact ⟨y, z, rfl⟩
  have h3 : y.toNat + 256 * (z.toNat + 256 * 0) = 257 * x.toNat := h3
  have hy := byte_lt y
  have hz := byte_lt z
  have e1 : y = x := UInt8.toNat_inj.mp (by omega)
  have e2 : z = x := UInt8.toNat_inj.mp (by omega)
  subst e1 e2
  exact ⟨c, by simp⟩

theorem mark_at (data : Bytes) (x : UInt8) (h : [x, x] <+: data) : At data false 0 2 (257 * x.toNat) := by
  obtain ⟨c, rfl⟩ := h
  exact ⟨[], [x, x], c, by simp, rfl, rfl, by show x.toNat + 256 * (x.toNat + 256 * 0) = _; omega⟩

theorem parse_sound (k : Nat) (data : Bytes) (ds : List (List Entry)) (h : parse k data = .ok ds) : ∃ big, Tiff data big ds := by
  unfold parse at h
  obtain ⟨⟨f1, m⟩, h1, h⟩ := bind_iff.mp h
  obtain ⟨rfl, a1⟩ := (readbytes_iff _ _ 1 _ (by decide)).mp h1
  have rest : ∀ big, parseRest k { data, pos := 0 + (1 + 1), big } = .ok ds → At data big 2 2 42 ∧ Dirs data big 4 ds := by
    intro big h
    unfold parseRest at h
    obtain ⟨⟨f2, x⟩, h2, h⟩ := bind_iff.mp h
    obtain ⟨rfl, a2⟩ := (readbytes_iff _ _ 1 _ (by decide)).mp h2
    simp only at h
    split at h
    · cases h
    · next hx =>
      simp only [ne_eq, Decidable.not_not] at hx
      subst hx
      exact ⟨a2, dirLoop_sound k _ ds h⟩
  simp only at h
  split at h
  · next hm => subst hm; exact ⟨false, mark_iff data 73 ⟨a1, .inl rfl⟩, rest false h⟩
  · split at h
    · next hm => subst hm; exact ⟨true, mark_iff data 77 ⟨a1, .inr rfl⟩, rest true h⟩
    · cases h

theorem parse_complete {data : Bytes} {big : Bool} {ds : List (List Entry)} (h : Tiff data big ds) (k : Nat) (hk : ds.length < k) : parse k data = .ok ds := by
  obtain ⟨h1, h2, h3⟩ := h
  have rest : parseRest k { data, pos := 0 + (1 + 1), big } = .ok ds := by
    unfold parseRest
    refine bind_iff.mpr ⟨_, (readbytes_iff _ _ 1 _ (by decide)).mpr ⟨rfl, h2⟩, ?_⟩
    simp only
    rw [if_neg (by simp)]
    exact dirLoop_complete h3 k hk
  unfold parse
  cases big with
  | false => exact bind_iff.mpr ⟨_, (readbytes_iff _ _ 1 _ (by decide)).mpr ⟨rfl, mark_at data 73 h1⟩, rest⟩
  | true => exact bind_iff.mpr ⟨_, (readbytes_iff _ _ 1 _ (by decide)).mpr ⟨rfl, mark_at data 77 h1⟩, rest⟩

theorem copyLoop_iff : ∀ (n : Nat) (f : F) (buf s : Bytes), f.pos ≤ f.data.length → (copyLoop n f buf = .ok s ↔ ∃ bs : Bytes, bs.length = n ∧ Has f.data f.pos bs ∧ s = buf ++ bs)
  | 0, f, buf, s, hp => by
    rw [copyLoop]
    constructor
    · intro h; cases h; exact ⟨[], rfl, has_nil.mpr hp, by simp⟩
    · rintro ⟨bs, h1, _, rfl⟩
      cases List.length_eq_zero_iff.mp h1
      simp
  | n + 1, f, buf, s, hp => by
    rw [copyLoop]
    cases hx : f.data[f.pos]? with
    | none =>
      refine ⟨fun h => (by cases h), fun ⟨bs, h1, h2, _⟩ => ?_⟩
      obtain ⟨x, bs, rfl⟩ : ∃ x b, bs = x :: b := by
        cases bs with
        | nil => simp at h1
        | cons x b => exact ⟨x, b, rfl⟩
      rw [(has_cons.mp h2).1] at hx; cases hx
    | some x =>
      have hlt : f.pos < f.data.length := by
        cases Nat.lt_or_ge f.pos f.data.length with
        | inl h => exact h
        | inr h => rw [List.getElem?_eq_none h] at hx; cases hx
      simp only
      rw [copyLoop_iff n _ _ s (show f.pos + 1 ≤ f.data.length by omega)]
      constructor
      · rintro ⟨bs, h1, h2, rfl⟩
        exact ⟨x :: bs, by simp [h1], has_cons.mpr ⟨hx, h2⟩, by simp⟩
      · rintro ⟨bs, h1, h2, rfl⟩
        obtain ⟨y, bs, rfl⟩ : ∃ x b, bs = x :: b := by
          cases bs with
          | nil => simp at h1
          | cons x b => exact ⟨x, b, rfl⟩
        obtain ⟨h4, h5⟩ := has_cons.mp h2
        rw [hx] at h4; cases h4
        exact ⟨bs, by simpa using h1, h5, by simp⟩

end Che.Lib.Tiff
