import Verif.Proofs.Lib.Time

/-!
C98: durations.  C99: ISO times.
-/
namespace Che.Props
open Che.Lib Che.Spec.Opt Che.Spec.Time Che.Lib.Time

/-! ## C98 -/

/-- C98: "mm:ss" is the minutes and the seconds with two digits each, the minutes with more if
they need more. -/
theorem C98_mmss (us : Nat) (h : us < 2 ^ 31 * 60000000) : ∃ a b, durText us .mmss = .ok (a ++ [58] ++ b) ∧
    Field 2 a (us / 60000000) ∧ Field 2 b (us / 1000000 % 60) := by
  refine ⟨fmtInt 2 (us / 60000000 : Nat), fmtInt 2 (us / 1000000 % 60 : Nat), ?_, fmtInt_field 2 _, fmtInt_field 2 _⟩
  have hs := sdur_nat us (by omega)
  unfold durText
  simp only [hs]
  generalize hd : Sdur.mk _ _ _ _ _ = pp
  have hm := minutes_nat us h
  rw [hd] at hm
  rw [hm]
  subst hd
  simp only [Res.bind]

/-- C98: "mm:ss.ms" has three digits of milliseconds as well. -/
theorem C98_mmssms (us : Nat) (h : us < 2 ^ 31 * 60000000) : ∃ a b c, durText us .mmssms = .ok (a ++ [58] ++ b ++ [46] ++ c) ∧
    Field 2 a (us / 60000000) ∧ Field 2 b (us / 1000000 % 60) ∧ Field 3 c (us / 1000 % 1000) := by
  refine ⟨fmtInt 2 (us / 60000000 : Nat), fmtInt 2 (us / 1000000 % 60 : Nat), fmtInt 3 (us / 1000 % 1000 : Nat), ?_,
    fmtInt_field 2 _, fmtInt_field 2 _, fmtInt_field 3 _⟩
  have hs := sdur_nat us (by omega)
  unfold durText
  simp only [hs]
  generalize hd : Sdur.mk _ _ _ _ _ = pp
  have hm := minutes_nat us h
  rw [hd] at hm
  rw [hm]
  subst hd
  simp only [Res.bind]

/-- C98: "hh:mm:ss,ms" is the hours, the minutes and the seconds, with two digits each, and the
milliseconds, which are not filled up to three digits. -/
theorem C98_hhmmssms_partial (us : Nat) (h : us < 2 ^ 31 * 3600000000) : ∃ a b c d,
    durText us .hhmmssms = .ok (a ++ [58] ++ b ++ [58] ++ c ++ [44] ++ d) ∧ Field 2 a (us / 3600000000) ∧
    Field 2 b (us / 60000000 % 60) ∧ Field 2 c (us / 1000000 % 60) ∧ Field 1 d (us / 1000 % 1000) := by
  refine ⟨fmtInt 2 (us / 3600000000 : Nat), fmtInt 2 (us / 60000000 % 60 : Nat), fmtInt 2 (us / 1000000 % 60 : Nat),
    fmtInt 0 (us / 1000 % 1000 : Nat), ?_, fmtInt_field 2 _, fmtInt_field 2 _, fmtInt_field 2 _, fmtInt_field 0 _⟩
  unfold durText
  simp only [sdur_nat us h]

/-- C98 is false of "hh:mm:ss,ms": five milliseconds and half a second look alike to a reader
of decimal fractions. -/
theorem C98_counterexample_ms : durText 1005000 .hhmmssms = .ok [48, 48, 58, 48, 48, 58, 48, 49, 44, 53] ∧
    durText 1500000 .hhmmssms = .ok [48, 48, 58, 48, 48, 58, 48, 49, 44, 53, 48, 48] := by decide +kernel

/-- C98: "h:mm:ss.mmm" leaves the hours out if there are none. -/
theorem C98_hmmssmmm (us : Nat) (h : us < 2 ^ 31 * 3600000000) : ∃ a b c d, durText us .hmmssmmm =
    .ok ((if 3600000000 ≤ us then a ++ [58] else []) ++ b ++ [58] ++ c ++ [46] ++ d) ∧ Field 1 a (us / 3600000000) ∧
    Field (if 3600000000 ≤ us then 2 else 1) b (us / 60000000 % 60) ∧ Field 2 c (us / 1000000 % 60) ∧
    Field 3 d (us / 1000 % 1000) := by
  by_cases hh : 3600000000 ≤ us
  · refine ⟨fmtInt 0 (us / 3600000000 : Nat), fmtInt 2 (us / 60000000 % 60 : Nat), fmtInt 2 (us / 1000000 % 60 : Nat),
      fmtInt 3 (us / 1000 % 1000 : Nat), ?_, fmtInt_field 0 _, ?_, fmtInt_field 2 _, fmtInt_field 3 _⟩
    · unfold durText
      simp only [sdur_nat us h, if_pos hh]
      rw [if_pos (by have : 0 < us / 3600000000 := Nat.div_pos hh (by omega); omega)]
    · rw [if_pos hh]; exact fmtInt_field 2 _
  · refine ⟨fmtInt 0 (us / 3600000000 : Nat), fmtInt 0 (us / 60000000 % 60 : Nat), fmtInt 2 (us / 1000000 % 60 : Nat),
      fmtInt 3 (us / 1000 % 1000 : Nat), ?_, fmtInt_field 0 _, ?_, fmtInt_field 2 _, fmtInt_field 3 _⟩
    · unfold durText
      simp only [sdur_nat us h, if_neg hh]
      rw [if_neg (by have : us / 3600000000 = 0 := Nat.div_eq_of_lt (by omega); omega)]
      simp
    · rw [if_neg hh]; exact fmtInt_field 0 _

/-- C98: the digits of a number are given by its width. -/
theorem C98_unambiguous (w n : Nat) (a b : Bytes) (ha : Field w a n) (hb : Field w b n) : a = b := field_unique ha hb

/-- C98: the buffer has the whole text when the result is true and a part of it otherwise. -/
theorem C98_fits (us : Int) (size : Nat) (f : Fmt) (t : Bytes) (h : durText us f = .ok t) :
    ∃ out ok, dur_fmt us size f = .ok (out, ok) ∧ (ok = true ↔ t.length < size) ∧ out.length ≤ size - 1 ∧ out <+: t ∧
      (ok = true → out = t) := by
  refine ⟨cut size t, decide (t.length + 1 ≤ size), ?_, by rw [decide_eq_true_eq]; omega, ?_, List.take_prefix _ _, ?_⟩
  · unfold dur_fmt; rw [h]; rfl
  · unfold cut; rw [List.length_take]; omega
  · intro hd
    rw [decide_eq_true_eq] at hd
    exact List.take_of_length_le (by omega)

/-- C98: what is read as a duration is minutes, a colon and seconds, up to 2147 seconds
altogether, and what is after that, if it starts with a dot, is a fraction. -/
theorem C98_parse_partial (s : Bytes) (us : Int) : parse_duration s = .ok us ↔
    ∃ m sec rest, Clock s m sec rest ∧ m * 60 + sec ≤ 2147 ∧ us = (m * 60 + sec : Nat) * 1000000 + (micros rest : Int) := by
  constructor
  · exact parse_inv
  · rintro ⟨m, sec, rest, h, hr, rfl⟩
    exact parse_clock h hr

/-- C98: nothing is a fraction without a dot. -/
theorem C98_nofraction (rest : Bytes) (h : rest.head? ≠ some 46) : micros rest = 0 := by
  unfold micros
  split
  · simp at h
  · rfl

/-- C98: fractions of up to three digits are exact. -/
theorem C98_fraction_partial (ds rest : Bytes) (n : Nat) (hd : Num ds n) (hl : ds.length ≤ 3) (hs : Stops rest) :
    micros (46 :: ds ++ rest) * 10 ^ ds.length = n * 1000000 := by
  obtain ⟨h1, h2⟩ := (num_iff ds n).mp hd
  rw [micros_dot ds rest h1 hs, List.take_of_length_le (by omega), h2]
  have hlt := val_lt 0 ds h1
  rw [h2] at hlt
  match hlen : ds.length, hl with
  | 0, _ => rw [hlen] at hlt; have : n = 0 := by omega
            subst this; decide
  | 1, _ => rw [hlen] at hlt; rw [show 10 ^ 1 = 10 from rfl, fraction_milli1 n (by omega)]; omega
  | 2, _ => rw [hlen] at hlt; rw [show 10 ^ 2 = 100 from rfl, fraction_milli2 n (by omega)]; omega
  | 3, _ => rw [hlen] at hlt; rw [show 10 ^ 3 = 1000 from rfl, fraction_milli3 n (by omega)]; omega

/-- C98: of a fraction seven digits are read, and the microseconds are less than it by one at
most. -/
theorem C98_fraction (ds rest : Bytes) (n : Nat) (hd : ds.all isdigit = true) (hs : Stops rest) (hn : Num (ds.take 7) n) :
    micros (46 :: ds ++ rest) * 10 ^ (ds.take 7).length ≤ n * 1000000 ∧
    n * 1000000 ≤ (micros (46 :: ds ++ rest) + 1) * 10 ^ (ds.take 7).length := by
  obtain ⟨h1, h2⟩ := (num_iff _ n).mp hn
  rw [micros_dot ds rest hd hs, h2]
  have hlt := val_lt 0 _ h1
  rw [h2] at hlt
  have hp : 10 ^ (ds.take 7).length ≤ 10 ^ 7 := Nat.pow_le_pow_right (by omega) (by rw [List.length_take]; omega)
  have := fraction_bound n (10 ^ (ds.take 7).length) (by omega) hp
  rw [Nat.mul_comm n]
  exact this

/-- C98: what "mm:ss.ms" prints is read back, to the millisecond, up to 35:47.999. -/
theorem C98_round_trip_partial (us : Nat) (h : us < 2148000000) : ∃ t, durText us .mmssms = .ok t ∧
    parse_duration t = .ok ((us / 1000 * 1000 : Nat) : Int) := by
  obtain ⟨a, b, c, ht, ha, hb, hc⟩ := C98_mmssms us (by omega)
  refine ⟨_, ht, ?_⟩
  have hc7 : c.length = 3 := by
    rcases Nat.lt_or_ge 3 c.length with hlt | hge
    · have hne := hc.2.2 hlt
      obtain ⟨c0, c1, c2⟩ := (Opt.decimal_iff _ _).mp hc.1
      cases c with
      | nil => simp at hlt
      | cons x t =>
        have := lead_val x t (by simpa [isdigit_eq] using c1) (by simpa using hne)
        rw [val_number, c2] at this
        have hp : 10 ^ 3 ≤ 10 ^ t.length := Nat.pow_le_pow_right (by omega) (by simp at hlt; omega)
        omega
    · have := hc.2.1; omega
  have hck : Clock (a ++ [58] ++ b ++ (46 :: c)) (us / 60000000) (us / 1000000 % 60) (46 :: c) :=
    .mk a b (46 :: c) _ _ ha.1 (.inr hb.1) (stops_cons (by decide)) (by simp)
  have hm := C98_fraction_partial c [] _ (field_num hc) (by omega) (by intro x hx; cases hx)
  rw [hc7, List.append_nil] at hm
  have := parse_clock hck (by omega)
  rw [show a ++ [58] ++ b ++ [46] ++ c = a ++ [58] ++ b ++ (46 :: c) by simp, this]
  have hm' : micros (46 :: c) * 1000 = us / 1000 % 1000 * 1000000 := hm
  generalize micros (46 :: c) = k at hm' ⊢
  exact congrArg Res.ok (clock_nat us k hm')

/-- C98 is false of longer durations: 35:48 is more than an `int` of microseconds holds. -/
theorem C98_counterexample_long : parse_duration [51, 53, 58, 52, 56] = .panic "undefined: int overflow" ∧
    parse_duration [51, 53, 58, 52, 55] = .ok 2147000000 := by decide +kernel

/-- C98 is false of hours: "1:02:03" is not read. -/
theorem C98_counterexample_hours (a b rest : Bytes) (h m : Nat) (ha : Decimal a h) (hb : Num b m)
    (us : Int) : parse_duration (a ++ [58] ++ b ++ [58] ++ rest) ≠ .ok us := by
  intro hp
  obtain ⟨m', s', rest', hck, _, _⟩ := parse_inv hp
  exact clock_no_hours ha hb hck

/-- C98 is false of some fractions: a microsecond is lost. -/
theorem C98_counterexample_fraction : parse_duration [48, 58, 48, 48, 46, 48, 49, 53, 55] = .ok 15699 := by decide +kernel

/-- C98: texts that are no durations are taken as durations. -/
theorem C98_counterexample_tail : parse_duration [49, 58, 50, 97, 98, 99] = .ok 62000000 ∧
    parse_duration [51, 58] = .ok 180000000 ∧ parse_duration [48, 58, 57, 57] = .ok 99000000 := by decide +kernel

example : ∃ a b, durText (125 * 60000000 + 7000000) .mmss = .ok (a ++ [58] ++ b) ∧ a = [49, 50, 53] ∧ b = [48, 55] :=
  ⟨[49, 50, 53], [48, 55], by decide +kernel, rfl, rfl⟩

/-! ## C99 -/

/-- C99: what is printed of a time in UTC is read back. -/
theorem C99_round_trip (v : Iso) (hr : InRange v)
    (h : 0 ≤ v.Y ∧ 0 ≤ v.M ∧ 0 ≤ v.D ∧ 0 ≤ v.h ∧ 0 ≤ v.m ∧ 0 ≤ v.s ∧ 0 ≤ v.ms) (hz : v.zh = 0 ∧ v.zm = 0) :
    parse_iso (isoText v) = .ok v := by
  have h1 := isoText_text v h
  rw [show { v with zh := 0, zm := 0 } = v by cases v; simp at hz; simp [hz]] at h1
  exact parse_iso_text h1 hr

/-- C99: times are read as they are written: numbers, then "Z" or a zone east of Greenwich.  All
other texts are refused by a panic. -/
theorem C99_parse_partial (p : Bytes) (v : Iso) : parse_iso p = .ok v ↔ IsoText p v ∧ InRange v :=
  ⟨parse_iso_inv, fun ⟨h, hr⟩ => parse_iso_text h hr⟩

theorem C99_refused (p : Bytes) : (∃ v, parse_iso p = .ok v) ∨ ∃ m, parse_iso p = .panic m := parse_iso_total p

/-- C99 is false of zones when a time is printed: they are left out. -/
theorem C99_counterexample_zone (v : Iso) (zh zm : Int) : isoText { v with zh := zh, zm := zm } = isoText v := rfl

/-- C99 is false of zones west of Greenwich: no text is read that has one. -/
theorem C99_counterexample_west : parse_iso [50, 48, 50, 52, 45, 48, 49, 45, 48, 50, 84, 48, 51, 58, 48, 52, 58, 48, 53, 45, 48, 54, 58, 48, 48] =
    .panic "trailing input" := by decide +kernel

/-- C99 is false of fractions of a second: half a second is read as five milliseconds. -/
theorem C99_counterexample_fraction : parse_iso [50, 48, 50, 52, 45, 49, 45, 50, 84, 51, 58, 52, 58, 53, 46, 53, 90] =
    .ok ⟨2024, 1, 2, 3, 4, 5, 5, 0, 0⟩ := by decide +kernel

/-- C99 is false of texts without numbers: they are taken as times. -/
theorem C99_counterexample_empty : parse_iso [45, 45, 84, 58, 58, 90] = .ok ⟨0, 0, 0, 0, 0, 0, 0, 0, 0⟩ := by decide +kernel

/-- C99: the buffer has the text, or a part of it; the result is true all the same. -/
theorem C99_format (v : Iso) (size : Nat) : (fmt_iso_iso v size).1 <+: isoText v ∧
    ((isoText v).length < size → (fmt_iso_iso v size).1 = isoText v) :=
  ⟨List.take_prefix _ _, fun h => List.take_of_length_le (by omega)⟩

theorem C99_counterexample_cut : fmt_iso_iso ⟨2024, 1, 2, 3, 4, 5, 0, 0, 0⟩ 5 = ([50, 48, 50, 52], true) := by decide +kernel

/-- C99: the local time is as many minutes later as the zone says; minutes over 60 are turned
into hours. -/
theorem C99_local_partial (v : Iso) (tz : Int) (hz : v.zh = 0 ∧ v.zm = 0) : ∃ w, iso_tolocal v tz = .ok w ∧
    60 * w.h + w.m = 60 * v.h + v.m + tz ∧ w.m ≤ 60 ∧ (0 < v.m + tz → 0 < w.m) ∧
    w = { v with h := w.h, m := w.m } := by
  have := localLoop_spec (v.m + tz).natAbs v.h (v.m + tz) (by omega)
  obtain ⟨h1, h2, _, h4⟩ := this
  refine ⟨{ v with h := (localLoop (v.m + tz).natAbs v.h (v.m + tz)).1, m := (localLoop (v.m + tz).natAbs v.h (v.m + tz)).2 }, ?_,
    ?_, h2, h4, rfl⟩
  · unfold iso_tolocal
    rw [if_neg (by simp [hz])]
  · simp only; omega

/-- C99 is false of whole hours: there are sixty minutes then.  Hours of the next day, and
minutes before the hour in zones west, are left as they are. -/
theorem C99_counterexample_local : iso_tolocal ⟨2024, 1, 2, 11, 30, 0, 0, 0, 0⟩ 90 = .ok ⟨2024, 1, 2, 12, 60, 0, 0, 0, 0⟩ ∧
    iso_tolocal ⟨2024, 1, 2, 23, 30, 0, 0, 0, 0⟩ 60 = .ok ⟨2024, 1, 2, 24, 30, 0, 0, 0, 0⟩ ∧
    iso_tolocal ⟨2024, 1, 2, 11, 30, 0, 0, 0, 0⟩ (-60) = .ok ⟨2024, 1, 2, 11, -30, 0, 0, 0, 0⟩ := by decide +kernel

example : isoText ⟨2024, 1, 2, 3, 4, 5, 6, 0, 0⟩ = [50, 48, 50, 52, 45, 48, 49, 45, 48, 50, 84, 48, 51, 58, 48, 52, 58, 48, 53, 46, 48, 48, 54, 90] := by
  decide +kernel
end Che.Props
