import Verif.Proofs.Lib.Cue

/-!
C156: cue sheets.
-/
namespace Che.Props
open Che.Lib Che.Lib.Cue Che.Spec.Cue

/-- C156: the tracks of a sheet are read in order, with their titles, and with the positions of their last indexes in whole seconds; a sheet with more than a hundred tracks or with an index before
the first track is refused. -/
theorem C156_read_partial (es : List Spec.Cue.Entry) (s : Bytes) (h : Sheet es s) (hz : 0 ∉ s) :
    (∀ ts, tracks es [] = some ts → parse s = .ok (ts.reverse.map fun t => ⟨t.1, (t.2 : Int)⟩)) ∧ (tracks es [] = none → ∃ msg, parse s = .err msg) :=
  readcue_sheet es s (Tok.from_str s) [] (s.length + 1) h (on_new s) (by simp) hz (by have := sheet_length h; omega)

/-- A sheet. -/
def cueText : Bytes := cstr "REM GENRE Metal\nPERFORMER \"Band\"\nTITLE \"Album\"\nFILE \"a.mp3\" MP3\n  TRACK 01 AUDIO\n    TITLE \"One\"\n    INDEX 00 00:00:00\n    INDEX 01 00:02:30\n  TRACK 02 AUDIO\n    TITLE \"Two\"\n    INDEX 01 04:20:74\n"

example : parse cueText = .ok [⟨cstr "One", 2000000⟩, ⟨cstr "Two", 260000000⟩] := by decide +kernel

theorem cueText_sheet : ∃ es, Sheet es cueText ∧ tracks es [] = some [(cstr "Two", 260000000), (cstr "One", 2000000)] := by
  have dec : ∀ a b : Nat, a < 10 → b < 10 → Spec.Opt.Decimal [UInt8.ofNat (48 + a), UInt8.ofNat (48 + b)] (10 * a + b) := fun a b ha hb => .snoc [_] a b (.one a ha) hb
  have line := fun (b1 key b2 x : Bytes) (e : Spec.Cue.Entry) (h1 : b1.all (fun c => c = 32 || c = 9) = true) (h2 : b2 = []) (hd : Data key e x) =>
    Line.mk b1 key b2 x e (fun c hc => by simpa using List.all_eq_true.1 h1 c hc) (by subst h2; intro c hc; simp at hc) hd
  have idx := fun (b1 : Bytes) (h1 : b1.all (fun c => c = 32 || c = 9) = true) (n1 n2 m1 m2 s1 s2 f1 f2 : Nat) (hn1 : n1 < 10) (hn2 : n2 < 10) (hm1 : m1 < 10) (hm2 : m2 < 10) (hs1 : s1 < 10) (hs2 : s2 < 10)
      (hf1 : f1 < 10) (hf2 : f2 < 10) (hn : 10 * n1 + n2 < 2) => line b1 (cstr "INDEX") [] _ _ h1 rfl
    (Data.index _ [32] _ _ _ [] _ _ _ _ (dec n1 n2 hn1 hn2) hn (by simp [Blanks]) (by simp) (dec m1 m2 hm1 hm2) (dec s1 s2 hs1 hs2) (dec f1 f2 hf1 hf2) (by omega) (by simp [NoDigit]) (by simp) (by simp))
  have trk := fun (b1 : Bytes) (h1 : b1.all (fun c => c = 32 || c = 9) = true) (n1 n2 : Nat) (hn1 : n1 < 10) (hn2 : n2 < 10) => line b1 (cstr "TRACK") [] _ _ h1 rfl
    (Data.track _ [32] (cstr "AUDIO") _ (dec n1 n2 hn1 hn2) (by omega) (by simp [Blanks]) (by intro c hc; rw [show (cstr "AUDIO").head? = some 65 by decide +kernel] at hc; cases hc; decide)
      (by intro c hc; simp only [List.cons_append, List.head?_cons, Option.some.injEq] at hc; subst hc; decide) (by decide +kernel) (by decide +kernel))
  have ttl := fun (b1 : Bytes) (h1 : b1.all (fun c => c = 32 || c = 9) = true) (q : Bytes) (hq : 34 ∉ q) (hl : q.length < 100) => line b1 (cstr "TITLE") [] _ _ h1 rfl (Data.title q [] hq hl (.inl rfl))
  refine ⟨[.other, .other, .title (cstr "Album"), .other, .track, .title (cstr "One"), .index 0 0 0, .index 0 2 30, .track, .title (cstr "Two"), .index 4 20 74], ?_, by decide +kernel⟩
  have e : cueText = _ ++ 10 :: (_ ++ 10 :: (_ ++ 10 :: (_ ++ 10 :: (_ ++ 10 :: (_ ++ 10 :: (_ ++ 10 :: (_ ++ 10 :: (_ ++ 10 :: (_ ++ 10 :: (_ ++ 10 :: [])))))))))) :=
    show _ = (cstr "REM GENRE Metal") ++ 10 :: ((cstr "PERFORMER \"Band\"") ++ 10 :: ((cstr "TITLE \"Album\"") ++ 10 :: ((cstr "FILE \"a.mp3\" MP3") ++ 10 :: ((cstr "  TRACK 01 AUDIO") ++ 10 ::
      ((cstr "    TITLE \"One\"") ++ 10 :: ((cstr "    INDEX 00 00:00:00") ++ 10 :: ((cstr "    INDEX 01 00:02:30") ++ 10 :: ((cstr "  TRACK 02 AUDIO") ++ 10 ::
      ((cstr "    TITLE \"Two\"") ++ 10 :: ((cstr "    INDEX 01 04:20:74") ++ 10 :: [])))))))))) by decide +kernel
  rw [e]
  refine .cons _ _ _ _ ?_ (.cons _ _ _ _ ?_ (.cons _ _ _ _ ?_ (.cons _ _ _ _ ?_ (.cons _ _ _ _ ?_ (.cons _ _ _ _ ?_ (.cons _ _ _ _ ?_ (.cons _ _ _ _ ?_ (.cons _ _ _ _ ?_ (.cons _ _ _ _ ?_ (.cons _ _ _ _ ?_ .nil))))))))))
  · rw [show cstr "REM GENRE Metal" = [] ++ (cstr "REM" ++ 32 :: ([] ++ cstr "GENRE Metal")) by decide +kernel]
    exact line [] _ [] _ _ (by decide) rfl (.rem _ (by intro c hc; rw [show (cstr "GENRE Metal").head? = some 71 by decide +kernel] at hc; cases hc; decide) (by decide +kernel) (by decide +kernel))
  · rw [show cstr "PERFORMER \"Band\"" = [] ++ (cstr "PERFORMER" ++ 32 :: ([] ++ (34 :: cstr "Band" ++ 34 :: []))) by decide +kernel]
    exact line [] _ [] _ _ (by decide) rfl (.performer _ [] (by decide +kernel) (by decide +kernel) (.inl rfl))
  · rw [show cstr "TITLE \"Album\"" = [] ++ (cstr "TITLE" ++ 32 :: ([] ++ (34 :: cstr "Album" ++ 34 :: []))) by decide +kernel]
    exact ttl [] (by decide) _ (by decide +kernel) (by decide +kernel)
  · rw [show cstr "FILE \"a.mp3\" MP3" = [] ++ (cstr "FILE" ++ 32 :: ([] ++ (34 :: cstr "a.mp3" ++ 34 :: ([32] ++ cstr "MP3")))) by decide +kernel]
    exact line [] _ [] _ _ (by decide) rfl (.file _ [32] _ (by decide +kernel) (by decide +kernel) (by simp [Blanks])
      (by intro c hc; rw [show (cstr "MP3").head? = some 77 by decide +kernel] at hc; cases hc; decide) (by decide +kernel) (by decide +kernel))
  · rw [show cstr "  TRACK 01 AUDIO" = [32, 32] ++ (cstr "TRACK" ++ 32 :: ([] ++ ([UInt8.ofNat (48 + 0), UInt8.ofNat (48 + 1)] ++ ([32] ++ cstr "AUDIO")))) by decide +kernel]
    exact trk [32, 32] (by decide) 0 1 (by decide) (by decide)
  · rw [show cstr "    TITLE \"One\"" = [32, 32, 32, 32] ++ (cstr "TITLE" ++ 32 :: ([] ++ (34 :: cstr "One" ++ 34 :: []))) by decide +kernel]
    exact ttl [32, 32, 32, 32] (by decide) _ (by decide +kernel) (by decide +kernel)
  · rw [show cstr "    INDEX 00 00:00:00" = [32, 32, 32, 32] ++ (cstr "INDEX" ++ 32 :: ([] ++ ([UInt8.ofNat (48 + 0), UInt8.ofNat (48 + 0)] ++ ([32] ++ ([UInt8.ofNat (48 + 0), UInt8.ofNat (48 + 0)] ++ 58 ::
      ([UInt8.ofNat (48 + 0), UInt8.ofNat (48 + 0)] ++ 58 :: ([UInt8.ofNat (48 + 0), UInt8.ofNat (48 + 0)] ++ []))))))) by decide +kernel]
    exact idx [32, 32, 32, 32] (by decide) 0 0 0 0 0 0 0 0 (by decide) (by decide) (by decide) (by decide) (by decide) (by decide) (by decide) (by decide) (by decide)
  · rw [show cstr "    INDEX 01 00:02:30" = [32, 32, 32, 32] ++ (cstr "INDEX" ++ 32 :: ([] ++ ([UInt8.ofNat (48 + 0), UInt8.ofNat (48 + 1)] ++ ([32] ++ ([UInt8.ofNat (48 + 0), UInt8.ofNat (48 + 0)] ++ 58 ::
      ([UInt8.ofNat (48 + 0), UInt8.ofNat (48 + 2)] ++ 58 :: ([UInt8.ofNat (48 + 3), UInt8.ofNat (48 + 0)] ++ []))))))) by decide +kernel]
    exact idx [32, 32, 32, 32] (by decide) 0 1 0 0 0 2 3 0 (by decide) (by decide) (by decide) (by decide) (by decide) (by decide) (by decide) (by decide) (by decide)
  · rw [show cstr "  TRACK 02 AUDIO" = [32, 32] ++ (cstr "TRACK" ++ 32 :: ([] ++ ([UInt8.ofNat (48 + 0), UInt8.ofNat (48 + 2)] ++ ([32] ++ cstr "AUDIO")))) by decide +kernel]
    exact trk [32, 32] (by decide) 0 2 (by decide) (by decide)
  · rw [show cstr "    TITLE \"Two\"" = [32, 32, 32, 32] ++ (cstr "TITLE" ++ 32 :: ([] ++ (34 :: cstr "Two" ++ 34 :: []))) by decide +kernel]
    exact ttl [32, 32, 32, 32] (by decide) _ (by decide +kernel) (by decide +kernel)
  · rw [show cstr "    INDEX 01 04:20:74" = [32, 32, 32, 32] ++ (cstr "INDEX" ++ 32 :: ([] ++ ([UInt8.ofNat (48 + 0), UInt8.ofNat (48 + 1)] ++ ([32] ++ ([UInt8.ofNat (48 + 0), UInt8.ofNat (48 + 4)] ++ 58 ::
      ([UInt8.ofNat (48 + 2), UInt8.ofNat (48 + 0)] ++ 58 :: ([UInt8.ofNat (48 + 7), UInt8.ofNat (48 + 4)] ++ []))))))) by decide +kernel]
    exact idx [32, 32, 32, 32] (by decide) 0 1 0 4 2 0 7 4 (by decide) (by decide) (by decide) (by decide) (by decide) (by decide) (by decide) (by decide) (by decide)

/-- C156: positions lose their frames, which are 75ths of seconds: 0:02:74 is taken for 0:02:00. -/
theorem C156_counterexample_frames : parse (cstr "TRACK 01 AUDIO\nINDEX 01 00:02:74\n") = .ok [⟨[], 2000000⟩] := by decide +kernel
/-- C156: lines with other keywords, which cue sheets have, stop the program, as do empty lines, a tab after the keyword, and indexes after 01. -/
theorem C156_counterexample_keyword : parse (cstr "TRACK 01 AUDIO\nFLAGS DCP\n") = .panic "unknown entry type" ∧ parse (cstr "TRACK 01 AUDIO\n\n") = .panic "unknown entry type" ∧
    parse (cstr "REM\tx\n") = .panic "unknown entry type" ∧ parse (cstr "TRACK 01 AUDIO\nINDEX 02 00:02:00\n") = .panic "unexpected index number" := by decide +kernel
/-- C156: a title of 100 bytes stops the program; one of 99 is read. -/
theorem C156_counterexample_title : parse (cstr "TRACK 01 AUDIO\nTITLE \"" ++ List.replicate 100 65 ++ [34]) = .panic "failed to read title" ∧
    parse (cstr "TRACK 01 AUDIO\nTITLE \"" ++ List.replicate 99 65 ++ [34]) = .ok [⟨List.replicate 99 65, 0⟩] := by decide +kernel
/-- C156: a line of an index of 300 bytes is written past the end of an array. -/
theorem C156_counterexample_index : parse (cstr "TRACK 01 AUDIO\nINDEX 01 00:02:00" ++ List.replicate 289 32) = .panic "undefined: write past the end of val" ∧
    parse (cstr "TRACK 01 AUDIO\nINDEX 01 00:02:00" ++ List.replicate 288 32) = .ok [⟨[], 2000000⟩] := by decide +kernel
/-- C156: an index before the first track, and the hundred and first track, are refused. -/
theorem C156_refused : parse (cstr "INDEX 01 00:02:00") = .err "unexpected index entry" ∧ parse (List.replicate 101 (cstr "TRACK 1\n")).flatten = .err "tracks limit reached (100)" := by decide +kernel
end Che.Props
