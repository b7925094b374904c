import Verif.Proofs.Lib.Mp3

/-!
C154: the frames of an MP3 file.  C155: splitting one into tracks.
-/
namespace Che.Props
open Che.Lib Che.Lib.Mp3 Che.Spec.Mp3

private theorem mp3_bind_ok {α β : Type} (a : α) (f : α → Res String β) : (Res.ok a : Res String α).bind f = f a := rfl

/-! ### C154: frames -/

/-- What a program gets that writes the frame it has and asks for the next one until there is none: the frame, the time at its end and the rate. -/
inductive Mp3Reads : R → List (Bytes × Nat × Nat) → Prop
  | last (m m' : R) : nextframe m = .ok (m', false) → Mp3Reads m [(write_frame m, m.time, m.h.bitrate)]
  | next (m m' : R) (l : List (Bytes × Nat × Nat)) : nextframe m = .ok (m', true) → Mp3Reads m' l → Mp3Reads m ((write_frame m, m.time, m.h.bitrate) :: l)

/-- The frames with the times and rates that they should have, 26122 microseconds each, when `d` frames have been passed. -/
def mp3List (d : Nat) : List Bytes → List (Bytes × Nat × Nat)
  | [] => []
  | s :: fs => (s, (d + 1) * 26122, rateOf s) :: mp3List (d + 1) fs

theorem mp3_reads : ∀ (fs : List Bytes) (m : R) (s info : Bytes) (d : Nat), (∀ f ∈ fs, Frame f) → At m s fs.flatten d info → Mp3Reads m (mp3List d (s :: fs)) := by
  intro fs
  induction fs with
  | nil =>
    intro m s info d _ ha
    obtain ⟨m', e⟩ := nextframe_end ha
    have := Mp3Reads.last m m' e
    rwa [ha.write, ha.time, ha.rate] at this
  | cons f fs ih =>
    intro m s info d hf ha
    obtain ⟨m', e, a⟩ := nextframe_frame (t := fs.flatten) ha (hf f (by simp))
    have := Mp3Reads.next m m' _ e (ih m' f info (d + 1) (fun x hx => hf x (by simp [hx])) a)
    rwa [ha.write, ha.time, ha.rate] at this

/-- C154: a file of frames, also after groups of four bytes that do not begin like a frame, gives exactly its frames, in order, each with its rate and the time at its end. -/
theorem C154_frames (gs : List Bytes) (hg : ∀ g ∈ gs, ∃ a b c d : UInt8, g = [a, b, c, d] ∧ ¬ (a.toNat = 255 ∧ b.toNat / 2 = 125)) (s : Bytes) (fs : List Bytes) (hs : Frame s) (hi : ¬ Info s)
    (hf : ∀ f ∈ fs, Frame f) : ∃ m, open_reader (gs.flatten ++ (s :: fs).flatten) = .ok (some m) ∧ m.info = [] ∧ Mp3Reads m (mp3List 0 (s :: fs)) := by
  obtain ⟨m, e, a⟩ := open_audio gs hg s fs.flatten hs hi
  exact ⟨m, by rw [List.flatten_cons]; exact e, a.inf, mp3_reads fs m s [] 0 hf a⟩

/-- C154: when the first frame has information about the file it is put aside, and the others are the frames. -/
theorem C154_info (gs : List Bytes) (hg : ∀ g ∈ gs, ∃ a b c d : UInt8, g = [a, b, c, d] ∧ ¬ (a.toNat = 255 ∧ b.toNat / 2 = 125)) (i s : Bytes) (fs : List Bytes) (hi : Frame i) (hx : Info i) (hs : Frame s)
    (hf : ∀ f ∈ fs, Frame f) : ∃ m, open_reader (gs.flatten ++ (i :: s :: fs).flatten) = .ok (some m) ∧ m.info = i ∧ Mp3Reads m (mp3List 0 (s :: fs)) := by
  obtain ⟨m, e, a⟩ := open_info gs hg i s fs.flatten hi hx hs
  exact ⟨m, by rw [List.flatten_cons, List.flatten_cons]; exact e, a.inf, mp3_reads fs m s i 0 hf a⟩

/-- C154: what a frame after frames can not be: with a checksum, of another frequency, of the rate 15, or not a frame at all. -/
theorem C154_panics (m : R) (s i : Bytes) (d : Nat) (b0 b1 b2 b3 : UInt8) (t : Bytes) (h : At m s (b0 :: b1 :: b2 :: b3 :: t) d i) :
    (¬ (b0.toNat = 255 ∧ b1.toNat / 2 = 125) → nextframe m = .panic "stream error") ∧
    (b0.toNat = 255 → b1.toNat = 250 → nextframe m = .panic "+CRC") ∧
    (b0.toNat = 255 → b1.toNat = 251 → b2.toNat / 16 = 15 → nextframe m = .panic "undefined: read outside of an array") ∧
    (b0.toNat = 255 → b1.toNat = 251 → b2.toNat / 16 ≠ 15 → b2.toNat / 4 % 4 = 1 ∨ b2.toNat / 4 % 4 = 2 → nextframe m = .panic "Unsupported sampling frequency") ∧
    (b0.toNat = 255 → b1.toNat = 251 → b2.toNat / 16 ≠ 15 → b2.toNat / 4 % 4 = 3 → nextframe m = .panic "stream error") := by
  have hh := readframe_header m b0 b1 b2 b3 t h.rest
  have tab : b2.toNat / 16 ≠ 15 → ∃ x, bitrates[b2.toNat / 16]? = some x := by
    intro hn
    have := b2.toNat_lt
    exact ⟨_, List.getElem?_eq_getElem (show b2.toNat / 16 < 15 by omega)⟩
  refine ⟨fun hn => ?_, fun h0 h1 => ?_, fun h0 h1 h2 => ?_, fun h0 h1 h2 h3 => ?_, fun h0 h1 h2 h3 => ?_⟩
  · rw [if_pos (by omega), mp3_bind_ok] at hh
    simp only [Bool.false_eq_true, if_false] at hh
    unfold nextframe
    rw [hh, mp3_bind_ok]
    simp only [Bool.false_eq_true, if_false]
    rw [h.eof]
    rfl
  · rw [if_neg (by omega), if_pos (by omega)] at hh
    unfold nextframe
    rw [hh]
    rfl
  · rw [if_neg (by omega), if_neg (by omega)] at hh
    unfold fields at hh
    rw [h2] at hh
    unfold nextframe
    rw [hh]
    rfl
  · obtain ⟨x, hx⟩ := tab h2
    rw [if_neg (by omega), if_neg (by omega)] at hh
    unfold fields at hh
    rw [hx] at hh
    simp only at hh
    rw [if_neg (by omega), if_pos (by omega)] at hh
    unfold nextframe
    rw [hh]
    rfl
  · obtain ⟨x, hx⟩ := tab h2
    rw [if_neg (by omega), if_neg (by omega)] at hh
    unfold fields at hh
    rw [hx] at hh
    simp only at hh
    rw [if_pos h3, mp3_bind_ok] at hh
    simp only [Bool.false_eq_true, if_false] at hh
    unfold nextframe
    rw [hh, mp3_bind_ok]
    simp only [Bool.false_eq_true, if_false]
    rw [h.eof]
    rfl

/-- A frame of 32 kilobits with the given mode, and a letter in it. -/
def mp3Frame (mode c : UInt8) : Bytes := [255, 251, 16, mode] ++ List.replicate 100 c
/-- A frame with information. -/
def mp3Info : Bytes := [255, 251, 16, 0] ++ List.replicate 32 0 ++ cstr "Xing" ++ List.replicate 64 0

theorem mp3Frame_frame (mode c : UInt8) : Frame (mp3Frame mode c) := ⟨16, mode, List.replicate 100 c, 1, 0, 0, 32, rfl, by decide, by decide, by decide, rfl, by simp [mp3Frame]⟩
theorem mp3Info_frame : Frame mp3Info := ⟨16, 0, List.replicate 32 0 ++ cstr "Xing" ++ List.replicate 64 0, 1, 0, 0, 32, by decide +kernel, by decide, by decide, by decide, rfl, by decide +kernel⟩

example : open_reader ([0, 0, 0, 0] ++ mp3Frame 0 65 ++ mp3Frame 192 66) = .ok (some ⟨mp3Frame 192 66, false, 26122, ⟨32, 44100, 0, false⟩, 104, mp3Frame 0 65 ++ List.replicate 996 0, []⟩) := by decide +kernel

/-- C154: one byte before the frames hides them: only every fourth byte is tried. -/
theorem C154_counterexample_shifted : open_reader (0 :: mp3Frame 0 65) = .ok none := by decide +kernel
/-- C154: a tag of the usual kind at the end of the file stops the program. -/
theorem C154_counterexample_tag : ∃ m, open_reader (mp3Frame 0 65 ++ cstr "TAG" ++ List.replicate 125 0) = .ok (some m) ∧ nextframe m = .panic "stream error" :=
  ⟨⟨cstr "TAG" ++ List.replicate 125 0, false, 26122, ⟨32, 44100, 0, false⟩, 104, mp3Frame 0 65 ++ List.replicate 996 0, []⟩, by decide +kernel, by decide +kernel⟩
/-- C154: a header of the rate 0 passes for a frame of no bytes. -/
theorem C154_counterexample_free : ∃ m, open_reader ([255, 251, 0, 0] ++ mp3Frame 0 65) = .ok (some m) ∧ write_frame m = [] :=
  ⟨⟨mp3Frame 0 65, false, 26122, ⟨0, 44100, 0, false⟩, 0, [255, 251, 0, 0] ++ List.replicate 1096 0, []⟩, by decide +kernel, by decide +kernel⟩
/-- C154: a file of only the information is not recognized, and neither is one with nothing. -/
theorem C154_counterexample_only_info : open_reader mp3Info = .ok none ∧ open_reader [] = .ok none := by decide +kernel
/-- C154: a frame that the end of the file cuts is lost without a word. -/
theorem C154_counterexample_cut : ∃ m m', open_reader (mp3Frame 0 65 ++ (mp3Frame 0 66).take 103) = .ok (some m) ∧ nextframe m = .ok (m', false) ∧ m'.rest = [] :=
  ⟨⟨(mp3Frame 0 66).take 103, false, 26122, ⟨32, 44100, 0, false⟩, 104, mp3Frame 0 65 ++ List.replicate 996 0, []⟩,
    ⟨[], true, 26122, ⟨32, 44100, 0, false⟩, 104, (mp3Frame 0 66).take 103 ++ [65] ++ List.replicate 996 0, []⟩, by decide +kernel, by decide +kernel, rfl⟩

/-! ### C155: tracks -/

/-- Frame `k` of track `i` ends before the next track begins, and not before its own does. -/
def Mp3InTime (positions : List Nat) (tracks : List (List Bytes)) : Prop := ∀ (i : Nat) (tr : List Bytes), tracks[i]? = some tr → ∀ k < tr.length,
  (∀ q, positions[i + 1]? = some q → ((tracks.take i).flatten.length + k + 1) * 26122 < q) ∧ (∀ q, 0 < i → positions[i]? = some q → q ≤ ((tracks.take i).flatten.length + k + 1) * 26122)

theorem mp3_times {ps : List Nat} {tracks : List (List Bytes)} (h : Times ps 0 tracks) : Mp3InTime ps tracks := by
  intro i tr hi k hk
  have := h i tr hi k hk
  rw [Nat.zero_add] at this
  exact this

/-- C155: when no track begins after the end of the last frame, every frame goes to exactly one track, in order, by the time at its end. -/
theorem C155_split (p : Nat) (ps : List Nat) (s : Bytes) (fs : List Bytes) (hs : Frame s) (hi : ¬ Info s) (hf : ∀ f ∈ fs, Frame f) (hp : ∀ q ∈ ps, q ≤ (fs.length + 1) * 26122) :
    ∃ m tracks, open_reader (s :: fs).flatten = .ok (some m) ∧ cuespl (p :: ps) m = .ok (tracks.map List.flatten) ∧ tracks.flatten = s :: fs ∧ tracks.length = (p :: ps).length ∧
      Mp3InTime (p :: ps) tracks := by
  obtain ⟨m, e, a⟩ := open_audio [] (by simp) s fs.flatten hs hi
  obtain ⟨tracks, t1, t2, t3, _, t4⟩ := cuespl_spec [] (s :: fs).flatten.length List.flatten (fun as _ _ _ => trackFile_audio as) ps p fs m s 0 hs hf a
    (fun q hq => by rw [Nat.zero_add]; exact hp q hq) (Nat.le_refl _) (.inl rfl)
  exact ⟨m, tracks, e, t1, t2, t3, mp3_times t4⟩

/-- Four bytes with a number, the most significant one first. -/
def Mp3Be (n : Nat) (s : Bytes) : Prop := s.length = 4 ∧ s.foldl (fun a b => 256 * a + b.toNat) 0 = n

/-- The file of a track with the information: a frame of information, which has the header and the rest of the one of the whole file, and in which the numbers of frames and bytes and a hundred
positions are those of this file; and the frames. -/
def Mp3File (info : Bytes) (tr : List Bytes) (file : Bytes) : Prop := ∃ a x flags n b toc y new, info = a ++ x ++ y ∧ a.length = 36 ∧ x.length = 116 ∧
  new = a ++ (cstr "Xing" ++ flags ++ n ++ b ++ toc) ++ y ∧ Frame new ∧ Info new ∧ file = new ++ tr.flatten ∧ Mp3Be 7 flags ∧ Mp3Be (tr.length + 1) n ∧ Mp3Be file.length b ∧ toc.length = 100 ∧
  ∀ (i : Nat) (c : UInt8), toc[i]? = some c → c.toNat = (info.length + (tr.take (tr.length * i / 100)).flatten.length) * 255 / file.length

theorem mp3_file {info : Bytes} {as : List Bytes} (hfr : Frame info) (hm : ¬ Mono info) (hi : 152 ≤ info.length) (ha : as ≠ []) (hs : (info.length + as.flatten.length) * 255 < 2 ^ 32)
    (hl : as.length ≤ as.flatten.length) (hpos : ∀ f ∈ as, f ≠ []) : Mp3File info as (patched info as) := by
  have hsmall : info.length + as.flatten.length < 2 ^ 32 := Nat.lt_of_le_of_lt (Nat.le_mul_of_pos_right _ (by decide)) hs
  have hxl := xing_length (as.length + 1) (info.length + as.flatten.length) ((List.range 100).map (tocByte (offsets info.length as) (info.length + as.flatten.length))) (by simp)
  have hlen : (patched info as).length = info.length + as.flatten.length := by
    unfold patched
    simp only [List.length_append, List.length_take, List.length_drop]
    rw [hxl]
    omega
  refine ⟨info.take 36, (info.drop 36).take 116, be32 7, be32 (as.length + 1), be32 (info.length + as.flatten.length), _, info.drop 152, _, ?_, ?_, ?_, rfl, ?_, ?_, rfl, be32_val _ (by decide),
    be32_val _ (by omega), by rw [hlen]; exact be32_val _ (by omega), by simp, ?_⟩
  · rw [List.append_assoc, show (152 : Nat) = 36 + 116 from rfl, ← List.drop_drop, List.take_append_drop, List.take_append_drop]
  · rw [List.length_take]; omega
  · rw [List.length_take, List.length_drop]; omega
  · obtain ⟨b2, b3, body, k, p, x, r, rfl, h1, h2, h3, h4, h5⟩ := hfr
    refine ⟨b2, b3, _, k, p, x, r, rfl, h1, h2, h3, h4, ?_⟩
    rw [← h5]
    show (List.take 36 _ ++ xing _ _ _ ++ List.drop 152 _).length = _
    rw [List.length_append, List.length_append, hxl, List.length_take, List.length_drop]
    omega
  · refine ⟨info.take 36, be32 7 ++ be32 (as.length + 1) ++ be32 (info.length + as.flatten.length) ++
      (List.range 100).map (tocByte (offsets info.length as) (info.length + as.flatten.length)) ++ info.drop 152, ?_, .inr ⟨?_, by rw [List.length_take]; omega⟩⟩
    · simp only [List.append_assoc]
    · rintro ⟨a, b, c, d, z, e, hd⟩
      apply hm
      obtain ⟨b2, b3, body, k, p, x, r, rfl, _⟩ := hfr
      simp only [List.take_succ_cons, List.cons_append, List.cons.injEq] at e
      obtain ⟨_, _, _, rfl, _⟩ := e
      exact ⟨_, _, _, _, _, rfl, hd⟩
  · intro i c hc
    rw [List.getElem?_map, Option.map_eq_some_iff] at hc
    obtain ⟨i', h1, rfl⟩ := hc
    have hlt : i < 100 := by
      have := (List.getElem?_eq_some_iff.1 h1).1
      simpa using this
    rw [List.getElem?_range hlt, Option.some.injEq] at h1
    subst h1
    have hpos0 : 0 < as.length := List.length_pos_iff.2 ha
    have hj : as.length * i / 100 < as.length := by
      rw [Nat.div_lt_iff_lt_mul (by decide)]
      exact Nat.mul_lt_mul_of_pos_left hlt hpos0
    rw [hlen]
    apply tocByte_val
    · rw [offsets_length]
      exact offsets_get as _ _ hsmall hj
    · have h1 : (as.take (as.length * i / 100)).flatten.length + (as.drop (as.length * i / 100)).flatten.length = as.flatten.length := by
        rw [← List.length_append, ← List.flatten_append, List.take_append_drop]
      have h2 : 0 < (as.drop (as.length * i / 100)).flatten.length := by
        rw [List.drop_eq_getElem_cons hj, List.flatten_cons, List.length_append]
        have := List.length_pos_iff.2 (hpos _ (List.getElem_mem hj))
        omega
      omega
    · exact hs

/-- C155: with a frame of information for more than one channel and at least 152 bytes, tracks longer than a frame and less than 16 megabytes, every track gets such a frame, in which the numbers are those of
the track. -/
theorem C155_info (p : Nat) (ps : List Nat) (i s : Bytes) (fs : List Bytes) (hi : Frame i) (hx : Info i) (hm : ¬ Mono i) (hl : 152 ≤ i.length) (hs : Frame s) (hf : ∀ f ∈ fs, Frame f)
    (hp : ∀ q ∈ ps, q ≤ (fs.length + 1) * 26122) (hc : List.IsChain (fun a b => a + 26122 < b) (p :: ps)) (hb : (i :: s :: fs).flatten.length * 255 < 2 ^ 32) :
    ∃ m tracks files, open_reader (i :: s :: fs).flatten = .ok (some m) ∧ cuespl (p :: ps) m = .ok files ∧ tracks.flatten = s :: fs ∧ tracks.length = (p :: ps).length ∧ files.length = tracks.length ∧
      Mp3InTime (p :: ps) tracks ∧ ∀ (j : Nat) (tr : List Bytes) (file : Bytes), tracks[j]? = some tr → files[j]? = some file → tr ≠ [] ∧ Mp3File i tr file := by
  obtain ⟨m, e, a⟩ := open_info [] (by simp) i s fs.flatten hi hx hs
  have hne : ¬ i = [] := by rintro rfl; simp at hl
  have size : ∀ as : List Bytes, as.flatten.length ≤ (s :: fs).flatten.length → (i.length + as.flatten.length) * 255 < 2 ^ 32 := by
    intro as h
    refine Nat.lt_of_le_of_lt (Nat.mul_le_mul_right _ ?_) hb
    rw [List.flatten_cons, List.length_append]
    omega
  obtain ⟨tracks, t1, t2, t3, t5, t4⟩ := cuespl_spec i (s :: fs).flatten.length (patched i)
    (fun as h1 h2 h3 => trackFile_info hl (h3.resolve_left hne) (size as h2) (frames_length h1)) ps p fs m s 0 hs hf a
    (fun q hq => by rw [Nat.zero_add]; exact hp q hq) (Nat.le_refl _) (.inr ⟨by omega, hc⟩)
  refine ⟨m, tracks, tracks.map (patched i), by rw [List.flatten_cons, List.flatten_cons]; exact e, t1, t2, t3, by simp, mp3_times t4, ?_⟩
  intro j tr file h1 h2
  rw [List.getElem?_map, h1, Option.map_some, Option.some.injEq] at h2
  subst h2
  have hmem := List.mem_of_getElem? h1
  have hfr : ∀ f ∈ tr, Frame f := by
    intro f hx
    have : f ∈ tracks.flatten := List.mem_flatten.2 ⟨tr, hmem, hx⟩
    rw [t2] at this
    rcases List.mem_cons.1 this with rfl | h
    exacts [hs, hf f h]
  have hn := (t5 tr hmem).resolve_left hne
  have hle : tr.flatten.length ≤ (s :: fs).flatten.length := by
    rw [← t2]
    obtain ⟨u, v, rfl⟩ := List.append_of_mem hmem
    simp only [List.flatten_append, List.flatten_cons, List.length_append]
    omega
  refine ⟨hn, mp3_file hi hm hl hn (size tr hle) (frames_length hfr) ?_⟩
  rintro f hx rfl
  have := frame_len (hfr [] hx)
  simp at this

/-- A frame with information, of 156 bytes. -/
def mp3InfoLong : Bytes := [255, 251, 48, 0] ++ List.replicate 32 0 ++ cstr "Xing" ++ List.replicate 116 0

theorem mp3InfoLong_info : Frame mp3InfoLong ∧ Info mp3InfoLong ∧ ¬ Mono mp3InfoLong := by
  have hm : ¬ Mono mp3InfoLong := by
    rintro ⟨a, b, c, d, z, e, hd⟩
    simp only [mp3InfoLong, List.cons_append, List.cons.injEq] at e
    obtain ⟨_, _, _, rfl, _⟩ := e
    exact absurd hd (by decide)
  exact ⟨⟨48, 0, List.replicate 32 0 ++ cstr "Xing" ++ List.replicate 116 0, 3, 0, 0, 48, by decide +kernel, by decide, by decide, by decide, rfl, by decide +kernel⟩,
    ⟨[255, 251, 48, 0] ++ List.replicate 32 0, List.replicate 116 0, by decide +kernel, .inr ⟨hm, by decide +kernel⟩⟩, hm⟩

example := C155_info 0 [30000] mp3InfoLong (mp3Frame 0 65) [mp3Frame 0 66] mp3InfoLong_info.1 mp3InfoLong_info.2.1 mp3InfoLong_info.2.2 (by decide +kernel) (mp3Frame_frame 0 65)
  (by intro f hf; rw [List.mem_singleton] at hf; rw [hf]; exact mp3Frame_frame 0 66) (by decide) (by simp) (by decide +kernel)

/-- What is at the end of a run: the files of the tracks. -/
def mp3Split (file : Bytes) (ps : List Nat) : Res String (List Bytes) := (open_reader file).bind fun o => match o with | none => .panic "none" | some m => cuespl ps m

example : mp3Split (mp3Frame 0 65 ++ mp3Frame 0 66 ++ mp3Frame 0 67) [0, 52245] = .ok [mp3Frame 0 65 ++ mp3Frame 0 66, mp3Frame 0 67] := by decide +kernel

/-- C155: of tracks that begin after the end every one but the first gets the last frame again. -/
theorem C155_counterexample_beyond : mp3Split (mp3Frame 0 65 ++ mp3Frame 0 66) [0, 60000, 70000] = .ok [mp3Frame 0 65 ++ mp3Frame 0 66, mp3Frame 0 66, mp3Frame 0 66] := by decide +kernel
/-- C155: a frame that is playing when a track begins goes to that track when it ends after the beginning; what is before the first position goes to the first track. -/
theorem C155_counterexample_first : mp3Split (mp3Frame 0 65 ++ mp3Frame 0 66) [52244] = .ok [mp3Frame 0 65 ++ mp3Frame 0 66] := by decide +kernel
/-- C155: for a frame of information of 104 bytes the new numbers are written over the beginning of the next frame. -/
theorem C155_counterexample_short : ∃ x, mp3Split (mp3Info ++ mp3Frame 0 65) [0] = .ok [x] ∧ x.length = 208 ∧ (x.drop 104).take 4 = [127, 127, 127, 127] :=
  ⟨mp3Info.take 36 ++ cstr "Xing" ++ [0, 0, 0, 7, 0, 0, 0, 2, 0, 0, 0, 208] ++ List.replicate 100 127 ++ List.replicate 56 65, by decide +kernel, by decide +kernel, by decide +kernel⟩
/-- A frame with information for one channel. -/
def mp3InfoMono : Bytes := [255, 251, 48, 192] ++ List.replicate 17 0 ++ cstr "Xing" ++ List.replicate 131 0
/-- C155: for one channel the numbers are written in another place than where they are read: 17 bytes after the header the old ones stay. -/
theorem C155_counterexample_mono : ∃ x, mp3Split (mp3InfoMono ++ mp3Frame 192 65) [0] = .ok [x] ∧ (x.drop 21).take 19 = cstr "Xing" ++ List.replicate 11 0 ++ cstr "Xing" :=
  ⟨mp3InfoMono.take 36 ++ cstr "Xing" ++ [0, 0, 0, 7, 0, 0, 0, 2, 0, 0, 1, 4] ++ List.replicate 100 153 ++ mp3InfoMono.drop 152 ++ mp3Frame 192 65, by decide +kernel, by decide +kernel⟩
/-- C155: a track shorter than a frame, in a file with a frame of information, is the end of the program. -/
theorem C155_counterexample_empty : mp3Split (mp3Info ++ mp3Frame 0 65 ++ mp3Frame 0 66) [0, 26122] = .panic "undefined: null pointer" := by decide +kernel
end Che.Props
