import Mathlib.Data.List.Forall2
import Verif.Proofs.Lib.TorrentFile
import Verif.Props.Lib.Sha1
import Verif.Props.Lib.Bencode
import Verif.Props.Prog.Torrent

/-!
C143-C145: `.torrent` files are read, made and written.
-/
namespace Che.Props
open Che Che.Lib Che.Lib.Torrent Che.Lib.Bencode Che.Lib.TorrentFile Che.Spec Che.Spec.Lib Che.Spec.TorrentFile

/-! ### Reading -/

private theorem topInv {k : Bytes} {v : BVal} (h : TopEntry k v) :
    ((k = cstr "announce" ∨ k = cstr "created by" ∨ k = cstr "comment") → ∃ s, v = .str s ∧ Short s) ∧
    (k = cstr "creation date" → ∃ n, v = .int n) ∧
    (k = cstr "info" → ∃ es, v = .dict es ∧ Distinct es ∧ ∀ e ∈ es, InfoEntry e.1 e.2) := by
  have n1 : cstr "creation date" ≠ cstr "announce" := by decide
  have n2 : cstr "created by" ≠ cstr "announce" := by decide
  have n3 : cstr "comment" ≠ cstr "announce" := by decide
  have n4 : cstr "info" ≠ cstr "announce" := by decide
  have n5 : cstr "created by" ≠ cstr "creation date" := by decide
  have n6 : cstr "comment" ≠ cstr "creation date" := by decide
  have n7 : cstr "info" ≠ cstr "creation date" := by decide
  have n9 : cstr "info" ≠ cstr "created by" := by decide
  have n10 : cstr "info" ≠ cstr "comment" := by decide
  cases h with
  | announce s h => exact ⟨fun _ => ⟨s, rfl, h⟩, fun e => absurd e n1.symm, fun e => absurd e n4.symm⟩
  | created_by s h => exact ⟨fun _ => ⟨s, rfl, h⟩, fun e => absurd e n5, fun e => absurd e n9.symm⟩
  | comment s h => exact ⟨fun _ => ⟨s, rfl, h⟩, fun e => absurd e n6, fun e => absurd e n10.symm⟩
  | creation_date n _ _ => exact ⟨fun e => by rcases e with e | e | e; exact absurd e n1; exact absurd e.symm n5; exact absurd e.symm n6, fun _ => ⟨n, rfl⟩, fun e => absurd e n7.symm⟩
  | info es h1 h2 => exact ⟨fun e => by rcases e with e | e | e; exact absurd e n4; exact absurd e n9; exact absurd e n10, fun e => absurd e n7, fun _ => ⟨es, rfl, h1, h2⟩⟩
  | other _ _ hk _ _ _ _ =>
    simp only [known, List.mem_cons, List.not_mem_nil, or_false, not_or] at hk
    obtain ⟨k1, k2, k3, k4, k5⟩ := hk
    exact ⟨fun e => by rcases e with e | e | e; exact absurd e k1; exact absurd e k3; exact absurd e k4, fun e => absurd e k2, fun e => absurd e k5⟩

private theorem infoInv {k : Bytes} {v : BVal} (h : InfoEntry k v) :
    (k = cstr "name" → ∃ s, v = .str s ∧ Short s) ∧ ((k = cstr "piece length" ∨ k = cstr "length") → ∃ n : Nat, v = .int n ∧ n < 2 ^ 31) ∧
    (k = cstr "pieces" → ∃ s, v = .str s) ∧ (k = cstr "files" → ∃ vs, v = .list vs) ∧ (k = cstr "private" → ∃ n, v = .int n) := by
  cases h with
  | name s h => exact ⟨fun _ => ⟨s, rfl, h⟩, fun e => absurd e (by decide), fun e => absurd e (by decide), fun e => absurd e (by decide), fun e => absurd e (by decide)⟩
  | piece_length n h => exact ⟨fun e => absurd e (by decide), fun _ => ⟨n, rfl, h⟩, fun e => absurd e (by decide), fun e => absurd e (by decide), fun e => absurd e (by decide)⟩
  | length n h => exact ⟨fun e => absurd e (by decide), fun _ => ⟨n, rfl, h⟩, fun e => absurd e (by decide), fun e => absurd e (by decide), fun e => absurd e (by decide)⟩
  | pieces s h => exact ⟨fun e => absurd e (by decide), fun e => absurd e (by decide), fun _ => ⟨s, rfl⟩, fun e => absurd e (by decide), fun e => absurd e (by decide)⟩
  | files vs fs h _ => exact ⟨fun e => absurd e (by decide), fun e => absurd e (by decide), fun e => absurd e (by decide), fun _ => ⟨vs, rfl⟩, fun e => absurd e (by decide)⟩
  | priv n _ _ => exact ⟨fun e => absurd e (by decide), fun e => absurd e (by decide), fun e => absurd e (by decide), fun e => absurd e (by decide), fun _ => ⟨n, rfl⟩⟩

private theorem at_mem {es : List (Bytes × BVal)} {k : Bytes} {v : BVal} (h : at? es k = some v) : (k, v) ∈ es := by
  unfold at? at h
  rw [Option.map_eq_some_iff] at h
  obtain ⟨⟨a, b⟩, h1, h2⟩ := h
  have h3 := List.find?_some h1
  have h4 := List.mem_of_find?_eq_some h1
  simp only [beq_iff_eq] at h3
  simp only at h2
  rw [← h3, ← h2]
  exact h4

private theorem unhex_bytes (bs : Bytes) : unhex (bs.flatMap Hex.writebyte) = some bs := by
  induction bs with
  | nil => rfl
  | cons b bs ih =>
    rw [List.flatMap_cons]
    have : Hex.writebyte b ++ bs.flatMap Hex.writebyte =
        (Hex.HEX.getD (b.toNat / 16) 0) :: (Hex.HEX.getD (b.toNat % 16) 0) :: bs.flatMap Hex.writebyte := rfl
    rw [this]
    simp only [unhex, hex_byte, ih]

private theorem hex_text (bs : Bytes) : text (bs.flatMap Hex.writebyte ++ [0]) = bs.flatMap Hex.writebyte := by
  refine text_pad _ 1 ?_
  intro h
  obtain ⟨b, _, hb⟩ := List.mem_flatMap.mp h
  revert hb
  have : ∀ b : UInt8, (0 : UInt8) ∉ Hex.writebyte b := by
    intro b
    have : ∀ n < 256, (0 : UInt8) ∉ Hex.writebyte (UInt8.ofNat n) := by decide +kernel
    have := this b.toNat b.toNat_lt
    simpa using this
  exact this b

/-- Parsing a `.torrent` file with keys in any order gives what is in it, and the SHA-1 digest of the text of `info`. -/
theorem C143_parse_partial (junk : UInt64 × Bytes) (es : List (Bytes × BVal)) (hd : Distinct es) (hv : ∀ e ∈ es, TopEntry e.1 e.2)
    (info : List (Bytes × BVal)) (hi : at? es (cstr "info") = some (.dict info)) (hlen : (bencode (.dict info)).length + 72 < 2 ^ 31) :
    ∃ m, parse junk (bencode (.dict es)) = .ok m ∧
      text m.announce = strAt es "announce" ∧ text m.created_by = strAt es "created by" ∧ text m.comment = strAt es "comment" ∧ m.creation_date = intAt es "creation date" ∧
      text m.name = strAt info "name" ∧ (m.piece_length.toNat : Int) = intAt info "piece length" ∧ (m.length.toNat : Int) = intAt info "length" ∧
      m.pieces = strAt info "pieces" ∧ m.priv = decide (intAt info "private" ≠ 0) ∧
      (at? info (cstr "files") = none → m.files = []) ∧
      (∀ vs fs, at? info (cstr "files") = some (.list vs) → List.Forall₂ FileVal vs fs → m.files.map (fun g => (g.1.toNat, text g.2)) = fs.map fun f => (f.1, joined f.2)) ∧
      m.infohash_bytes.length = 20 ∧ SHA1.bits m.infohash_bytes = SHA1.sha1 (SHA1.bits (bencode (.dict info))) ∧
      unhex (text m.infohash) = some m.infohash_bytes := by
  obtain ⟨r0, hr0⟩ : ∃ r, r = newreader (bencode (.dict es)) := ⟨_, rfl⟩
  have h0 : Here r0 (100 :: (bencodeEntries es ++ 101 :: [])) := by rw [hr0]; simp [Here, newreader, bencode]
  have hst : r0.stack = [] := by rw [hr0]; rfl
  have hdt : r0.data = bencode (.dict es) := by rw [hr0]; rfl
  obtain ⟨e2, h2⟩ := enter_here h0 (by rw [hst]; decide)
  have h3 := here_adv h2
  obtain ⟨m, span, g1, g2⟩ := topLoop_here junk es hv hd zero (0, 0) (fun _ => rfl) ((bencode (.dict es)).length + 1) (by rw [bencode]; simp) h2 (by simp [inside]) (by simp [inside, hst])
  have hslice : slice (inside r0 100).data (0, 0) = [] := by simp [slice]
  rw [hslice] at g2
  have hinfo : slice r0.data span = bencode (.dict info) := by
    have := fold_get setTop (·.2) (cstr "info") (fun v _ => bencode v) (fun s k v => rfl) es hd (zero, [])
    rw [hi, ← g2] at this
    exact this
  have hnil : bencode (.dict info) ≠ [] := by rw [bencode]; simp
  obtain ⟨dg, d1, d2, d3⟩ := C59_sha1_partial (bencode (.dict info)) hnil (by omega) (by omega)
  have hm : m = (es.foldl setTop (zero, [])).1 := congrArg Prod.fst g2
  refine ⟨{ m with infohash := dg.flatMap Hex.writebyte ++ [0], infohash_bytes := dg }, ?_, ?_, ?_, ?_, ?_, ?_, ?_, ?_, ?_, ?_, ?_, ?_, d2, d3, ?_⟩
  · unfold parse
    rw [← hr0, e2, ok_bind, g1, ok_bind]
    obtain ⟨a, b⟩ := span
    simp only
    rw [leave_here _ h3, ok_bind]
    unfold slice at hinfo
    simp only [hdt] at hinfo
    rw [hinfo, d1, ok_bind]
  all_goals simp only
  rotate_right
  · rw [hex_text, unhex_bytes]
  · have := fold_get setTop (·.1.announce) (cstr "announce") (fun v _ => pad (strOf v)) (fun s k v => rfl) es hd (zero, [])
    rw [← hm] at this
    rw [this, strAt]
    cases ha : at? es (cstr "announce") with
    | none => rfl
    | some v =>
      obtain ⟨s, rfl, hs⟩ := (topInv (hv _ (at_mem ha))).1 (.inl rfl)
      exact text_pad' s hs.2
  · have := fold_get setTop (·.1.created_by) (cstr "created by") (fun v _ => pad (strOf v)) (fun s k v => rfl) es hd (zero, [])
    rw [← hm] at this
    rw [this, strAt]
    cases ha : at? es (cstr "created by") with
    | none => rfl
    | some v =>
      obtain ⟨s, rfl, hs⟩ := (topInv (hv _ (at_mem ha))).1 (.inr (.inl rfl))
      exact text_pad' s hs.2
  · have := fold_get setTop (·.1.comment) (cstr "comment") (fun v _ => pad (strOf v)) (fun s k v => rfl) es hd (zero, [])
    rw [← hm] at this
    rw [this, strAt]
    cases ha : at? es (cstr "comment") with
    | none => rfl
    | some v =>
      obtain ⟨s, rfl, hs⟩ := (topInv (hv _ (at_mem ha))).1 (.inr (.inr rfl))
      exact text_pad' s hs.2
  · have := fold_get setTop (·.1.creation_date) (cstr "creation date") (fun v _ => intOf v) (fun s k v => rfl) es hd (zero, [])
    rw [← hm] at this
    rw [this, intAt]
    cases ha : at? es (cstr "creation date") with
    | none => rfl
    | some v =>
      obtain ⟨n, rfl⟩ := (topInv (hv _ (at_mem ha))).2.1 rfl
      rfl
  all_goals
    have hip : ip m = info.foldl setIP (ip zero) := by
      have := fold_get setTop (fun s => ip s.1) (cstr "info") (fun v i => (dictOf v).foldl setIP i) (fun s k v => rfl) es hd (zero, [])
      rw [← hm, hi] at this
      exact this
    obtain ⟨hdi, hvi⟩ : Distinct info ∧ ∀ e ∈ info, InfoEntry e.1 e.2 := by
      obtain ⟨es', e, h1, h2⟩ := (topInv (hv _ (at_mem hi))).2.2 rfl
      cases e
      exact ⟨h1, h2⟩
  · have := fold_get setIP (·.name) (cstr "name") (fun v _ => pad (strOf v)) (fun s k v => rfl) info hdi (ip zero)
    rw [← hip] at this
    rw [show m.name = (ip m).name from rfl, this, strAt]
    cases ha : at? info (cstr "name") with
    | none => rfl
    | some v =>
      obtain ⟨s, rfl, hs⟩ := (infoInv (hvi _ (at_mem ha))).1 rfl
      exact text_pad' s hs.2
  · have := fold_get setIP (·.piece_length) (cstr "piece length") (fun v _ => toSize (intOf v)) (fun s k v => rfl) info hdi (ip zero)
    rw [← hip] at this
    rw [show m.piece_length = (ip m).piece_length from rfl, this, intAt]
    cases ha : at? info (cstr "piece length") with
    | none => rfl
    | some v =>
      obtain ⟨n, rfl, hn⟩ := (infoInv (hvi _ (at_mem ha))).2.1 (.inl rfl)
      exact congrArg _ (toSize_nat n (by omega))
  · have := fold_get setIP (·.length) (cstr "length") (fun v _ => toSize (intOf v)) (fun s k v => rfl) info hdi (ip zero)
    rw [← hip] at this
    rw [show m.length = (ip m).length from rfl, this, intAt]
    cases ha : at? info (cstr "length") with
    | none => rfl
    | some v =>
      obtain ⟨n, rfl, hn⟩ := (infoInv (hvi _ (at_mem ha))).2.1 (.inr rfl)
      exact congrArg _ (toSize_nat n (by omega))
  · have := fold_get setIP (·.pieces) (cstr "pieces") (fun v _ => strOf v) (fun s k v => rfl) info hdi (ip zero)
    rw [← hip] at this
    rw [show m.pieces = (ip m).pieces from rfl, this, strAt]
    cases ha : at? info (cstr "pieces") with
    | none => rfl
    | some v =>
      obtain ⟨s, rfl⟩ := (infoInv (hvi _ (at_mem ha))).2.2.1 rfl
      rfl
  · have := fold_get setIP (·.priv) (cstr "private") (fun v _ => decide (intOf v ≠ 0)) (fun s k v => rfl) info hdi (ip zero)
    rw [← hip] at this
    rw [show m.priv = (ip m).priv from rfl, this, intAt]
    cases ha : at? info (cstr "private") with
    | none => rfl
    | some v =>
      obtain ⟨n, rfl⟩ := (infoInv (hvi _ (at_mem ha))).2.2.2.2 rfl
      rfl
  · intro ha
    have := fold_get setIP (·.files) (cstr "files") (fun v fs => fs ++ (listOf v).map fileGet) (fun s k v => rfl) info hdi (ip zero)
    rw [← hip, ha] at this
    exact this
  · intro vs fs ha hf
    have := fold_get setIP (·.files) (cstr "files") (fun v fs => fs ++ (listOf v).map fileGet) (fun s k v => rfl) info hdi (ip zero)
    rw [← hip, ha] at this
    have e : m.files = fs.map fileOf := by
      rw [← filesGet vs fs hf]
      exact this
    rw [e, List.map_map]
    refine List.map_congr_left fun f hfm => ?_
    obtain ⟨v, _, hfv⟩ : ∃ v ∈ vs, FileVal v f := by
      clear e this ha
      induction hf with
      | nil => exact absurd hfm (by simp)
      | cons h _ ih =>
        rcases List.mem_cons.mp hfm with rfl | hfm
        · exact ⟨_, by simp, h⟩
        · obtain ⟨v, h1, h2⟩ := ih hfm
          exact ⟨v, by simp [h1], h2⟩
    have hz : (0 : UInt8) ∉ joined f.2 := by
      have hp := hfv.2.2.1
      generalize f.2 = ps at hp
      cases ps with
      | nil => simp [joined]
      | cons p ps =>
        simp only [joined, List.mem_append, List.mem_flatMap, List.mem_cons, not_or, not_exists, not_and]
        exact ⟨hp p (by simp), fun q hq => ⟨by decide, hp q (by simp [hq])⟩⟩
    simp only [Function.comp, fileOf]
    rw [toSize_nat _ (by have := hfv.2.1; omega), text_pad' _ hz]

/-- A file with two files in a directory, the keys in no order. -/
private def small : Bytes := cstr "d4:infod5:filesld4:pathl1:a1:be6:lengthi3eed6:lengthi4e4:pathl1:ceee4:name1:n12:piece lengthi4ee4:httpi1e8:announce1:ue"

private def shown {X : Type} (f : Meta → X) : Res Unit Meta → Option X
  | .ok m => some (f m)
  | _ => none

example : shown (fun m => (text m.announce, text m.name)) (parse (7, []) small) = some (cstr "u", cstr "n") := by decide +kernel

example : shown (fun m => m.files.map fun f => (f.1, text f.2)) (parse (7, []) small) = some [(3, cstr "a/b"), (4, cstr "c")] := by decide +kernel

example : shown (·.infohash_bytes) (parse (7, []) small) =
    some [0x68, 0xe2, 0x73, 0x0c, 0xff, 0xa4, 0xf7, 0x0c, 0x2f, 0xf9, 0x78, 0xb7, 0x8f, 0x6c, 0x0c, 0xba, 0x44, 0x79, 0x6c, 0xbb] := by decide +kernel

/-- Keys of `info` that are not known, like `source`, end the program. -/
theorem C143_counterexample_source (junk : UInt64 × Bytes) : parse junk (cstr "d4:infod6:source1:see") = .panic "UNKNOWN info" := by
  rfl

/-- So do other keys of files, like `md5sum`. -/
theorem C143_counterexample_md5sum (junk : UInt64 × Bytes) : parse junk (cstr "d4:infod5:filesld6:lengthi1e6:md5sum0:4:pathl1:aeeeee") = .panic "unknown file entry key" := by
  rfl

/-- Files of 2 GB cannot be described. -/
theorem C143_counterexample_large (junk : UInt64 × Bytes) : parse junk (cstr "d4:infod6:lengthi2147483648eee") = .panic "undefined: overflow" := by
  rfl

private def ends {X : Type} : Res Unit X → Option String
  | .panic s => some s
  | _ => none

/-- A path of 200 bytes passes the check and is written over the end of its array. -/
theorem C143_counterexample_path : readpath (newreader (cstr "l198:" ++ List.replicate 198 97 ++ cstr "1:be")) = .panic "undefined: write outside of an array" := by
  have h : ends (readpath (newreader (cstr "l198:" ++ List.replicate 198 97 ++ cstr "1:be"))) = some "undefined: write outside of an array" := by decide +kernel
  generalize readpath _ = q at h ⊢
  cases q with
  | panic s => simp only [ends, Option.some.injEq] at h; rw [h]
  | _ => cases h

/-- A file without a length has whatever was in memory. -/
theorem C143_counterexample_junk (junk : UInt64 × Bytes) : ∃ r m, parse_file junk (newreader (cstr "d4:pathl1:aee")) zero = .ok (r, m) ∧ m.files.map (·.1) = [junk.1] := ⟨_, _, rfl, rfl⟩

/-! ### Making and writing -/

/-- The file that is made has the digests of all pieces. -/
theorem C144_create_partial (now : Int) (hnow : -2 ^ 31 < now ∧ now < 2 ^ 31) (path data : Bytes) (hp : Short (lastPart path)) (hl : data.length < 2 ^ 31) :
    ∃ ds : List Bytes,
      create now path data = .ok (bencode (.dict (single (cstr "http://localhost:8000/announce") [] [] now data.length (lastPart path) 262144 ds.flatten))) ∧
      ds.length = (data.length + 262143) / 262144 ∧
      ∀ i (hi : i < ds.length), ds[i].length = 20 ∧ SHA1.bits ds[i] = SHA1.sha1 (SHA1.bits ((data.drop (i * 262144)).take 262144)) := by
  have hP : PIECE_LENGTH = 262144 := rfl
  have hP0 : PIECE_LENGTH ≠ 0 := by decide
  have hb := cut_bound PIECE_LENGTH data
  have hcl := cut_length PIECE_LENGTH hP0 data
  have hcf := cut_flatten PIECE_LENGTH hP0 data
  have hcg := cut_get PIECE_LENGTH hP0 data
  have hloop := addLoop_cut data [] 
  rw [List.nil_append] at hloop
  generalize cut PIECE_LENGTH data = cs at hb hcl hcf hcg hloop
  obtain ⟨ds, hds⟩ : ∃ ds : List Bytes, List.Forall₂ (fun p d => Sha1.digest p = .ok d ∧ d.length = 20 ∧ SHA1.bits d = SHA1.sha1 (SHA1.bits p)) cs ds := by
    clear hcl hcf hcg hloop
    induction cs with
    | nil => exact ⟨[], .nil⟩
    | cons p cs ih =>
      obtain ⟨ds, h⟩ := ih fun q hq => hb q (List.mem_cons_of_mem _ hq)
      obtain ⟨b1, b2⟩ := hb p (by simp)
      rw [hP] at b2
      obtain ⟨d, h1, h2, h3⟩ := C59_sha1_partial p b1 (by omega) (by omega)
      exact ⟨d :: ds, .cons ⟨h1, h2, h3⟩ h⟩
  have hlen := hds.length_eq
  have hcount : count data.length PIECE_LENGTH = (data.length + 262143) / 262144 := by
    unfold count
    rw [hP]
    split <;> omega
  have h20 : ∀ d ∈ ds, d.length = 20 := by
    clear hcl hcf hcg hloop hlen hb
    induction hds with
    | nil => intro d hd; exact absurd hd (by simp)
    | cons h _ ih =>
      intro d hd
      rcases List.mem_cons.mp hd with rfl | hd
      · exact h.2.1
      · exact ih d hd
  have hget : ∀ i (hi : i < ds.length), SHA1.bits ds[i] = SHA1.sha1 (SHA1.bits ((data.drop (i * 262144)).take 262144)) := by
    intro i hi
    have := (List.forall₂_iff_get.mp hds).2 i (by omega) hi
    rw [List.get_eq_getElem, List.get_eq_getElem] at this
    rw [this.2.2, hcg i (by omega), hP]
  refine ⟨ds, ?_, by rw [← hlen, hcl, hcount], fun i hi => ⟨h20 _ (List.getElem_mem hi), hget i hi⟩⟩
  obtain ⟨f1, f2⟩ := flat_get ds h20
  have hu : strcpy (List.replicate 200 0) (cstr "http://localhost:8000/announce") = .ok (pad (cstr "http://localhost:8000/announce")) := by decide +kernel
  have hz : (0 : UInt8) ∉ cstr "http://localhost:8000/announce" := by decide
  have hn2 : strcpy zero.name (basename path) = .ok (pad (lastPart path)) := by
    rw [basename_eq]
    unfold strcpy
    rw [if_neg (by have := hp.1; omega)]
    congr 1
    unfold pad zero
    simp only
    rw [List.drop_replicate, show 200 - (lastPart path).length = 200 - ((lastPart path).length + 1) + 1 by have := hp.1; omega, List.replicate_succ]
  unfold create newtorrent
  rw [hu, ok_bind, ok_bind]
  unfold addfile
  simp only
  rw [hn2, ok_bind, hloop _ (by simp), addAll_eq cs ds _ (hds.imp fun _ _ h => h.1), ok_bind, hcf]
  have e0 : (zero.length + UInt64.ofNat data.length).toNat = data.length := by
    rw [UInt64.toNat_add, UInt64.toNat_ofNat']
    show (0 + data.length % 2 ^ 64) % 2 ^ 64 = data.length
    omega
  have e1 : (UInt64.ofNat PIECE_LENGTH).toNat = 262144 := rfl
  have hds2 : ds.length = count data.length 262144 := by rw [← hlen, hcl, hP]
  have hcb : count data.length 262144 ≤ 8192 := by
    rw [← hP, hcount]; omega
  rw [writefile_eq _ (by simp only [e1]; decide) (by simp only [e1]; decide) (by simp only [e0]; omega) (by simp only; omega) (by simp only [text_pad' _ hz]; decide) (by show (text zero.comment).length ≤ 2147483647; decide) (by show (text zero.created_by).length ≤ 2147483647; decide)
    (by simp only [text_pad' _ hp.2]; have := hp.1; omega) (by simp only [e0, e1]; show ([] ++ ds.flatten).length = _; rw [List.nil_append, f1, hds2]) (by show ([] ++ ds.flatten).length ≤ _; rw [List.nil_append, f1, hds2]; omega), ok_bind]
  simp only [e0, e1, text_pad' _ hz, text_pad' _ hp.2]
  rfl

example : create 5 (cstr "d/x") (cstr "abc") = .ok (cstr "d8:announce30:http://localhost:8000/announce7:comment0:10:created by0:13:creation datei5e4:infod6:lengthi3e4:name1:x12:piece lengthi262144e6:pieces20:" ++
    [0xa9, 0x99, 0x3e, 0x36, 0x47, 0x06, 0x81, 0x6a, 0xba, 0x3e, 0x25, 0x71, 0x78, 0x50, 0xc2, 0x6c, 0x9c, 0xd0, 0xd8, 0x9d] ++ cstr "ee") := by decide +kernel

/-- A name of 200 bytes or more is written over the end of its array. -/
theorem C144_counterexample_name (now : Int) (path data : Bytes) (h : 200 ≤ (lastPart path).length) : create now path data = .panic "undefined: write outside of an array" := by
  have hu : strcpy (List.replicate 200 0) (cstr "http://localhost:8000/announce") = .ok (pad (cstr "http://localhost:8000/announce")) := by decide +kernel
  unfold create newtorrent
  rw [hu, ok_bind, ok_bind]
  unfold addfile
  rw [basename_eq, strcpy, if_pos (by omega)]
  rfl

/-- A torrent of a little more than 4 GB. -/
private def big : Meta := { zero with length := 4294967301, piece_length := 2147483647, pieces := List.replicate 60 1 }

private def readBack : Option UInt64 :=
  match writefile none big with
  | .ok (out, true) => shown (·.length) (parse (0, []) out)
  | _ => none

/-- Its length is written as 5. -/
theorem C144_counterexample_large : ∃ out m, big.length = 4294967301 ∧ writefile none big = .ok (out, true) ∧ parse (0, []) out = .ok m ∧ m.length = 5 := by
  have h : readBack = some 5 := by decide +kernel
  unfold readBack at h
  split at h
  · next out e =>
    generalize hq : parse (0, []) out = q at h
    cases q with
    | ok m => exact ⟨out, m, rfl, e, hq, by simpa [shown] using h⟩
    | _ => cases h
  · cases h

/-- `writefile` never says that something could not be written. -/
theorem C144_counterexample_full (m : Meta) (out : Bytes) (ok : Bool) (room : Option Nat) (h : writefile room m = .ok (out, ok)) : ok = true := by
  unfold writefile at h
  simp only at h
  generalize (if m.length % m.piece_length ≠ 0 then m.length / m.piece_length + 1 else m.length / m.piece_length) = np at h
  by_cases h0 : m.piece_length = 0
  · rw [if_pos h0] at h; cases h
  · rw [if_neg h0] at h
    by_cases h1 : (np * 20).toNat > m.pieces.length
    · rw [if_pos h1] at h; cases h
    · rw [if_neg h1] at h
      generalize calls _ _ = q at h
      cases q with
      | ok w => cases h; rfl
      | _ => cases h

example : writefile (some 0) { zero with piece_length := 1 } = .ok ([], true) := by decide +kernel

private theorem bits_inj (a b : Bytes) (h : SHA1.bits a = SHA1.bits b) : a = b := by
  have hl : ∀ n, (SHA1.toBits 8 n).length = 8 := by intro n; simp [SHA1.toBits]
  have hi : ∀ x y : UInt8, SHA1.toBits 8 x.toNat = SHA1.toBits 8 y.toNat → x = y := by
    have hinv : ∀ n < 256, (SHA1.toBits 8 n).foldl (fun n b => 2 * n + b.toNat) 0 = n := by decide +kernel
    intro x y e
    have e1 := hinv x.toNat x.toNat_lt
    rw [e, hinv y.toNat y.toNat_lt] at e1
    exact UInt8.toNat_inj.mp e1.symm
  induction a generalizing b with
  | nil =>
    cases b with
    | nil => rfl
    | cons y b =>
      have := congrArg List.length h
      simp only [SHA1.bits, List.flatMap_nil, List.flatMap_cons, List.length_nil, List.length_append, hl] at this
      omega
  | cons x a ih =>
    cases b with
    | nil =>
      have := congrArg List.length h
      simp only [SHA1.bits, List.flatMap_nil, List.flatMap_cons, List.length_nil, List.length_append, hl] at this
      omega
    | cons y b =>
      simp only [SHA1.bits, List.flatMap_cons] at h
      obtain ⟨h1, h2⟩ := List.append_inj h (by rw [hl, hl])
      rw [hi x y h1, ih b h2]

/-- What is made from a file can be read, and describes that file: a piece of a file of the same name and length is accepted exactly if it has the digest of the piece of the shared file. -/
theorem C145_share_partial (junk : UInt64 × Bytes) (now : Int) (hnow : -2 ^ 31 < now ∧ now < 2 ^ 31) (path data : Bytes) (hp : Short (lastPart path)) (hl : data.length < 2 ^ 31) :
    ∃ out m, create now path data = .ok out ∧ parse junk out = .ok m ∧
      text m.announce = cstr "http://localhost:8000/announce" ∧ m.creation_date = now ∧
      text m.name = lastPart path ∧ m.length.toNat = data.length ∧ m.piece_length.toNat = 262144 ∧ m.files = [] ∧ m.pieces.length = (data.length + 262143) / 262144 * 20 ∧
      ∀ (pre copy : Bytes) (d : Che.Prog.Torrent.Disk), copy.length = data.length → d (pre ++ [47] ++ lastPart path) = some copy → ∀ i : UInt64, i.toNat * 262144 < data.length →
        Che.Prog.Torrent.check_piece pre m.toInfo i d =
          .ok (decide (SHA1.sha1 (SHA1.bits ((copy.drop (i.toNat * 262144)).take 262144)) = SHA1.sha1 (SHA1.bits ((data.drop (i.toNat * 262144)).take 262144)))) := by
  obtain ⟨ds, c1, c2, c3⟩ := C144_create_partial now hnow path data hp hl
  obtain ⟨f1, f2⟩ := flat_get ds fun d hd => by
    obtain ⟨i, hi, rfl⟩ := List.getElem_of_mem hd
    exact (c3 i hi).1
  generalize hes : single (cstr "http://localhost:8000/announce") [] [] now data.length (lastPart path) 262144 ds.flatten = es at c1
  generalize hinfo : ([(cstr "length", .int data.length), (cstr "name", .str (lastPart path)), (cstr "piece length", .int (262144 : Nat)), (cstr "pieces", .str ds.flatten)] : List (Bytes × BVal)) = info
  have g1 : at? es (cstr "info") = some (.dict info) := by rw [← hes, ← hinfo]; rfl
  have hd2 : Distinct info := by rw [← hinfo]; show List.Nodup [cstr "length", cstr "name", cstr "piece length", cstr "pieces"]; decide
  have hv2 : ∀ e ∈ info, InfoEntry e.1 e.2 := by
    rw [← hinfo]
    intro e he
    simp only [List.mem_cons, List.not_mem_nil, or_false] at he
    rcases he with rfl | rfl | rfl | rfl
    · exact .length _ hl
    · exact .name _ hp
    · exact .piece_length 262144 (by decide)
    · exact .pieces _ (by rw [f1, c2]; omega)
  have hd1 : Distinct es := by rw [← hes]; show List.Nodup [cstr "announce", cstr "comment", cstr "created by", cstr "creation date", cstr "info"]; decide
  have hv1 : ∀ e ∈ es, TopEntry e.1 e.2 := by
    rw [← hes]
    unfold single
    rw [show (262144 : Nat) = 262144 from rfl] at hinfo
    rw [hinfo]
    intro e he
    simp only [List.mem_cons, List.not_mem_nil, or_false] at he
    rcases he with rfl | rfl | rfl | rfl | rfl
    · exact .announce _ ⟨by decide, by decide⟩
    · exact .comment _ ⟨by decide, by decide⟩
    · exact .created_by _ ⟨by decide, by decide⟩
    · exact .creation_date _ hnow.1 hnow.2
    · exact .info _ hd2 hv2
  have hlen : (bencode (.dict info)).length + 72 < 2 ^ 31 := by
    have hdec : ∀ n : Nat, n < 2 ^ 31 → (decText n).length ≤ 10 := by
      intro n hn
      have step : ∀ k n : Nat, n < 10 ^ (k + 1) → (decText n).length ≤ k + 1 := by
        intro k
        induction k with
        | zero => intro n h; rw [decText, if_pos (by omega)]; simp
        | succ k ih =>
          intro n h
          rw [decText]
          split
          · simp
          · have := ih (n / 10) (by rw [Nat.pow_succ] at h; omega)
            rw [List.length_append, List.length_singleton]; omega
      exact step 9 n (by omega)
    rw [← hinfo]
    have b1 := hdec data.length hl
    have b2 := hdec (lastPart path).length (by have := hp.1; omega)
    have b3 := hdec 262144 (by decide)
    have b4 := hdec ds.flatten.length (by rw [f1, c2]; omega)
    have k1 : (bstr (cstr "length")).length ≤ 20 := by decide +kernel
    have k2 : (bstr (cstr "name")).length ≤ 20 := by decide +kernel
    have k3 : (bstr (cstr "piece length")).length ≤ 20 := by decide +kernel
    have k4 : (bstr (cstr "pieces")).length ≤ 20 := by decide +kernel
    have hp1 := hp.1
    have e1 : (bencode (.int (data.length : Int))).length = (decText data.length).length + 2 := by rw [bencode, decTextInt_nat]; simp
    have e3 : (bencode (.int ((262144 : Nat) : Int))).length = (decText 262144).length + 2 := by rw [bencode, decTextInt_nat]; simp
    rw [bencode, List.cons_append, List.length_cons, List.length_append, List.length_singleton]
    simp only [bencodeEntries, List.length_append, List.length_nil, e1, e3]
    simp only [bencode]
    generalize (bstr (cstr "length")).length = q1 at *
    generalize (bstr (cstr "name")).length = q2 at *
    generalize (bstr (cstr "piece length")).length = q3 at *
    generalize (bstr (cstr "pieces")).length = q4 at *
    simp only [bstr, List.length_append, List.length_cons]
    rw [f1, c2] at b4 ⊢
    omega
  obtain ⟨m, m0, m1, _, _, m2, m3, m4, m5, m6, _, m7, _⟩ := C143_parse_partial junk es hd1 hv1 info g1 hlen
  have a1 : strAt es "announce" = cstr "http://localhost:8000/announce" := by rw [← hes]; rfl
  have a2 : intAt es "creation date" = now := by rw [← hes]; rfl
  have a3 : strAt info "name" = lastPart path := by rw [← hinfo]; rfl
  have a4 : intAt info "piece length" = 262144 := by rw [← hinfo]; rfl
  have a5 : intAt info "length" = data.length := by rw [← hinfo]; rfl
  have a6 : strAt info "pieces" = ds.flatten := by rw [← hinfo]; rfl
  have a7 : m.files = [] := m7 (by rw [← hinfo]; rfl)
  rw [a1] at m1
  rw [a2] at m2
  rw [a3] at m3
  rw [a4] at m4
  rw [a5] at m5
  rw [a6] at m6
  have m4' : m.piece_length.toNat = 262144 := by omega
  have m5' : m.length.toNat = data.length := by omega
  refine ⟨_, m, c1, m0, m1, m2, m3, m5', m4', a7, by rw [m6, f1, c2], ?_⟩
  intro pre copy d hcopy hdk i hi
  have hparts : Torrent.parts m.toInfo = [(lastPart path, data.length)] := by
    unfold Torrent.parts Meta.toInfo
    simp only [a7, List.map_nil]
    rw [if_neg (fun e => by rw [e] at m5'; have : (0 : UInt64).toNat = 0 := rfl; omega), m3, m5']
  have hidx : i.toNat < ds.length := by rw [c2]; omega
  have hpl : m.toInfo.piece_length.toNat = 262144 := m4'
  have hpc : m.toInfo.pieces = ds.flatten := m6
  have hsize : Torrent.size (Torrent.parts m.toInfo) = data.length := by rw [hparts]; simp [Torrent.size]
  obtain ⟨dg, q1, q2, q3⟩ := C135_check_partial pre m.toInfo
    ⟨by rw [hpl]; decide, .inr (by simp [Meta.toInfo, a7]), by rw [hsize]; omega⟩ (fun _ => copy)
    (by rw [hparts]; intro p hp; simp only [List.mem_singleton] at hp; rw [hp]; exact hcopy) d
    (by rw [hparts]; intro p hp; simp only [List.mem_singleton] at hp; rw [hp]; exact hdk)
    i (by omega) (by rw [hpc, f1]; omega) (by rw [hpl]; decide) [] [] (lastPart path) data.length (by rw [hparts]; rfl) (by rw [hsize, hpl]; exact hi)
    (by simp [Torrent.size]) (by rw [hsize]; simp only [Torrent.size, List.map_nil, List.sum_nil]; omega)
  have hcont : Torrent.content (Torrent.parts m.toInfo) (fun _ => copy) = copy := by rw [hparts]; simp [Torrent.content]
  rw [hcont, hpl] at q2
  rw [q3, hpc, f2 i.toNat hidx]
  congr 1
  have q4 := (c3 i.toNat hidx).2
  rw [Bool.eq_iff_iff, decide_eq_true_iff, decide_eq_true_iff, ← q2, ← q4]
  exact ⟨fun e => by rw [e], fun e => (bits_inj _ _ e).symm⟩
end Che.Props
