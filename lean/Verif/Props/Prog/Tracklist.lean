import Verif.Proofs.Prog.Tracklist

/-!
C157: lists of tracks of mp3cuespl.
-/
namespace Che.Props
open Che.Lib Che.Prog.Tracklist Che.Spec.Tracklist

/-- C157: from a list of at most a hundred tracks of up to 35:47 each, whatever empty lines and blanks there are, every track is read with its number and title, and it begins where the ones before it end. -/
theorem C157_positions_partial (rs : List Row) (s : Bytes) (h : File rs s) (hl : rs.length ≤ 100) : ∃ ts, loadtxt s = .ok ts ∧ Placed rs ts := by
  have e := (readLoop_file h (s.length + 1) [] (by omega) (by simp)).1 (by simpa using hl)
  refine ⟨positions 0 (rs.map conv), ?_, ?_⟩
  · unfold loadtxt readfile
    rw [e]
    rfl
  · have := positions_spec rs 0
    simp only [Nat.zero_add] at this
    exact this

/-- C157: a list of more than a hundred tracks is written past the end of an array. -/
theorem C157_too_many (rs : List Row) (s : Bytes) (h : File rs s) (hl : 100 < rs.length) : loadtxt s = .panic "undefined: write past the end of list" := by
  have e := (readLoop_file h (s.length + 1) [] (by omega) (by simp)).2 (by simpa using hl)
  unfold loadtxt readfile
  rw [e]
  rfl

/-- The list in the comment of the program. -/
def tracklistText : Bytes := cstr "01. Earth, Sky, Fire, Blood\t4:22\n02. Maestoso\t\t\t\t5:24\n\n  03. Kusiciel\t\t\t\t4:25 \r\n"

example : loadtxt tracklistText = .ok [(1, cstr "Earth, Sky, Fire, Blood", 0), (2, cstr "Maestoso", 262000000), (3, cstr "Kusiciel", 586000000)] := by decide +kernel

theorem tracklistText_file : File [⟨1, cstr "Earth, Sky, Fire, Blood", 4, 22⟩, ⟨2, cstr "Maestoso", 5, 24⟩, ⟨3, cstr "Kusiciel", 4, 25⟩] tracklistText := by
  have dec : ∀ a b : Nat, a < 10 → b < 10 → Spec.Opt.Decimal [UInt8.ofNat (48 + a), UInt8.ofNat (48 + b)] (10 * a + b) := fun a b ha hb => .snoc [_] a b (.one a ha) hb
  have bl : ∀ b : Bytes, b.all (fun c => c = 32 || c = 9) = true → Blanks b := fun b h c hc => by simpa using List.all_eq_true.1 h c hc
  have tt : ∀ t : Bytes, t.all (fun c => c ≠ 10 && c ≠ 0) = true → ∀ c ∈ t, c ≠ 10 ∧ c ≠ 0 := fun t h c hc => by simpa using List.all_eq_true.1 h c hc
  have sp : ∀ (x : Option UInt8), (match x with | some c => !Strings.isspace c | none => true) = true → ∀ c, x = some c → ¬ Space c := fun x h c hc hs => by
    subst hc; rw [space_isspace] at hs; simp only [hs] at h; cases h
  have line := fun (b1 b2 t b3 b4 cr : Bytes) (n mi s1 s2 : Nat) (h1 : b1.all (fun c => c = 32 || c = 9) = true) (hn : n < 10) (hm : mi < 10) (hs1 : s1 < 10) (hs2 : s2 < 10)
    (h2 : b2.all (fun c => c = 32 || c = 9) = true) (ht : t.all (fun c => c ≠ 10 && c ≠ 0) = true) (hl : t.length < 1000)
    (ha : (match t.head? with | some c => !Strings.isspace c | none => true) = true) (hz : (match t.getLast? with | some c => !Strings.isspace c | none => true) = true)
    (h3 : b3.all (fun c => c = 32 || c = 9) = true) (hne : b3 ≠ []) (h4 : b4.all (fun c => c = 32 || c = 9) = true) (hcr : cr = [] ∨ cr = [13]) =>
    Line.mk b1 _ b2 t b3 _ _ b4 cr _ _ _ (bl _ h1) (dec 0 n (by omega) hn) (by omega) (bl _ h2) (tt _ ht) hl (sp _ ha) (sp _ hz) (bl _ h3) hne (.one mi hm) (dec s1 s2 hs1 hs2) (by omega) (bl _ h4) hcr
  have l1 := line [] [32] (cstr "Earth, Sky, Fire, Blood") [9] [] [] 1 4 2 2 (by decide) (by decide) (by decide) (by decide) (by decide) (by decide) (by decide +kernel) (by decide +kernel) (by decide +kernel)
    (by decide +kernel) (by decide) (by decide) (by decide) (.inl rfl)
  have l2 := line [] [32] (cstr "Maestoso") [9, 9, 9, 9] [] [] 2 5 2 4 (by decide) (by decide) (by decide) (by decide) (by decide) (by decide) (by decide +kernel) (by decide +kernel) (by decide +kernel)
    (by decide +kernel) (by decide) (by decide) (by decide) (.inl rfl)
  have l3 := line [32, 32] [32] (cstr "Kusiciel") [9, 9, 9, 9] [32] [13] 3 4 2 5 (by decide) (by decide) (by decide) (by decide) (by decide) (by decide) (by decide +kernel) (by decide +kernel) (by decide +kernel)
    (by decide +kernel) (by decide) (by decide) (by decide) (.inr rfl)
  have f := File.row _ _ _ _ l1 (by decide +kernel) (.row _ _ _ _ l2 (by decide +kernel) (.empty [] _ _ ⟨[], [], rfl, by intro c hc; simp at hc, .inl rfl⟩ (by decide) (.row _ _ _ _ l3 (by decide +kernel) .nil)))
  have key : ∀ (rs rs' : List Row) (x : Bytes), File rs x → rs = rs' → x = tracklistText → File rs' tracklistText := fun _ _ _ h e e' => e ▸ e' ▸ h
  exact key _ _ _ f rfl (by decide +kernel)

/-- C157: a track of 35:48 or more overflows, and one with hours is refused. -/
theorem C157_counterexample_long : loadtxt (cstr "1. a 35:48") = .panic "undefined: int overflow" ∧ loadtxt (cstr "1. a 35:47") = .ok [(1, cstr "a", 0)] ∧
    loadtxt (cstr "1. a 1:00:00") = .panic "failed to parse duration" := by decide +kernel
/-- C157: a line that is only a duration is written to before its beginning. -/
theorem C157_counterexample_word : loadtxt (cstr "4:22") = .panic "undefined: write before the beginning of line" := by decide +kernel
/-- C157: a title of a thousand bytes is written past the end of an array. -/
theorem C157_counterexample_title : loadtxt (cstr "1. " ++ List.replicate 1000 65 ++ cstr " 4:22") = .panic "undefined: write past the end of title" := by decide +kernel
/-- C157: a line without a number is read as track 0; one without a dot is refused. -/
theorem C157_no_number : loadtxt (cstr ". a 4:22") = .ok [(0, cstr "a", 0)] ∧ loadtxt (cstr "1 a 4:22") = .panic "expected a dot after track number" := by decide +kernel
end Che.Props
