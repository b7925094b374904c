import Verif.Model.Prog.Decompose
import Verif.Spec.Prog.Decompose
import Verif.Spec.Lib.Json
import Verif.Props.Lib.Text
import Mathlib.Data.List.Forall2

/-!
C159: `prog/decompose` strips the lines of docker-compose.  C160: `prog/noext` cuts extensions.
-/
namespace Che.Props
open Che.Lib Che.Spec.Decompose

private theorem dec_bind_ok {α β : Type} (a : α) (f : α → Res String β) : (Res.ok a : Res String α).bind f = f a := rfl

theorem C159_space {c : UInt8} : Strings.isspace c = true ↔ Space c := by
  unfold Strings.isspace Space; simp

theorem C159_dropWhile (p : UInt8 → Bool) : ∀ (a s : Bytes), (∀ c ∈ a, p c = true) → (∀ c, s.head? = some c → p c = false) → (a ++ s).dropWhile p = s ∧ (a ++ s).takeWhile p = a
  | [], [], _, _ => ⟨rfl, rfl⟩
  | [], c :: s, _, h => by simp [List.dropWhile, List.takeWhile, h c rfl]
  | c :: a, s, h1, h2 => by
    have := C159_dropWhile p a s (fun c hc => h1 c (by simp [hc])) h2
    simp [List.dropWhile, List.takeWhile, h1 c (by simp), this]

theorem C159_digits {a s : Bytes} (ha : Digits a) (hs : ∀ c, s.head? = some c → ¬ (48 ≤ c ∧ c ≤ 57)) : (a ++ s).dropWhile Time.isdigit = s :=
  (C159_dropWhile _ a s (fun c hc => by have := ha c hc; simp [Time.isdigit, this]) (fun c hc => by
    have := hs c hc
    cases h : Time.isdigit c with
    | false => rfl
    | true => exact absurd (by simpa [Time.isdigit] using h) this)).1

/-- A colour is passed, and what does not begin with one stays. -/
theorem C159_termcolor {c s : Bytes} (hc : Color c) (hs : s.head? ≠ some 27) : Prog.Decompose.termcolor (c ++ s) = s := by
  cases hc with
  | none =>
    cases s with
    | nil => rfl
    | cons x s =>
      unfold Prog.Decompose.termcolor
      split
      · next h => simp at h; exact absurd (by simp [h.1]) hs
      · rfl
  | one a ha =>
    have e : (27 :: 91 :: (a ++ [109])) ++ s = 27 :: 91 :: (a ++ 109 :: s) := by simp
    rw [e]
    unfold Prog.Decompose.termcolor
    simp only
    rw [C159_digits ha (by intro c hc; cases hc; decide)]
    rfl
  | two a b ha hb =>
    have e : (27 :: 91 :: (a ++ 59 :: (b ++ [109]))) ++ s = 27 :: 91 :: (a ++ 59 :: (b ++ 109 :: s)) := by simp
    rw [e]
    unfold Prog.Decompose.termcolor
    simp only
    rw [C159_digits ha (by intro c hc; cases hc; decide), Prog.Decompose.second, C159_digits hb (by intro c hc; cases hc; decide)]
    rfl

theorem C159_doline {name msg l : Bytes} (h : Line name msg l) (hn : name.length < 100) : Prog.Decompose.doline l = .ok (Prog.Decompose.print name msg) := by
  obtain ⟨c1, _, b1, c2, b2, _, h1, h2, h3, h4, h5, h6, h7⟩ := h
  obtain ⟨x, b1, rfl⟩ : ∃ x b, b1 = x :: b := by
    cases b1 with
    | nil => exact absurd rfl h4
    | cons x b => exact ⟨x, b, rfl⟩
  have hx := h3 x (by simp)
  have k1 : (name ++ (x :: b1 ++ 124 :: (c2 ++ (b2 ++ msg)))).head? ≠ some 27 := by
    cases name with
    | nil =>
      simp only [List.nil_append, List.cons_append, List.head?_cons, ne_eq, Option.some.injEq]
      rintro rfl
      rcases hx with h | h <;> revert h <;> decide
    | cons y n =>
      simp only [List.cons_append, List.head?_cons, ne_eq, Option.some.injEq]
      exact (h2 y (by simp)).2
  have k2 := C159_dropWhile (fun c => !Strings.isspace c) name (x :: b1 ++ 124 :: (c2 ++ (b2 ++ msg)))
    (fun c hc => by
      have := (h2 c hc).1
      rw [← C159_space] at this
      simpa using this)
    (fun c hc => by
      simp only [List.cons_append, List.head?_cons, Option.some.injEq] at hc
      subst hc
      simpa using C159_space.mpr hx)
  have k3 := (C159_dropWhile Strings.isspace (x :: b1) (124 :: (c2 ++ (b2 ++ msg))) (fun c hc => C159_space.mpr (h3 c hc)) (by intro c hc; cases hc; decide)).1
  have k4 : (b2 ++ msg).head? ≠ some 27 := by
    cases b2 with
    | nil =>
      rw [List.nil_append]
      intro h
      exact (h7 27 h).2 rfl
    | cons y b =>
      simp only [List.cons_append, List.head?_cons, ne_eq, Option.some.injEq]
      rintro rfl
      rcases h6 27 (by simp) with h | h <;> revert h <;> decide
  have k5 := (C159_dropWhile Strings.isspace b2 msg (fun c hc => C159_space.mpr (h6 c hc)) (fun c hc => by
    have := (h7 c hc).1
    rw [← C159_space] at this
    simpa using this)).1
  have k6 : Prog.Decompose.name (name ++ (x :: b1 ++ 124 :: (c2 ++ (b2 ++ msg)))) = .ok (name, x :: b1 ++ 124 :: (c2 ++ (b2 ++ msg))) := by
    unfold Prog.Decompose.name
    simp only
    rw [k2.1, k2.2, if_neg (by simp), if_neg (by omega)]
  unfold Prog.Decompose.doline
  rw [C159_termcolor h1 k1, k6, dec_bind_ok]
  simp only
  rw [k3, Prog.Decompose.bar, C159_termcolor h5 k4, k5]

/-- C159: every line is printed without colours and padding, in order: with the name of the container in brackets before the message, or, if the message begins with a brace, with the name as its first member. -/
theorem C159_lines_partial (f : Bytes) (h0 : 0 ∉ f) (h255 : 255 ∉ f) (ls : List Bytes) (hl : Spec.Text.Lines f ls) (ms : List (Bytes × Bytes))
    (h : List.Forall₂ (fun l (p : Bytes × Bytes) => Line p.1 p.2 l ∧ p.1.length < 100) ls ms) :
    Prog.Decompose.main f = .ok (ms.flatMap fun p => if p.2.head? = some 123 then cstr "{\"container\":\"" ++ p.1 ++ cstr "\"," ++ p.2.drop 1 else cstr "[" ++ p.1 ++ cstr "] " ++ p.2) := by
  have e1 := (C96_lines f h0 h255 ls).mpr hl
  have pr : ∀ n m : Bytes, Prog.Decompose.print n m = if m.head? = some 123 then cstr "{\"container\":\"" ++ n ++ cstr "\"," ++ m.drop 1 else cstr "[" ++ n ++ cstr "] " ++ m := by
    intro n m
    unfold Prog.Decompose.print
    split
    · rfl
    · next hm =>
      rw [if_neg]
      cases m with
      | nil => simp
      | cons c m =>
        simp only [List.head?_cons, Option.some.injEq]
        rintro rfl
        exact hm _ rfl
  unfold Prog.Decompose.main
  rw [e1, dec_bind_ok]
  clear e1 hl
  induction h with
  | nil => rfl
  | @cons l p ls ms hp _ ih =>
    rw [Prog.Decompose.dolines, C159_doline hp.1 hp.2, dec_bind_ok, ih, dec_bind_ok, List.flatMap_cons, pr]

open Che.Spec.Lib in
/-- C159: a message that is a JSON object with members becomes the object with the name of the container as its first member, when the name needs no escapes. -/
theorem C159_json {name msg l : Bytes} {e : Bytes × JVal} {es : List (Bytes × JVal)} (h : Line name msg l) (hn : name.length < 100) (hj : JDoc rfc (.obj (e :: es)) msg) (hc : ∀ c ∈ name, 32 ≤ c ∧ c ≠ 34 ∧ c ≠ 92) :
    ∃ out, Prog.Decompose.doline l = .ok out ∧ JDoc rfc (.obj ((cstr "container", .str name) :: e :: es)) out := by
  refine ⟨_, C159_doline h hn, ?_⟩
  have nosp : ∀ c, msg.head? = some c → ¬ Space c := by
    cases h with
    | mk _ _ _ _ _ _ _ _ _ _ _ _ h7 => exact fun c hc => (h7 c hc).1
  obtain ⟨a, t, b, ha, ht, hb, rfl⟩ := hj
  cases a with
  | cons c a =>
    exfalso
    refine nosp c rfl ?_
    rcases ha c (by simp) with rfl | rfl | rfl | rfl <;> unfold Space <;> decide
  | nil =>
    cases ht with
    | obj hm =>
      rename_i t
      have none : Blanks rfc [] := by simp [Blanks]
      have str : ∀ s : Bytes, (∀ c ∈ s, 32 ≤ c ∧ c ≠ 34 ∧ c ≠ 92) → JString rfc s ([34] ++ s ++ [34]) := by
        intro s hs
        refine ⟨s, ?_, rfl⟩
        induction s with
        | nil => exact .nil
        | cons c s ih => exact .plain (hs c (by simp)).1 (hs c (by simp)).2.1 (hs c (by simp)).2.2 (ih fun c h => hs c (by simp [h]))
      have k := str (cstr "container") (by rw [show cstr "container" = [99, 111, 110, 116, 97, 105, 110, 101, 114] by decide +kernel]; decide)
      have m := JMembers.more none k none none (.str (str name hc)) none hm
      refine ⟨[], _, b, none, JText.obj m, hb, ?_⟩
      show Prog.Decompose.print name (123 :: (t ++ [125]) ++ b) = _
      rw [show 123 :: (t ++ [125]) ++ b = 123 :: (t ++ [125] ++ b) by simp, Prog.Decompose.print, show cstr "{\"container\":\"" = [123, 34] ++ cstr "container" ++ [34, 58, 34] by decide +kernel, show cstr "\"," = [34, 44] by decide +kernel]
      simp

/-- Lines of docker-compose. -/
def decomposeText : Bytes := [27] ++ cstr "[36;1mweb_1    |" ++ [27] ++ cstr "[0m {\"a\":1}\n" ++ cstr "db | started\n"

example : Prog.Decompose.main decomposeText = .ok (cstr "{\"container\":\"web_1\",\"a\":1}\n[db] started\n") := by decide +kernel

theorem decomposeText_line : Line (cstr "web_1") (cstr "{\"a\":1}\n") ([27] ++ cstr "[36;1mweb_1    |" ++ [27] ++ cstr "[0m {\"a\":1}\n") := by
  have key : ∀ l l' : Bytes, Line (cstr "web_1") (cstr "{\"a\":1}\n") l → l = l' → Line (cstr "web_1") (cstr "{\"a\":1}\n") l' := fun _ _ h e => e ▸ h
  refine key _ _ (.mk (27 :: 91 :: ([51, 54] ++ 59 :: ([49] ++ [109]))) _ [32, 32, 32, 32] (27 :: 91 :: ([48] ++ [109])) [32] _ (.two _ _ (by unfold Digits; decide) (by unfold Digits; decide)) ?_ ?_ (by simp)
    (.one _ (by unfold Digits; decide)) ?_ ?_) (by decide +kernel)
  · rw [show cstr "web_1" = [119, 101, 98, 95, 49] by decide +kernel]; unfold Space; decide
  · unfold Space; decide
  · unfold Space; decide
  · intro c hc
    rw [show cstr "{\"a\":1}\n" = 123 :: cstr "\"a\":1}\n" by decide +kernel] at hc
    cases hc
    unfold Space; decide

/-- C159 is false of empty messages: the end of the line is lost, and the next line is put on the same one. -/
theorem C159_counterexample_empty : Prog.Decompose.main (cstr "web |\ndb | started\n") = .ok (cstr "[web] [db] started\n") := by decide +kernel
/-- C159 is false of objects without members: what is printed is not JSON. -/
theorem C159_counterexample_no_members : Prog.Decompose.main (cstr "web | {}\n") = .ok (cstr "{\"container\":\"web\",}\n") := by decide +kernel
/-- C159: a name of a hundred bytes is written past an array, and a last line of only a word is read past its end. -/
theorem C159_counterexample_undefined : Prog.Decompose.main (List.replicate 100 97 ++ cstr " | x\n") = .panic "undefined: write past the end of name" ∧
    Prog.Decompose.main (cstr "Attaching") = .panic "undefined: read past the end of the line" := by decide +kernel

/-! ## C160 -/

theorem C160_dotLoop (s : Bytes) : ∀ n, (Prog.Noext.dotLoop s n = 0 ∨ s[Prog.Noext.dotLoop s n]? = some 46) ∧ Prog.Noext.dotLoop s n ≤ n ∧ ∀ i, Prog.Noext.dotLoop s n < i → i ≤ n → s[i]? ≠ some 46
  | 0 => ⟨.inl rfl, Nat.le_refl _, fun i h1 h2 => by simp [Prog.Noext.dotLoop] at h1; omega⟩
  | n + 1 => by
    rw [Prog.Noext.dotLoop]
    have e : s.getD (n + 1) 0 = 46 ↔ s[n + 1]? = some 46 := by
      unfold List.getD
      cases h : s[n + 1]? with
      | none => simp
      | some c => simp
    split
    · next hne =>
      obtain ⟨h1, h2, h3⟩ := C160_dotLoop s n
      refine ⟨h1, by omega, fun i hi hi' => ?_⟩
      by_cases hin : i ≤ n
      · exact h3 i hi hin
      · rw [show i = n + 1 by omega]; exact fun h => hne (e.mpr h)
    · next hne =>
      refine ⟨.inr (e.mp (by simpa using hne)), Nat.le_refl _, fun i h1 h2 => by omega⟩

/-- C160: an argument that has a dot after its first character is printed up to the last dot; any other is printed as it is; each with a newline, in order. -/
theorem C160_partial (args : List Bytes) : ∃ outs : List Bytes, Prog.Noext.main args = outs.flatMap (· ++ [10]) ∧
    List.Forall₂ (fun s o => (∃ ext, s = o ++ 46 :: ext ∧ o ≠ [] ∧ 46 ∉ ext) ∨ (o = s ∧ 46 ∉ s.drop 1)) args outs := by
  refine ⟨args.map fun s => if Prog.Noext.dot s = 0 then s else s.take (Prog.Noext.dot s), ?_, ?_⟩
  · unfold Prog.Noext.main
    rw [List.flatMap_map]
    congr 1
    funext s
    unfold Prog.Noext.doarg
    split <;> rfl
  · rw [List.forall₂_map_right_iff, List.forall₂_same]
    intro s _
    obtain ⟨h1, h2, h3⟩ := C160_dotLoop s s.length
    show (_ ∨ _)
    unfold Prog.Noext.dot
    generalize Prog.Noext.dotLoop s s.length = k at *
    by_cases hk : k = 0
    · rw [if_pos hk]
      refine .inr ⟨rfl, fun hm => ?_⟩
      obtain ⟨i, hi⟩ := List.mem_iff_getElem?.mp hm
      rw [List.getElem?_drop] at hi
      have hlt : 1 + i < s.length := by
        cases Nat.lt_or_ge (1 + i) s.length with
        | inl h => exact h
        | inr h => rw [List.getElem?_eq_none h] at hi; cases hi
      exact h3 (1 + i) (by omega) (by omega) hi
    · rw [if_neg hk]
      rcases h1 with h1 | h1
      · exact absurd h1 hk
      · have hlt : k < s.length := by
          cases Nat.lt_or_ge k s.length with
          | inl h => exact h
          | inr h => rw [List.getElem?_eq_none h] at h1; cases h1
        rw [List.getElem?_eq_getElem hlt, Option.some.injEq] at h1
        refine .inl ⟨s.drop (k + 1), ?_, ?_, fun hm => ?_⟩
        · rw [← h1, ← List.drop_eq_getElem_cons hlt, List.take_append_drop]
        · intro h
          have := congrArg List.length h
          rw [List.length_take] at this
          simp at this
          rcases this with h | h
          · exact hk h
          · rw [h] at hlt; simp at hlt
        · obtain ⟨i, hi⟩ := List.mem_iff_getElem?.mp hm
          rw [List.getElem?_drop] at hi
          have hlt' : k + 1 + i < s.length := by
            cases Nat.lt_or_ge (k + 1 + i) s.length with
            | inl h => exact h
            | inr h => rw [List.getElem?_eq_none h] at hi; cases hi
          exact h3 (k + 1 + i) (by omega) (by omega) hi

example : Prog.Noext.main [cstr "a.tar.gz", cstr "README", cstr ".profile"] = cstr "a.tar\nREADME\n.profile\n" := by decide +kernel

/-- C160 is false of paths with dots in directories, and of `..`: what is cut is no extension. -/
theorem C160_counterexample : Prog.Noext.main [cstr "conf.d/hosts", cstr ".."] = cstr "conf\n.\n" := by decide +kernel
end Che.Props
