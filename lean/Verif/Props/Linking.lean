import Verif.Proofs.Project
import Verif.Spec.Demo
import Mathlib.Data.List.Nodup
/-!
# C16: the libraries given to the linker
-/
namespace Che.Props
open Che

/-- `res` lists the elements of `all` in order of first mention, each once. -/
def FirstMentions (all res : List String) : Prop :=
  (∀ l, l ∈ res ↔ l ∈ all) ∧ res.Pairwise (fun a b => all.idxOf a < all.idxOf b)

/-- At most one list is the list of first mentions. -/
theorem FirstMentions.unique {all r s : List String} (hr : FirstMentions all r)
    (hs : FirstMentions all s) : r = s := by
  have hperm : List.Perm r s := by
    have nr : r.Nodup := hr.2.imp (fun h e => by subst e; exact absurd h (Nat.lt_irrefl _))
    have ns : s.Nodup := hs.2.imp (fun h e => by subst e; exact absurd h (Nat.lt_irrefl _))
    rw [List.perm_ext_iff_of_nodup nr ns]
    intro a; rw [hr.1, hs.1]
  exact hperm.eq_of_pairwise (fun a b _ _ h1 h2 => absurd (Nat.lt_trans h1 h2) (Nat.lt_irrefl _))
    hr.2 hs.2

theorem firstMentions_addLink {all res : List String} (h : FirstMentions all res) (l : String) :
    FirstMentions (all ++ [l]) (addLink res l) := by
  have hidx : ∀ a ∈ all, (all ++ [l]).idxOf a = all.idxOf a := fun a ha => by
    rw [List.idxOf_append, if_pos ha]
  unfold addLink
  split
  · rename_i hc
    have hl : l ∈ all := (h.1 l).1 (by simpa using hc)
    refine ⟨fun a => ?_, ?_⟩
    · rw [h.1]; simp only [List.mem_append, List.mem_singleton]
      exact ⟨.inl, fun h => h.elim id (fun e => e ▸ hl)⟩
    · refine (List.Pairwise.and_mem.1 h.2).imp ?_
      rintro a b ⟨ha, hb, hab⟩
      rwa [hidx a ((h.1 a).1 ha), hidx b ((h.1 b).1 hb)]
  · rename_i hc
    have hl : l ∉ all := fun hm => hc (by simpa using (h.1 l).2 hm)
    refine ⟨fun a => ?_, ?_⟩
    · simp only [List.mem_append, h.1]
    · rw [List.pairwise_append]
      refine ⟨?_, List.pairwise_singleton _ _, ?_⟩
      · refine (List.Pairwise.and_mem.1 h.2).imp ?_
        rintro a b ⟨ha, hb, hab⟩
        rwa [hidx a ((h.1 a).1 ha), hidx b ((h.1 b).1 hb)]
      · intro a ha b hb
        simp only [List.mem_singleton] at hb; subst hb
        have ha := (h.1 a).1 ha
        rw [hidx a ha, List.idxOf_append, if_neg hl]
        have := List.idxOf_lt_length_of_mem ha
        omega

theorem firstMentions_foldl : ∀ (ls : List String) {all res : List String},
    FirstMentions all res → FirstMentions (all ++ ls) (ls.foldl addLink res)
  | [], _, _, h => by simpa using h
  | l :: ls, _, _, h => by
    have := firstMentions_foldl ls (firstMentions_addLink h l)
    simpa using this

theorem firstMentions_linkLibs : ∀ (cs : List CModule) {all res : List String},
    FirstMentions all res →
    FirstMentions (all ++ cs.flatMap (·.link))
      (cs.foldl (fun link c => c.link.foldl addLink link) res)
  | [], _, _, h => by simpa using h
  | c :: cs, _, _, h => by
    have := firstMentions_linkLibs cs (firstMentions_foldl c.link h)
    simpa using this

/-- The untrimmed library names of a project: `m`, then the `#link` values. -/
theorem linkLibs_spec (cs : List CModule) :
    FirstMentions ("m" :: cs.flatMap (·.link)) (linkLibs cs) := by
  have : FirstMentions ["m"] ["m"] := ⟨fun _ => Iff.rfl, List.pairwise_singleton _ _⟩
  have := firstMentions_linkLibs cs this
  simpa [linkLibs] using this

/-- The `#link` values of a module, in order. -/
def linkValues (m : Module) : List String :=
  m.elements.filterMap (fun e =>
    match e with
    | .macro x => if x.name = "link" then some x.value else none
    | _ => none)

/-- C16: `c99` is given the flags, the files, the output and one `-l` per
library: `m` first and then the `#link` values of all modules in order of first
mention, each value once.  What is missing: values are compared before they are
trimmed (see `C16_counterexample`). -/
theorem C16_partial [Unicode] {fs : FS} {hash : String → String} {macos : Bool} {fuel : Nat}
    {source output : String} {plan : BuildPlan}
    (h : buildPlan fs hash macos fuel source output = .ok plan) :
    ∃ proj libs, parseProject fs fuel source = .ok proj ∧
      FirstMentions ("m" :: proj.modules.flatMap linkValues) libs ∧
      plan.args = ccFlags macos ++ plan.files.map (·.path) ++ ["-o", output] ++
        libs.flatMap (fun l => ["-l", RStr.trim l]) := by
  simp only [buildPlan, Res.bind_eq_ok] at h
  obtain ⟨proj, hp, h⟩ := h
  obtain ⟨files, _, h⟩ := h
  simp only [pure, Res.ok.injEq] at h
  subst h
  refine ⟨proj, linkLibs proj.cmodules, hp, ?_, rfl⟩
  have hparts := parseProject_ok hp
  have : proj.modules.flatMap linkValues = proj.cmodules.flatMap (·.link) := by
    rw [List.flatMap, List.flatMap]
    congr 1
    apply List.ext_getElem?
    intro i
    simp only [List.getElem?_map]
    by_cases hi : i < proj.modheads.length
    · obtain ⟨m, hm, _⟩ := hparts.parsed i _ (List.getElem?_eq_getElem hi)
      obtain ⟨c, hc, ht⟩ := hparts.translated i _ m (List.getElem?_eq_getElem hi) hm
      rw [hm, hc]
      simp only [Option.map_some, translate_link ht]
      rfl
    · rw [List.getElem?_eq_none (by rw [hparts.mods_len]; omega),
        List.getElem?_eq_none (by rw [hparts.cmods_len]; omega)]
      rfl
  rw [this]
  exact linkLibs_spec _

section Examples
attribute [local instance] asciiOnly

/-- A one-file project that links `m` and, twice, `pthread`. -/
def linkDemo : FS := memFS [("/p/main.c",
  "#link m\n#link pthread\n#link pthread\nint main() { return 0; }\n")]

/-- C16 is false as stated: `#link m` makes the linker get `-l m` twice, because
the macro value still has its leading blank when duplicates are looked for. -/
theorem C16_counterexample :
    (match buildPlan linkDemo id true 2000 "/p/main.c" "out" with
     | .ok p => p.args.drop 4 | _ => []) = ["-l", "m", "-l", "m", "-l", "pthread"] := by
  decide +kernel

end Examples
end Che.Props
