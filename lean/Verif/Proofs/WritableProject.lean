import Verif.Proofs.LeavesPlain3
import Verif.Spec.Writable
import Verif.Props.Modules
import Verif.Props.Naming
import Verif.Proofs.ParseSoundStmt
/-!
# Writable projects have plain C modules
-/
namespace Che.Proofs.WritableProject
open Che Spec Props Proofs.LeavesPlain

theorem parseMod_good [Unicode] {fs : FS} {fuel : Nat} {heads : List ModuleInfo} {h : ModuleInfo} {m : Module}
    (hm : parseMod fs fuel heads h = .ok m) : ∃ K, ∀ e ∈ m.elements, GoodElem K e := by
  unfold parseMod at hm
  repeat (split at hm <;> try cases hm)
  rename_i hp
  exact ⟨_, ModG.good (parseModule_ok hp).1⟩

theorem uid_word {i : Nat} {p : String} (h : ∀ c ∈ (RStr.replace (basename p) ".c" "").toList, cIdChar c = true) :
    CWord (modId i p).toList := by
  rw [toList_modId]
  refine ⟨'m', _, rfl, by decide, fun x hx => ?_⟩
  simp only [List.mem_cons, List.mem_append] at hx
  rcases hx with rfl | rfl | hx | rfl | hx
  · decide
  · decide
  · have := Nat.isDigit_of_mem_toDigits (by decide) (by decide) hx
    simp only [Char.isDigit, Bool.and_eq_true, decide_eq_true_eq] at this
    simp only [cIdChar, cDigit, Bool.or_eq_true, Bool.and_eq_true, decide_eq_true_eq]
    exact .inr ⟨this.1, this.2⟩
  · decide
  · exact h x hx

section
variable [Unicode] {fs : FS} {fuel : Nat} {main : String} {p : Project} {ty : String → Bool}

theorem head_uid (hp : parseProject fs fuel main = .ok p) (hf : FilesFine p) {i : Nat} {h : ModuleInfo}
    (hi : p.modheads[i]? = some h) :
    CWord h.uniqid.toList := by
  obtain ⟨_, _, _, _, hget⟩ := projectHeads_get (parseProject_ok hp).heads
  obtain ⟨m, _, hm⟩ := hget i h hi
  have : h.uniqid = modId i h.filepath := congrArg ModuleInfo.uniqid hm
  rw [this]
  exact uid_word (hf h (List.mem_of_getElem? hi)).1

theorem env_fine (hp : parseProject fs fuel main = .ok p) (hf : FilesFine p) {i mo M} (h : EnvAt p i mo M) : EnvFine M := by
  obtain ⟨h, h1, h2, rfl⟩ := h
  refine ⟨head_uid hp hf h1, fun ns u hu => ?_, (hf h (List.mem_of_getElem? h1)).2⟩
  simp only [moduleEnv, Option.bind_eq_some_iff, Option.map_eq_some_iff] at hu
  obtain ⟨j, _, h', hj, rfl⟩ := hu
  exact head_uid hp hf hj

omit [Unicode] in
/-- What the importers see of the C elements of an element is what they see of the element. -/
theorem shown_emit {M : ModEnv} {Γ : Scopes} {e : ModElem} {c : CModElem} (hc : c ∈ emitElem M Γ e)
    (hi : isInterface c = true) : ∃ e', shownElem e = some e' ∧ c ∈ emitElem M Γ e' := by
  cases e with
  | «macro» x => exact ⟨_, rfl, hc⟩
  | enum x =>
    simp only [emitElem, List.mem_singleton] at hc
    subst hc
    simp only [isInterface, Bool.not_not] at hi
    exact ⟨.enum x, by simp [shownElem, hi], by simp [emitElem]⟩
  | structAlias x =>
    simp only [emitElem, List.mem_singleton] at hc
    subst hc
    simp only [isInterface] at hi
    exact ⟨.structAlias x, by simp [shownElem, hi], by simp [emitElem]⟩
  | typedef x =>
    simp only [emitElem, List.mem_singleton] at hc
    subst hc
    simp only [isInterface] at hi
    exact ⟨.typedef x, by simp [shownElem, hi], by simp [emitElem]⟩
  | structTypedef x =>
    have hc' := hc
    simp only [emitElem, List.mem_cons, List.not_mem_nil, or_false] at hc
    have hx : x.ispub = true := by
      rcases hc with rfl | rfl | rfl
      · cases hi
      · exact hi
      · exact hi
    exact ⟨.structTypedef x, by simp [shownElem, hx], hc'⟩
  | modVar d =>
    simp only [emitElem] at hc
    split at hc
    · simp only [List.mem_singleton] at hc
      subst hc
      cases hi
    · cases hc
  | funcDecl f =>
    simp only [emitElem, List.mem_cons] at hc
    rcases hc with rfl | hc
    · cases hi
    · split at hc
      · cases hc
      · rename_i hn
        simp only [List.mem_singleton] at hc
        subst hc
        simp only [isInterface, emitProto, Bool.not_not] at hi
        refine ⟨.funcDecl { f with body := [] }, by simp [shownElem, hi], ?_⟩
        simp only [emitElem, hn, if_false, List.mem_cons, List.not_mem_nil, or_false]
        exact .inr rfl

omit [Unicode] in
theorem shown_good {K : String → Prop} {e e' : ModElem} (h : shownElem e = some e') (g : GoodElem K e) : GoodElem K e' := by
  cases e with
  | funcDecl f =>
    simp only [shownElem] at h
    split at h
    · cases h
      simp only [GoodElem] at g ⊢
      exact ⟨g.1, g.2.1, g.2.2.1, by simp [GoodSs]⟩
    · cases h
  | _ => simp only [shownElem] at h <;> first | (split at h <;> cases h; exact g) | (cases h; exact g) | cases h

/-- Any condition on C elements that holds of the head of modules, of what is emitted for the
elements of module `i`, and of what is shown of the elements of its imports, holds of the
elements of its C module. -/
theorem project_elems (hp : parseProject fs fuel main = .ok p) {P : CModElem → Prop}
    (hhead : ∀ customs, ∀ e ∈ moduleHead customs, P e) {i : Nat} {cm : CModule} (hcm : p.cmodules[i]? = some cm)
    (own : ∀ mo M, EnvAt p i mo M → ∀ Γ, ∀ e ∈ mo.elements, ∀ c ∈ emitElem M Γ e, P c)
    (shown : ∀ j, Needs p i j → ∀ mo M, EnvAt p j mo M → ∀ Γ, ∀ e ∈ mo.elements.filterMap shownElem,
      ∀ c ∈ emitElem M Γ e, P c) : ∀ c ∈ cm.elements, P c := by
  have hparts := parseProject_ok hp
  have get : ∀ {j : Nat} {cm' : CModule}, p.cmodules[j]? = some cm' → ∃ (h : ModuleInfo) (mo : Module), p.modheads[j]? = some h ∧ p.modules[j]? = some mo := by
    intro j cm' hj
    have h1 : j < p.modheads.length := by
      rw [← hparts.cmods_len]; exact (List.getElem?_eq_some_iff.1 hj).1
    have h2 : j < p.modules.length := by rw [hparts.mods_len]; exact h1
    exact ⟨p.modheads[j], p.modules[j], by simp [h1], by simp [h2]⟩
  have step : ∀ n j, j ≤ n → ∀ cm', p.cmodules[j]? = some cm' →
      (∀ mo M, EnvAt p j mo M → ∀ Γ, ∀ e ∈ mo.elements.filterMap shownElem, ∀ c ∈ emitElem M Γ e, P c) →
      (∀ k, Needs p j k → ∀ mo M, EnvAt p k mo M → ∀ Γ, ∀ e ∈ mo.elements.filterMap shownElem,
        ∀ c ∈ emitElem M Γ e, P c) → ∀ c ∈ cm'.elements, isInterface c = true → P c := by
    intro n
    induction n with
    | zero =>
      intro j hj cm' hcm' o sh c hc hi
      obtain ⟨h, mo, a1, a2⟩ := get hcm'
      obtain ⟨imported, customs, e, b1, _⟩ := C34_imports hp a1 a2 hcm'
      rw [e] at hc
      replace hc := mem_of_mem_reorder hc
      rw [List.mem_append, List.mem_append, List.mem_flatMap] at hc
      rcases hc with (hc | hc) | ⟨x, hx, hc⟩
      · exact hhead _ c hc
      · obtain ⟨imp, _, j', h', cm'', hlt, _⟩ := b1 c hc
        omega
      · obtain ⟨e', he', hc'⟩ := shown_emit hc hi
        exact o mo _ ⟨h, a1, a2, rfl⟩ _ e' (List.mem_filterMap.mpr ⟨x, hx, he'⟩) c hc'
    | succ n ih =>
      intro j hj cm' hcm' o sh c hc hi
      obtain ⟨h, mo, a1, a2⟩ := get hcm'
      obtain ⟨imported, customs, e, b1, _⟩ := C34_imports hp a1 a2 hcm'
      rw [e] at hc
      replace hc := mem_of_mem_reorder hc
      rw [List.mem_append, List.mem_append, List.mem_flatMap] at hc
      rcases hc with (hc | hc) | ⟨x, hx, hc⟩
      · exact hhead _ c hc
      · obtain ⟨imp, hi1, j', h', cm'', hlt, c1, c2, c3, c4, c5⟩ := b1 c hc
        have hn : ImportsMod p j j' := ⟨h, h', a1, c1, imp, hi1, c2.symm⟩
        exact ih j' (by omega) cm'' c3 (sh j' (.one hn)) (fun k hk => sh k (.more hn hk)) c c4 c5
      · obtain ⟨e', he', hc'⟩ := shown_emit hc hi
        exact o mo _ ⟨h, a1, a2, rfl⟩ _ e' (List.mem_filterMap.mpr ⟨x, hx, he'⟩) c hc'
  intro c hc
  obtain ⟨h, mo, a1, a2⟩ := get hcm
  obtain ⟨imported, customs, e, b1, _⟩ := C34_imports hp a1 a2 hcm
  rw [e] at hc
  replace hc := mem_of_mem_reorder hc
  rw [List.mem_append, List.mem_append, List.mem_flatMap] at hc
  rcases hc with (hc | hc) | ⟨x, hx, hc⟩
  · exact hhead _ c hc
  · obtain ⟨imp, hi1, j', h', cm'', hlt, c1, c2, c3, c4, c5⟩ := b1 c hc
    have hn : ImportsMod p i j' := ⟨h, h', a1, c1, imp, hi1, c2.symm⟩
    exact step j' j' (Nat.le_refl _) cm'' c3 (shown j' (.one hn)) (fun k hk => shown k (.more hn hk)) c c4 c5
  · exact own mo _ ⟨h, a1, a2, rfl⟩ _ x hx c hc

theorem mod_good (hp : parseProject fs fuel main = .ok p) {i mo M} (h : EnvAt p i mo M) :
    ∃ K, ∀ e ∈ mo.elements, GoodElem K e := by
  obtain ⟨h, h1, h2, _⟩ := h
  obtain ⟨m, hm, hm2⟩ := (parseProject_ok hp).parsed i h h1
  rw [h2] at hm
  cases hm
  exact parseMod_good hm2

/-- The C module of a writable module is plain. -/
theorem project_plain (hp : parseProject fs fuel main = .ok p) {i : Nat} {cm : CModule} (hcm : p.cmodules[i]? = some cm)
    (hw : Writable p i ty) : ∀ c ∈ cm.elements, PlainElem ty c := by
  refine project_elems hp (plain_head hw.helpers) hcm ?_ ?_
  · intro mo M hM Γ e he c hc
    obtain ⟨K, hK⟩ := mod_good hp hM
    obtain ⟨s1, s2⟩ := hw.own mo M hM e he
    exact plain_elem (env_fine hp hw.files hM) hw.helpers s1 (hK e he) s2 hc
  · intro j hj mo M hM Γ e he c hc
    obtain ⟨K, hK⟩ := mod_good hp hM
    obtain ⟨s1, s2⟩ := hw.shown j hj mo M hM e he
    obtain ⟨x, hx, hx2⟩ := List.mem_filterMap.mp he
    exact plain_elem (env_fine hp hw.files hM) hw.helpers s1 (shown_good hx2 (hK x hx)) s2 hc

/-- The C module of a bracketed module is faithful. -/
theorem project_faithful (hp : parseProject fs fuel main = .ok p) {i : Nat} {cm : CModule} (hcm : p.cmodules[i]? = some cm)
    (hb : Bracketed p i) : cm.elements.all FaithfulElem = true := by
  rw [List.all_eq_true]
  refine project_elems hp faith_head hcm ?_ ?_
  · rintro mo M ⟨h, h1, h2, _⟩ Γ e he c hc
    exact faith_elem (hb.own mo h2 e he) hc
  · rintro j hj mo M ⟨h, h1, h2, _⟩ Γ e he c hc
    exact faith_elem (hb.shown j hj mo h2 e he) hc

end
end Che.Proofs.WritableProject
