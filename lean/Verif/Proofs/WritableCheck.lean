import Verif.Proofs.WritableProject
/-!
# A test for `Writable` and `Bracketed`, for the examples
-/
namespace Che.Proofs.WritableCheck
open Che Spec Proofs.LeavesPlain

/-- The words are the type names. -/
def among (tys : List String) (w : String) : Bool := tys.contains w

def rawB : List Char → Bool
  | [] => true
  | '\\' :: c :: cs => c != '\n' && rawB cs
  | c :: cs => c != '"' && c != '\\' && rawB cs

theorem rawB_raw : ∀ {l : List Char}, rawB l = true → RawBody l
  | [], _ => .nil
  | c :: cs, h => by
    by_cases hc : c = '\\'
    · subst hc
      cases cs with
      | nil => simp [rawB] at h
      | cons d ds =>
        simp only [rawB, Bool.and_eq_true, bne_iff_ne] at h
        exact .esc h.1 (rawB_raw h.2)
    · rw [rawB.eq_3 _ _ (by rintro x y rfl; exact absurd rfl hc)] at h
      simp only [Bool.and_eq_true, bne_iff_ne] at h
      exact .plain h.1.1 h.1.2 (rawB_raw h.2)

def litB (q : Char) : List Char → Bool
  | [] => true
  | '\\' :: c :: cs => c != '\n' && litB q cs
  | c :: cs => c != q && c != '\\' && c != '\n' && litB q cs

theorem litB_lit {q : Char} : ∀ {l : List Char}, litB q l = true → LitBody q l
  | [], _ => .nil
  | c :: cs, h => by
    by_cases hc : c = '\\'
    · subst hc
      cases cs with
      | nil => simp [litB] at h
      | cons d ds =>
        simp only [litB, Bool.and_eq_true, bne_iff_ne] at h
        exact .esc h.1 (litB_lit h.2)
    · rw [litB.eq_3 _ _ _ (by rintro x y rfl; exact absurd rfl hc)] at h
      simp only [Bool.and_eq_true, bne_iff_ne] at h
      exact .plain h.1.1.1 h.1.1.2 h.1.2 (litB_lit h.2)

def ppB : Char → List Char → Bool
  | _, [] => true
  | p, c :: cs => (cIdChar c || c == '.' || (c == '+' || c == '-') && ['e', 'E', 'p', 'P'].contains p) && ppB c cs

theorem ppB_pp : ∀ {p : Char} {l : List Char}, ppB p l = true → PPTail p l
  | _, [], _ => trivial
  | p, c :: cs, h => by
    simp only [ppB, Bool.and_eq_true, Bool.or_eq_true, beq_iff_eq, List.contains_iff_mem] at h
    refine ⟨?_, ppB_pp h.2⟩
    rcases h.1 with (h | h) | h
    · exact .inl h
    · exact .inr (.inl h)
    · exact .inr (.inr h)

def plainLitB (tys : List String) : CLiteral → Bool
  | .char v => !v.toList.isEmpty && litB '\'' v.toList
  | .string v => rawB v.toList
  | .number v => match v.toList with
    | c :: cs => cDigit c && ppB c cs
    | [] => false
  | .null => !tys.contains "NULL"

theorem plainLitB_plain {tys : List String} {l : CLiteral} (h : plainLitB tys l = true) : PlainLit (among tys) l := by
  cases l with
  | char v =>
    simp only [plainLitB, Bool.and_eq_true, Bool.not_eq_true', List.isEmpty_eq_false_iff] at h
    exact ⟨h.1, litB_lit h.2⟩
  | string v => exact rawB_raw h
  | number v =>
    simp only [plainLitB] at h
    split at h
    · rename_i c cs hv
      simp only [Bool.and_eq_true] at h
      exact ⟨c, cs, hv, h.1, ppB_pp h.2⟩
    · cases h
  | null =>
    simp only [plainLitB, Bool.not_eq_true'] at h
    exact ⟨h, by decide⟩

def fineB (M : ModEnv) (tys : List String) : Leaf → Bool
  | .value x => isWord x.toList && !cKeywords.contains x && !tys.contains x &&
      tys.all (fun t => !(('_' :: '_' :: x.toList).isSuffixOf t.toList))
  | .field x => isWord x.toList && !cKeywords.contains x
  | .type n => isWord n.name.toList && (tys.contains (emitTypename M ⟨false, n⟩).name &&
      ((emitTypename M ⟨false, n⟩).name != "const" && (emitTypename M ⟨false, n⟩).name != "sizeof"))
  | .tag x => isWord x.toList && !cKeywords.contains x
  | .lit l => plainLitB tys (emitLit l)

theorem fineB_fine {M : ModEnv} {tys : List String} {l : Leaf} (h : fineB M tys l = true) : LeafFine M (among tys) l := by
  have nk : ∀ {x : String}, cKeywords.contains x = false → x ∉ cKeywords := fun hx hm => by
    rw [List.contains_iff_mem.mpr hm] at hx; cases hx
  cases l with
  | value x =>
    simp only [fineB, Bool.and_eq_true, Bool.not_eq_true', List.all_eq_true] at h
    refine ⟨isWord_word h.1.1.1, nk h.1.1.2, h.1.2, fun u => ?_⟩
    unfold among
    rw [Bool.eq_false_iff]
    intro hm
    have := h.2 _ (List.contains_iff_mem.mp hm)
    rw [Bool.eq_false_iff] at this
    apply this
    rw [List.isSuffixOf_iff_suffix]
    exact ⟨u.toList, by simp [globalName]⟩
  | field x =>
    simp only [fineB, Bool.and_eq_true, Bool.not_eq_true'] at h
    exact ⟨isWord_word h.1, nk h.2⟩
  | type n =>
    simp only [fineB, Bool.and_eq_true, bne_iff_ne] at h
    exact ⟨isWord_word h.1, h.2⟩
  | tag x =>
    simp only [fineB, Bool.and_eq_true, Bool.not_eq_true'] at h
    exact ⟨isWord_word h.1, nk h.2⟩
  | lit l => exact plainLitB_plain h

def neatB' : ModElem → Bool
  | .macro x => x.name == "type" || x.name == "link" || isDirLine (x.name ++ " " ++ x.value).toList
  | .enum x => !x.entries.isEmpty && x.entries.all (fun m => neatOpt m.val)
  | .structAlias _ => true
  | .typedef x => match x.funcParams with
    | some p => !p.ellipsis || !p.forms.isEmpty
    | none => true
  | .structTypedef x => !x.entries.isEmpty && x.entries.all neatMember
  | .modVar d => neatForm d.form && neatOpt d.value
  | .funcDecl f => neatForm f.form && f.params.list.all (fun g => !g.forms.isEmpty && g.forms.all neatForm) &&
      (!f.params.ellipsis || !f.params.list.isEmpty) && neatSs f.body

theorem neatB_neat {e : ModElem} (h : neatB' e = true) : NeatElem e := by
  cases e with
  | «macro» x =>
    simp only [neatB', Bool.or_eq_true, beq_iff_eq] at h
    rcases h with (h | h) | h
    · exact .inl h
    · exact .inr (.inl h)
    · exact .inr (.inr (isDirLine_dir h))
  | enum x =>
    simp only [neatB', Bool.and_eq_true, Bool.not_eq_true', List.isEmpty_eq_false_iff, List.all_eq_true] at h
    exact h
  | structAlias x => trivial
  | typedef x =>
    intro p hp he
    simp only [neatB', hp, he, Bool.not_true, Bool.false_or, Bool.not_eq_true', List.isEmpty_eq_false_iff] at h
    exact h
  | structTypedef x =>
    simp only [neatB', Bool.and_eq_true, Bool.not_eq_true', List.isEmpty_eq_false_iff, List.all_eq_true] at h
    exact h
  | modVar d =>
    simp only [neatB', Bool.and_eq_true] at h
    exact h
  | funcDecl f =>
    simp only [neatB', Bool.and_eq_true, Bool.not_eq_true', List.isEmpty_eq_false_iff, List.all_eq_true (l := f.params.list),
      Bool.or_eq_true] at h
    refine ⟨h.1.1.1, h.1.1.2, fun he => ?_, h.2⟩
    rcases h.1.2 with h | h
    · rw [he] at h; cases h
    · exact h

def speltB (M : ModEnv) (tys : List String) (e : ModElem) : Bool := (leavesElem e).all (fineB M tys) && neatB' e

theorem speltB_spelt {M : ModEnv} {tys : List String} {e : ModElem} (h : speltB M tys e = true) : SpeltElem M (among tys) e := by
  simp only [speltB, Bool.and_eq_true, List.all_eq_true] at h
  exact ⟨fun l hl => fineB_fine (h.1 l hl), neatB_neat h.2⟩

/-- The environments of the modules. -/
def envs (p : Project) : List (Module × ModEnv) :=
  (p.modheads.zip p.modules).map fun (h, mo) =>
    (mo, moduleEnv Cspec.hasType (fun x => (Cspec.findSym x).isSome) p.modheads p.modules h mo)

theorem envs_get {p : Project} {i : Nat} {mo : Module} {M : ModEnv} (h : EnvAt p i mo M) : (envs p)[i]? = some (mo, M) := by
  obtain ⟨h, h1, h2, rfl⟩ := h
  simp only [envs, List.getElem?_map]
  rw [List.getElem?_zip_eq_some (z := (h, mo)) |>.mpr ⟨h1, h2⟩]
  rfl

/-- The words and helpers are as they must be. -/
def namesB (tys : List String) : Bool :=
  ["break", "case", "continue", "default", "do", "else", "for", "goto", "if", "return", "switch", "while",
    "enum", "static", "struct", "typedef", "union",
    "calloc", "calloc_or_panic", "count", "exit", "fprintf", "size", "stderr", "strcmp", "x"].all (fun w => !tys.contains w) &&
  tys.contains "void" && tys.contains "size_t"

/-- `Writable` and `Bracketed` as a test. -/
def writableB (p : Project) (i : Nat) (tys : List String) : Bool :=
  namesB tys &&
  p.modheads.all (fun h => (RStr.replace (basename h.filepath) ".c" "").toList.all cIdChar &&
    !h.filepath.toList.contains '"' && !h.filepath.toList.contains '\\') &&
  (match (envs p)[i]? with
   | some (mo, M) => mo.elements.all (fun e => speltB M tys e && faithElem e)
   | none => false) &&
  (envs p).all (fun (mo, M) => (mo.elements.filterMap shownElem).all (fun e => speltB M tys e && faithElem e)) &&
  p.modules.length == p.modheads.length

theorem writableB_spec {p : Project} {i : Nat} {tys : List String} (h : writableB p i tys = true) :
    Writable p i (among tys) ∧ Bracketed p i := by
  simp only [writableB, Bool.and_eq_true] at h
  obtain ⟨⟨⟨⟨h1, h2⟩, h3⟩, h4⟩, h5⟩ := h
  have h5 : p.modules.length = p.modheads.length := by simpa using h5
  have env : ∀ {j : Nat} {mo : Module}, p.modules[j]? = some mo → ∃ M, EnvAt p j mo M := by
    intro j mo hj
    have hl : j < p.modheads.length := by rw [← h5]; exact (List.getElem?_eq_some_iff.1 hj).1
    exact ⟨_, p.modheads[j], by simp [hl], hj, rfl⟩
  have own : ∀ mo M, EnvAt p i mo M → ∀ e ∈ mo.elements, SpeltElem M (among tys) e ∧ faithElem e = true := by
    intro mo M hM e he
    rw [envs_get hM] at h3
    simp only [List.all_eq_true, Bool.and_eq_true] at h3
    exact ⟨speltB_spelt (h3 e he).1, (h3 e he).2⟩
  have shown : ∀ j mo M, EnvAt p j mo M → ∀ e ∈ mo.elements.filterMap shownElem, SpeltElem M (among tys) e ∧ faithElem e = true := by
    intro j mo M hM e he
    simp only [List.all_eq_true, Bool.and_eq_true] at h4
    have := h4 (mo, M) (List.mem_of_getElem? (envs_get hM)) e he
    exact ⟨speltB_spelt this.1, this.2⟩
  simp only [namesB, Bool.and_eq_true, List.all_eq_true, Bool.not_eq_true'] at h1
  obtain ⟨⟨n1, n2⟩, n3⟩ := h1
  refine ⟨⟨⟨fun w hw => n1 w ?_, fun w hw => n1 w ?_⟩, ⟨fun w hw => n1 w ?_, n2, n3⟩, fun h hh => ?_,
    fun mo M hM e he => (own mo M hM e he).1, fun j _ mo M hM e he => (shown j mo M hM e he).1⟩,
    ⟨fun mo hmo e he => ?_, fun j _ mo hmo e he => ?_⟩⟩
  · revert w; decide
  · revert w; decide
  · revert w; decide
  · simp only [List.all_eq_true, Bool.and_eq_true, Bool.not_eq_true'] at h2
    have := h2 h hh
    exact ⟨this.1.1, by simpa using this.1.2, by simpa using this.2⟩
  · obtain ⟨M, hM⟩ := env hmo
    exact (own mo M hM e he).2
  · obtain ⟨M, hM⟩ := env hmo
    exact (shown j mo M hM e he).2

end Che.Proofs.WritableCheck
