import Verif.Proofs.Crash
import Verif.Proofs.TrModule
import Verif.Proofs.Project
import Verif.Proofs.ParseSoundStmt
import Verif.Proofs.Reorder
/-!
# When translating a project panics
-/
namespace Che
open Spec

/-- No element of the C module makes the printer panic. -/
def Printable (es : List CModElem) : Prop := ∀ e ∈ es, FormatC.panicsElem e = false

theorem addSynopsis_total : ∀ {es : List CModElem} {present : List String},
    (∀ e ∈ es, inSynopsis e = true) → ∃ p new, addSynopsis present es = some (p, new) ∧ ∀ e ∈ new, e ∈ es
  | [], present, _ => ⟨_, _, rfl, by simp⟩
  | e :: es, present, h => by
    have ih := fun present => addSynopsis_total (es := es) (present := present) (fun x hx => h x (by simp [hx]))
    rw [addSynopsis]
    cases hk : getObjKey e with
    | none =>
      have := h e (by simp)
      cases e <;> simp [getObjKey] at hk <;> simp [inSynopsis] at this
    | some k =>
      simp only
      split
      · obtain ⟨p, new, e1, e2⟩ := ih present
        exact ⟨p, new, e1, fun x hx => by simp [e2 x hx]⟩
      · obtain ⟨p, new, e1, e2⟩ := ih (k :: present)
        refine ⟨p, e :: new, by rw [e1]; rfl, fun x hx => ?_⟩
        rcases List.mem_cons.1 hx with rfl | hx
        · simp
        · simp [e2 x hx]

theorem expandLoop_good {c : TrCtx} : ∀ {imps : List ModuleRef} {present : List String},
    (∀ imp ∈ imps, ∃ i m, c.allModHeads.findIdx? (fun x => x.filepath == imp.path) = some i ∧
      c.cmods[i]? = some m) →
    ∃ es, expandLoop c present imps = .ok es ∧ ∀ e ∈ es, ∃ m ∈ c.cmods, e ∈ m.elements
  | [], present, _ => ⟨[], rfl, by simp⟩
  | imp :: rest, present, h => by
    obtain ⟨i, m, h1, h2⟩ := h imp (by simp)
    obtain ⟨p, new, e1, e2⟩ := addSynopsis_total (es := getModuleSynopsis m) (present := present)
      (fun e he => (List.mem_filter.1 he).2)
    obtain ⟨es, e3, e4⟩ := expandLoop_good (imps := rest) (present := p) (fun x hx => h x (by simp [hx]))
    refine ⟨new ++ es, by simp only [expandLoop, h1, h2, e1, e3], fun e he => ?_⟩
    rcases List.mem_append.1 he with he | he
    · exact ⟨m, List.mem_of_getElem? h2, (List.mem_filter.1 (e2 e he)).1⟩
    · exact e4 e he

theorem moduleHead_printable (cs : List String) : Printable (moduleHead cs) := by
  have h : ∀ b : Bool, ∀ e ∈ ([.macro { name := "define", value := "_XOPEN_SOURCE 700" }] ++
      clibs.map (fun n => .include ("<" ++ n ++ ".h>")) ++
      (if b = true then [mkCallocOrPanic] else []) ++
      [.macro { name := "define", value := "nelem(x) (sizeof (x)/sizeof (x)[0])" }] : List CModElem),
      FormatC.panicsElem e = false := by
    intro b
    cases b <;> decide +kernel
  exact h _

/-- Translating one module: success means it is fine, a panic means it is not. -/
theorem translate_out {K : String → Prop} {m : Module} {p : TrParams}
    (hI : Inv K (OnlyType p.allModHeads p.mods p.thisModHead) p.ctx)
    (hg : ∀ e ∈ m.elements, GoodElem K e)
    (himp : ∀ imp ∈ p.thisModHead.imports, ∃ i cm,
      p.allModHeads.findIdx? (fun x => x.filepath == imp.path) = some i ∧ p.cmods[i]? = some cm)
    (hpr : ∀ cm ∈ p.cmods, Printable cm.elements) :
    match translate m p with
    | .ok cm => FineModule p.allModHeads p.mods p.thisModHead m ∧ Printable cm.elements
    | .panic _ => ¬ FineModule p.allModHeads p.mods p.thisModHead m
    | _ => True := by
  have hb := trModuleBody_out hI hg
  unfold translate
  cases hr : trModuleBody m p.ctx with
  | err e => trivial
  | panic s => rw [hr] at hb; exact hb
  | diverge => trivial
  | ok r =>
    obtain ⟨body, c⟩ := r
    rw [hr] at hb
    obtain ⟨e1, -, -, -, -, h6, h7, h8⟩ := trModuleBody_spec hr
    simp only
    cases hu : unusedImport c with
    | some imp => trivial
    | none =>
      simp only
      obtain ⟨es, he, hes⟩ := expandLoop_good (c := c) (imps := c.thisModHead.imports) (present := [])
        (by rw [h6, h7, h8]; exact himp)
      have he : expandImports c = .ok es := he
      simp only [he]
      have hP : Printable (moduleHead c.usedCustoms ++ es ++ body) := by
        intro e h
        rcases List.mem_append.1 h with h | h
        · rcases List.mem_append.1 h with h | h
          · exact moduleHead_printable _ e h
          · obtain ⟨cm, hcm, h⟩ := hes e h
            exact hpr cm (by rwa [h8] at hcm) e h
        · rw [e1] at h
          obtain ⟨x, hx, h⟩ := List.mem_flatMap.1 h
          exact GoodElem.c _ (hg x hx) e h
      have hno : reorderPanics (moduleHead c.usedCustoms ++ es ++ body) = false := by
        rw [Bool.eq_false_iff]
        intro h
        obtain ⟨e, he, h⟩ := List.any_eq_true.1 h
        cases e with
        | structDef s => have h : FormatC.panicsElem (.structDef s) = true := h; rw [hP _ he] at h; cases h
        | _ => simp at h
      rw [hno]
      simp only [Bool.false_eq_true, if_false]
      exact ⟨hb.1, fun e h => hP e (mem_of_mem_reorder h)⟩

theorem findIdx_before {heads : List ModuleInfo} {path : String} {j : Nat} {h : ModuleInfo}
    (hj : heads[j]? = some h) (he : h.filepath = path) :
    ∃ i, heads.findIdx? (fun x => x.filepath == path) = some i ∧ i ≤ j := by
  have hlt := (List.getElem?_eq_some_iff.1 hj).1
  have hval := (List.getElem?_eq_some_iff.1 hj).2
  cases hf : heads.findIdx? (fun x => x.filepath == path) with
  | none =>
    rw [List.findIdx?_eq_none_iff] at hf
    have := hf h (List.mem_of_getElem? hj)
    simp [he] at this
  | some i =>
    refine ⟨i, rfl, ?_⟩
    by_contra hlt'
    have hf := List.findIdx?_eq_some_iff_getElem.1 hf
    obtain ⟨_, _, hmin⟩ := hf
    have := hmin j (by omega)
    simp [hval, he] at this

/-- What a loaded and parsed project guarantees to the translator. -/
structure Loaded (heads : List ModuleInfo) (mods : List Module) : Prop where
  len : mods.length = heads.length
  before : ∀ (i : Nat) (hd : ModuleInfo), heads[i]? = some hd → ∀ imp ∈ hd.imports,
    ∃ (j : Nat) (dep : ModuleInfo), j < i ∧ heads[j]? = some dep ∧ dep.filepath = imp.path
  good : ∀ (i : Nat) (hd : ModuleInfo) (m : Module), heads[i]? = some hd → mods[i]? = some m →
    ∀ e ∈ m.elements, GoodElem (fun ns => hd.imports.any (fun x => x.ns == ns) = true) e

theorem Loaded.translate {heads : List ModuleInfo} {mods : List Module} (L : Loaded heads mods)
    {i : Nat} {h : ModuleInfo} {m : Module} (hi : heads[i]? = some h) (hm : mods[i]? = some m)
    {cmods : List CModule} (hl : cmods.length = i) (hpr : ∀ cm ∈ cmods, Printable cm.elements) :
    match translate m { cmods := cmods, allModHeads := heads, thisModHead := h, mods := mods } with
    | .ok cm => FineModule heads mods h m ∧ Printable cm.elements
    | .panic _ => ¬ FineModule heads mods h m
    | _ => True := by
  have hilt := (List.getElem?_eq_some_iff.1 hi).1
  refine translate_out (K := fun ns => h.imports.any (fun x => x.ns == ns) = true)
    (p := { cmods := cmods, allModHeads := heads, thisModHead := h, mods := mods })
    ⟨?_, rfl⟩ (L.good i h m hi hm) ?_ hpr
  · intro ns hns
    obtain ⟨imp0, h0, h0'⟩ := List.any_eq_true.1 hns
    cases hf : h.imports.find? (fun x => x.ns == ns) with
    | none => exact absurd h0' (by simpa using List.find?_eq_none.1 hf imp0 h0)
    | some imp =>
      obtain ⟨j, dep, hj, hdep, hp⟩ := L.before i h hi imp (List.mem_of_find?_eq_some hf)
      obtain ⟨k, hk, hkj⟩ := findIdx_before hdep hp
      refine ⟨k, heads[k]'(by omega), mods[k]'(by rw [L.len]; omega), ?_, ?_, ?_⟩
      · simp only [getNsPos, TrParams.ctx, hf, hk]
      · exact List.getElem?_eq_getElem _
      · exact List.getElem?_eq_getElem _
  · intro imp himp
    obtain ⟨j, dep, hj, hdep, hp⟩ := L.before i h hi imp himp
    obtain ⟨k, hk, hkj⟩ := findIdx_before hdep hp
    exact ⟨k, cmods[k]'(by omega), hk, List.getElem?_eq_getElem _⟩

/-- A success has property `P`, a panic property `Q`. -/
def Ends {ε α : Type} (P : α → Prop) (Q : Prop) : Res ε α → Prop
  | .ok a => P a
  | .panic _ => Q
  | _ => True

theorem translateLoop_out {heads : List ModuleInfo} {mods : List Module} (L : Loaded heads mods) :
    ∀ {rest : List (ModuleInfo × Module)} {cmods : List CModule},
      (heads.zip mods).drop cmods.length = rest → (∀ cm ∈ cmods, Printable cm.elements) →
      Ends (fun out => (∀ x ∈ rest, FineModule heads mods x.1 x.2) ∧ ∀ cm ∈ out, Printable cm.elements)
        (∃ x ∈ rest, ¬ FineModule heads mods x.1 x.2) (translateLoop mods heads cmods rest)
  | [], cmods, _, hp => ⟨by simp, hp⟩
  | (h, m) :: rest, cmods, hd, hp => by
    have hz : (heads.zip mods)[cmods.length]? = some (h, m) := by
      have := congrArg (·[0]?) hd
      simpa using this
    obtain ⟨hi, hm⟩ := List.getElem?_zip_eq_some.1 hz
    have ht := L.translate hi hm rfl hp
    rw [translateLoop]
    show Ends _ _ (Res.bind _ _)
    cases htr : translate m { cmods := cmods, allModHeads := heads, thisModHead := h, mods := mods } with
    | err e => trivial
    | diverge => trivial
    | panic s => rw [htr] at ht; exact ⟨(h, m), by simp, ht⟩
    | ok cm =>
      rw [htr] at ht
      have ih := translateLoop_out L (rest := rest) (cmods := cmods ++ [cm])
        (by
          have := congrArg (·.drop 1) hd
          simpa [List.drop_drop, Nat.add_comm] using this)
        (by
          intro x hx
          rcases List.mem_append.1 hx with hx | hx
          · exact hp x hx
          · rw [List.mem_singleton.1 hx]; exact ht.2)
      show Ends _ _ (translateLoop mods heads (cmods ++ [cm]) rest)
      cases hl : translateLoop mods heads (cmods ++ [cm]) rest with
      | err e => trivial
      | diverge => trivial
      | panic s =>
        rw [hl] at ih
        obtain ⟨x, hx, h⟩ := ih
        exact ⟨x, by simp [hx], h⟩
      | ok out =>
        rw [hl] at ih
        refine ⟨fun x hx => ?_, ih.2⟩
        rcases List.mem_cons.1 hx with rfl | hx
        · exact ht.1
        · exact ih.1 x hx

end Che
