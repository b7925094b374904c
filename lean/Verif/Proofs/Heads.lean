import Verif.Proofs.LoadTree
/-!
# Lemmas about the list of module heads
-/
namespace Che
open Spec

/-- A module head without its identifier. -/
def sameHead (a b : ModuleInfo) : Prop :=
  a.filepath = b.filepath ∧ a.imports = b.imports ∧ a.typedefs = b.typedefs

theorem preparse_filepath [Unicode] {fs : FS} {fuel : Nat} {p : String} {m : ModuleInfo}
    (h : preparse fs fuel p = .ok m) : m.filepath = p := by
  unfold preparse at h
  split at h
  · cases h
  · split at h <;> cases h; rfl

theorem lookupHeads_spec {pre : String → Res String ModuleInfo} {cache : Cache}
    (hc : CacheOk pre cache) : ∀ {ps : List String} {ms : List ModuleInfo},
    lookupHeads cache ps = some ms → List.Forall₂ (fun p m => pre p = .ok m) ps ms := by
  intro ps
  induction ps with
  | nil => intro ms h; simp [lookupHeads] at h; subst h; exact .nil
  | cons p ps ih =>
    intro ms h
    unfold lookupHeads at h
    split at h <;> simp only [Option.some.injEq, reduceCtorEq] at h
    rename_i m ms' hm hms
    subst h
    exact .cons (hc _ _ hm) (ih hms)

theorem lookupHeads_some {cache : Cache} : ∀ {ps : List String},
    (∀ p ∈ ps, ∃ m, mapGet cache p = some m) → ∃ ms, lookupHeads cache ps = some ms := by
  intro ps
  induction ps with
  | nil => intro _; exact ⟨[], rfl⟩
  | cons p ps ih =>
    intro h
    obtain ⟨m, hm⟩ := h p (by simp)
    obtain ⟨ms, hms⟩ := ih (fun q hq => h q (by simp [hq]))
    exact ⟨m :: ms, by simp [lookupHeads, hm, hms]⟩

theorem assignIds_spec : ∀ (ms : List ModuleInfo) (i : Nat),
    assignIds i ms = ms.mapIdx (fun k m => { m with uniqid := modId (i + k) m.filepath }) := by
  intro ms
  induction ms with
  | nil => intro i; simp [assignIds]
  | cons m ms ih =>
    intro i
    simp only [assignIds, List.mapIdx_cons, Nat.add_zero, ih]
    congr 2
    funext k m
    rw [Nat.add_assoc, Nat.add_comm 1 k]

theorem assignIds_length (ms : List ModuleInfo) (i : Nat) : (assignIds i ms).length = ms.length := by
  simp [assignIds_spec]

theorem assignIds_get (ms : List ModuleInfo) (k : Nat) (h : k < ms.length) :
    (assignIds 0 ms)[k]? = some { ms[k] with uniqid := modId k ms[k].filepath } := by
  simp [assignIds_spec, h]

/-- Everything `parse_project` knows about the heads it goes on with. -/
theorem projectHeads_spec [Unicode] {fs : FS} {fuel : Nat} {main : String} {heads : List ModuleInfo}
    (h : projectHeads fs fuel main = .ok heads) :
    ∃ l c ms, loadTree (preparse fs fuel) fuel [] main [] = .ok (l, c) ∧
      List.Forall₂ (fun p m => preparse fs fuel p = .ok m) (modOrder l) ms ∧
      heads = assignIds 0 ms := by
  unfold projectHeads at h
  cases hl : loadTree (preparse fs fuel) fuel [] main [] with
  | ok r =>
    obtain ⟨l, c⟩ := r
    rw [hl] at h
    obtain ⟨_, hc, _, _, _⟩ := loadTree_ok _ CacheOk.nil hl
    simp only [Res.mapErr, bind, Res.bind] at h
    split at h
    · cases h
    · rename_i ms hms
      simp only [pure, Res.ok.injEq] at h
      exact ⟨l, c, ms, rfl, lookupHeads_spec hc hms, h.symm⟩
  | err e => rw [hl] at h; simp [Res.mapErr, bind, Res.bind] at h
  | panic e => rw [hl] at h; simp [Res.mapErr, bind, Res.bind] at h
  | diverge => rw [hl] at h; simp [Res.mapErr, bind, Res.bind] at h

theorem forall₂_get {α β} {R : α → β → Prop} {as : List α} {bs : List β}
    (h : List.Forall₂ R as bs) (i : Nat) (hi : i < as.length) (hi' : i < bs.length) :
    R as[i] bs[i] := by
  induction h generalizing i with
  | nil => simp at hi
  | cons hab _ ih =>
    cases i with
    | zero => exact hab
    | succ i => exact ih i (by simpa using hi) (by simpa using hi')

/-- The heads are in module order, each with what the pre-parser reported. -/
theorem projectHeads_get [Unicode] {fs : FS} {fuel : Nat} {main : String} {heads : List ModuleInfo}
    (h : projectHeads fs fuel main = .ok heads) :
    ∃ l c, loadTree (preparse fs fuel) fuel [] main [] = .ok (l, c) ∧
      heads.map (·.filepath) = modOrder l ∧
      ∀ (i : Nat) (hd : ModuleInfo), heads[i]? = some hd →
        ∃ m, preparse fs fuel hd.filepath = .ok m ∧ hd = { m with uniqid := modId i hd.filepath } := by
  obtain ⟨l, c, ms, hl, hf, rfl⟩ := projectHeads_spec h
  have hlen := hf.length_eq
  have key : ∀ i (hi : i < ms.length), (assignIds 0 ms)[i]? = some { ms[i] with uniqid := modId i ms[i].filepath } :=
    fun i hi => assignIds_get ms i hi
  have hR := forall₂_get hf
  refine ⟨l, c, hl, ?_, ?_⟩
  · apply List.ext_getElem?
    intro i
    rw [List.getElem?_map]
    by_cases hi : i < ms.length
    · rw [key i hi, List.getElem?_eq_getElem (by omega)]
      simp only [Option.map_some, Option.some.injEq]
      exact preparse_filepath (hR i (by omega) hi)
    · rw [List.getElem?_eq_none (by rw [assignIds_length]; omega),
        List.getElem?_eq_none (by omega)]
      rfl
  · intro i hd hi
    have hi' : i < ms.length := by
      have := (List.getElem?_eq_some_iff.1 hi).1
      rwa [assignIds_length] at this
    rw [key i hi'] at hi
    simp only [Option.some.injEq] at hi
    subst hi
    have := hR i (by omega) hi'
    have hfp := preparse_filepath this
    refine ⟨ms[i], ?_, rfl⟩
    simp only [hfp]; exact this

end Che
