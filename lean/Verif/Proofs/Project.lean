import Verif.Proofs.Heads
/-!
# What a project that loads is made of
-/
namespace Che

/-- `Res.bind` succeeds only through both steps. -/
theorem Res.bind_eq_ok {ε α β} {x : Res ε α} {f : α → Res ε β} {b : β} :
    (x >>= f) = .ok b ↔ ∃ a, x = .ok a ∧ f a = .ok b := by
  show Res.bind x f = _ ↔ _
  cases x <;> simp [Res.bind]

theorem Res.mapErr_eq_ok {ε ε' α} {x : Res ε α} {f : ε → ε'} {a : α} :
    x.mapErr f = .ok a ↔ x = .ok a := by
  cases x <;> simp [Res.mapErr]

theorem parseMods_ok [Unicode] {fs : FS} {fuel : Nat} {heads : List ModuleInfo} :
    ∀ {hs : List ModuleInfo} {ms : List Module}, parseMods fs fuel heads hs = .ok ms →
      List.Forall₂ (fun h m => parseMod fs fuel heads h = .ok m) hs ms := by
  intro hs
  induction hs with
  | nil => intro ms h; simp only [parseMods, Res.ok.injEq] at h; subst h; exact .nil
  | cons h hs ih =>
    intro ms e
    simp only [parseMods, Res.bind_eq_ok] at e
    obtain ⟨x, hx, xs, hxs, e⟩ := e
    simp only [pure, Res.ok.injEq] at e
    subst e
    exact .cons hx (ih hxs)

/-- The loop of `translate_mods`: each module is translated with the C modules
made before it. -/
theorem translateLoop_ok {mods : List Module} {heads : List ModuleInfo} :
    ∀ {rest : List (ModuleInfo × Module)} {cmods out : List CModule},
      translateLoop mods heads cmods rest = .ok out →
      ∃ new, out = cmods ++ new ∧ new.length = rest.length ∧
        ∀ (i : Nat) (h : ModuleInfo) (m : Module), rest[i]? = some (h, m) → ∃ c, new[i]? = some c ∧
          translate m { cmods := cmods ++ new.take i, allModHeads := heads, thisModHead := h,
                        mods := mods } = .ok c := by
  intro rest
  induction rest with
  | nil =>
    intro cmods out h
    simp only [translateLoop, Res.ok.injEq] at h
    exact ⟨[], by simp [h], rfl, by simp⟩
  | cons hm rest ih =>
    obtain ⟨h, m⟩ := hm
    intro cmods out e
    simp only [translateLoop, Res.bind_eq_ok] at e
    obtain ⟨c, hc, e⟩ := e
    obtain ⟨new, rfl, hlen, hnew⟩ := ih e
    refine ⟨c :: new, by simp, by simp [hlen], ?_⟩
    intro i h' m' hi
    cases i with
    | zero =>
      simp only [List.getElem?_cons_zero, Option.some.injEq, Prod.mk.injEq] at hi
      obtain ⟨rfl, rfl⟩ := hi
      exact ⟨c, rfl, by simpa using hc⟩
    | succ i =>
      obtain ⟨c', h1, h2⟩ := hnew i h' m' (by simpa using hi)
      exact ⟨c', by simpa using h1, by simpa using h2⟩

/-- The parts of a project that `parse_project` returns. -/
structure ProjectParts [Unicode] (fs : FS) (fuel : Nat) (main : String) (p : Project) : Prop where
  heads : projectHeads fs fuel main = .ok p.modheads
  mods_len : p.modules.length = p.modheads.length
  cmods_len : p.cmodules.length = p.modheads.length
  parsed : ∀ (i : Nat) (h : ModuleInfo), p.modheads[i]? = some h → ∃ m, p.modules[i]? = some m ∧
    parseMod fs fuel p.modheads h = .ok m
  translated : ∀ (i : Nat) (h : ModuleInfo) (m : Module), p.modheads[i]? = some h → p.modules[i]? = some m →
    ∃ c, p.cmodules[i]? = some c ∧
      translate m { cmods := p.cmodules.take i, allModHeads := p.modheads, thisModHead := h,
                    mods := p.modules } = .ok c

theorem parseProject_ok [Unicode] {fs : FS} {fuel : Nat} {main : String} {p : Project}
    (h : parseProject fs fuel main = .ok p) : ProjectParts fs fuel main p := by
  simp only [parseProject, Res.bind_eq_ok, Res.mapErr_eq_ok] at h
  obtain ⟨heads, hh, mods, hm, cmods, hc, e⟩ := h
  simp only [pure, Res.ok.injEq] at e
  subst e
  have hf := parseMods_ok hm
  obtain ⟨new, rfl, hlen, hnew⟩ := translateLoop_ok hc
  have hl := hf.length_eq
  simp only [List.nil_append, List.length_zip] at hlen hnew ⊢
  refine ⟨hh, hl.symm, by simp only; omega, ?_, ?_⟩
  · intro i h hi
    obtain ⟨hi', rfl⟩ := List.getElem?_eq_some_iff.1 hi
    have hi2 : i < mods.length := by simp only at hi'; omega
    exact ⟨mods[i], by simp [hi2], forall₂_get hf i hi' hi2⟩
  · intro i h m hi hm'
    have : (heads.zip mods)[i]? = some (h, m) := by
      simp only at hi hm'
      rw [List.getElem?_zip_eq_some]; exact ⟨hi, hm'⟩
    simpa using hnew i h m this

/-- `#link` values survive translation. -/
theorem translate_link {m : Module} {p : TrParams} {c : CModule} (h : translate m p = .ok c) :
    c.link = linkOf m.elements := by
  unfold translate at h
  split at h <;> try cases h
  split at h <;> try cases h
  split at h <;> try cases h
  dsimp only at h
  split at h <;> cases h
  rfl

end Che
