import Verif.Model.Translator
import Verif.Spec.Emit
/-!
# What a translator call does to the context

`Step occs new c c'` relates the contexts before and after translating something
that mentions `occs` and adds `new` to the innermost scope.
-/
namespace Che
open Spec

/-! ## Inverting translator calls -/

theorem Tr.bind_ok {α β} {m : Tr α} {f : α → Tr β} {c c' : TrCtx} {b : β} :
    (m >>= f) c = .ok (b, c') ↔ ∃ a c1, m c = .ok (a, c1) ∧ f a c1 = .ok (b, c') := by
  show Tr.bind m f c = _ ↔ _
  unfold Tr.bind
  cases h : m c with
  | ok r =>
    obtain ⟨a, c1⟩ := r
    simp only [Res.ok.injEq, Prod.mk.injEq]
    exact ⟨fun h => ⟨a, c1, ⟨rfl, rfl⟩, h⟩, by rintro ⟨_, _, ⟨rfl, rfl⟩, h⟩; exact h⟩
  | err e => simp
  | panic s => simp
  | diverge => simp

theorem Tr.pure_ok {α} {a b : α} {c c' : TrCtx} :
    (pure a : Tr α) c = .ok (b, c') ↔ a = b ∧ c = c' := by
  show Res.ok (a, c) = _ ↔ _
  simp

theorem Tr.get_ok {c c' x : TrCtx} : Tr.get c = .ok (x, c') ↔ x = c ∧ c' = c := by
  simp only [Tr.get, Res.ok.injEq, Prod.mk.injEq]
  exact ⟨fun ⟨a, b⟩ => ⟨a.symm, b.symm⟩, fun ⟨a, b⟩ => ⟨a.symm, b.symm⟩⟩

theorem Tr.modify_ok {f : TrCtx → TrCtx} {c c' : TrCtx} {u : Unit} :
    Tr.modify f c = .ok (u, c') ↔ c' = f c := by
  simp only [Tr.modify, Res.ok.injEq, Prod.mk.injEq, true_and]
  exact eq_comm

theorem Tr.fail_ok {α} {m p : String} {c c' : TrCtx} {a : α} :
    (Tr.fail m p : Tr α) c = .ok (a, c') ↔ False := by simp [Tr.fail]

theorem Tr.panic_ok {α} {m : String} {c c' : TrCtx} {a : α} :
    (Tr.panic m : Tr α) c = .ok (a, c') ↔ False := by simp [Tr.panic]

theorem Tr.lift_ok {α} {r : Res String α} {g : String → String} {p : String} {c c' : TrCtx} {a : α} :
    Tr.lift r g p c = .ok (a, c') ↔ r = .ok a ∧ c' = c := by
  unfold Tr.lift
  cases r <;> simp
  intro _; exact eq_comm

theorem Tr.unwrap_ok {α} {o : Option α} {m : String} {c c' : TrCtx} {a : α} :
    Tr.unwrap o m c = .ok (a, c') ↔ o = some a ∧ c' = c := by
  unfold Tr.unwrap
  cases o <;> simp
  intro _; exact eq_comm

theorem Tr.ite_ok {α} {p : Prop} [Decidable p] {m n : Tr α} {c c' : TrCtx} {a : α} :
    (if p then m else n) c = .ok (a, c') ↔ (p ∧ m c = .ok (a, c')) ∨ (¬p ∧ n c = .ok (a, c')) := by
  by_cases h : p <;> simp [h]

/-! ## The context seen by the specification -/

/-- A declaration as the specification sees it. -/
def Binding.decl (b : Binding) : String × Bool := (b.name, b.ispub)

/-- A binding without its mark. -/
def Binding.sig (b : Binding) : Binding := { b with used := false }

/-- The scopes of the specification. -/
def scopesOf (s : List (List Binding)) : Scopes := s.map (·.map Binding.decl)

/-- The scopes without marks. -/
def shapeOf (s : List (List Binding)) : List (List Binding) := s.map (·.map Binding.sig)

/-- Add bindings to the innermost scope. -/
def growScopes (new : List Binding) : List (List Binding) → List (List Binding)
  | [] => []
  | s :: rest => (s ++ new) :: rest

/-- Is a type known, and is it exported? -/
def typeInfo (c : TrCtx) (x : String) : Option Bool :=
  match findType c x with
  | .ok b => some b
  | _ => none

/-- The fixed part of the context. -/
def envOf (c : TrCtx) : ModEnv where
  uid := c.thisModHead.uniqid
  file := c.thisModHead.filepath
  typeKnown x := (typeInfo c x).isSome
  typePub x := typeInfo c x == some true
  nsUid x := match getNsPos c x with
    | some i => (c.allModHeads[i]?).map (·.uniqid)
    | none => none
  nsExports ns x := match getNsPos c ns with
    | some i => match c.mods[i]? with
      | some m => exportsHas m.exports x
      | none => false
    | none => false
  builtin x := (Cspec.findSym x).isSome

/-- A marked binding of that name in the scope of that height. -/
def UsedAt : List (List Binding) → Nat → String → Prop
  | [], _, _ => False
  | s :: rest, h, x =>
    (h = rest.length + 1 ∧ ∃ b ∈ s, b.name = x ∧ b.used = true) ∨ UsedAt rest h x

/-- The names bound in the innermost scope. -/
def headNames : List (List Binding) → List String
  | [] => []
  | s :: _ => s.map (·.name)

theorem headNames_shape {s s' : List (List Binding)} (h : shapeOf s' = shapeOf s) :
    headNames s' = headNames s := by
  have key : ∀ s, headNames s = headNames (shapeOf s) := by
    intro s
    cases s with
    | nil => rfl
    | cons a as => simp [headNames, shapeOf, Binding.sig, Function.comp_def]
  rw [key, h, ← key]

/-- The effect of translating something on the context. -/
structure Step (occs : List Occ) (new : List Binding) (c c' : TrCtx) : Prop where
  head : c'.thisModHead = c.thisModHead
  heads : c'.allModHeads = c.allModHeads
  cmods : c'.cmods = c.cmods
  mods : c'.mods = c.mods
  structs : c'.structTypedefs = c.structTypedefs
  others : c'.otherTypedefs = c.otherTypedefs
  shape : shapeOf c'.scopes = growScopes new (shapeOf c.scopes)
  nodup : (headNames c.scopes).Nodup → (headNames c'.scopes).Nodup
  ns : ∀ x, x ∈ c'.usedNs ↔ x ∈ c.usedNs ∨ ∃ o ∈ occs, MentionsNs o x
  customs : ∀ x, x ∈ c'.usedCustoms ↔
    x ∈ c.usedCustoms ∨ (x = "calloc_or_panic" ∧ ∃ o ∈ occs, o.use = .calloc)
  used : ∀ h x, UsedAt c'.scopes h x → UsedAt c.scopes h x ∨ ∃ o ∈ occs, RefersTo o h x
  ok : ∀ o ∈ occs, OccOk (envOf c) o

theorem scopesOf_eq_shape (s : List (List Binding)) :
    scopesOf s = (shapeOf s).map (·.map Binding.decl) := by
  simp [scopesOf, shapeOf, Binding.decl, Binding.sig, Function.comp_def]

theorem scopesOf_grow {s s' : List (List Binding)} {new : List Binding}
    (h : shapeOf s' = growScopes new (shapeOf s)) :
    scopesOf s' = declare (new.map Binding.decl) (scopesOf s) := by
  rw [scopesOf_eq_shape, h, scopesOf_eq_shape]
  cases shapeOf s with
  | nil => rfl
  | cons a as => simp [growScopes, declare]

theorem growScopes_nil (s : List (List Binding)) : growScopes [] s = s := by
  cases s <;> simp [growScopes]

theorem declare_nil (s : Scopes) : declare [] s = s := by
  cases s <;> simp [declare]

theorem growScopes_append (a b : List Binding) (s : List (List Binding)) :
    growScopes b (growScopes a s) = growScopes (a ++ b) s := by
  cases s <;> simp [growScopes]

theorem declare_append (a b : List (String × Bool)) (s : Scopes) :
    declare b (declare a s) = declare (a ++ b) s := by
  cases s <;> simp [declare]

theorem envOf_congr {c c' : TrCtx} (h1 : c'.thisModHead = c.thisModHead)
    (h2 : c'.allModHeads = c.allModHeads) (h3 : c'.mods = c.mods)
    (h4 : c'.structTypedefs = c.structTypedefs) (h5 : c'.otherTypedefs = c.otherTypedefs) :
    envOf c' = envOf c := by
  have ht : ∀ x, findType c' x = findType c x := fun x => by simp only [findType, h1, h4, h5]
  have hn : ∀ x, getNsPos c' x = getNsPos c x := fun x => by simp only [getNsPos, h1, h2]
  simp only [envOf, typeInfo, ht, hn, h1, h2, h3]

namespace Step
variable {o o1 o2 : List Occ} {n n1 n2 : List Binding} {c c1 c2 c' : TrCtx}

theorem env (h : Step o n c c') : envOf c' = envOf c :=
  envOf_congr h.head h.heads h.mods h.structs h.others

theorem scopes (h : Step o n c c') :
    scopesOf c'.scopes = declare (n.map Binding.decl) (scopesOf c.scopes) := scopesOf_grow h.shape

theorem scopes_nil (h : Step o [] c c') : scopesOf c'.scopes = scopesOf c.scopes := by
  rw [h.scopes]; exact declare_nil _

theorem refl : Step [] [] c c where
  head := rfl
  heads := rfl
  cmods := rfl
  mods := rfl
  structs := rfl
  others := rfl
  shape := (growScopes_nil _).symm
  nodup := id
  ns := by simp
  customs := by simp
  used := fun _ _ h => .inl h
  ok := by simp

theorem trans (h1 : Step o1 n1 c c1) (h2 : Step o2 n2 c1 c2) : Step (o1 ++ o2) (n1 ++ n2) c c2 where
  head := h2.head.trans h1.head
  heads := h2.heads.trans h1.heads
  cmods := h2.cmods.trans h1.cmods
  mods := h2.mods.trans h1.mods
  structs := h2.structs.trans h1.structs
  others := h2.others.trans h1.others
  shape := by rw [h2.shape, h1.shape, growScopes_append]
  nodup := h2.nodup ∘ h1.nodup
  ns := by
    intro x; rw [h2.ns, h1.ns, or_assoc]
    simp only [List.mem_append, or_and_right, exists_or]
  customs := by
    intro x; rw [h2.customs, h1.customs, or_assoc]
    simp only [List.mem_append, or_and_right, exists_or, ← and_or_left]
  used := by
    intro h x hu
    rcases h2.used h x hu with hu | ⟨p, hp, hr⟩
    · rcases h1.used h x hu with hu | ⟨p, hp, hr⟩
      · exact .inl hu
      · exact .inr ⟨p, by simp [hp], hr⟩
    · exact .inr ⟨p, by simp [hp], hr⟩
  ok := by
    intro p hp
    rcases List.mem_append.1 hp with hp | hp
    · exact h1.ok p hp
    · have := h2.ok p hp; rwa [h1.env] at this

/-- Mentions matter as a set. -/
theorem congr (h : Step o1 n c c') (he : ∀ x, x ∈ o1 ↔ x ∈ o2) : Step o2 n c c' :=
  { h with
    ns := fun x => by rw [h.ns]; simp only [he]
    customs := fun x => by rw [h.customs]; simp only [he]
    used := fun a x hu => by simpa only [he] using h.used a x hu
    ok := fun p hp => h.ok p ((he p).2 hp) }

/-- Composition for steps that add nothing. -/
theorem trans0 (h1 : Step o1 [] c c1) (h2 : Step o2 n c1 c2) : Step (o1 ++ o2) n c c2 := by
  simpa using h1.trans h2

end Step

theorem usedAt_le : ∀ {s : List (List Binding)} {h : Nat} {x : String}, UsedAt s h x →
    1 ≤ h ∧ h ≤ s.length := by
  intro s
  induction s with
  | nil => intro h x hu; exact hu.elim
  | cons a as ih =>
    intro h x hu
    rcases hu with ⟨rfl, _⟩ | hu
    · simp
    · have := ih hu; simp; omega

theorem shapeOf_length (s : List (List Binding)) : (shapeOf s).length = s.length := by simp [shapeOf]

theorem scopesOf_length (s : List (List Binding)) : (scopesOf s).length = s.length := by simp [scopesOf]

theorem inScope_ok {α} {m : Tr α} {c c' : TrCtx} {a : α} :
    inScope m c = .ok (a, c') ↔
    ∃ c2, m { c with scopes := [] :: c.scopes } = .ok (a, c2) ∧ endScope c2 = .ok ((), c') := by
  simp only [inScope, beginScope, Tr.bind_ok, Tr.modify_ok, Tr.pure_ok]
  constructor
  · rintro ⟨_, c1, rfl, a', c2, hm', _, c3, he, rfl, rfl⟩
    exact ⟨c2, hm', he⟩
  · rintro ⟨c2, hm, he⟩
    exact ⟨(), _, rfl, a, c2, hm, (), c', he, rfl, rfl⟩

/-- Opening a scope, translating, closing the scope. -/
theorem inScope_step {c c2 c' : TrCtx} {occs : List Occ} {new : List Binding}
    (hs : Step occs new { c with scopes := [] :: c.scopes } c2)
    (he : endScope c2 = .ok ((), c')) :
    Step occs [] c c' ∧
    RegionOk { height := c.scopes.length + 1, decls := new.map Binding.decl, occs := occs } := by
  unfold endScope at he
  have hshape := hs.shape
  have hnd := hs.nodup (by simp [headNames])
  cases hsc : c2.scopes with
  | nil => rw [hsc] at he; simp at he
  | cons s rest =>
    rw [hsc] at he hshape hnd
    simp only at he
    have hnone : firstUnused s = none := by
      cases hf : firstUnused s with
      | none => rfl
      | some b => rw [hf] at he; simp at he
    rw [hnone] at he
    simp only [Res.ok.injEq, Prod.mk.injEq, true_and] at he
    subst he
    simp only [shapeOf, List.map_cons, List.map_nil, growScopes, List.nil_append,
      List.cons.injEq] at hshape
    have hlen : rest.length = c.scopes.length := by
      have := congrArg List.length hshape.2; simpa using this
    have hlow : ∀ {h x}, UsedAt ([] :: c.scopes) h x → UsedAt c.scopes h x := by
      intro h x hu
      rcases hu with ⟨_, b, hb, _⟩ | hu
      · simp at hb
      · exact hu
    refine ⟨{ hs with shape := ?_, nodup := ?_, used := ?_, ok := ?_ }, ?_, ?_⟩
    · rw [growScopes_nil]; exact hshape.2
    · rw [headNames_shape (s := c.scopes) hshape.2]; exact id
    · intro h x hu
      have := hs.used h x (by rw [hsc]; exact .inr hu)
      exact this.imp hlow id
    · have henv : envOf { c with scopes := [] :: c.scopes } = envOf c :=
        envOf_congr rfl rfl rfl rfl rfl
      have := hs.ok
      rwa [henv] at this
    · intro d hd hpub
      simp only [List.mem_map] at hd
      obtain ⟨b, hb, rfl⟩ := hd
      rw [← hshape.1] at hb
      obtain ⟨b0, hb0, rfl⟩ := List.mem_map.1 hb
      have hused : b0.used = true := by
        unfold firstUnused at hnone
        have := List.find?_eq_none.1 hnone b0 hb0
        have hp : b0.ispub = false := hpub
        simpa [hp] using this
      have := hs.used (rest.length + 1) b0.name
        (by rw [hsc]; exact .inl ⟨rfl, b0, hb0, rfl, hused⟩)
      rcases this with hu | ⟨o, ho, hr⟩
      · have := usedAt_le (hlow hu); omega
      · exact ⟨o, ho, by rw [← hlen]; exact hr⟩
    · simp only [← hshape.1, List.map_map]
      exact hnd

/-! ## Looking up names -/

theorem findBinding_lookup (s : List (List Binding)) (x : String) :
    lookup (scopesOf s) x = (findBinding s x).map (·.ispub) := by
  induction s with
  | nil => rfl
  | cons a as ih =>
    have hcons : scopesOf (a :: as) = a.map Binding.decl :: scopesOf as := rfl
    have hf : (a.map Binding.decl).find? (fun d => d.1 == x) =
        (a.find? (fun b => b.name == x)).map Binding.decl := by
      rw [List.find?_map]; rfl
    rw [hcons, lookup, hf]
    unfold findBinding
    rw [List.findSome?_cons]
    cases h : a.find? (fun b => b.name == x) with
    | none => simpa [findBinding] using ih
    | some b => simp [Binding.decl]

theorem findBinding_shape {s s' : List (List Binding)} (h : shapeOf s' = shapeOf s) (x : String) :
    (findBinding s' x).map Binding.sig = (findBinding s x).map Binding.sig := by
  have key : ∀ s, (findBinding s x).map Binding.sig =
      (shapeOf s).findSome? (fun sc => sc.find? (fun b => b.name == x)) := by
    intro s
    induction s with
    | nil => rfl
    | cons a as ih =>
      have hf : (a.map Binding.sig).find? (fun b => b.name == x) =
          (a.find? (fun b => b.name == x)).map Binding.sig := by
        rw [List.find?_map]; rfl
      have hcons : shapeOf (a :: as) = a.map Binding.sig :: shapeOf as := rfl
      rw [hcons, List.findSome?_cons, hf]
      unfold findBinding
      rw [List.findSome?_cons]
      cases h : a.find? (fun b => b.name == x) with
      | none => simpa [findBinding] using ih
      | some b => simp
  rw [key, key, h]

theorem markLast_shape (x : String) (s : List Binding) :
    (markLast x s).map Binding.sig = s.map Binding.sig := by
  induction s with
  | nil => rfl
  | cons b bs ih =>
    unfold markLast
    split
    · simp [ih]
    · split <;> simp [Binding.sig]

theorem markLast_used (x : String) (s : List Binding) {b : Binding} (hb : b ∈ markLast x s)
    (hu : b.used = true) : (∃ b0 ∈ s, b0.name = b.name ∧ b0.used = true) ∨ b.name = x := by
  induction s with
  | nil => simp [markLast] at hb
  | cons a as ih =>
    unfold markLast at hb
    split at hb
    · rcases List.mem_cons.1 hb with rfl | hb
      · exact .inl ⟨_, by simp, rfl, hu⟩
      · rcases ih hb with ⟨b0, h0, h1⟩ | h
        · exact .inl ⟨b0, by simp [h0], h1⟩
        · exact .inr h
    · split at hb
      · rename_i h
        rcases List.mem_cons.1 hb with rfl | hb
        · exact .inr (by simpa using h)
        · exact .inl ⟨b, by simp [hb], rfl, hu⟩
      · exact .inl ⟨b, hb, rfl, hu⟩

theorem markUse_shape {x : String} : ∀ {s s' : List (List Binding)}, markUse x s = some s' →
    shapeOf s' = shapeOf s := by
  intro s
  induction s with
  | nil => intro s' h; simp [markUse] at h
  | cons a as ih =>
    intro s' h
    unfold markUse at h
    split at h
    · simp only [Option.some.injEq] at h
      subst h; simp [shapeOf, markLast_shape]
    · simp only [Option.map_eq_some_iff] at h
      obtain ⟨r, hr, rfl⟩ := h
      have := ih hr
      simp only [shapeOf, List.map_cons] at this ⊢
      rw [this]

theorem declares_scope (a : List Binding) (x : String) :
    declares (a.map Binding.decl) x = a.any (fun b => b.name == x) := by
  simp [declares, List.any_map, Function.comp_def, Binding.decl]

theorem markUse_used {x : String} : ∀ {s s' : List (List Binding)}, markUse x s = some s' →
    ∀ h y, UsedAt s' h y → UsedAt s h y ∨ (y = x ∧ heightOf (scopesOf s) x = some h) := by
  intro s
  induction s with
  | nil => intro s' h; simp [markUse] at h
  | cons a as ih =>
    intro s' h k y hu
    have hcons : scopesOf (a :: as) = a.map Binding.decl :: scopesOf as := rfl
    rw [hcons, heightOf, declares_scope, scopesOf_length]
    unfold markUse at h
    split at h
    · rename_i hany
      simp only [Option.some.injEq] at h
      subst h
      rcases hu with ⟨hk, b, hb, hn, hbu⟩ | hu
      · rcases markLast_used x a hb hbu with ⟨b0, h0, h1, h2⟩ | h
        · exact .inl (.inl ⟨hk, b0, h0, h1.trans hn, h2⟩)
        · exact .inr ⟨by rw [← hn, h], by simp [hany, hk]⟩
      · exact .inl (.inr hu)
    · rename_i hany
      simp only [Option.map_eq_some_iff] at h
      obtain ⟨r, hr, rfl⟩ := h
      have hlen : r.length = as.length := by
        have := congrArg List.length (markUse_shape hr); simpa [shapeOf] using this
      rcases hu with ⟨hk, hb⟩ | hu
      · exact .inl (.inl ⟨by rw [hk, hlen], hb⟩)
      · rcases ih hr k y hu with h | ⟨h1, h2⟩
        · exact .inl (.inr h)
        · exact .inr ⟨h1, by simpa [hany] using h2⟩

theorem markUse_none {x : String} : ∀ {s : List (List Binding)}, markUse x s = none ↔
    findBinding s x = none := by
  intro s
  induction s with
  | nil => simp [markUse, findBinding]
  | cons a as ih =>
    unfold markUse findBinding
    rw [List.findSome?_cons]
    by_cases h : a.any (fun b => b.name == x) = true
    · have : a.find? (fun b => b.name == x) ≠ none := by
        intro h0
        rw [List.find?_eq_none] at h0
        rw [List.any_eq_true] at h
        obtain ⟨b, hb, hx⟩ := h
        exact h0 b hb hx
      cases hf : a.find? (fun b => b.name == x) with
      | none => exact absurd hf this
      | some b => simp [h]
    · have h' : a.find? (fun b => b.name == x) = none := by
        rw [List.find?_eq_none]
        intro b hb hx
        exact h (List.any_eq_true.2 ⟨b, hb, hx⟩)
      simp only [h, h', Bool.false_eq_true, if_false, Option.map_eq_none_iff]
      simpa [findBinding] using ih

end Che
