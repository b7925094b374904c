import Verif.Proofs.Good
import Verif.Proofs.TrStep
import Verif.Spec.Crash
/-!
# When a translator call panics

`Out F new c r`: the result `r` of a call in context `c` is a panic only if `F`
is false, and a success only if `F` is true; a success adds the names `new` to
the innermost scope and changes nothing else that matters here.
-/
namespace Che
open Spec

/-- The names in each scope. -/
def scopeNames (s : List (List Binding)) : List (List String) := s.map (·.map (·.name))

/-- Add names to the innermost scope. -/
def growNames (new : List String) : List (List String) → List (List String)
  | [] => []
  | s :: r => (s ++ new) :: r

theorem growNames_nil (s : List (List String)) : growNames [] s = s := by
  cases s <;> simp [growNames]

theorem growNames_append (a b : List String) (s : List (List String)) :
    growNames b (growNames a s) = growNames (a ++ b) s := by
  cases s <;> simp [growNames]

/-- What a successful call leaves as it is. -/
structure Frame (new : List String) (c c' : TrCtx) : Prop where
  head : c'.thisModHead = c.thisModHead
  heads : c'.allModHeads = c.allModHeads
  mods : c'.mods = c.mods
  cmods : c'.cmods = c.cmods
  names : scopeNames c'.scopes = growNames new (scopeNames c.scopes)

theorem Frame.refl {c : TrCtx} : Frame [] c c := ⟨rfl, rfl, rfl, rfl, (growNames_nil _).symm⟩

theorem Frame.trans {n1 n2 : List String} {c c1 c2 : TrCtx} (h1 : Frame n1 c c1) (h2 : Frame n2 c1 c2) :
    Frame (n1 ++ n2) c c2 :=
  ⟨h2.head.trans h1.head, h2.heads.trans h1.heads, h2.mods.trans h1.mods, h2.cmods.trans h1.cmods,
    by rw [h2.names, h1.names, growNames_append]⟩

/-- The outcome of a call; see the head of the file. -/
def Out {α : Type} (F : Prop) (new : List String) (c : TrCtx) : Res BuildError (α × TrCtx) → Prop
  | .ok (_, c') => F ∧ Frame new c c'
  | .panic _ => ¬ F
  | .err _ => True
  | .diverge => True

namespace Out
variable {α β : Type} {F F1 F2 G : Prop} {n n1 n2 : List String} {c : TrCtx}

theorem congr {r : Res BuildError (α × TrCtx)} (h : Out F n c r) (e : F ↔ G) : Out G n c r := by
  rwa [← propext e]

theorem bind {m : Tr α} {f : α → Tr β} (h1 : Out F1 n1 c (m c))
    (h2 : ∀ a c1, Frame n1 c c1 → Out F2 n2 c1 (f a c1)) :
    Out (F1 ∧ F2) (n1 ++ n2) c ((m >>= f) c) := by
  show Out _ _ _ (Tr.bind m f c)
  unfold Tr.bind
  cases hm : m c with
  | ok r =>
    obtain ⟨a, c1⟩ := r
    rw [hm] at h1
    obtain ⟨hf, fr⟩ := h1
    have := h2 a c1 fr
    simp only
    cases hf2 : f a c1 with
    | ok r =>
      obtain ⟨b, c2⟩ := r
      rw [hf2] at this
      exact ⟨⟨hf, this.1⟩, fr.trans this.2⟩
    | err e => trivial
    | panic s => rw [hf2] at this; exact fun h => this h.2
    | diverge => trivial
  | err e => trivial
  | panic s => rw [hm] at h1; exact fun h => h1 h.1
  | diverge => trivial

theorem after {c' : TrCtx} {r : Res BuildError (α × TrCtx)} (f : Frame n1 c c') (h : Out F n2 c' r) :
    Out F (n1 ++ n2) c r := by
  cases r with
  | ok r => exact ⟨h.1, f.trans h.2⟩
  | err e => trivial
  | panic s => exact h
  | diverge => trivial

theorem pure {a : α} : Out True [] c ((Pure.pure a : Tr α) c) := ⟨trivial, Frame.refl⟩

theorem fail {m p : String} : Out F n c ((Tr.fail m p : Tr α) c) := trivial

theorem get : Out True [] c (Tr.get c) := ⟨trivial, Frame.refl⟩

theorem lift {r : Res String α} {g : String → String} {p : String} (h : ∀ s, r ≠ .panic s) :
    Out True [] c (Tr.lift r g p c) := by
  unfold Tr.lift
  cases r with
  | ok a => exact ⟨trivial, Frame.refl⟩
  | err e => trivial
  | panic s => exact absurd rfl (h s)
  | diverge => trivial

theorem unwrap {o : Option α} {m : String} {a : α} (h : o = some a) : Out True [] c (Tr.unwrap o m c) := by
  subst h
  exact ⟨trivial, Frame.refl⟩

/-- A call that never panics and whose success means nothing. -/
theorem of_true {r : Res BuildError (α × TrCtx)} (h : Out True n c r) (hF : F) : Out F n c r :=
  h.congr ⟨fun _ => hF, fun _ => trivial⟩

end Out

/-- What is known about the context: imported namespaces lead to modules, and
which qualified names are types. -/
structure Inv (K : String → Prop) (T : String → String → Prop) (c : TrCtx) : Prop where
  ns : ∀ ns, K ns → ∃ i h m, getNsPos c ns = some i ∧ c.allModHeads[i]? = some h ∧ c.mods[i]? = some m
  typ : T = OnlyType c.allModHeads c.mods c.thisModHead

section
variable {K : String → Prop} {T : String → String → Prop} {c : TrCtx}

theorem Inv.frame {n : List String} {c c' : TrCtx} (h : Inv K T c) (f : Frame n c c') : Inv K T c' := by
  have hp : ∀ x, getNsPos c' x = getNsPos c x := fun x => by simp only [getNsPos, f.head, f.heads]
  refine ⟨fun x hx => ?_, ?_⟩
  · rw [hp, f.heads, f.mods]; exact h.ns x hx
  · rw [f.heads, f.mods, f.head]; exact h.typ

/-! ## Names and types -/

theorem findType_noPanic (x s : String) : findType c x ≠ .panic s := by
  unfold findType
  repeat' split
  all_goals simp

theorem Tr.get_bind {β : Type} {f : TrCtx → Tr β} : (Tr.get >>= f) c = f c c := rfl

theorem Tr.modify_bind {β : Type} {g : TrCtx → TrCtx} {f : Unit → Tr β} :
    (Tr.modify g >>= f) c = f () (g c) := rfl

theorem Tr.unwrap_bind {α β : Type} {a : α} {s : String} {f : α → Tr β} :
    (Tr.unwrap (some a) s >>= f) c = f a c := rfl

theorem trTypename_out (hI : Inv K T c) {t : Typename} (h : GoodName K t.name) :
    Out True [] c (trTypename t c) := by
  unfold trTypename
  by_cases h1 : t.name.ns = "OS"
  · rw [if_pos h1]; exact Out.pure
  rw [if_neg h1]
  by_cases h2 : t.name.ns = ""
  · rw [if_pos h2]
    simp only [Tr.get_bind]
    exact (Out.bind (n1 := []) (n2 := []) (Out.lift (findType_noPanic _)) fun a c2 f2 => Out.pure).congr
      (by simp)
  · rw [if_neg h2]
    have hk : K t.name.ns := by
      rcases h with h | h | h
      · exact absurd h h2
      · exact absurd h h1
      · exact h
    obtain ⟨i, hd, m, e1, e2, e3⟩ := hI.ns _ hk
    simp only [Tr.get_bind, e1, e2, e3, Tr.unwrap_bind]
    split
    · exact Out.fail
    · exact ⟨trivial, ⟨rfl, rfl, rfl, rfl, (growNames_nil _).symm⟩⟩

theorem trBareTypeform_out (hI : Inv K T c) {t : BareTypeform} (h : GoodName K t.typename.name) :
    Out True [] c (trBareTypeform t c) := by
  unfold trBareTypeform
  exact (Out.bind (n1 := []) (n2 := []) (trTypename_out hI h) fun a c2 f2 => Out.pure).congr (by simp)

theorem markLast_names (x : String) : ∀ s : List Binding, (markLast x s).map (·.name) = s.map (·.name)
  | [] => rfl
  | b :: bs => by
    unfold markLast
    split
    · simp [markLast_names x bs]
    · split <;> simp

theorem markUse_names {x : String} : ∀ {s s' : List (List Binding)}, markUse x s = some s' →
    scopeNames s' = scopeNames s
  | [], _, h => by simp [markUse] at h
  | s :: rest, s', h => by
    unfold markUse at h
    split at h
    · simp only [Option.some.injEq] at h
      subst h
      simp [scopeNames, markLast_names]
    · simp only [Option.map_eq_some_iff] at h
      obtain ⟨r, hr, rfl⟩ := h
      have := markUse_names hr
      simp only [scopeNames, List.map_cons] at this ⊢
      rw [this]

theorem markBindingUse_frame {x : String} {c c' : TrCtx} {b : Bool}
    (h : markBindingUse x c = .ok (b, c')) : Frame [] c c' := by
  unfold markBindingUse at h
  split at h
  · rename_i s hs
    simp only [Res.ok.injEq, Prod.mk.injEq] at h
    obtain ⟨_, rfl⟩ := h
    exact ⟨rfl, rfl, rfl, rfl, by rw [growNames_nil]; exact markUse_names hs⟩
  · simp only [Res.ok.injEq, Prod.mk.injEq] at h
    obtain ⟨_, rfl⟩ := h
    exact Frame.refl

theorem markUse_find {x : String} : ∀ {s : List (List Binding)}, markUse x s = none ↔
    findBinding s x = none
  | [] => by simp [markUse, findBinding]
  | s :: rest => by
    have ih := markUse_find (x := x) (s := rest)
    unfold markUse
    by_cases h : s.any (fun b => b.name == x) = true
    · rw [if_pos h]
      simp only [reduceCtorEq, false_iff]
      intro hn
      simp only [findBinding, List.findSome?_cons] at hn
      cases hf : s.find? (fun b => b.name == x) with
      | none =>
        rw [List.find?_eq_none] at hf
        rw [List.any_eq_true] at h
        obtain ⟨b, hb, hx⟩ := h
        exact hf b hb hx
      | some b => rw [hf] at hn; simp at hn
    · rw [if_neg h]
      have hf : s.find? (fun b => b.name == x) = none := by
        rw [List.find?_eq_none]
        intro b hb hx
        exact h (List.any_eq_true.2 ⟨b, hb, hx⟩)
      simp only [Option.map_eq_none_iff, ih, findBinding, List.findSome?_cons, hf]

theorem nelem_known : (Cspec.findSym "nelem").isSome = true := by decide +kernel

theorem findBinding_names {x : String} : ∀ {s s' : List (List Binding)}, scopeNames s' = scopeNames s →
    (findBinding s' x = none ↔ findBinding s x = none) := by
  have key : ∀ s : List (List Binding), findBinding s x = none ↔ ∀ l ∈ scopeNames s, x ∉ l := by
    intro s
    simp only [findBinding, List.findSome?_eq_none_iff, List.find?_eq_none, scopeNames, List.mem_map]
    constructor
    · rintro h _ ⟨l, hl, rfl⟩ hx
      obtain ⟨b, hb, rfl⟩ := List.mem_map.1 hx
      exact h l hl b hb (by simp)
    · intro h l hl b hb hx
      exact h _ ⟨l, hl, rfl⟩ (List.mem_map.2 ⟨b, hb, by simpa using hx⟩)
  intro s s' h
  rw [key, key, h]

theorem markBindingUse_known {x : String} {c c' : TrCtx} (h : markBindingUse x c = .ok (true, c')) :
    findBinding c'.scopes x ≠ none ∨ Cspec.findSym x ≠ none := by
  have fr := markBindingUse_frame h
  unfold markBindingUse at h
  split at h
  · rename_i s hs
    have hn : findBinding c.scopes x ≠ none := by
      intro hn
      rw [markUse_find.2 hn] at hs
      cases hs
    left
    rw [ne_eq, findBinding_names (s := c.scopes) (s' := c'.scopes) (by rw [fr.names, growNames_nil])]
    exact hn
  · simp only [Res.ok.injEq, Prod.mk.injEq, Bool.or_eq_true, beq_iff_eq] at h
    right
    rcases h.1 with h | rfl
    · intro hn; rw [hn] at h; simp at h
    · have := nelem_known
      intro hn; rw [hn] at this; simp at this

theorem markBindingUse_out (x : String) : Out True [] c (markBindingUse x c) := by
  cases hm : markBindingUse x c with
  | ok r => exact ⟨trivial, markBindingUse_frame hm⟩
  | err e => trivial
  | panic s => unfold markBindingUse at hm; split at hm <;> simp at hm
  | diverge => trivial

theorem trNsid_out (hI : Inv K T c) {n : NsName} (h : GoodName K n) : Out True [] c (trNsid n c) := by
  unfold trNsid
  by_cases h1 : n.ns = "OS"
  · rw [if_pos h1]; exact Out.pure
  rw [if_neg h1]
  by_cases h2 : n.ns = ""
  · rw [if_neg (by simpa using h2)]
    simp only [Tr.get_bind]
    refine (Out.bind (n1 := []) (n2 := []) (F2 := True) (markBindingUse_out _) fun a c2 f2 => ?_).congr (by simp)
    split
    · exact Out.fail
    · exact Out.pure
  · rw [if_pos h2]
    have hk : K n.ns := by
      rcases h with h | h | h
      · exact absurd h h2
      · exact absurd h h1
      · exact h
    obtain ⟨i, hd, m, e1, e2, e3⟩ := hI.ns _ hk
    have e1' : getNsPos { c with usedNs := n.ns :: c.usedNs } n.ns = some i := e1
    simp only [Tr.modify_bind, Tr.get_bind, e1', e2, e3, Tr.unwrap_bind]
    split
    · exact Out.fail
    · exact ⟨trivial, ⟨rfl, rfl, rfl, rfl, (growNames_nil _).symm⟩⟩

theorem trNsid_known {n : NsName} {c c' : TrCtx} {r : String} (h : trNsid n c = .ok (r, c'))
    (hn : n.ns = "") : findBinding c'.scopes n.name ≠ none ∨ Cspec.findSym n.name ≠ none := by
  unfold trNsid at h
  rw [if_neg (by simp [hn]), if_neg (by simpa using hn)] at h
  simp only [Tr.get_bind, Tr.bind_ok] at h
  obtain ⟨b, c1, hb, h⟩ := h
  cases b with
  | false => simp [Tr.fail] at h
  | true =>
    simp only [Bool.not_true, Bool.false_eq_true, if_false, Tr.pure_ok] at h
    obtain ⟨_, rfl⟩ := h
    exact markBindingUse_known hb

theorem trNsid_exported {n : NsName} {c c' : TrCtx} {r : String} (h : trNsid n c = .ok (r, c'))
    (hn : n.ns ≠ "") (hos : n.ns ≠ "OS") : ∃ i m, getNsPos c n.ns = some i ∧ c.mods[i]? = some m ∧
      exportsHas m.exports n.name = true := by
  unfold trNsid at h
  rw [if_neg hos, if_pos hn] at h
  simp only [Tr.get_bind, Tr.modify_bind, Tr.bind_ok, Tr.unwrap_ok] at h
  obtain ⟨i, _, ⟨hi, rfl⟩, hd, _, ⟨_, rfl⟩, m, _, ⟨hm, rfl⟩, h⟩ := h
  refine ⟨i, m, hi, hm, ?_⟩
  by_contra hx
  simp only [Bool.not_eq_true] at hx
  simp [hx, Tr.fail] at h

/-- A name in an expression: the only way to panic is a qualified name that is
exported as a type only. -/
theorem trNsidInExpr_out (hI : Inv K T c) {n : NsName} (h : GoodName K n) :
    Out (FineName T n) [] c (trNsidInExpr n c) := by
  have h0 := trNsid_out hI h
  show Out (FineName T n) [] c (Tr.bind (trNsid n) _ c)
  unfold Tr.bind
  cases hr : trNsid n c with
  | err e => trivial
  | panic s => rw [hr] at h0; exact absurd trivial h0
  | diverge => trivial
  | ok r =>
    obtain ⟨v, c1⟩ := r
    rw [hr] at h0
    have fr := h0.2
    simp only
    by_cases h1 : n.ns = "OS"
    · rw [if_pos h1]; exact ⟨.inr (.inl h1), fr⟩
    rw [if_neg h1]
    simp only [Tr.get_bind]
    by_cases h2 : n.ns = ""
    · rw [if_pos h2]
      have hF : FineName T n := .inl h2
      cases hb : findBinding c1.scopes n.name with
      | some b => exact ⟨hF, fr⟩
      | none =>
        simp only
        cases hs : Cspec.findSym n.name with
        | some s => exact ⟨hF, fr⟩
        | none =>
          rcases trNsid_known hr h2 with h | h
          · exact absurd hb h
          · exact absurd hs h
    · rw [if_neg h2]
      obtain ⟨i, m, e1, e2, e3⟩ := trNsid_exported hr h2 h1
      have e1' : getNsPos c1 n.ns = some i := by
        simp only [getNsPos, fr.head, fr.heads] at e1 ⊢; exact e1
      rw [← fr.mods] at e2
      simp only [e1', e2, Tr.unwrap_bind]
      have hT : T n.ns n.name ↔ (∀ k ∈ m.exports.consts, k.name ≠ n.name) ∧
          (∀ f ∈ m.exports.fns, f.form.name ≠ n.name) := by
        rw [hI.typ]
        constructor
        · rintro ⟨j, m', hj, hm', _, hc, hf⟩
          have hj : getNsPos c n.ns = some j := hj
          rw [e1] at hj
          cases hj
          rw [← fr.mods, e2] at hm'
          cases hm'
          exact ⟨hc, hf⟩
        · rintro ⟨hc, hf⟩
          exact ⟨i, m, e1, by rw [← fr.mods]; exact e2, e3, hc, hf⟩
      have hFT : FineName T n ↔ ¬ T n.ns n.name := by simp [FineName, h1, h2]
      unfold typeofExport
      by_cases hc : m.exports.consts.any (fun c => c.name == n.name) = true
      · rw [if_pos hc]
        refine ⟨?_, fr⟩
        rw [hFT, hT]
        rintro ⟨hc', _⟩
        obtain ⟨k, hk, he⟩ := List.any_eq_true.1 hc
        exact hc' k hk (by simpa using he)
      · rw [if_neg hc]
        cases hf : m.exports.fns.find? (fun f => f.form.name == n.name) with
        | some f =>
          refine ⟨?_, fr⟩
          rw [hFT, hT]
          rintro ⟨_, hf'⟩
          have := List.find?_some hf
          exact hf' f (List.mem_of_find?_eq_some hf) (by simpa using this)
        | none =>
          show ¬ FineName T n
          rw [hFT, hT, not_not]
          refine ⟨fun k hk he => ?_, fun f hf' he => ?_⟩
          · exact hc (List.any_eq_true.2 ⟨k, hk, by simp [he]⟩)
          · exact List.find?_eq_none.1 hf f hf' (by simp [he])

/-! ## Expressions -/

theorem typesize_some {t : Ty} (h : t.fmt ∈ ["int", "int16_t", "int32_t", "int64_t", "int8_t", "ptrdiff_t",
    "size_t", "uint16_t", "uint32_t", "uint64_t", "uint8_t", "float", "double"]) :
    ∃ n, typesize t = some n := by
  unfold typesize
  simp only [List.mem_cons, List.not_mem_nil, or_false] at h
  rcases h with h | h | h | h | h | h | h | h | h | h | h | h | h <;> rw [h] <;> exact ⟨_, rfl⟩

theorem classify_size {t : Ty} (h : classify t = .sint ∨ classify t = .uint ∨ classify t = .flt) :
    ∃ n, typesize t = some n := by
  apply typesize_some
  unfold classify at h
  split at h
  · simp at h
  · simp at h
  · simp only [List.contains_eq_mem, decide_eq_true_eq] at h
    by_cases h1 : t.fmt ∈ ["int", "int16_t", "int32_t", "int64_t", "int8_t", "ptrdiff_t"]
    · simp only [List.mem_cons, List.not_mem_nil, or_false] at h1 ⊢
      rcases h1 with h | h | h | h | h | h <;> simp [h]
    rw [if_neg h1] at h
    by_cases h2 : t.fmt ∈ ["size_t", "uint16_t", "uint32_t", "uint64_t", "uint8_t"]
    · simp only [List.mem_cons, List.not_mem_nil, or_false] at h2 ⊢
      rcases h2 with h | h | h | h | h <;> simp [h]
    rw [if_neg h2] at h
    by_cases h3 : t.fmt = "float" ∨ t.fmt = "double"
    · rcases h3 with h | h <;> simp [h]
    rw [if_neg h3] at h
    exfalso
    revert h
    repeat' split
    all_goals simp

theorem widestType_noPanic {a b : Ty}
    (ha : classify a = .sint ∨ classify a = .uint ∨ classify a = .flt)
    (hb : classify b = .sint ∨ classify b = .uint ∨ classify b = .flt) (s : String) :
    widestType a b ≠ .panic s := by
  obtain ⟨x, hx⟩ := classify_size ha
  obtain ⟨y, hy⟩ := classify_size hb
  simp [widestType, hx, hy]

theorem typeofArith_noPanic (a b : Ty) (s : String) : typeofArith a b ≠ .panic s := by
  have hw := @widestType_noPanic a b
  unfold typeofArith
  cases ha : classify a <;> cases hb : classify b <;> simp only [ha, hb] at hw ⊢ <;>
    first | (exact hw (by simp) (by simp) s) | simp

theorem typeofPlusminus_noPanic (op : String) (a b : Ty) (s : String) :
    typeofPlusminus op a b ≠ .panic s := by
  have hw := @widestType_noPanic a b
  unfold typeofPlusminus
  cases ha : classify a <;> cases hb : classify b <;> simp only [ha, hb] at hw ⊢ <;>
    first | (exact hw (by simp) (by simp) s) | (split <;> simp) | simp

theorem typeofCmp_noPanic (a b : Ty) (s : String) : typeofCmp a b ≠ .panic s := by
  unfold typeofCmp
  cases ha : classify a <;> cases hb : classify b <;> simp

theorem typeofBoolcomp_noPanic (a b : Ty) (s : String) : typeofBoolcomp a b ≠ .panic s := by
  unfold typeofBoolcomp
  repeat' split
  all_goals simp

/-- A binary operation panics on the shift assignments only. -/
theorem typeofBinop_panic {op : String} (h : (binLevel op).isSome = true) (a b : Ty) :
    (∃ s, typeofBinop c op a b = .panic s) ↔ op = "<<=" ∨ op = ">>=" := by
  have h' := binLevel_cases h
  have n1 := typeofArith_noPanic (rootType a c) (rootType b c)
  have n2 := fun op => typeofPlusminus_noPanic op (rootType a c) (rootType b c)
  have n3 := typeofCmp_noPanic (rootType a c) (rootType b c)
  have n4 := typeofBoolcomp_noPanic a b
  simp only [List.mem_cons, List.not_mem_nil, or_false] at h'
  rcases h' with rfl | rfl | rfl | rfl | rfl | rfl | rfl | rfl | rfl | rfl | rfl | rfl | rfl | rfl | rfl |
    rfl | rfl | rfl | rfl | rfl | rfl | rfl | rfl | rfl | rfl | rfl | rfl | rfl | rfl <;>
    simp [typeofBinop, n1, n2, n3, n4]

theorem typeofPrefop_noPanic {op : String} (h : op ∈ prefixOps) (t : Ty) (s : String) :
    typeofPrefop op t ≠ .panic s := by
  have hd : typeofDeref t ≠ .panic s := by
    unfold typeofDeref
    repeat' split
    all_goals simp
  simp only [prefixOps, List.mem_cons, List.not_mem_nil, or_false] at h
  rcases h with rfl | rfl | rfl | rfl | rfl | rfl | rfl <;> simp [typeofPrefop, hd]

theorem typeofIndex_noPanic (a b : Ty) (s : String) : typeofIndex a b ≠ .panic s := by
  unfold typeofIndex
  repeat' split
  all_goals simp

theorem typeofCall_noPanic (s : String) : ∀ (n : Nat) (t : Ty) (k : Nat), typeofCall c n t k ≠ .panic s
  | 0, _, _ => by simp [typeofCall]
  | n + 1, t, k => by
    have ih := typeofCall_noPanic s n
    unfold typeofCall
    repeat' split
    all_goals first | exact ih _ _ | simp

theorem trKey_out (key : Option Expr) : Out (FineKey key) [] c (trKey key c) := by
  match key with
  | none => exact ⟨trivial, Frame.refl⟩
  | some e =>
    cases e
    case name n =>
      simp only [trKey]
      by_cases h : n.ns = ""
      · rw [if_neg (by simpa using h)]; exact ⟨h, Frame.refl⟩
      · rw [if_pos h]; exact h
    all_goals exact fun h => h

theorem isIdent_fine {f : Expr} {x : String} (h : isIdent f x = true) : FineE T f := by
  cases f <;> simp only [isIdent, Bool.false_eq_true, Bool.and_eq_true, beq_iff_eq] at h
  exact .inl h.1

mutual
/-- An expression panics iff it is not fine. -/
theorem trExpr_out : ∀ {e : Expr} {c : TrCtx}, Inv K T c → GoodE K e →
    Out (FineE T e) [] c (trExpr e c)
  | .lit _, c, _, _ => ⟨trivial, Frame.refl⟩
  | .name n, c, hI, h => by
    rw [trExpr]
    exact (Out.bind (n1 := []) (n2 := []) (F2 := True) (trNsidInExpr_out hI h) fun a c1 f1 => Out.pure).congr
      (by simp [FineE])
  | .arrIndex a i, c, hI, h => by
    rw [trExpr]
    refine (Out.bind (n1 := []) (n2 := []) (F2 := FineE T i ∧ True ∧ True) (trExpr_out hI h.1) fun r c1 f1 => ?_).congr
      (by simp [FineE])
    refine Out.bind (n1 := []) (n2 := []) (trExpr_out (hI.frame f1) h.2) fun r c2 f2 => ?_
    exact Out.bind (n1 := []) (n2 := []) (Out.lift (typeofIndex_noPanic _ _)) fun r c3 f3 => Out.pure
  | .binaryOp pos op a b, c, hI, h => by
    rw [trExpr]
    refine (Out.bind (n1 := []) (n2 := []) (F2 := FineE T b ∧ op ≠ "<<=" ∧ op ≠ ">>=") (trExpr_out hI h.2.1)
      fun r c1 f1 => ?_).congr (by simp only [FineE]; constructor <;> (rintro ⟨a, b, c, d⟩; exact ⟨by assumption, by assumption, by assumption, by assumption⟩))
    refine Out.bind (n1 := []) (n2 := []) (trExpr_out (hI.frame f1) h.2.2) fun r' c2 f2 => ?_
    simp only [Tr.get_bind]
    have hp := typeofBinop_panic (c := c2) h.1 r.1 r'.1
    have hp' : op ≠ "<<=" ∧ op ≠ ">>=" ↔ ¬ ∃ s, typeofBinop c2 op r.1 r'.1 = .panic s := by
      rw [hp, not_or]
    cases ht : typeofBinop c2 op r.1 r'.1 with
    | ok t => exact ⟨hp'.2 (by rw [ht]; simp), Frame.refl⟩
    | err e =>
      simp only [GoodE.che h, Bool.false_eq_true, if_false]
      exact Out.fail
    | panic s =>
      show ¬ _
      rw [hp', not_not]
      exact ⟨s, ht⟩
    | diverge => trivial
  | .fieldAccess _ _ t _, c, hI, h => by
    rw [trExpr]
    exact (Out.bind (n1 := []) (n2 := []) (F2 := True) (trExpr_out hI h.2) fun a c1 f1 => Out.pure).congr
      (by simp [FineE])
  | .compLit es, c, hI, h => by
    have h : GoodEntries K es := h
    rw [trExpr]
    exact (Out.bind (n1 := []) (n2 := []) (F2 := True) (trEntries_out hI h) fun a c1 f1 => Out.pure).congr
      (by simp [FineE])
  | .prefixOp pos op e, c, hI, h => by
    rw [trExpr]
    refine (Out.bind (n1 := []) (n2 := []) (F2 := True ∧ True) (trExpr_out hI h.2) fun a c1 f1 => ?_).congr
      (by simp [FineE])
    exact Out.bind (n1 := []) (n2 := []) (Out.lift (typeofPrefop_noPanic h.1 _)) fun a c1 f1 => Out.pure
  | .postfixOp op e, c, hI, h => by
    rw [trExpr]
    refine (Out.bind (n1 := []) (n2 := []) (F2 := True) (trExpr_out hI h.2) fun a c1 f1 => ?_).congr
      (by simp [FineE])
    simp only [if_pos h.1]
    exact Out.pure
  | .cast tf e, c, hI, h => by
    rw [trExpr]
    refine (Out.bind (n1 := []) (n2 := []) (F2 := True ∧ True) (trExpr_out hI h.2) fun a c1 f1 => ?_).congr
      (by simp [FineE])
    exact Out.bind (n1 := []) (n2 := []) (trBareTypeform_out (hI.frame f1) h.1) fun a c1 f1 => Out.pure
  | .call pos f args, c, hI, h => by
    rw [trExpr]
    by_cases hc : isIdent f "calloc!" = true
    · rw [if_pos hc]
      simp only [Tr.modify_bind]
      have fr : Frame [] c { c with usedCustoms := "calloc_or_panic" :: c.usedCustoms } :=
        ⟨rfl, rfl, rfl, rfl, (growNames_nil _).symm⟩
      have hf : FineE T f := isIdent_fine hc
      have key : Out (FineArgs T args ∧ FineName T ⟨pos, "", "calloc_or_panic"⟩ ∧ True ∧ True) []
          { c with usedCustoms := "calloc_or_panic" :: c.usedCustoms }
          ((do
            let targs ← trArgs args
            let (ft, fv) ← trNsidInExpr { ns := "", name := "calloc_or_panic", pos := pos }
            let c ← Tr.get
            let t ← Tr.lift (typeofCall c (typeofCallFuel c) ft targs.length) id pos.fmt
            pure (t, CExpr.call (.ident fv) (targs.map (·.2))) : Tr (Ty × CExpr))
            { c with usedCustoms := "calloc_or_panic" :: c.usedCustoms }) := by
        refine Out.bind (n1 := []) (n2 := []) (trArgs_out (hI.frame fr) h.2) fun r c1 f1 => ?_
        refine Out.bind (n1 := []) (n2 := [])
          (trNsidInExpr_out ((hI.frame fr).frame f1) (.inl rfl)) fun r c2 f2 => ?_
        simp only [Tr.get_bind]
        exact Out.bind (n1 := []) (n2 := []) (Out.lift (fun s => typeofCall_noPanic s _ _ _)) fun a c1 f1 => Out.pure
      refine Out.congr (F := FineArgs T args ∧ FineName T ⟨pos, "", "calloc_or_panic"⟩ ∧ True ∧ True) (Out.after (n1 := []) (n2 := []) fr key) ?_
      have : FineName T ⟨pos, "", "calloc_or_panic"⟩ := .inl rfl
      simp [FineE, hf, this]
    · rw [if_neg hc]
      refine (Out.bind (n1 := []) (n2 := []) (F2 := FineE T f ∧ True ∧ True) (trArgs_out hI h.2) fun r c1 f1 => ?_).congr
        (by simp [FineE, and_comm])
      refine Out.bind (n1 := []) (n2 := []) (trExpr_out (hI.frame f1) h.1) fun r c2 f2 => ?_
      simp only [Tr.get_bind]
      exact Out.bind (n1 := []) (n2 := []) (Out.lift (fun s => typeofCall_noPanic s _ _ _)) fun a c1 f1 => Out.pure
  | .sizeofType t, c, hI, h => by
    have h : GoodName K t.typename.name := h
    rw [trExpr]
    exact (Out.bind (n1 := []) (n2 := []) (F2 := True) (trBareTypeform_out hI h) fun a c1 f1 => Out.pure).congr
      (by simp [FineE])
  | .sizeofExpr e, c, hI, h => by
    have h : GoodE K e := h
    rw [trExpr]
    exact (Out.bind (n1 := []) (n2 := []) (F2 := True) (trExpr_out hI h) fun a c1 f1 => Out.pure).congr
      (by simp [FineE])
theorem trArgs_out : ∀ {es : List Expr} {c : TrCtx}, Inv K T c → GoodArgs K es →
    Out (FineArgs T es) [] c (trArgs es c)
  | [], c, _, _ => ⟨trivial, Frame.refl⟩
  | e :: es, c, hI, h => by
    rw [trArgs]
    refine (Out.bind (n1 := []) (n2 := []) (F2 := FineArgs T es ∧ True) (trExpr_out hI h.1) fun r c1 f1 => ?_).congr
      (by simp [FineArgs])
    exact Out.bind (n1 := []) (n2 := []) (trArgs_out (hI.frame f1) h.2) fun a c1 f1 => Out.pure
theorem trEntries_out : ∀ {es : List Entry} {c : TrCtx}, Inv K T c → GoodEntries K es →
    Out (FineEntries T es) [] c (trEntries es c)
  | [], c, _, _ => ⟨trivial, Frame.refl⟩
  | e :: es, c, hI, h => by
    rw [trEntries]
    refine (Out.bind (n1 := []) (n2 := []) (F2 := FineEntries T es ∧ True) (trEntry_out hI h.1) fun r c1 f1 => ?_).congr
      (by simp [FineEntries])
    exact Out.bind (n1 := []) (n2 := []) (trEntries_out (hI.frame f1) h.2) fun a c1 f1 => Out.pure
theorem trEntry_out : ∀ {e : Entry} {c : TrCtx}, Inv K T c → GoodEntry K e →
    Out (FineEntry T e) [] c (trEntry e c)
  | .mk i key v, c, hI, h => by
    have hv : GoodE K v := by cases key <;> exact h.2
    rw [trEntry]
    refine (Out.bind (n1 := []) (n2 := []) (F2 := FineE T v ∧ True) (trKey_out key) fun r c1 f1 => ?_).congr
      (by simp [FineEntry])
    exact Out.bind (n1 := []) (n2 := []) (trExpr_out (hI.frame f1) hv) fun a c1 f1 => Out.pure
end

theorem trOptExpr_out (hI : Inv K T c) {e : Option Expr} (h : GoodOpt K e) :
    Out (FineOpt T e) [] c (trOptExpr e c) := by
  cases e with
  | none => exact ⟨trivial, Frame.refl⟩
  | some e =>
    rw [trOptExpr]
    exact (Out.bind (n1 := []) (n2 := []) (F2 := True) (trExpr_out hI h) fun a c1 f1 => Out.pure).congr
      (by simp [FineOpt])

theorem trIndexes_out : ∀ {is : List (Option Expr)} {c : TrCtx}, Inv K T c →
    (∀ i ∈ is, GoodOpt K i) → Out (∀ i ∈ is, FineOpt T i) [] c (trIndexes is c)
  | [], c, _, _ => ⟨by simp, Frame.refl⟩
  | i :: is, c, hI, h => by
    rw [trIndexes]
    refine (Out.bind (n1 := []) (n2 := []) (F2 := (∀ i ∈ is, FineOpt T i) ∧ True)
      (trOptExpr_out hI (h i (by simp))) fun r c1 f1 => ?_).congr (by simp)
    exact Out.bind (n1 := []) (n2 := [])
      (trIndexes_out (hI.frame f1) (fun j hj => h j (by simp [hj]))) fun a c1 f1 => Out.pure

theorem trForm_out (hI : Inv K T c) {f : Form} (h : GoodForm K f) (p : Bool) :
    Out (FineForm T f) [] c (trForm f p c) := by
  unfold trForm
  refine (Out.bind (n1 := []) (n2 := []) (F2 := True) (trIndexes_out hI h) fun a c1 f1 => ?_).congr
      (by simp [FineForm])
  exact Out.pure

/-! ## Declarations -/

/-- New names: no two the same, none in the scope. -/
def FreshNames (H ns : List String) : Prop := ns.Nodup ∧ ∀ n ∈ ns, n ∉ H

theorem freshNames_nil (H : List String) : FreshNames H [] := ⟨List.nodup_nil, by simp⟩

theorem freshNames_append {H a b : List String} :
    FreshNames H (a ++ b) ↔ FreshNames H a ∧ FreshNames (H ++ a) b := by
  simp only [FreshNames, List.nodup_append, List.mem_append]
  constructor
  · rintro ⟨⟨h1, h2, h3⟩, h4⟩
    refine ⟨⟨h1, fun n hn => h4 n (.inl hn)⟩, h2, fun n hn => ?_⟩
    rintro (h | h)
    · exact h4 n (.inr hn) h
    · exact h3 n h n hn rfl
  · rintro ⟨⟨h1, h2⟩, h3, h4⟩
    refine ⟨⟨h1, h3, ?_⟩, ?_⟩
    · rintro a ha b hb rfl
      exact h4 a hb (.inr ha)
    · rintro n (h | h)
      · exact h2 n h
      · exact fun h' => h4 n h (.inl h')

theorem freshNames_singleton {H : List String} {x : String} : FreshNames H [x] ↔ x ∉ H := by
  simp [FreshNames]

theorem freshNames_empty {ns : List String} : FreshNames [] ns ↔ ns.Nodup := by simp [FreshNames]

theorem addBinding_out {H : List String} {R : List (List String)} (hs : scopeNames c.scopes = H :: R)
    (x : String) (pos : Pos) (pub : Bool) (t : Ty) :
    Out (FreshNames H [x]) [x] c (addBinding x pos pub t c) := by
  rw [freshNames_singleton]
  unfold addBinding
  cases hc : c.scopes with
  | nil => rw [hc] at hs; simp [scopeNames] at hs
  | cons s rest =>
    rw [hc] at hs
    simp only [scopeNames, List.map_cons, List.cons.injEq] at hs
    have hx : x ∈ H ↔ s.any (fun b => b.name == x) = true := by
      rw [← hs.1, List.any_eq_true]; simp
    simp only
    split
    · rename_i h; exact fun h' => h' (hx.2 h)
    · rename_i h
      refine ⟨fun h' => h (hx.1 h'), ⟨rfl, rfl, rfl, rfl, ?_⟩⟩
      rw [hc]
      simp [scopeNames, growNames]

theorem Inv.scopes (hI : Inv K T c) (s : List (List Binding)) : Inv K T { c with scopes := s } :=
  ⟨hI.ns, hI.typ⟩

theorem Frame.scope {n H : List String} {R : List (List String)} {c c' : TrCtx} (f : Frame n c c')
    (hs : scopeNames c.scopes = H :: R) : scopeNames c'.scopes = (H ++ n) :: R := by
  rw [f.names, hs]; rfl

theorem inScope_out {α : Type} {m : Tr α} {F : Prop} {n : List String}
    (hm : Out F n { c with scopes := [] :: c.scopes } (m { c with scopes := [] :: c.scopes })) :
    Out F [] c (inScope m c) := by
  unfold inScope beginScope
  simp only [Tr.modify_bind]
  show Out F [] c (Tr.bind m _ { c with scopes := [] :: c.scopes })
  unfold Tr.bind
  cases hr : m { c with scopes := [] :: c.scopes } with
  | err e => trivial
  | panic s => rw [hr] at hm; exact hm
  | diverge => trivial
  | ok r =>
    obtain ⟨a, c1⟩ := r
    rw [hr] at hm
    obtain ⟨hF, fr⟩ := hm
    have hn : scopeNames c1.scopes = n :: scopeNames c.scopes := by
      rw [fr.names]; simp [scopeNames, growNames]
    simp only
    show Out F [] c (Tr.bind endScope _ c1)
    unfold Tr.bind endScope
    cases hs : c1.scopes with
    | nil => rw [hs] at hn; simp [scopeNames] at hn
    | cons s rest =>
      rw [hs] at hn
      simp only [scopeNames, List.map_cons, List.cons.injEq] at hn
      simp only
      cases firstUnused s with
      | some b => trivial
      | none =>
        refine ⟨hF, ⟨fr.head, fr.heads, fr.mods, fr.cmods, ?_⟩⟩
        rw [growNames_nil]
        exact hn.2

/-! ## Statements -/

theorem trCond_out (hI : Inv K T c) {e : Expr} (h : GoodE K e) : Out (FineE T e) [] c (trCond e c) := by
  unfold trCond
  refine (Out.bind (n1 := []) (n2 := []) (F2 := True) (trExpr_out hI h) fun a c1 f1 => ?_).congr (by simp)
  obtain ⟨t, v⟩ := a
  simp only
  split
  · exact Out.fail
  · exact Out.pure

theorem trOptCond_out (hI : Inv K T c) {e : Option Expr} (h : GoodOpt K e) :
    Out (FineOpt T e) [] c (trOptCond e c) := by
  cases e with
  | none => exact ⟨trivial, Frame.refl⟩
  | some e =>
    rw [trOptCond]
    exact (Out.bind (n1 := []) (n2 := []) (F2 := True) (trCond_out hI h) fun a c1 f1 => Out.pure).congr
      (by simp [FineOpt])

theorem mkPanic_out (hI : Inv K T c) {es : List Expr} (h : GoodArgs K es) (pos : String) :
    Out (FineArgs T es) [] c (mkPanic pos es c) := by
  unfold mkPanic
  refine (Out.bind (n1 := []) (n2 := []) (F2 := True) (trArgs_out hI h) fun a c1 f1 => ?_).congr (by simp)
  simp only [Tr.get_bind]
  exact Out.pure

theorem trExprStmt_out (hI : Inv K T c) {e : Expr} (h : GoodE K e) :
    Out (FineE T e) [] c (trExprStmt e c) := by
  unfold trExprStmt
  split
  · rename_i pos f args
    split
    · rename_i hp
      refine (mkPanic_out hI h.2 _).congr ?_
      have hf : FineE T f := isIdent_fine hp
      simp [FineE, hf]
    · exact (Out.bind (n1 := []) (n2 := []) (F2 := True) (trExpr_out hI h) fun a c1 f1 => Out.pure).congr
        (by simp)
  · exact (Out.bind (n1 := []) (n2 := []) (F2 := True) (trExpr_out hI h) fun a c1 f1 => Out.pure).congr
      (by simp)

theorem trVarDecl_out {H : List String} {R : List (List String)} (hs : scopeNames c.scopes = H :: R)
    (hI : Inv K T c) {d : VarDecl} (h : GoodVar K d) :
    Out ((FineForm T d.form ∧ FineOpt T d.value) ∧ FreshNames H [d.form.name]) [d.form.name] c
      (trVarDecl d c) := by
  unfold trVarDecl
  refine (Out.bind (n1 := [d.form.name]) (n2 := []) (F2 := True ∧ FineForm T d.form ∧ FineOpt T d.value ∧ True)
    (addBinding_out hs _ _ _ _) fun a c1 f1 => ?_).congr (by simp [and_comm])
  refine Out.bind (n1 := []) (n2 := []) (trTypename_out (hI.frame f1) h.1) fun a c2 f2 => ?_
  refine Out.bind (n1 := []) (n2 := []) (trForm_out ((hI.frame f1).frame f2) h.2.1 _) fun a c3 f3 => ?_
  exact Out.bind (n1 := []) (n2 := []) (trOptExpr_out (((hI.frame f1).frame f2).frame f3) h.2.2)
    fun a c4 f4 => Out.pure

/-- The name the initialiser of a `for` declares. -/
def initNames : Option ForInit → List String
  | some (.decl _ f _) => [f.name]
  | _ => []

theorem trForInit_out {R : List (List String)} (hs : scopeNames c.scopes = [] :: R)
    (hI : Inv K T c) {i : Option ForInit} (h : GoodInit K i) :
    Out (FineInit T i) (initNames i) c (trForInit i c) := by
  match i, h with
  | none, _ => exact ⟨trivial, Frame.refl⟩
  | some (.expr e), h =>
    rw [trForInit]
    exact (Out.bind (n1 := []) (n2 := []) (F2 := True) (trExpr_out hI h) fun a c1 f1 => Out.pure).congr
      (by simp [FineInit])
  | some (.decl t f v), h =>
    rw [trForInit]
    refine (Out.bind (n1 := [f.name]) (n2 := []) (F2 := True ∧ FineForm T f ∧ FineE T v ∧ True)
      (addBinding_out hs _ _ _ _) fun a c1 f1 => ?_).congr (by simp [FineInit, freshNames_singleton])
    refine Out.bind (n1 := []) (n2 := []) (trTypename_out (hI.frame f1) h.1) fun a c2 f2 => ?_
    refine Out.bind (n1 := []) (n2 := []) (trForm_out ((hI.frame f1).frame f2) h.2.1 _) fun a c3 f3 => ?_
    exact Out.bind (n1 := []) (n2 := []) (trExpr_out (((hI.frame f1).frame f2).frame f3) h.2.2)
      fun a c4 f4 => Out.pure

/-- One label. -/
def FineLabel (T : String → String → Prop) : CaseValue → Prop
  | .ident n => FineName T n
  | .literal _ => True

theorem fineLabels_iff {vs : List CaseValue} : FineLabels T vs ↔ ∀ v ∈ vs, FineLabel T v := by
  unfold FineLabels
  refine forall₂_congr fun v _ => ?_
  cases v <;> rfl

theorem trCaseValue_out (hI : Inv K T c) {v : CaseValue} (h : GoodLabel K v) :
    Out (FineLabel T v) [] c (trCaseValue v c) := by
  cases v with
  | literal l => exact ⟨trivial, Frame.refl⟩
  | ident n =>
    rw [trCaseValue]
    exact (Out.bind (n1 := []) (n2 := []) (F2 := True) (trNsidInExpr_out hI h) fun a c1 f1 => Out.pure).congr
      (by simp [FineLabel])

theorem trCaseValues_out : ∀ {vs : List CaseValue} {c : TrCtx}, Inv K T c → (∀ v ∈ vs, GoodLabel K v) →
    Out (∀ v ∈ vs, FineLabel T v) [] c (trCaseValues vs c)
  | [], c, _, _ => ⟨by simp, Frame.refl⟩
  | v :: vs, c, hI, h => by
    rw [trCaseValues]
    refine (Out.bind (n1 := []) (n2 := []) (F2 := (∀ v ∈ vs, FineLabel T v) ∧ True)
      (trCaseValue_out hI (h v (by simp))) fun r c1 f1 => ?_).congr (by simp)
    exact Out.bind (n1 := []) (n2 := [])
      (trCaseValues_out (hI.frame f1) (fun j hj => h j (by simp [hj]))) fun a c1 f1 => Out.pure

theorem trStrCaseValue_out (hI : Inv K T c) {v : CaseValue} (h : GoodLabel K v) :
    Out (FineLabel T v) [] c (trStrCaseValue v c) := by
  cases v with
  | literal l => exact ⟨trivial, Frame.refl⟩
  | ident n =>
    rw [trStrCaseValue]
    exact (Out.bind (n1 := []) (n2 := []) (F2 := True) (trNsidInExpr_out hI h) fun a c1 f1 => Out.pure).congr
      (by simp [FineLabel])

theorem switchStrCondLoop_out {sv : CExpr} : ∀ {vs : List CaseValue} {root : CExpr} {c : TrCtx},
    Inv K T c → (∀ v ∈ vs, GoodLabel K v) →
    Out (∀ v ∈ vs, FineLabel T v) [] c (switchStrCondLoop sv root vs c)
  | [], root, c, _, _ => ⟨by simp, Frame.refl⟩
  | v :: vs, root, c, hI, h => by
    rw [switchStrCondLoop]
    refine (Out.bind (n1 := []) (n2 := []) (F2 := (∀ v ∈ vs, FineLabel T v))
      (trStrCaseValue_out hI (h v (by simp))) fun r c1 f1 => ?_).congr (by simp)
    exact switchStrCondLoop_out (hI.frame f1) (fun j hj => h j (by simp [hj]))

theorem mkSwitchStrCond_out {sv : CExpr} {vs : List CaseValue} (hI : Inv K T c)
    (hne : vs ≠ []) (h : ∀ v ∈ vs, GoodLabel K v) :
    Out (∀ v ∈ vs, FineLabel T v) [] c (mkSwitchStrCond vs sv c) := by
  cases vs with
  | nil => exact absurd rfl hne
  | cons v vs =>
    rw [mkSwitchStrCond]
    refine (Out.bind (n1 := []) (n2 := []) (F2 := (∀ v ∈ vs, FineLabel T v))
      (trStrCaseValue_out hI (h v (by simp))) fun r c1 f1 => ?_).congr (by simp)
    exact switchStrCondLoop_out (hI.frame f1) (fun j hj => h j (by simp [hj]))

theorem declared_cons (s : Stmt) (ss : List Stmt) : declared (s :: ss) = declared [s] ++ declared ss := by
  simp only [declared, List.filterMap_cons, List.filterMap_nil]
  split <;> rfl

theorem Out.block {α : Type} {m : Tr α} {F : Prop} {ns : List String}
    (h : Out (F ∧ FreshNames [] ns) ns { c with scopes := [] :: c.scopes }
      (m { c with scopes := [] :: c.scopes })) :
    Out (F ∧ ns.Nodup) [] c (inScope m c) :=
  inScope_out (h.congr (by rw [freshNames_empty]))

/-- One case. -/
def FineCase (T : String → String → Prop) : SwitchCase → Prop
  | .mk vs b => FineLabels T vs ∧ FineSs T b ∧ (declared b).Nodup

/-- One case, as the grammar gives it. -/
def GoodCase (K : String → Prop) : SwitchCase → Prop
  | .mk vs b => (vs ≠ [] ∧ ∀ v ∈ vs, GoodLabel K v) ∧ GoodSs K b

theorem fineCases_cons {c0 : SwitchCase} {cs : List SwitchCase} :
    FineCases T (c0 :: cs) ↔ FineCase T c0 ∧ FineCases T cs := by
  cases c0
  simp only [FineCases, FineCase, and_assoc]

theorem goodCases_cons {c0 : SwitchCase} {cs : List SwitchCase} :
    GoodCases K (c0 :: cs) ↔ GoodCase K c0 ∧ GoodCases K cs := by
  cases c0
  simp only [GoodCases, GoodCase, and_assoc]

mutual
theorem trStmts_out : ∀ {ss : List Stmt} {c : TrCtx} {H : List String} {R : List (List String)},
    scopeNames c.scopes = H :: R → Inv K T c → GoodSs K ss →
    Out (FineSs T ss ∧ FreshNames H (declared ss)) (declared ss) c (trStmts ss c)
  | [], c, H, R, _, _, _ => by
    rw [trStmts]
    exact ⟨⟨trivial, freshNames_nil H⟩, Frame.refl⟩
  | s :: ss, c, H, R, hs, hI, h => by
    rw [trStmts, declared_cons]
    refine (Out.bind (n1 := declared [s]) (n2 := declared ss)
      (F2 := (FineSs T ss ∧ FreshNames (H ++ declared [s]) (declared ss)) ∧ True)
      (trStmt_out hs hI h.1) fun r c1 f1 => ?_).congr ?_
    · have := Out.bind (n1 := declared ss) (n2 := []) (F2 := True)
        (f := fun xs => (Pure.pure (r :: xs) : Tr (List CStmt)))
        (trStmts_out (f1.scope hs) (hI.frame f1) h.2) fun a c2 f2 => Out.pure
      rwa [List.append_nil] at this
    · rw [freshNames_append, FineSs]
      constructor
      · rintro ⟨⟨a, b⟩, ⟨c, d⟩, _⟩; exact ⟨⟨a, c⟩, b, d⟩
      · rintro ⟨⟨a, c⟩, b, d⟩; exact ⟨⟨a, b⟩, ⟨c, d⟩, trivial⟩
theorem trStmt_out : ∀ {s : Stmt} {c : TrCtx} {H : List String} {R : List (List String)},
    scopeNames c.scopes = H :: R → Inv K T c → GoodS K s →
    Out (FineS T s ∧ FreshNames H (declared [s])) (declared [s]) c (trStmt s c)
  | .brk, c, H, R, _, _, _ => by
    rw [trStmt]; exact ⟨⟨trivial, freshNames_nil H⟩, Frame.refl⟩
  | .cont, c, H, R, _, _, _ => by
    rw [trStmt]; exact ⟨⟨trivial, freshNames_nil H⟩, Frame.refl⟩
  | .expr e, c, H, R, _, hI, h => by
    rw [trStmt]
    exact (trExprStmt_out hI (show GoodE K e from h)).congr
      (by rw [FineS]; exact (and_iff_left (freshNames_nil H)).symm)
  | .varDecl d, c, H, R, hs, hI, h => by
    rw [trStmt]
    exact (trVarDecl_out hs hI (show GoodVar K d from h)).congr (by rw [FineS]; rfl)
  | .ret e, c, H, R, _, hI, h => by
    rw [trStmt]
    exact (Out.bind (n1 := []) (n2 := []) (F2 := True) (trOptExpr_out hI (show GoodOpt K e from h))
      fun a c1 f1 => Out.pure).congr
      (by rw [FineS]; exact ⟨fun h => ⟨h.1, freshNames_nil H⟩, fun h => ⟨h.1, trivial⟩⟩)
  | .forS i co a b, c, H, R, hs, hI, h => by
    rw [trStmt]
    have key : Out (FineInit T i ∧ FineOpt T co ∧ FineOpt T a ∧ (FineSs T b ∧ (declared b).Nodup) ∧ True)
        (initNames i ++ []) { c with scopes := [] :: c.scopes } ((do
          let i ← trForInit i
          let c ← trOptCond co
          let a ← trOptExpr a
          let b ← inScope (trStmts b)
          pure (.forS i c a b) : Tr CStmt) { c with scopes := [] :: c.scopes }) := by
      refine Out.bind (n1 := initNames i) (n2 := [])
        (trForInit_out (R := scopeNames c.scopes) rfl (hI.scopes _) h.1) fun r c1 f1 => ?_
      have h1 := (hI.scopes _).frame f1
      refine Out.bind (n1 := []) (n2 := []) (trOptCond_out h1 h.2.1) fun r c2 f2 => ?_
      have h2 := h1.frame f2
      refine Out.bind (n1 := []) (n2 := []) (trOptExpr_out h2 h.2.2.1) fun r c3 f3 => ?_
      have h3 := h2.frame f3
      refine Out.bind (n1 := []) (n2 := [])
        (Out.block (trStmts_out (R := scopeNames c3.scopes) rfl (h3.scopes _) h.2.2.2)) fun r c4 f4 => Out.pure
    refine (inScope_out key).congr ?_
    rw [FineS]
    exact ⟨fun h => ⟨⟨h.1, h.2.1, h.2.2.1, h.2.2.2.1⟩, freshNames_nil H⟩,
      fun h => ⟨h.1.1, h.1.2.1, h.1.2.2.1, h.1.2.2.2, trivial⟩⟩
  | .ifS co b e, c, H, R, hs, hI, h => by
    rw [trStmt]
    refine (Out.bind (n1 := []) (n2 := []) (F2 := FineE T co ∧ (FineSs T b ∧ (declared b).Nodup) ∧ True)
      (trOptBody_out hI h.2.2) fun r c1 f1 => ?_).congr ?_
    · have h1 := hI.frame f1
      refine Out.bind (n1 := []) (n2 := []) (trExpr_out h1 h.1) fun r c2 f2 => ?_
      have h2 := h1.frame f2
      exact Out.bind (n1 := []) (n2 := [])
        (Out.block (trStmts_out (R := scopeNames c2.scopes) rfl (h2.scopes _) h.2.1)) fun r c4 f4 => Out.pure
    · rw [FineS]
      exact ⟨fun h => ⟨⟨h.2.1, h.2.2.1, h.1⟩, freshNames_nil H⟩,
        fun h => ⟨h.1.2.2, h.1.1, h.1.2.1, trivial⟩⟩
  | .whileS co b, c, H, R, hs, hI, h => by
    rw [trStmt]
    refine (Out.bind (n1 := []) (n2 := []) (F2 := (FineSs T b ∧ (declared b).Nodup) ∧ True)
      (trCond_out hI h.1) fun r c1 f1 => ?_).congr ?_
    · have h1 := hI.frame f1
      exact Out.bind (n1 := []) (n2 := [])
        (Out.block (trStmts_out (R := scopeNames c1.scopes) rfl (h1.scopes _) h.2)) fun r c4 f4 => Out.pure
    · rw [FineS]
      exact ⟨fun h => ⟨⟨h.1, h.2.1⟩, freshNames_nil H⟩,
        fun h => ⟨h.1.1, h.1.2, trivial⟩⟩
  | .switchS true v cs d, c, H, R, hs, hI, h => by
    rw [trStmt]
    rw [if_pos rfl]
    cases cs with
    | nil =>
      refine (Out.bind (n1 := []) (n2 := []) (F2 := False) (trExpr_out hI h.1) fun r c1 f1 => ?_).congr ?_
      · exact fun h => h
      · rw [FineS]; simp
    | cons c0 rest =>
      refine (Out.bind (n1 := []) (n2 := []) (F2 := FineCase T c0 ∧ (FineCases T rest ∧ FineOptB T d) ∧ True)
        (trExpr_out hI h.1) fun r c1 f1 => ?_).congr ?_
      · have h1 := hI.frame f1
        have hc := goodCases_cons.1 h.2.1
        refine Out.bind (n1 := []) (n2 := []) (strCase_out h1 hc.1) fun r c2 f2 => ?_
        have h2 := h1.frame f2
        exact Out.bind (n1 := []) (n2 := [])
          (switchStrElse_out h2 hc.2 (fun c' hI' => trOptBody_out hI' h.2.2)) fun r c4 f4 => Out.pure
      · rw [FineS, fineCases_cons]
        exact ⟨fun h => ⟨⟨fun _ => by simp, h.1, ⟨h.2.1, h.2.2.1.1⟩, h.2.2.1.2⟩, freshNames_nil H⟩,
          fun h => ⟨h.1.2.1, h.1.2.2.1.1, ⟨h.1.2.2.1.2, h.1.2.2.2⟩, trivial⟩⟩
  | .switchS false v cs d, c, H, R, hs, hI, h => by
    rw [trStmt]
    rw [if_neg (by simp)]
    refine (Out.bind (n1 := []) (n2 := []) (F2 := FineE T v ∧ FineOptB T d ∧ True)
      (trCases_out hI h.2.1) fun r c1 f1 => ?_).congr ?_
    · have h1 := hI.frame f1
      refine Out.bind (n1 := []) (n2 := []) (trExpr_out h1 h.1) fun r c2 f2 => ?_
      exact Out.bind (n1 := []) (n2 := []) (trOptBody_out (h1.frame f2) h.2.2) fun r c4 f4 => Out.pure
    · rw [FineS]
      exact ⟨fun h => ⟨⟨fun h => by simp at h, h.2.1, h.1, h.2.2.1⟩, freshNames_nil H⟩,
        fun h => ⟨h.1.2.2.1, h.1.2.1, h.1.2.2.2, trivial⟩⟩
theorem trOptBody_out : ∀ {b : Option (List Stmt)} {c : TrCtx}, Inv K T c → GoodOptB K b →
    Out (FineOptB T b) [] c (trOptBody b c)
  | none, c, _, _ => by rw [trOptBody]; exact ⟨trivial, Frame.refl⟩
  | some b, c, hI, h => by
    rw [trOptBody]
    exact (Out.bind (n1 := []) (n2 := []) (F2 := True)
      (Out.block (trStmts_out (R := scopeNames c.scopes) rfl (hI.scopes _) (show GoodSs K b from h)))
      fun r c4 f4 => Out.pure).congr (by rw [FineOptB]; simp)
theorem trCases_out : ∀ {cs : List SwitchCase} {c : TrCtx}, Inv K T c → GoodCases K cs →
    Out (FineCases T cs) [] c (trCases cs c)
  | [], c, _, _ => by rw [trCases]; exact ⟨trivial, Frame.refl⟩
  | .mk vs b :: cs, c, hI, h => by
    rw [trCases]
    refine (Out.bind (n1 := []) (n2 := [])
      (F2 := (FineSs T b ∧ (declared b).Nodup) ∧ FineCases T cs ∧ True)
      (trCaseValues_out hI h.1.2) fun r c1 f1 => ?_).congr ?_
    · have h1 := hI.frame f1
      refine Out.bind (n1 := []) (n2 := [])
        (Out.block (trStmts_out (R := scopeNames c1.scopes) rfl (h1.scopes _) h.2.1)) fun r c4 f4 => ?_
      exact Out.bind (n1 := []) (n2 := []) (trCases_out (h1.frame f4) h.2.2) fun r c4 f4 => Out.pure
    · rw [FineCases, fineLabels_iff]
      exact ⟨fun h => ⟨h.1, h.2.1, h.2.2.1⟩, fun h => ⟨h.1, h.2.1, h.2.2, trivial⟩⟩
theorem strCase_out {sv : CExpr} : ∀ {c0 : SwitchCase} {c : TrCtx}, Inv K T c → GoodCase K c0 →
    Out (FineCase T c0) [] c (strCase sv c0 c)
  | .mk vs b, c, hI, h => by
    rw [strCase]
    refine (Out.bind (n1 := []) (n2 := [])
      (F2 := (FineSs T b ∧ (declared b).Nodup) ∧ True)
      (mkSwitchStrCond_out hI h.1.1 h.1.2) fun r c1 f1 => ?_).congr ?_
    · have h1 := hI.frame f1
      exact Out.bind (n1 := []) (n2 := [])
        (Out.block (trStmts_out (R := scopeNames c1.scopes) rfl (h1.scopes _) h.2)) fun r c4 f4 => Out.pure
    · rw [FineCase, fineLabels_iff]
      exact ⟨fun h => ⟨h.1, h.2.1⟩, fun h => ⟨h.1, h.2, trivial⟩⟩
theorem switchStrElse_out {sv : CExpr} {dflt : Tr (Option CBody)} {F : Prop} :
    ∀ {cs : List SwitchCase} {c : TrCtx}, Inv K T c → GoodCases K cs →
    (∀ c', Inv K T c' → Out F [] c' (dflt c')) →
    Out (FineCases T cs ∧ F) [] c (switchStrElse sv dflt cs c)
  | [], c, hI, _, hd => by
    rw [switchStrElse]
    exact (hd c hI).congr ⟨fun h => ⟨trivial, h⟩, fun h => h.2⟩
  | c0 :: cs, c, hI, h, hd => by
    rw [switchStrElse]
    refine (Out.bind (n1 := []) (n2 := []) (F2 := (FineCases T cs ∧ F) ∧ True)
      (strCase_out hI (goodCases_cons.1 h).1) fun r c1 f1 => ?_).congr ?_
    · exact Out.bind (n1 := []) (n2 := [])
        (switchStrElse_out (hI.frame f1) (goodCases_cons.1 h).2 hd) fun r c4 f4 => Out.pure
    · rw [fineCases_cons]
      exact ⟨fun h => ⟨⟨h.1, h.2.1.1⟩, h.2.1.2⟩, fun h => ⟨h.1.1, ⟨h.1.2, h.2⟩, trivial⟩⟩
end

/-! ## Lists -/

theorem trList_out {α β : Type} {f : α → Tr β} {F : α → Prop} {ok : TrCtx → Prop}
    (hok : ∀ c c' , Frame [] c c' → ok c → ok c') : ∀ {xs : List α} {c : TrCtx}, ok c →
    (∀ x ∈ xs, ∀ c, ok c → Out (F x) [] c (f x c)) →
    Out (∀ x ∈ xs, F x) [] c (trList f xs c)
  | [], c, _, _ => ⟨by simp, Frame.refl⟩
  | x :: xs, c, hc, h => by
    rw [trList]
    refine (Out.bind (n1 := []) (n2 := []) (F2 := (∀ x ∈ xs, F x) ∧ True)
      (h x (by simp) c hc) fun r c1 f1 => ?_).congr (by simp)
    exact Out.bind (n1 := []) (n2 := [])
      (trList_out hok (hok _ _ f1 hc) (fun y hy => h y (by simp [hy]))) fun a c1 f1 => Out.pure

/-- A list of calls none of which declares anything. -/
theorem trList_plain {α β : Type} {f : α → Tr β} {F : α → Prop} {xs : List α} (hI : Inv K T c)
    (h : ∀ x ∈ xs, ∀ c, Inv K T c → Out (F x) [] c (f x c)) :
    Out (∀ x ∈ xs, F x) [] c (trList f xs c) :=
  trList_out (ok := Inv K T) (fun _ _ f h => h.frame f) hI h

/-- A list of calls each of which declares some names. -/
theorem trList_names {α β : Type} {f : α → Tr β} {F : α → Prop} {N : α → List String} :
    ∀ {xs : List α} {c : TrCtx} {H : List String} {R : List (List String)}, scopeNames c.scopes = H :: R →
    (∀ x ∈ xs, ∀ (c : TrCtx) H R, scopeNames c.scopes = H :: R →
      Out (F x ∧ FreshNames H (N x)) (N x) c (f x c)) →
    Out ((∀ x ∈ xs, F x) ∧ FreshNames H (xs.flatMap N)) (xs.flatMap N) c (trList f xs c)
  | [], c, H, R, _, _ => ⟨⟨by simp, freshNames_nil H⟩, Frame.refl⟩
  | x :: xs, c, H, R, hs, h => by
    rw [trList, List.flatMap_cons]
    refine (Out.bind (n1 := N x) (n2 := xs.flatMap N)
      (F2 := ((∀ x ∈ xs, F x) ∧ FreshNames (H ++ N x) (xs.flatMap N)) ∧ True)
      (h x (by simp) c H R hs) fun r c1 f1 => ?_).congr ?_
    · have := Out.bind (n1 := xs.flatMap N) (n2 := []) (F2 := True)
        (f := fun ys => (Pure.pure (r :: ys) : Tr (List β)))
        (trList_names (f1.scope hs) (fun y hy => h y (by simp [hy]))) fun a c2 f2 => Out.pure
      rwa [List.append_nil] at this
    · rw [freshNames_append, List.forall_mem_cons]
      constructor
      · rintro ⟨⟨a, b⟩, ⟨c, d⟩, _⟩; exact ⟨⟨a, c⟩, b, d⟩
      · rintro ⟨⟨a, c⟩, b, d⟩; exact ⟨⟨a, b⟩, ⟨c, d⟩, trivial⟩

/-! ## Module elements -/

theorem trTypeForm_out (hI : Inv K T c) {t : Typename} {f : Form} (ht : GoodName K t.name)
    (hf : GoodForm K f) : Out (FineForm T f) [] c (trTypeForm t f c) := by
  unfold trTypeForm
  refine (Out.bind (n1 := []) (n2 := []) (F2 := FineForm T f ∧ True) (trTypename_out hI ht)
    fun a c1 f1 => ?_).congr (by simp)
  exact Out.bind (n1 := []) (n2 := []) (trForm_out (hI.frame f1) hf _) fun a c1 f1 => Out.pure

theorem trAnonParams_out (hI : Inv K T c) {p : Option AnonParams}
    (h : ∀ q, p = some q → ∀ b ∈ q.forms, GoodName K b.typename.name) :
    Out True [] c (trAnonParams p c) := by
  cases p with
  | none => exact ⟨trivial, Frame.refl⟩
  | some p =>
    rw [trAnonParams]
    refine (Out.bind (n1 := []) (n2 := []) (F2 := True)
      (trList_plain (F := fun _ => True) hI (fun x hx c hI => trBareTypeform_out hI (h p rfl x hx)))
      fun a c1 f1 => Out.pure).congr (by simp)

theorem trTypedef_out (hI : Inv K T c) {x : Typedef} (h : GoodElem K (.typedef x)) :
    Out True [] c (trTypedef x c) := by
  unfold trTypedef
  refine (Out.bind (n1 := []) (n2 := []) (F2 := True ∧ True)
      (trAnonParams_out hI h.2) fun a c1 f1 => ?_).congr (by simp)
  simp only [Tr.get_bind]
  exact Out.bind (n1 := []) (n2 := []) (trTypename_out (hI.frame f1) h.1) fun a c1 f1 => Out.pure

theorem trStructEntry_out (hI : Inv K T c) {x : StructEntry} (h : GoodMember K x) :
    Out (FineMember T x) [] c (trStructEntry x c) := by
  cases x with
  | plain x =>
    rw [trStructEntry]
    refine (Out.bind (n1 := []) (n2 := []) (F2 := True)
      (trList_plain (F := FineForm T) hI (fun f hf c hI => trTypeForm_out hI h.1 (h.2 f hf)))
      fun a c1 f1 => Out.pure).congr (by simp [FineMember])
  | union u =>
    rw [trStructEntry]
    refine (Out.bind (n1 := []) (n2 := []) (F2 := True) (F1 := FineMember T (.union u)) ?_
      fun a c1 f1 => Out.pure).congr (by simp)
    unfold trUnion
    refine (Out.bind (n1 := []) (n2 := []) (F2 := (∀ f ∈ u.fields, FineForm T f.form) ∧ True)
      (trForm_out hI h.1 _) fun a c1 f1 => ?_).congr (by simp [FineMember])
    exact Out.bind (n1 := []) (n2 := [])
      (trList_plain (F := fun f : UnionField => FineForm T f.form) (hI.frame f1)
        (fun f hf c hI => trTypeForm_out hI (h.2 f hf).1 (h.2 f hf).2))
      fun a c1 f1 => Out.pure

theorem trStructTypedef_out (hI : Inv K T c) {x : StructTypedef} (h : ∀ e ∈ x.entries, GoodMember K e) :
    Out (∀ e ∈ x.entries, FineMember T e) [] c (trStructTypedef x c) := by
  unfold trStructTypedef
  simp only [Tr.get_bind]
  exact (Out.bind (n1 := []) (n2 := []) (F2 := True)
    (trList_plain hI (fun f hf c hI => trStructEntry_out hI (h f hf)))
    fun a c1 f1 => Out.pure).congr (by simp)

theorem trEnum_out (hI : Inv K T c) {x : EnumDef} (h : ∀ e ∈ x.entries, GoodOpt K e.val) :
    Out (∀ e ∈ x.entries, FineOpt T e.val) [] c (trEnum x c) := by
  unfold trEnum
  refine (Out.bind (n1 := []) (n2 := []) (F2 := True)
    (trList_plain (F := fun e : EnumEntry => FineOpt T e.val) hI (fun f hf c hI => ?_))
    fun a c1 f1 => Out.pure).congr (by simp)
  unfold trEnumEntry
  simp only [Tr.get_bind]
  exact (Out.bind (n1 := []) (n2 := []) (F2 := True) (trOptExpr_out hI (h f hf))
    fun a c1 f1 => Out.pure).congr (by simp)

theorem trModVar_out (hI : Inv K T c) {d : VarDecl} (h : GoodVar K d) (hv : d.value ≠ none) :
    Out (FineForm T d.form ∧ FineOpt T d.value) [] c (trModVar d c) := by
  unfold trModVar
  cases hd : d.value with
  | none => exact absurd hd hv
  | some e =>
    have he : GoodE K e := by have := h.2.2; rw [hd] at this; exact this
    refine (Out.bind (n1 := []) (n2 := []) (F2 := FineForm T d.form ∧ FineE T e ∧ True)
      (trTypename_out hI h.1) fun a c1 f1 => ?_).congr (by simp [FineOpt])
    refine Out.bind (n1 := []) (n2 := []) (trForm_out (hI.frame f1) h.2.1 _) fun a c2 f2 => ?_
    exact Out.bind (n1 := []) (n2 := []) (trExpr_out ((hI.frame f1).frame f2) he) fun a c2 f2 => Out.pure

theorem trFuncParams_out (hI : Inv K T c) {ps : FuncParams} (h : ∀ p ∈ ps.list, GoodFields K p) :
    Out (∀ p ∈ ps.list, ∀ g ∈ p.forms, FineForm T g) [] c (trFuncParams ps c) := by
  unfold trFuncParams
  exact (Out.bind (n1 := []) (n2 := []) (F2 := True)
    (trList_plain (F := fun p : TypeAndForms => ∀ g ∈ p.forms, FineForm T g) hI
      (fun p hp c hI => trList_plain hI (fun g hg c hI => trTypeForm_out hI (h p hp).1 ((h p hp).2 g hg))))
    fun a c1 f1 => Out.pure).congr (by simp)

theorem bindParams_out {R : List (List String)} (hs : scopeNames c.scopes = [] :: R) (ps : FuncParams) :
    Out (paramNames ps).Nodup (paramNames ps) c (bindParams ps c) := by
  unfold bindParams
  have := Out.bind (n1 := paramNames ps) (n2 := []) (F2 := True)
    (f := fun _ => (Pure.pure () : Tr Unit))
    (trList_names (F := fun _ => True) (N := fun p : TypeAndForms => p.forms.map (·.name))
      (f := fun (p : TypeAndForms) =>
        trList (fun (f : Form) => addBinding f.name f.pos false (typefromTypename p.typename f)) p.forms)
      (xs := ps.list) hs (fun p _ c H R hs => by
        have := trList_names (F := fun _ => True) (N := fun f : Form => [f.name])
          (f := fun (f : Form) => addBinding f.name f.pos false (typefromTypename p.typename f))
          (xs := p.forms) hs (fun f _ c H R hs => (addBinding_out hs _ _ _ _).congr (by simp))
        have e : p.forms.flatMap (fun f : Form => [f.name]) = p.forms.map (·.name) := by
          rw [List.map_eq_flatMap]
        rw [e] at this
        exact this.congr (by simp))) fun a c2 f2 => Out.pure
  rw [List.append_nil] at this
  refine this.congr ?_
  rw [freshNames_empty]
  simp [paramNames]

theorem trFuncDecl_out (hI : Inv K T c) {f : FuncDecl} (h : GoodElem K (.funcDecl f)) :
    Out (FineElem T (.funcDecl f)) [] c (trFuncDecl f c) := by
  unfold trFuncDecl
  refine (Out.bind (n1 := []) (n2 := []) (F2 := True) (F1 := FineElem T (.funcDecl f)) ?_
      fun a c1 f1 => ?_).congr (by simp)
  · refine inScope_out (n := paramNames f.params ++ []) ?_
    refine (Out.bind (n1 := paramNames f.params) (n2 := [])
      (F2 := (FineSs T f.body ∧ (declared f.body).Nodup) ∧ True ∧ FineForm T f.form ∧
        (∀ p ∈ f.params.list, ∀ g ∈ p.forms, FineForm T g) ∧
        (f.form.name ≠ "main" → True ∧ FineForm T f.form ∧
          (∀ p ∈ f.params.list, ∀ g ∈ p.forms, FineForm T g) ∧ True))
      (bindParams_out (R := scopeNames c.scopes) rfl f.params) fun a c1 f1 => ?_).congr ?_
    · have h1 := (hI.scopes _).frame f1
      refine Out.bind (n1 := []) (n2 := [])
        (Out.block (trStmts_out (R := scopeNames c1.scopes) rfl (h1.scopes _) h.2.2.2)) fun a c2 f2 => ?_
      have h2 := h1.frame f2
      refine Out.bind (n1 := []) (n2 := []) (trTypename_out h2 h.1) fun a c3 f3 => ?_
      have h3 := h2.frame f3
      refine Out.bind (n1 := []) (n2 := []) (trForm_out h3 h.2.1 _) fun a c4 f4 => ?_
      have h4 := h3.frame f4
      refine Out.bind (n1 := []) (n2 := []) (trFuncParams_out h4 h.2.2.1) fun a c5 f5 => ?_
      have h5 := h4.frame f5
      split
      · rename_i hm
        refine Out.congr (F := True ∧ FineForm T f.form ∧
          (∀ p ∈ f.params.list, ∀ g ∈ p.forms, FineForm T g) ∧ True) ?_ ⟨fun h _ => h, fun h => h hm⟩
        refine Out.bind (n1 := []) (n2 := []) (trTypename_out h5 h.1) fun a c6 f6 => ?_
        have h6 := h5.frame f6
        refine Out.bind (n1 := []) (n2 := []) (trForm_out h6 h.2.1 _) fun a c7 f7 => ?_
        exact Out.bind (n1 := []) (n2 := []) (trFuncParams_out (h6.frame f7) h.2.2.1) fun a c5 f5 => Out.pure
      · rename_i hm
        exact Out.of_true Out.pure (fun h => absurd h hm)
    · rw [FineElem]
      exact ⟨fun h => ⟨h.2.2.2.1, h.2.2.2.2.1, h.1, h.2.1⟩,
        fun h => ⟨h.2.2.1, h.2.2.2, trivial, h.1, h.2.1, fun _ => ⟨trivial, h.1, h.2.1, trivial⟩⟩⟩
  · split
    · exact Out.fail
    · exact Out.pure

/-- The part of `FineElem` that shows when the elements are registered. -/
def DefineFine : ModElem → Prop
  | .macro x => x.name = "define" → 2 ≤ (RStr.splitWs (RStr.trim x.value)).length
  | _ => True

/-- The part of `FineElem` that shows when the elements are translated. -/
def BodyFine (T : String → String → Prop) : ModElem → Prop
  | .macro _ => True
  | e => FineElem T e

theorem fineElem_iff {e : ModElem} : FineElem T e ↔ DefineFine e ∧ BodyFine T e := by
  cases e <;> simp [DefineFine, BodyFine, FineElem]

theorem trModElem_out (hI : Inv K T c) {e : ModElem} (h : GoodElem K e) :
    Out (BodyFine T e) [] c (trModElem e c) := by
  cases e with
  | «macro» x => exact ⟨trivial, Frame.refl⟩
  | structAlias x =>
    show Out _ _ _ (trStructAlias x c)
    unfold trStructAlias
    simp only [Tr.get_bind]
    exact Out.of_true Out.pure trivial
  | enum x => exact trEnum_out hI h
  | typedef x => exact trTypedef_out hI h
  | structTypedef x => exact trStructTypedef_out hI h
  | modVar d => exact trModVar_out hI h.1 h.2
  | funcDecl f => exact trFuncDecl_out hI h

theorem bindElem_out {H : List String} {R : List (List String)} (hs : scopeNames c.scopes = H :: R)
    (e : ModElem) :
    Out (DefineFine e ∧ FreshNames H ((declElem e).map (·.1))) ((declElem e).map (·.1)) c (bindElem e c) := by
  cases e with
  | «macro» x =>
    rw [bindElem, declElem]
    by_cases hd : x.name = "define"
    · rw [if_pos hd, if_pos hd, definedName]
      cases hw : RStr.splitWs (RStr.trim x.value) with
      | nil =>
        show ¬ _
        rintro ⟨h, _⟩
        have := h hd
        rw [hw] at this
        simp at this
      | cons id r =>
        cases r with
        | nil =>
          show ¬ _
          rintro ⟨h, _⟩
          have := h hd
          rw [hw] at this
          simp at this
        | cons val r =>
          refine (addBinding_out hs _ _ _ _).congr ⟨fun h => ⟨fun _ => ?_, h⟩, fun h => h.2⟩
          rw [hw]; simp
    · rw [if_neg hd, if_neg hd]
      exact ⟨⟨fun h => absurd h hd, freshNames_nil H⟩, Frame.refl⟩
  | structAlias x =>
    exact ⟨⟨trivial, freshNames_nil H⟩, rfl, rfl, rfl, rfl, (growNames_nil (scopeNames c.scopes)).symm⟩
  | enum x =>
    rw [bindElem, declElem]
    have := Out.bind (n1 := x.entries.map (·.name)) (n2 := []) (F2 := True)
      (f := fun _ => (Pure.pure () : Tr Unit))
      (by
        have := trList_names (F := fun _ => True) (N := fun e : EnumEntry => [e.name])
          (f := fun (e : EnumEntry) => addBinding e.name x.pos x.isPub tNumber)
          (xs := x.entries) hs (fun f _ c H R hs => (addBinding_out hs _ _ _ _).congr (by simp))
        rwa [← List.map_eq_flatMap] at this) fun a c2 f2 => Out.pure
    rw [List.append_nil] at this
    rw [List.map_map]
    exact this.congr (by simp [DefineFine, Function.comp_def])
  | typedef x =>
    exact ⟨⟨trivial, freshNames_nil H⟩, rfl, rfl, rfl, rfl, (growNames_nil (scopeNames c.scopes)).symm⟩
  | structTypedef x =>
    exact ⟨⟨trivial, freshNames_nil H⟩, rfl, rfl, rfl, rfl, (growNames_nil (scopeNames c.scopes)).symm⟩
  | modVar d => exact (addBinding_out hs _ _ _ _).congr (by simp [DefineFine, declElem])
  | funcDecl f => exact (addBinding_out hs _ _ _ _).congr (by simp [DefineFine, declElem])

theorem trModuleBody_out (hI : Inv K T c) {m : Module} (h : ∀ e ∈ m.elements, GoodElem K e) :
    Out ((∀ e ∈ m.elements, FineElem T e) ∧ ((m.elements.flatMap declElem).map (·.1)).Nodup) [] c
      (trModuleBody m c) := by
  unfold trModuleBody
  have hb := trList_names (F := DefineFine) (N := fun e => (declElem e).map (·.1)) (f := bindElem)
    (xs := m.elements) (c := { c with scopes := [] :: c.scopes }) (H := []) (R := scopeNames c.scopes) rfl
    (fun e _ c H R hs => bindElem_out hs e)
  refine (inScope_out (Out.bind (n2 := []) (F2 := (∀ e ∈ m.elements, BodyFine T e) ∧ True) hb
    fun a c1 f1 => ?_)).congr ?_
  · exact Out.bind (n1 := []) (n2 := [])
      (trList_plain ((hI.scopes _).frame f1) (fun e he c hI => trModElem_out hI (h e he)))
      fun a c1 f1 => Out.pure
  · rw [freshNames_empty, List.map_flatMap]
    simp only [fineElem_iff]
    constructor
    · rintro ⟨⟨a, b⟩, c, _⟩; exact ⟨fun e he => ⟨a e he, c e he⟩, b⟩
    · rintro ⟨a, b⟩; exact ⟨⟨fun e he => (a e he).1, b⟩, fun e he => (a e he).2, trivial⟩

end
end Che
