import Verif.Proofs.CUnitBack
import Verif.Proofs.CStmtDerive
/-!
# A printed module can be read
-/
namespace Che.Proofs.CUnitDerive
open Che Che.Spec Che.FormatC Che.Proofs.CPrintToks Che.Proofs.CPrintDerive Che.Proofs.CStmtToks Che.Proofs.CStmtBack
  Che.Proofs.CStmtDerive Che.Proofs.CUnitToks Che.Proofs.CUnitLines Che.Proofs.CUnitBack

variable {ty : String → Bool}

theorem derive_fields : ∀ {fs : List CTypeForm} {f : CTypeForm}, (∀ g ∈ f :: fs, PlainField ty g) →
    (f :: fs).all (fun g => FaithfulForm g.form) = true →
    ∃ ps, CFields ty ps (fieldsToks (f :: fs)) ∧ ListAlike (FieldAlike Same) ((f :: fs).map kField) ps
  | [], f, h, hf => by
    simp only [List.all_cons, Bool.and_eq_true] at hf
    have h1 := h f (by simp)
    obtain ⟨g, h2, h3⟩ := derive_form h1.2 hf.1
    exact ⟨[(f.typename, g)], .one (.mk (derive_spec h1.1) h2), .cons ⟨rfl, h3⟩ .nil⟩
  | e :: fs, f, h, hf => by
    rw [List.all_cons, Bool.and_eq_true] at hf
    have h1 := h f (by simp)
    obtain ⟨g, h2, h3⟩ := derive_form h1.2 hf.1
    obtain ⟨ps, h4, h5⟩ := derive_fields (fun x hx => h x (by simp only [List.mem_cons] at hx ⊢; exact .inr hx)) hf.2
    have := CFields.cons (.mk (derive_spec h1.1) h2) h4
    exact ⟨(f.typename, g) :: ps, by simpa [fieldsToks] using this, .cons ⟨rfl, h3⟩ h5⟩

theorem derive_member {m} (h : PlainItem ty m) (hf : FaithfulItem m = true) :
    ∃ k, CMember ty k (memberToks m) ∧ MemberAlike Same (kMember m) k := by
  cases m with
  | field f =>
    obtain ⟨g, h2, h3⟩ := derive_form h.2 hf
    exact ⟨.field f.typename g, .field (.mk (derive_spec h.1) h2), .field h3⟩
  | union u =>
    obtain ⟨uf, us⟩ := u
    obtain ⟨hn, h1, h2⟩ := h
    simp only [FaithfulItem, Bool.and_eq_true] at hf
    obtain ⟨g, h3, h4⟩ := derive_form h2 hf.2
    cases us with
    | nil => exact absurd rfl hn
    | cons u us =>
      obtain ⟨ps, h5, h6⟩ := derive_fields h1 hf.1
      exact ⟨.union ps g, .union h5 h3, .union h6 h4⟩

theorem derive_members : ∀ {fs : List CStructItem} {f : CStructItem}, (∀ g ∈ f :: fs, PlainItem ty g) →
    (f :: fs).all FaithfulItem = true →
    ∃ ps, CMembers ty ps (membersToks (f :: fs)) ∧ ListAlike (MemberAlike Same) ((f :: fs).map kMember) ps
  | [], f, h, hf => by
    simp only [List.all_cons, Bool.and_eq_true] at hf
    obtain ⟨k, h1, h2⟩ := derive_member (h f (by simp)) hf.1
    exact ⟨[k], .one (by simpa [membersToks] using h1), .cons h2 .nil⟩
  | e :: fs, f, h, hf => by
    rw [List.all_cons, Bool.and_eq_true] at hf
    obtain ⟨k, h1, h2⟩ := derive_member (h f (by simp)) hf.1
    obtain ⟨ps, h4, h5⟩ := derive_members (fun x hx => h x (by simp only [List.mem_cons] at hx ⊢; exact .inr hx)) hf.2
    exact ⟨k :: ps, .cons h1 h4, .cons h2 h5⟩

theorem derive_const {e} (h : Plain ty e) (hf : FaithfulConst (some e) = true) : CEx ty (.ex 3 (canon e)) (toksE e) := by
  have hF : Faithful e = true := by
    cases e <;> first | exact hf | (simp only [FaithfulConst, Bool.and_eq_true] at hf; exact hf.1)
  refine derive h hF 3 (by omega) ?_
  cases hb : isBinary e with
  | false => have := lvl_nonbinary hb hF; omega
  | true =>
    cases e <;> first | cases hb | skip
    simp only [FaithfulConst, Bool.and_eq_true, Bool.not_eq_true', decide_eq_false_iff_not] at hf
    obtain ⟨l, hl⟩ | hl := h.1
    · simp only [lvl, strength_level hl]; exact (cLevel_range hl).1
    · exact absurd hl hf.2

theorem derive_enumerator {m : CEnumEntry} (hw : PlainWord ty m.id) (hv : PlainOpt ty m.value)
    (hf : FaithfulConst m.value = true) :
    ∃ k, CEnumerator ty k (enumeratorToks m) ∧ EnumAlike Same (m.id, m.value) k := by
  obtain ⟨w, v⟩ := m
  cases v with
  | none => exact ⟨(w, none), .plain hw.2, ⟨rfl, .none⟩⟩
  | some e => exact ⟨(w, some (canon e)), .value hw.2 (derive_const hv hf), ⟨rfl, .some rfl⟩⟩

theorem derive_enumerators : ∀ {ms : List CEnumEntry} {m : CEnumEntry},
    (∀ g ∈ m :: ms, PlainWord ty g.id ∧ PlainOpt ty g.value) →
    (m :: ms).all (fun m => FaithfulConst m.value) = true →
    ∃ ks, CEnumerators ty ks (enumeratorToks m ++ enumeratorsToks ms) ∧
      ListAlike (EnumAlike Same) ((m :: ms).map fun m => (m.id, m.value)) ks
  | [], m, h, hf => by
    simp only [List.all_cons, Bool.and_eq_true] at hf
    obtain ⟨k, h1, h2⟩ := derive_enumerator (h m (by simp)).1 (h m (by simp)).2 hf.1
    exact ⟨[k], .one (by simpa [enumeratorsToks] using h1), .cons h2 .nil⟩
  | e :: ms, m, h, hf => by
    rw [List.all_cons, Bool.and_eq_true] at hf
    obtain ⟨k, h1, h2⟩ := derive_enumerator (h m (by simp)).1 (h m (by simp)).2 hf.1
    obtain ⟨ks, h4, h5⟩ := derive_enumerators (fun x hx => h x (by simp only [List.mem_cons] at hx ⊢; exact .inr hx)) hf.2
    exact ⟨k :: ks, .cons h1 h4, .cons h2 h5⟩

theorem derive_paramList : ∀ {fs : List CTypeForm} {f : CTypeForm}, (∀ g ∈ f :: fs, PlainField ty g) →
    (f :: fs).all (fun g => FaithfulForm g.form) = true →
    ∃ ps, CParamList ty ps (fieldToks f ++ moreParams fs) ∧ ListAlike (FieldAlike Same) ((f :: fs).map kField) ps
  | [], f, h, hf => by
    simp only [List.all_cons, Bool.and_eq_true] at hf
    have h1 := h f (by simp)
    obtain ⟨g, h2, h3⟩ := derive_form h1.2 hf.1
    exact ⟨[(f.typename, g)], by simpa [moreParams, fieldToks] using CParamList.one (derive_spec h1.1) h2, .cons ⟨rfl, h3⟩ .nil⟩
  | e :: fs, f, h, hf => by
    rw [List.all_cons, Bool.and_eq_true] at hf
    have h1 := h f (by simp)
    obtain ⟨g, h2, h3⟩ := derive_form h1.2 hf.1
    obtain ⟨ps, h4, h5⟩ := derive_paramList (fun x hx => h x (by simp only [List.mem_cons] at hx ⊢; exact .inr hx)) hf.2
    have := CParamList.cons (derive_spec h1.1) h2 h4
    exact ⟨(f.typename, g) :: ps, by simpa [moreParams, fieldToks] using this, .cons ⟨rfl, h3⟩ h5⟩

theorem derive_params {p : CFuncParams} (h : PlainParams ty p)
    (hf : p.list.all (fun g => FaithfulForm g.form) = true) :
    ∃ ps, CParams ty ps p.variadic (paramsToks p) ∧ ListAlike (FieldAlike Same) (p.list.map kField) ps := by
  obtain ⟨fs, b⟩ := p
  cases fs with
  | nil =>
    have hb : b = false := by
      cases b with
      | false => rfl
      | true => exact absurd rfl (h.2 rfl)
    subst hb
    exact ⟨[], .void, .nil⟩
  | cons f fs =>
    obtain ⟨ps, h1, h2⟩ := derive_paramList h.1 hf
    refine ⟨ps, ?_, h2⟩
    cases b with
    | false => simpa [paramsToks, dotsToks] using CParams.some h1
    | true => simpa [paramsToks, dotsToks] using CParams.dots h1

theorem derive_types : ∀ {l : List CBareTypeform} {t}, (∀ x ∈ t :: l, PlainType ty x) →
    CTypeList ty (t :: l) (typeToks t ++ moreTypes l)
  | [], t, h => by simpa [moreTypes] using CTypeList.one (derive_type (h t (by simp)))
  | u :: l, t, h => .cons (derive_type (h t (by simp)))
      (derive_types fun x hx => h x (by simp only [List.mem_cons] at hx ⊢; exact .inr hx))

theorem derive_anon {p : Option CAnonParams}
    (h : ∀ q, p = some q → (∀ t ∈ q.forms, PlainType ty t) ∧ (q.ellipsis = true → q.forms ≠ [])) :
    CAnon ty (p.map kAnon) (anonToks p) := by
  cases p with
  | none => exact .none
  | some p =>
    obtain ⟨b, l⟩ := p
    obtain ⟨h1, h2⟩ := h _ rfl
    cases l with
    | nil =>
      have hb : b = false := by
        cases b with
        | false => rfl
        | true => exact absurd rfl (h2 rfl)
      subst hb
      exact .void
    | cons t l =>
      have h3 := derive_types h1
      cases b with
      | true => simpa [kAnon, anonToks, dotsToks] using CAnon.dots h3
      | false =>
        by_cases hv : t :: l = voidList
        · injection hv with ht hl
          subst ht hl
          exact .void
        · simpa [kAnon, anonToks, dotsToks, hv] using CAnon.some h3 hv

theorem derive_ktype {t} (h : PlainKType ty t) : CKType ty t (kTypeToks t) := by
  obtain ⟨b, s, w⟩ := t
  cases s with
  | false =>
    have hw : CTypeWord ty w := h.2
    cases b
    · exact .name hw
    · exact .const hw
  | true =>
    have hw : w ∉ cKeywords := h.2
    cases b
    · exact .struct hw
    · exact .constStruct hw

theorem derive_static (b) : CStorage b (staticToks b) := by
  cases b
  · exact .none
  · exact .static

theorem derive_ext {e} (h : PlainElem ty e) (hd : isDir e = false) (hf : FaithfulElem e = true) :
    ∃ k, CExtDecl ty k (elemToks e) ∧ ExtAlike Same Same (kElem e) k := by
  cases e with
  | «include» x => cases hd
  | «macro» x => cases hd
  | forwardStruct w => exact ⟨_, .structDecl h.2, .structDecl⟩
  | defEnum d =>
    obtain ⟨hid, es⟩ := d
    obtain ⟨hn, hp⟩ := h
    cases es with
    | nil => exact absurd rfl hn
    | cons m ms =>
      obtain ⟨ks, h1, h2⟩ := derive_enumerators hp hf
      exact ⟨.enum ks, .enum h1, .enum h2⟩
  | typedef d =>
    obtain ⟨p1, ⟨n, p2⟩, p3, p4⟩ := h
    obtain ⟨is', h1, h2⟩ := derive_bounds (size_plain ty d.form.size)
      (by unfold sizeBounds; split <;> rfl)
    refine ⟨_, ?_, .typedef h2⟩
    have := CExtDecl.typedef (n := d.form.stars.toList.length) (derive_ktype p1) p3.2 (derive_anon p4) h1
    simpa [elemToks, size_bounds] using this
  | structDef d =>
    obtain ⟨w, ms⟩ := d
    obtain ⟨p1, p2, p3⟩ := h
    cases ms with
    | nil => exact absurd rfl p2
    | cons m ms =>
      obtain ⟨ks, h1, h2⟩ := derive_members p3 hf
      exact ⟨.structDef w ks, .structDef p1.2 h1, .structDef h2⟩
  | varDecl d =>
    obtain ⟨p1, p2, p3⟩ := h
    obtain ⟨d', h1, h2⟩ := derive_decl (d := (d.form, some d.value)) p2 p3 hf
    have := CExtDecl.var .static (derive_spec p1) h1
    exact ⟨.var true d.typename d', by simpa [elemToks, declToks] using this, .var h2⟩
  | forwardFunc d =>
    obtain ⟨p1, p2, p3⟩ := h
    simp only [FaithfulElem, Bool.and_eq_true] at hf
    obtain ⟨f', h1, h2⟩ := derive_form p2 hf.1
    obtain ⟨ps, h3, h4⟩ := derive_params p3 hf.2
    exact ⟨_, .proto (derive_static _) (derive_spec p1) h1 h3, .proto h2 h4⟩
  | funcDef d =>
    obtain ⟨p1, p2, p3, p4⟩ := h
    simp only [FaithfulElem, Bool.and_eq_true] at hf
    obtain ⟨f', h1, h2⟩ := derive_form p2 hf.1.1
    obtain ⟨ps, h3, h4⟩ := derive_params p3 hf.1.2
    obtain ⟨ks, h5, h6⟩ := canSs p4 hf.2
    exact ⟨_, .func (derive_static _) (derive_spec p1) h1 h3 (.block h5), .func h2 h4 h6⟩

theorem derive_unit : ∀ {es : List CModElem}, (∀ e ∈ es, PlainElem ty e) → es.all FaithfulElem = true →
    ∃ ks, CUnit ty ks (es.flatMap elemItems) ∧ ListAlike (ExtAlike Same Same) (es.map kElem) ks
  | [], _, _ => ⟨[], .nil, .nil⟩
  | e :: es, h, hf => by
    rw [List.all_cons, Bool.and_eq_true] at hf
    obtain ⟨ks, h1, h2⟩ := derive_unit (es := es) (fun x hx => h x (by simp [hx])) hf.2
    rw [List.flatMap_cons]
    cases hd : isDir e with
    | true =>
      obtain ⟨l, hl, hk⟩ : ∃ l, elemItems e = [.dir l] ∧ kElem e = .directive l := by
        cases e <;> first | (cases hd; done) | exact ⟨_, rfl, rfl⟩
      rw [hl, List.map_cons, hk]
      exact ⟨_, .dir h1, .cons .directive h2⟩
    | false =>
      have hl : elemItems e = (elemToks e).map .tok := by
        cases e <;> first | rfl | cases hd
      obtain ⟨k, h3, h4⟩ := derive_ext (h e (by simp)) hd hf.1
      rw [hl]
      exact ⟨k :: ks, .decl h3 h1, .cons h4 h2⟩

/-! ## One by one -/

section
variable {R I R' I' : CExpr → CExpr → Prop}

theorem field_fun (h : Fun R) {e a b} (h1 : FieldAlike R e a) (h2 : FieldAlike R e b) : a = b :=
  Prod.ext (h1.type.symm.trans h2.type) (form_fun h h1.form h2.form)

theorem member_fun (h : Fun R) {e a b} (h1 : MemberAlike R e a) (h2 : MemberAlike R e b) : a = b := by
  cases h1 with
  | field h1 => cases h2 with | field h2 => rw [form_fun h h1 h2]
  | union h1 h3 =>
    cases h2 with
    | union h2 h4 => rw [list_fun (R := FieldAlike R) (fun _ _ _ => field_fun h) h1 h2, form_fun h h3 h4]

theorem enum_fun (h : Fun R) {e a b} (h1 : EnumAlike R e a) (h2 : EnumAlike R e b) : a = b :=
  Prod.ext (h1.name.symm.trans h2.name) (opt_fun h h1.value h2.value)

theorem ext_fun (h : Fun R) (hI : Fun I) {e a b} (h1 : ExtAlike R I e a) (h2 : ExtAlike R I e b) : a = b := by
  cases h1 with
  | directive => cases h2; rfl
  | var h1 => cases h2 with | var h2 => rw [decl_fun h hI h1 h2]
  | typedef h1 => cases h2 with | typedef h2 => rw [list_fun (R := OptAlike R) (fun _ _ _ => opt_fun h) h1 h2]
  | enum h1 => cases h2 with | enum h2 => rw [list_fun (R := EnumAlike R) (fun _ _ _ => enum_fun h) h1 h2]
  | structDecl => cases h2; rfl
  | structDef h1 => cases h2 with | structDef h2 => rw [list_fun (R := MemberAlike R) (fun _ _ _ => member_fun h) h1 h2]
  | proto h1 h3 =>
    cases h2 with
    | proto h2 h4 => rw [form_fun h h1 h2, list_fun (R := FieldAlike R) (fun _ _ _ => field_fun h) h3 h4]
  | func h1 h3 h5 =>
    cases h2 with
    | func h2 h4 h6 =>
      rw [form_fun h h1 h2, list_fun (R := FieldAlike R) (fun _ _ _ => field_fun h) h3 h4, alikes_fun h hI h5 h6]

theorem field_mono (h : ∀ ⦃a b⦄, R a b → R' a b) {a b} (h1 : FieldAlike R a b) : FieldAlike R' a b :=
  ⟨h1.type, form_mono h h1.form⟩

theorem member_mono (h : ∀ ⦃a b⦄, R a b → R' a b) {a b} (h1 : MemberAlike R a b) : MemberAlike R' a b := by
  cases h1 with
  | field h1 => exact .field (form_mono h h1)
  | union h1 h2 => exact .union (list_mono (fun _ _ => field_mono h) h1) (form_mono h h2)

theorem ext_mono (h : ∀ ⦃a b⦄, R a b → R' a b) (hI : ∀ ⦃a b⦄, I a b → I' a b) {a b} (h1 : ExtAlike R I a b) :
    ExtAlike R' I' a b := by
  cases h1 with
  | directive => exact .directive
  | var h1 => exact .var ⟨form_mono h h1.form, opt_mono hI h1.value⟩
  | typedef h1 => exact .typedef (list_mono (fun _ _ => opt_mono h) h1)
  | enum h1 => exact .enum (list_mono (fun _ _ k => ⟨k.name, opt_mono h k.value⟩) h1)
  | structDecl => exact .structDecl
  | structDef h1 => exact .structDef (list_mono (fun _ _ => member_mono h) h1)
  | proto h1 h2 => exact .proto (form_mono h h1) (list_mono (fun _ _ => field_mono h) h2)
  | func h1 h2 h3 => exact .func (form_mono h h1) (list_mono (fun _ _ => field_mono h) h2) (alikes_mono h hI h3)
end

end Che.Proofs.CUnitDerive
