import Verif.Proofs.CUnitLines
import Verif.Proofs.CStmtBack
/-!
# A printed module can be read in one way only
-/
namespace Che.Proofs.CUnitBack
open Che Che.Spec Che.FormatC Che.Proofs.CPrintToks Che.Proofs.CStmtToks Che.Proofs.CStmtCut Che.Proofs.CStmtBack
  Che.Proofs.CUnitToks Che.Proofs.CUnitLines

variable {ty : String → Bool}

/-! ## First tokens -/

theorem thead_word {t} (h : THead ty t) : ∃ w, t = .word w := by
  obtain ⟨w, h, _⟩ := h
  exact ⟨w, h⟩

theorem formToks_head (f) : ∃ t r, formToks f = t :: r ∧ (t = .punct "*" ∨ ∃ w, t = .word w) := by
  unfold formToks
  cases f.stars.toList.length with
  | zero => exact ⟨_, _, rfl, .inr ⟨_, rfl⟩⟩
  | succ n => exact ⟨_, _, rfl, .inl rfl⟩

theorem form_head {f c} (h : CDeclarator ty f c) : ∃ t r, c = t :: r ∧ (t = .punct "*" ∨ ∃ w, t = .word w) := by
  cases h with
  | @mk n w is c _ _ =>
    cases n with
    | zero => exact ⟨_, _, rfl, .inr ⟨_, rfl⟩⟩
    | succ n => exact ⟨_, _, rfl, .inl rfl⟩

/-! ## Members -/

theorem field_cut {f : CTypeForm} {p c R R'} (hp : PlainField ty f) (h : CField ty p c)
    (he : specToks f.typename ++ (formToks f.form ++ .punct ";" :: R) = c ++ R') :
    FieldAlike (Rd ty) (kField f) p ∧ R = R' ∧ c = specToks f.typename ++ (formToks f.form ++ [.punct ";"]) := by
  cases h with
  | @mk t g c1 c2 h1 h2 =>
    have he : specToks f.typename ++ (formToks f.form ++ .punct ";" :: R) = c1 ++ (c2 ++ .punct ";" :: R') := by
      simpa using he
    obtain ⟨j1, j2, j3⟩ := spec_cut hp.1 h1 he
    obtain ⟨k1, k2, k3⟩ := form_cut hp.2 h2 (noBrk_punct (by decide)) (noBrk_punct (by decide)) j2
    injection k2 with _ k2
    exact ⟨⟨j1, k1⟩, k2, by rw [j3, k3]⟩

theorem field_head {p c} (h : CField ty p c) : ∃ t r, c = t :: r ∧ THead ty t := by
  cases h with
  | mk h1 _ =>
    obtain ⟨t, r, rfl, ht⟩ := spec_head h1
    exact ⟨t, _, rfl, ht⟩

theorem fields_head {p c} (h : CFields ty p c) : ∃ w r, c = .word w :: r := by
  cases h with
  | one h =>
    obtain ⟨t, r, rfl, w, rfl, _⟩ := field_head h
    exact ⟨w, r, rfl⟩
  | cons h _ =>
    obtain ⟨t, r, rfl, w, rfl, _⟩ := field_head h
    exact ⟨w, _, rfl⟩

theorem specToks_word {t} (h : PlainTypename ty t) : ∃ w r, specToks t = .word w :: r := by
  obtain ⟨u, r, h1, w, rfl, _⟩ := specToks_head h
  exact ⟨w, r, h1⟩

theorem fields_cut : ∀ {fs : List CTypeForm} {f : CTypeForm} {fs' c R R'}, (∀ g ∈ f :: fs, PlainField ty g) →
    CFields ty fs' c → fieldsToks (f :: fs) ++ .punct "}" :: R = c ++ .punct "}" :: R' →
    ListAlike (FieldAlike (Rd ty)) ((f :: fs).map kField) fs' ∧ R = R' ∧ c = fieldsToks (f :: fs)
  | [], f, fs', c, R, R', hp, h, he => by
    have he : specToks f.typename ++ (formToks f.form ++ .punct ";" :: .punct "}" :: R) = c ++ .punct "}" :: R' := by
      simpa [fieldsToks] using he
    cases h with
    | one h =>
      obtain ⟨h1, h2, h3⟩ := field_cut (hp f (by simp)) h he
      injection h2 with _ h2
      exact ⟨.cons h1 .nil, h2, by rw [h3]; rfl⟩
    | @cons p c ps c2 h hs =>
      exfalso
      obtain ⟨_, h2, _⟩ := field_cut (R' := c2 ++ .punct "}" :: R') (hp f (by simp)) h (by simpa using he)
      obtain ⟨w, r, rfl⟩ := fields_head hs
      cases h2
  | g :: fs, f, fs', c, R, R', hp, h, he => by
    have he : specToks f.typename ++ (formToks f.form ++ .punct ";" :: (fieldsToks (g :: fs) ++ .punct "}" :: R)) =
        c ++ .punct "}" :: R' := by
      simpa [fieldsToks] using he
    cases h with
    | one h =>
      exfalso
      obtain ⟨_, h2, _⟩ := field_cut (hp f (by simp)) h he
      obtain ⟨w, r, hw⟩ := specToks_word (hp g (by simp)).1
      rw [fieldsToks, hw] at h2
      cases h2
    | @cons p c ps c2 h hs =>
      obtain ⟨h1, h2, h3⟩ := field_cut (R' := c2 ++ .punct "}" :: R') (hp f (by simp)) h (by simpa using he)
      obtain ⟨k1, k2, k3⟩ := fields_cut (fun x hx => hp x (by simp only [List.mem_cons] at hx ⊢; exact .inr hx)) hs h2
      exact ⟨.cons h1 k1, k2, by rw [h3, k3]; simp [fieldsToks]⟩

theorem thead_not (hu : UnitNames ty) {w : String} (hw : w ∈ ["enum", "static", "struct", "typedef", "union"]) :
    ¬ THead ty (.word w) := by
  rintro ⟨v, h, hv⟩
  injection h with h
  subst h
  obtain rfl | hv := hv
  · exact absurd hw (by decide)
  · have := hu.2 w hw
    rw [hv.1] at this
    cases this

theorem member_cut (hu : UnitNames ty) {m : CStructItem} {k c R R'} (hp : PlainItem ty m) (h : CMember ty k c)
    (he : memberToks m ++ R = c ++ R') : MemberAlike (Rd ty) (kMember m) k ∧ R = R' ∧ c = memberToks m := by
  cases m with
  | field f =>
    have he : specToks f.typename ++ (formToks f.form ++ .punct ";" :: R) = c ++ R' := by simpa [memberToks] using he
    cases h with
    | @field t g c h =>
      obtain ⟨h1, h2, h3⟩ := field_cut hp h he
      obtain ⟨h4, h5⟩ := h1
      have h4 : f.typename = t := h4
      subst h4
      exact ⟨.field h5, h2, h3⟩
    | union _ _ =>
      exfalso
      obtain ⟨t, r, hr, ht⟩ := specToks_head hp.1
      rw [hr] at he
      injection he with he _
      subst he
      exact thead_not hu (by simp) ht
  | union u =>
    have he : .word "union" :: .punct "{" :: (fieldsToks u.fields ++ .punct "}" :: (formToks u.form ++ .punct ";" :: R)) =
        c ++ R' := by simpa [memberToks] using he
    cases h with
    | field h =>
      exfalso
      obtain ⟨t, r, rfl, ht⟩ := field_head h
      injection he with he _
      subst he
      exact thead_not hu (by simp) ht
    | @union fs c f c2 h1 h2 =>
      obtain ⟨hn, hf, hd⟩ := hp
      have he : fieldsToks u.fields ++ .punct "}" :: (formToks u.form ++ .punct ";" :: R) =
          c ++ .punct "}" :: (c2 ++ .punct ";" :: R') := by simpa using he
      obtain ⟨uf, us⟩ := u
      cases us with
      | nil => exact absurd rfl hn
      | cons g gs =>
        obtain ⟨j1, j2, j3⟩ := fields_cut hf h1 he
        obtain ⟨k1, k2, k3⟩ := form_cut hd h2 (noBrk_punct (by decide)) (noBrk_punct (by decide)) j2
        injection k2 with _ k2
        exact ⟨.union j1 k1, k2, by rw [j3, k3]; simp [memberToks]⟩

theorem member_head {k c} (h : CMember ty k c) : ∃ w r, c = .word w :: r := by
  cases h with
  | field h =>
    obtain ⟨t, r, rfl, w, rfl, _⟩ := field_head h
    exact ⟨w, r, rfl⟩
  | union _ _ => exact ⟨_, _, rfl⟩

theorem members_head {k c} (h : CMembers ty k c) : ∃ w r, c = .word w :: r := by
  cases h with
  | one h => exact member_head h
  | cons h _ =>
    obtain ⟨w, r, rfl⟩ := member_head h
    exact ⟨w, _, rfl⟩

theorem memberToks_head {m} (h : PlainItem ty m) : ∃ w r, memberToks m = .word w :: r := by
  cases m with
  | field f =>
    obtain ⟨w, r, h⟩ := specToks_word h.1
    exact ⟨w, _, by rw [memberToks, h]; rfl⟩
  | union u => exact ⟨_, _, rfl⟩

theorem members_cut (hu : UnitNames ty) : ∀ {ms : List CStructItem} {m : CStructItem} {ks c R R'},
    (∀ g ∈ m :: ms, PlainItem ty g) →
    CMembers ty ks c → membersToks (m :: ms) ++ .punct "}" :: R = c ++ .punct "}" :: R' →
    ListAlike (MemberAlike (Rd ty)) ((m :: ms).map kMember) ks ∧ R = R' ∧ c = membersToks (m :: ms)
  | [], m, ks, c, R, R', hp, h, he => by
    have he : memberToks m ++ .punct "}" :: R = c ++ .punct "}" :: R' := by simpa [membersToks] using he
    cases h with
    | one h =>
      obtain ⟨h1, h2, h3⟩ := member_cut hu (hp m (by simp)) h he
      injection h2 with _ h2
      exact ⟨.cons h1 .nil, h2, by rw [h3]; simp [membersToks]⟩
    | @cons p c ps c2 h hs =>
      exfalso
      obtain ⟨_, h2, _⟩ := member_cut hu (R' := c2 ++ .punct "}" :: R') (hp m (by simp)) h (by simpa using he)
      obtain ⟨w, r, rfl⟩ := members_head hs
      cases h2
  | g :: ms, m, ks, c, R, R', hp, h, he => by
    have he : memberToks m ++ (membersToks (g :: ms) ++ .punct "}" :: R) = c ++ .punct "}" :: R' := by
      simpa [membersToks] using he
    cases h with
    | one h =>
      exfalso
      obtain ⟨_, h2, _⟩ := member_cut hu (hp m (by simp)) h he
      obtain ⟨w, r, hw⟩ := memberToks_head (hp g (by simp))
      rw [membersToks, hw] at h2
      cases h2
    | @cons p c ps c2 h hs =>
      obtain ⟨h1, h2, h3⟩ := member_cut hu (R' := c2 ++ .punct "}" :: R') (hp m (by simp)) h (by simpa using he)
      obtain ⟨k1, k2, k3⟩ := members_cut hu (fun x hx => hp x (by simp only [List.mem_cons] at hx ⊢; exact .inr hx)) hs h2
      exact ⟨.cons h1 k1, k2, by rw [h3, k3]; simp [membersToks]⟩

/-! ## Enumerators -/

theorem enumerator_cut {m : CEnumEntry} {k c R R' p p'} (hv : PlainOpt ty m.value) (h : CEnumerator ty k c)
    (hp : p ∈ [",", "}"]) (hp' : p' ∈ [",", "}"])
    (he : enumeratorToks m ++ .punct p :: R = c ++ .punct p' :: R') :
    EnumAlike (Rd ty) (m.id, m.value) k ∧ p = p' ∧ R = R' ∧ c = enumeratorToks m := by
  have hb : ∀ p : String, p ∈ [",", "}"] → p ≠ "=" ∧ Ender (.punct p) := by
    intro p h
    simp only [List.mem_cons, List.not_mem_nil, or_false] at h
    obtain rfl | rfl := h
    · exact ⟨by decide, ender_comma⟩
    · exact ⟨by decide, ender_brc⟩
  obtain ⟨b1, b2⟩ := hb p hp
  obtain ⟨b1', b2'⟩ := hb p' hp'
  obtain ⟨w, v⟩ := m
  cases v with
  | none =>
    cases h with
    | plain hw =>
      injection he with h1 h2
      injection h1 with h1
      injection h2 with h2 h3
      injection h2 with h2
      exact ⟨⟨h1, .none⟩, h2, h3, by rw [← h1]; rfl⟩
    | value _ _ =>
      exfalso
      injection he with _ he
      injection he with he _
      injection he with he
      exact b1 he
  | some e =>
    cases h with
    | plain hw =>
      exfalso
      injection he with _ he
      injection he with he _
      injection he with he
      exact b1' he.symm
    | @value w' e' c hw hx =>
      injection he with h1 he
      injection h1 with h1
      injection he with _ he
      obtain ⟨k1, k2, k3, k4⟩ := expr_cut hv (CEx.up (by omega) (by omega) hx) b2 b2' he
      injection k2 with k2
      exact ⟨⟨h1, .some k1⟩, k2, k3, by rw [← h1, k4]; rfl⟩

theorem enumerators_cut : ∀ {ms : List CEnumEntry} {m : CEnumEntry} {ks c R R'},
    (∀ g ∈ m :: ms, PlainOpt ty g.value) → CEnumerators ty ks c →
    enumeratorToks m ++ (enumeratorsToks ms ++ .punct "}" :: R) = c ++ .punct "}" :: R' →
    ListAlike (EnumAlike (Rd ty)) ((m :: ms).map fun m => (m.id, m.value)) ks ∧ R = R' ∧
      c = enumeratorToks m ++ enumeratorsToks ms
  | [], m, ks, c, R, R', hp, h, he => by
    have he : enumeratorToks m ++ .punct "}" :: R = c ++ .punct "}" :: R' := by simpa [enumeratorsToks] using he
    have hm := hp m (by simp)
    cases h with
    | one h =>
      obtain ⟨h1, _, h3, h4⟩ := enumerator_cut hm h (by simp) (by simp) he
      exact ⟨.cons h1 .nil, h3, by rw [h4]; simp [enumeratorsToks]⟩
    | @comma k c h =>
      exfalso
      obtain ⟨_, h2, _⟩ := enumerator_cut (p := "}") (p' := ",") (R := R) (R' := .punct "}" :: R') hm h (by simp) (by simp) (by simpa using he)
      exact absurd h2 (by decide)
    | @cons k c ks c2 h _ =>
      exfalso
      obtain ⟨_, h2, _⟩ := enumerator_cut (p := "}") (p' := ",") (R := R) (R' := c2 ++ .punct "}" :: R') hm h (by simp) (by simp)
        (by simpa using he)
      exact absurd h2 (by decide)
  | g :: ms, m, ks, c, R, R', hp, h, he => by
    have he : enumeratorToks m ++ .punct "," :: (enumeratorToks g ++ (enumeratorsToks ms ++ .punct "}" :: R)) =
      c ++ .punct "}" :: R' := by simpa [enumeratorsToks] using he
    have hm := hp m (by simp)
    cases h with
    | one h =>
      exfalso
      obtain ⟨_, h2, _⟩ := enumerator_cut hm h (by simp) (by simp) he
      exact absurd h2 (by decide)
    | @comma k c h =>
      exfalso
      obtain ⟨_, _, h3, _⟩ := enumerator_cut (p := ",") (p' := ",") (R := enumeratorToks g ++ (enumeratorsToks ms ++ .punct "}" :: R)) (R' := .punct "}" :: R') hm h (by simp) (by simp) (by simpa using he)
      cases h3
    | @cons k c ks c2 h hs =>
      obtain ⟨h1, _, h3, h4⟩ := enumerator_cut (p := ",") (p' := ",") (R := enumeratorToks g ++ (enumeratorsToks ms ++ .punct "}" :: R)) (R' := c2 ++ .punct "}" :: R') hm h (by simp) (by simp)
        (by simpa using he)
      obtain ⟨k1, k2, k3⟩ := enumerators_cut (fun x hx => hp x (by simp only [List.mem_cons] at hx ⊢; exact .inr hx)) hs h3
      exact ⟨.cons h1 k1, k2, by rw [h4, k3]; simp [enumeratorsToks]⟩

/-! ## Parameters -/

theorem noBrk_dots (b R) : NoBrk (dotsToks b ++ R) := by
  cases b <;> exact noBrk_punct (by decide)

theorem noBrk_more {fs : List CTypeForm} {R} (h : NoBrk R) : NoBrk (moreParams fs ++ R) := by
  cases fs with
  | nil => exact h
  | cons f fs => exact noBrk_punct (by decide)

theorem dots_cut {b b' R R'} (h : dotsToks b ++ R = dotsToks b' ++ R') : b = b' ∧ R = R' := by
  cases b <;> cases b' <;> simp [dotsToks] at h ⊢ <;> exact h

theorem dots_word {b R w c} (h : dotsToks b ++ R = .punct "," :: .word w :: c) : False := by
  cases b <;> simp [dotsToks] at h

theorem paramList_head {ps c} (h : CParamList ty ps c) : ∃ w r, c = .word w :: r := by
  cases h with
  | one h _ =>
    obtain ⟨t, r, rfl, w, rfl, _⟩ := spec_head h
    exact ⟨w, _, rfl⟩
  | cons h _ _ =>
    obtain ⟨t, r, rfl, w, rfl, _⟩ := spec_head h
    exact ⟨w, _, rfl⟩

theorem paramList_cut : ∀ {fs : List CTypeForm} {f : CTypeForm} {ps c b b' R R'}, (∀ g ∈ f :: fs, PlainField ty g) →
    CParamList ty ps c →
    fieldToks f ++ (moreParams fs ++ (dotsToks b ++ R)) = c ++ (dotsToks b' ++ R') →
    ListAlike (FieldAlike (Rd ty)) ((f :: fs).map kField) ps ∧ b = b' ∧ R = R' ∧ c = fieldToks f ++ moreParams fs
  | fs, f, ps, c, b, b', R, R', hp, h, he => by
    have he : specToks f.typename ++ (formToks f.form ++ (moreParams fs ++ (dotsToks b ++ R))) = c ++ (dotsToks b' ++ R') := by
      simpa [fieldToks] using he
    have hf := hp f (by simp)
    cases h with
    | @one t g c1 c2 h1 h2 =>
      obtain ⟨j1, j2, j3⟩ := spec_cut hf.1 h1 (R' := c2 ++ (dotsToks b' ++ R')) (by simpa using he)
      obtain ⟨k1, k2, k3⟩ := form_cut hf.2 h2 (noBrk_more (noBrk_dots _ _)) (noBrk_dots _ _) j2
      cases fs with
      | nil =>
        obtain ⟨l1, l2⟩ := dots_cut (show dotsToks b ++ R = dotsToks b' ++ R' from k2)
        exact ⟨.cons ⟨j1, k1⟩ .nil, l1, l2, by rw [j3, k3]; simp [fieldToks, moreParams]⟩
      | cons g gs =>
        exfalso
        obtain ⟨w, r, hw⟩ := specToks_word (hp g (by simp)).1
        refine dots_word (b := b') (R := R') (w := w)
          (c := r ++ (formToks g.form ++ (moreParams gs ++ (dotsToks b ++ R)))) ?_
        rw [← k2]
        simp [moreParams, fieldToks, hw]
    | @cons t g c1 c2 ps c3 h1 h2 h3 =>
      obtain ⟨j1, j2, j3⟩ := spec_cut hf.1 h1 (R' := c2 ++ .punct "," :: (c3 ++ (dotsToks b' ++ R'))) (by simpa using he)
      obtain ⟨k1, k2, k3⟩ := form_cut hf.2 h2 (noBrk_more (noBrk_dots _ _)) (noBrk_punct (by decide)) j2
      cases fs with
      | nil =>
        exfalso
        obtain ⟨w, r, rfl⟩ := paramList_head h3
        exact dots_word (b := b) (R := R) (w := w) k2
      | cons g gs =>
        have k2 : .punct "," :: (fieldToks g ++ (moreParams gs ++ (dotsToks b ++ R))) = .punct "," :: (c3 ++ (dotsToks b' ++ R')) := by
          simpa [moreParams] using k2
        injection k2 with _ k2
        obtain ⟨l1, l2, l3, l4⟩ := paramList_cut
          (fun x hx => hp x (by simp only [List.mem_cons] at hx ⊢; exact .inr hx)) h3 k2
        exact ⟨.cons ⟨j1, k1⟩ l1, l2, l3, by rw [j3, k3, l4]; simp [fieldToks, moreParams]⟩

/-- `(void)` cannot start a list of parameters with names. -/
theorem void_params {ps c R R'} (h : CParamList ty ps c) : .word "void" :: .punct ")" :: R ≠ c ++ R' := by
  have key : ∀ {t f c1 c2 X}, CTypeSpec ty t c1 → CDeclarator ty f c2 →
      .word "void" :: .punct ")" :: R ≠ c1 ++ (c2 ++ X) := by
    intro t f c1 c2 X h1 h2 he
    obtain ⟨u, r, rfl, hu⟩ := form_head h2
    cases h1 with
    | plain _ =>
      injection he with _ he
      injection he with he _
      subst he
      obtain h | ⟨w, h⟩ := hu <;> exact absurd h (by simp)
    | const _ =>
      injection he with he _
      exact absurd he (by decide)
  cases h with
  | one h1 h2 => intro he; exact key h1 h2 (by simpa using he)
  | @cons _ _ _ _ _ c3 h1 h2 _ => intro he; exact key (X := .punct "," :: (c3 ++ R')) h1 h2 (by simpa using he)

theorem params_void {f : CTypeForm} {X R} (h : PlainField ty f) : fieldToks f ++ X ≠ .word "void" :: .punct ")" :: R := by
  intro he
  obtain ⟨u, r, hr, hu⟩ := formToks_head f.form
  obtain ⟨⟨b, w⟩, g⟩ := f
  simp only [fieldToks, specToks] at he hr
  rw [hr] at he
  cases b with
  | false =>
    injection he with _ he
    injection he with he _
    subst he
    obtain h | ⟨w, h⟩ := hu <;> exact absurd h (by simp)
  | true =>
    injection he with he _
    exact absurd he (by decide)

theorem params_cut {p : CFuncParams} {ps b c R R'} (hp : PlainParams ty p) (h : CParams ty ps b c)
    (he : paramsToks p ++ R = c ++ R') :
    ListAlike (FieldAlike (Rd ty)) (p.list.map kField) ps ∧ p.variadic = b ∧ R = R' ∧ c = paramsToks p := by
  obtain ⟨fs, v⟩ := p
  cases fs with
  | nil =>
    have hv : v = false := by
      cases v with
      | false => rfl
      | true => exact absurd rfl (hp.2 rfl)
    subst hv
    cases h with
    | void =>
      injection he with _ he
      injection he with _ he
      injection he with _ he
      exact ⟨.nil, rfl, he, rfl⟩
    | @some _ c h =>
      exfalso
      injection he with _ he
      exact void_params (R' := .punct ")" :: R') h (by simpa using he)
    | @dots _ c h =>
      exfalso
      injection he with _ he
      exact void_params (R' := .punct "," :: .punct "..." :: .punct ")" :: R') h (by simpa using he)
  | cons f fs =>
    have he : .punct "(" :: (fieldToks f ++ (moreParams fs ++ (dotsToks v ++ R))) = c ++ R' := by
      simpa [paramsToks] using he
    cases h with
    | void =>
      exfalso
      injection he with _ he
      exact params_void (hp.1 f (by simp)) he
    | @some ps c h =>
      injection he with _ he
      obtain ⟨h1, h2, h3, h4⟩ := paramList_cut (b' := false) (R' := R') hp.1 h (by simpa [dotsToks] using he)
      exact ⟨h1, h2, h3, by rw [h4]; simp [paramsToks, dotsToks, h2]⟩
    | @dots ps c h =>
      injection he with _ he
      obtain ⟨h1, h2, h3, h4⟩ := paramList_cut (b' := true) (R' := R') hp.1 h (by simpa [dotsToks] using he)
      exact ⟨h1, h2, h3, by rw [h4]; simp [paramsToks, dotsToks, h2]⟩

/-! ## Parameters without names -/

/-- The tokens do not start with a star. -/
def NoStar (c : List CTok) : Prop := ∀ r, c ≠ .punct "*" :: r

theorem starToks_cut : ∀ {n n' R R'}, NoStar R → NoStar R' → starToks n ++ R = starToks n' ++ R' → n = n' ∧ R = R'
  | 0, 0, _, _, _, _, h => ⟨rfl, h⟩
  | 0, n + 1, _, _, h, _, he => absurd he (h _)
  | n + 1, 0, _, _, _, h, he => absurd he.symm (h _)
  | n + 1, n' + 1, R, R', h, h', he => by
    have he : CTok.punct "*" :: (starToks n ++ R) = .punct "*" :: (starToks n' ++ R') := he
    injection he with _ he
    obtain ⟨h1, h2⟩ := starToks_cut h h' he
    exact ⟨by rw [h1], h2⟩

theorem type_cut {t t' : CBareTypeform} {R R'} (h : t.typename.name ≠ "const") (h' : t'.typename.name ≠ "const")
    (hR : NoStar R) (hR' : NoStar R') (he : typeToks t ++ R = typeToks t' ++ R') : t = t' ∧ R = R' := by
  obtain ⟨⟨b, w⟩, n⟩ := t
  obtain ⟨⟨b', w'⟩, n'⟩ := t'
  cases b <;> cases b' <;> simp only [typeToks, if_true, if_false, Bool.false_eq_true, List.nil_append,
    List.cons_append, List.cons.injEq, CTok.word.injEq] at he h h'
  · obtain ⟨rfl, he⟩ := he
    obtain ⟨rfl, he2⟩ := starToks_cut hR hR' he
    exact ⟨rfl, he2⟩
  · exact absurd he.1 h
  · exact absurd he.1.symm h'
  · obtain ⟨_, rfl, he⟩ := he
    obtain ⟨rfl, he2⟩ := starToks_cut hR hR' he
    exact ⟨rfl, he2⟩

theorem noStar_punct {p : String} {r} (h : p ≠ "*") : NoStar (.punct p :: r) := by
  intro r' h'
  injection h' with h' _
  injection h' with h'
  exact h h'

theorem noStar_dots (b R) : NoStar (dotsToks b ++ R) := by
  cases b <;> exact noStar_punct (by decide)

theorem noStar_types {l : List CBareTypeform} {R} (h : NoStar R) : NoStar (moreTypes l ++ R) := by
  cases l with
  | nil => exact h
  | cons f fs => exact noStar_punct (by decide)

theorem typeToks_word (t : CBareTypeform) : ∃ w r, typeToks t = .word w :: r := by
  obtain ⟨⟨b, w⟩, n⟩ := t
  cases b <;> exact ⟨_, _, rfl⟩

theorem types_cut : ∀ {l l' : List CBareTypeform} {b b' R R'}, (∀ t ∈ l, t.typename.name ≠ "const") →
    (∀ t ∈ l', t.typename.name ≠ "const") →
    moreTypes l ++ (dotsToks b ++ R) = moreTypes l' ++ (dotsToks b' ++ R') → l = l' ∧ b = b' ∧ R = R'
  | [], [], _, _, _, _, _, _, he => by
    obtain ⟨h1, h2⟩ := dots_cut he
    exact ⟨rfl, h1, h2⟩
  | [], t :: l', _, _, _, _, _, _, he => by
    exfalso
    obtain ⟨w, r, hw⟩ := typeToks_word t
    exact dots_word (w := w) (by simpa [moreTypes, hw] using he)
  | t :: l, [], _, _, _, _, _, _, he => by
    exfalso
    obtain ⟨w, r, hw⟩ := typeToks_word t
    exact dots_word (w := w) (by simpa [moreTypes, hw] using he.symm)
  | t :: l, t' :: l', b, b', R, R', h, h', he => by
    have he : typeToks t ++ (moreTypes l ++ (dotsToks b ++ R)) = typeToks t' ++ (moreTypes l' ++ (dotsToks b' ++ R')) := by
      simpa [moreTypes] using he
    obtain ⟨rfl, he2⟩ := type_cut (h t (by simp)) (h' t' (by simp)) (noStar_types (noStar_dots _ _))
      (noStar_types (noStar_dots _ _)) he
    obtain ⟨rfl, he3⟩ := types_cut (fun x hx => h x (List.mem_cons_of_mem _ hx)) (fun x hx => h' x (List.mem_cons_of_mem _ hx)) he2
    exact ⟨rfl, he3⟩

theorem ctype_toks {t c} (h : CType ty t c) : c = typeToks t ∧ t.typename.name ≠ "const" := by
  cases h with
  | plain h => exact ⟨rfl, h.2.1⟩
  | const h => exact ⟨rfl, h.2.1⟩

theorem ctypes_toks {ts c} (h : CTypeList ty ts c) : ∃ t l, ts = t :: l ∧ c = typeToks t ++ moreTypes l ∧
    ∀ x ∈ t :: l, x.typename.name ≠ "const" := by
  induction h with
  | @one t c h =>
    obtain ⟨rfl, h2⟩ := ctype_toks h
    exact ⟨t, [], rfl, by simp [moreTypes], by simpa using h2⟩
  | @cons t c ts c2 h _ ih =>
    obtain ⟨rfl, h2⟩ := ctype_toks h
    obtain ⟨u, l, rfl, rfl, h3⟩ := ih
    refine ⟨t, u :: l, rfl, rfl, ?_⟩
    intro x hx
    obtain rfl | hx := List.mem_cons.mp hx
    · exact h2
    · exact h3 x hx

/-- The types that are printed. -/
theorem anonToks_some {p : CAnonParams} (hp : p.ellipsis = true → p.forms ≠ [])
    (hc : ∀ t ∈ p.forms, t.typename.name ≠ "const") :
    ∃ t l, anonToks (some p) = .punct "(" :: (typeToks t ++ (moreTypes l ++ dotsToks p.ellipsis)) ∧
      (∀ x ∈ t :: l, x.typename.name ≠ "const") ∧
      kAnon p = (if t :: l = voidList && !p.ellipsis then [] else t :: l, p.ellipsis) := by
  obtain ⟨b, l⟩ := p
  cases l with
  | nil =>
    have hb : b = false := by
      cases b with
      | false => rfl
      | true => exact absurd rfl (hp rfl)
    subst hb
    refine ⟨⟨⟨false, "void"⟩, 0⟩, [], rfl, ?_, rfl⟩
    intro x hx
    obtain rfl | hx := List.mem_cons.mp hx
    · decide
    · cases hx
  | cons t l => exact ⟨t, l, rfl, hc, rfl⟩

theorem anon_cut {p : Option CAnonParams} {ps c R R'}
    (hp : ∀ q, p = some q → (∀ t ∈ q.forms, PlainType ty t) ∧ (q.ellipsis = true → q.forms ≠ []))
    (h : CAnon ty ps c) (hR : ∀ r, R ≠ .punct "(" :: r) (hR' : ∀ r, R' ≠ .punct "(" :: r)
    (he : anonToks p ++ R = c ++ R') : p.map kAnon = ps ∧ R = R' ∧ c = anonToks p := by
  cases p with
  | none =>
    cases h with
    | none => exact ⟨rfl, he, rfl⟩
    | _ => exact absurd he (hR _)
  | some p =>
    obtain ⟨hf, hd⟩ := hp p rfl
    obtain ⟨t, l, ha, hc, hk⟩ := anonToks_some hd fun t ht => (hf t ht).2.2.1
    rw [ha] at he ⊢
    have he : .punct "(" :: (typeToks t ++ (moreTypes l ++ (dotsToks p.ellipsis ++ R))) = c ++ R' := by simpa using he
    have key : ∀ {t' l' b X}, (∀ x ∈ t' :: l', x.typename.name ≠ "const") →
        typeToks t ++ (moreTypes l ++ (dotsToks p.ellipsis ++ R)) = typeToks t' ++ (moreTypes l' ++ (dotsToks b ++ X)) →
        t = t' ∧ l = l' ∧ p.ellipsis = b ∧ R = X := by
      intro t' l' b X h' he
      obtain ⟨rfl, he2⟩ := type_cut (hc t (by simp)) (h' t' (by simp)) (noStar_types (noStar_dots _ _))
        (noStar_types (noStar_dots _ _)) he
      obtain ⟨rfl, he3⟩ := types_cut (fun x hx => hc x (List.mem_cons_of_mem _ hx)) (fun x hx => h' x (List.mem_cons_of_mem _ hx)) he2
      exact ⟨rfl, rfl, he3⟩
    cases h with
    | none => exact absurd he.symm (hR' _)
    | void =>
      injection he with _ he
      obtain ⟨rfl, rfl, hb, hx⟩ := key (t' := ⟨⟨false, "void"⟩, 0⟩) (l' := []) (b := false) (X := R')
        (by intro x hx; obtain rfl | hx := List.mem_cons.mp hx; decide; cases hx) he
      refine ⟨?_, hx, by rw [hb]; rfl⟩
      rw [Option.map_some, hk, hb]
      rfl
    | @some ts c h hv =>
      obtain ⟨t', l', rfl, rfl, h3⟩ := ctypes_toks h
      injection he with _ he
      obtain ⟨rfl, rfl, hb, hx⟩ := key (t' := t') (l' := l') (b := false) (X := R') h3 (by simpa [dotsToks] using he)
      refine ⟨?_, hx, by rw [hb]; simp [dotsToks]⟩
      rw [Option.map_some, hk, hb]
      simp [hv]
    | @dots ts c h =>
      obtain ⟨t', l', rfl, rfl, h3⟩ := ctypes_toks h
      injection he with _ he
      obtain ⟨rfl, rfl, hb, hx⟩ := key (t' := t') (l' := l') (b := true) (X := R') h3 (by simpa [dotsToks] using he)
      refine ⟨?_, hx, by rw [hb]; simp [dotsToks]⟩
      rw [Option.map_some, hk, hb]
      simp

/-! ## Typedefs -/

theorem ktype_cut (hu : UnitNames ty) {t t' c R R'} (hp : PlainKType ty t) (h : CKType ty t' c)
    (he : kTypeToks t ++ R = c ++ R') : t = t' ∧ R = R' ∧ c = kTypeToks t := by
  obtain ⟨b, s, w⟩ := t
  have hs : ∀ {w}, CTypeWord ty w → w ≠ "struct" := by
    rintro w hw rfl
    have := hu.2 "struct" (by simp)
    rw [hw.1] at this
    cases this
  have hk : ∀ {w : String}, w ∉ cKeywords → w ≠ "const" ∧ w ≠ "struct" := by
    intro w hw
    constructor <;> (rintro rfl; exact hw (by decide))
  cases s with
  | false =>
    have hw : CTypeWord ty w := hp.2
    have h1 := hs hw
    have h2 := hw.2.1
    cases b <;> cases h <;> simp_all [kTypeToks]
    all_goals first
      | (rename_i w' hw'; have := hs hw'; have := hw'.2.1; simp_all)
      | skip
  | true =>
    have hw : w ∉ cKeywords := hp.2
    obtain ⟨h1, h2⟩ := hk hw
    cases b <;> cases h <;> simp_all [kTypeToks]
    all_goals first
      | (rename_i w' hw'; have := hs hw'; have := hw'.2.1; simp_all)
      | skip

/-- The bounds that a typedef prints. -/
def sizeBounds (n : Nat) : List (Option CExpr) := if n = 0 then [] else [some (.lit (.number (toString n)))]

theorem size_bounds (n) : sizeToks n = boundToks (sizeBounds n) := by
  unfold sizeToks sizeBounds
  split <;> rfl

theorem size_plain (ty) (n) : ∀ i ∈ sizeBounds n, PlainOpt ty i := by
  unfold sizeBounds
  intro i hi
  split at hi
  · cases hi
  · simp only [List.mem_cons, List.not_mem_nil, or_false] at hi
    subst hi
    exact plain_nat (ty := ty) n

/-! ## Declarations -/

theorem head_not (hu : UnitNames ty) {b c0 t c1 X} (h0 : CStorage b c0) (h1 : CTypeSpec ty t c1) {w : String}
    (hw : w ∈ ["enum", "struct", "typedef"]) {r R'} : .word w :: r ≠ c0 ++ (c1 ++ X) ++ R' := by
  intro he
  cases h0 with
  | none =>
    obtain ⟨u, r, rfl, hh⟩ := spec_head h1
    injection he with he _
    subst he
    have k : ∀ w ∈ ["enum", "struct", "typedef"], w ∈ ["enum", "static", "struct", "typedef", "union"] := by decide
    exact thead_not hu (k w hw) hh
  | static =>
    injection he with he _
    injection he with he
    subst he
    exact absurd hw (by decide)

theorem printed_not (hu : UnitNames ty) {b t X} (h1 : PlainTypename ty t) {w : String}
    (hw : w ∈ ["enum", "struct", "typedef"]) {r} : staticToks b ++ (specToks t ++ X) ≠ .word w :: r := by
  intro he
  cases b with
  | false =>
    obtain ⟨u, r, hr, hh⟩ := specToks_head h1
    rw [hr] at he
    injection he with he _
    subst he
    have k : ∀ w ∈ ["enum", "struct", "typedef"], w ∈ ["enum", "static", "struct", "typedef", "union"] := by decide
    exact thead_not hu (k w hw) hh
  | true =>
    injection he with he _
    injection he with he
    subst he
    exact absurd hw (by decide)

theorem static_cut (hu : UnitNames ty) {b b' t t' c0 c1 R R'} (hp : PlainTypename ty t) (h0 : CStorage b' c0)
    (h1 : CTypeSpec ty t' c1) (he : staticToks b ++ (specToks t ++ R) = c0 ++ (c1 ++ R')) :
    b = b' ∧ t = t' ∧ R = R' ∧ c0 = staticToks b ∧ c1 = specToks t := by
  cases h0 with
  | none =>
    cases b with
    | false =>
      obtain ⟨h2, h3, h4⟩ := spec_cut hp h1 he
      exact ⟨rfl, h2, h3, rfl, h4⟩
    | true =>
      exfalso
      obtain ⟨u, r, rfl, hh⟩ := spec_head h1
      injection he with he _
      subst he
      exact thead_not hu (by simp) hh
  | static =>
    cases b with
    | false =>
      exfalso
      obtain ⟨u, r, hr, hh⟩ := specToks_head hp
      have he : specToks t ++ R = _ := he
      rw [hr] at he
      injection he with he _
      subst he
      exact thead_not hu (by simp) hh
    | true =>
      injection he with _ he
      obtain ⟨h2, h3, h4⟩ := spec_cut hp h1 he
      exact ⟨rfl, h2, h3, rfl, h4⟩

theorem params_par {ps b c} (h : CParams ty ps b c) : ∃ r, c = .punct "(" :: r := by
  cases h <;> exact ⟨_, rfl⟩

theorem paramsToks_par (p) : ∃ r, paramsToks p = .punct "(" :: r := by
  unfold paramsToks
  split <;> exact ⟨_, rfl⟩

theorem block_head {ss c} (h : CSt ty (.stmt (.block ss)) c) : ∃ r, c = .punct "{" :: r := by
  cases h with
  | block _ => exact ⟨_, rfl⟩

/-- After a declarator with parentheses come its parameters. -/
theorem initDecl_par {f d c X R'} (hf : PlainForm ty f) (h : CInitDecl ty d c)
    (he : formToks f ++ .punct "(" :: X = c ++ .punct ";" :: R') : False := by
  cases h with
  | plain h =>
    obtain ⟨_, h2, _⟩ := form_cut hf h (noBrk_punct (by decide)) (noBrk_punct (by decide)) he
    injection h2 with h2 _
    exact absurd h2 (by decide)
  | @init f' c v c2 h _ =>
    obtain ⟨_, h2, _⟩ := form_cut (R := .punct "(" :: X) (R' := .punct "=" :: (c2 ++ .punct ";" :: R')) hf h
      (noBrk_punct (by decide)) (noBrk_punct (by decide)) (by simpa using he)
    injection h2 with h2 _
    exact absurd h2 (by decide)

theorem ext_cut (hu : UnitNames ty) {e : CModElem} {k c R R'} (hp : PlainElem ty e) (hd : isDir e = false)
    (h : CExtDecl ty k c) (he : elemToks e ++ R = c ++ R') :
    ExtAlike (Rd ty) (RdI ty) (kElem e) k ∧ R = R' ∧ c = elemToks e := by
  cases e with
  | «include» x => cases hd
  | «macro» x => cases hd
  | forwardStruct w =>
    cases h with
    | var h0 h1 _ => exact (head_not hu h0 h1 (by simp) he).elim
    | proto h0 h1 _ _ => exact (head_not hu h0 h1 (by simp) he).elim
    | func h0 h1 _ _ _ => exact (head_not hu h0 h1 (by simp) he).elim
    | typedef => injection he with he _; exact absurd he (by decide)
    | enum => injection he with he _; exact absurd he (by decide)
    | structDecl hw =>
      injection he with _ he
      injection he with h1 he
      injection he with _ he
      injection h1 with h1
      subst h1
      exact ⟨.structDecl, he, rfl⟩
    | structDef =>
      injection he with _ he
      injection he with _ he
      injection he with he _
      exact absurd he (by decide)
  | defEnum d =>
    obtain ⟨hid, es⟩ := d
    obtain ⟨hn, hp⟩ := hp
    cases h with
    | var h0 h1 _ => exact (head_not hu h0 h1 (by simp) he).elim
    | proto h0 h1 _ _ => exact (head_not hu h0 h1 (by simp) he).elim
    | func h0 h1 _ _ _ => exact (head_not hu h0 h1 (by simp) he).elim
    | typedef => injection he with he _; exact absurd he (by decide)
    | structDecl hw => injection he with he _; exact absurd he (by decide)
    | structDef => injection he with he _; exact absurd he (by decide)
    | @enum ks c h =>
      cases es with
      | nil => exact absurd rfl hn
      | cons m ms =>
        injection he with _ he
        injection he with _ he
        obtain ⟨h1, h2, h3⟩ := enumerators_cut (m := m) (ms := ms) (R := .punct ";" :: R) (R' := .punct ";" :: R')
          (fun g hg => (hp g hg).2) h (by simpa using he)
        injection h2 with _ h2
        exact ⟨.enum h1, h2, by rw [h3]; rfl⟩
  | typedef d =>
    obtain ⟨p1, ⟨n, p2⟩, p3, p4⟩ := hp
    have hl : d.form.stars.toList.length = n := by rw [p2]; simp
    cases h with
    | var h0 h1 _ => exact (head_not hu h0 h1 (by simp) he).elim
    | proto h0 h1 _ _ => exact (head_not hu h0 h1 (by simp) he).elim
    | func h0 h1 _ _ _ => exact (head_not hu h0 h1 (by simp) he).elim
    | enum => injection he with he _; exact absurd he (by decide)
    | structDecl hw => injection he with he _; exact absurd he (by decide)
    | structDef => injection he with he _; exact absurd he (by decide)
    | @typedef t c1 m w ps c2 is c3 h1 hw h2 h3 =>
      injection he with _ he
      rw [size_bounds] at he
      obtain ⟨j1, j2, j3⟩ := ktype_cut hu (R' := starToks m ++ .word w :: (c2 ++ (c3 ++ .punct ";" :: R')))
        (R := starToks d.form.stars.toList.length ++ .word d.form.alias ::
          (anonToks d.form.params ++ (boundToks (sizeBounds d.form.size) ++ .punct ";" :: R))) p1 h1 (by simpa using he)
      obtain ⟨k1, k2, k3⟩ := stars_cut j2
      have nopar : ∀ {is c X}, CBounds ty is c → ∀ r, c ++ .punct ";" :: X ≠ .punct "(" :: r := by
        intro is c X h r he
        cases h <;> (injection he with he _; exact absurd he (by decide))
      have nopar' : ∀ n X r, boundToks (sizeBounds n) ++ .punct ";" :: X ≠ .punct "(" :: r := by
        intro n X r he
        unfold sizeBounds at he
        split at he <;> (injection he with he _; exact absurd he (by decide))
      obtain ⟨l1, l2, l3⟩ := anon_cut p4 h2 (nopar' _ _) (nopar h3) k3
      obtain ⟨m1, m2, m3⟩ := bounds_cut (size_plain ty _) h3 (noBrk_punct (by decide)) (noBrk_punct (by decide)) l2
      injection m2 with _ m2
      subst j1 k2 l1
      refine ⟨?_, m2, ?_⟩
      · rw [← k1]
        exact .typedef m1
      · rw [j3, l3, m3, ← k1, ← size_bounds]
        rfl
  | structDef d =>
    obtain ⟨w, ms⟩ := d
    obtain ⟨p1, p2, p3⟩ := hp
    cases h with
    | var h0 h1 _ => exact (head_not hu h0 h1 (by simp) he).elim
    | proto h0 h1 _ _ => exact (head_not hu h0 h1 (by simp) he).elim
    | func h0 h1 _ _ _ => exact (head_not hu h0 h1 (by simp) he).elim
    | typedef => injection he with he _; exact absurd he (by decide)
    | enum => injection he with he _; exact absurd he (by decide)
    | structDecl hw =>
      injection he with _ he
      injection he with _ he
      injection he with he _
      exact absurd he (by decide)
    | @structDef w' ks c hw h =>
      injection he with _ he
      injection he with h1 he
      injection h1 with h1
      have h1 : w = w' := h1
      subst h1
      injection he with _ he
      cases ms with
      | nil => exact absurd rfl p2
      | cons m ms =>
        obtain ⟨h1, h2, h3⟩ := members_cut hu (m := m) (ms := ms) (R := .punct ";" :: R) (R' := .punct ";" :: R')
          p3 h (by simpa using he)
        injection h2 with _ h2
        exact ⟨.structDef h1, h2, by rw [h3]; rfl⟩
  | varDecl d =>
    obtain ⟨p1, p2, p3⟩ := hp
    have he : staticToks true ++ (specToks d.typename ++ (formToks d.form ++ .punct "=" :: (toksE d.value ++ .punct ";" :: R))) =
      c ++ R' := by simpa [elemToks, staticToks] using he
    cases h with
    | typedef => exact (printed_not hu p1 (by simp) he).elim
    | enum => exact (printed_not hu p1 (by simp) he).elim
    | structDecl hw => exact (printed_not hu p1 (by simp) he).elim
    | structDef => exact (printed_not hu p1 (by simp) he).elim
    | @var b c0 t c1 d' c2 h0 h1 h2 =>
      obtain ⟨j1, j2, j3, j4, j5⟩ := static_cut hu p1 h0 h1 (R' := c2 ++ .punct ";" :: R') (by simpa using he)
      obtain ⟨k1, _, k3, k4⟩ := decl_cut (d := (d.form, some d.value)) (R := R) (R' := R') (p := ";") (p' := ";") p2 p3 h2 (by simp) (by simp)
        (by simpa [declToks] using j3)
      subst j1 j2
      exact ⟨.var k1, k3, by rw [j4, j5, k4]; simp [elemToks, staticToks, declToks]⟩
    | @proto b c0 t c1 f c2 ps dots c3 h0 h1 h2 h3 =>
      exfalso
      obtain ⟨r, rfl⟩ := params_par h3
      obtain ⟨j1, j2, j3, j4, j5⟩ := static_cut hu p1 h0 h1 (R' := c2 ++ (.punct "(" :: r ++ .punct ";" :: R')) (by simpa using he)
      obtain ⟨_, k2, _⟩ := form_cut p2 h2 (noBrk_punct (by decide)) (noBrk_punct (by decide)) j3
      injection k2 with k2 _
      exact absurd k2 (by decide)
    | @func b c0 t c1 f c2 ps dots c3 ss c4 h0 h1 h2 h3 h4 =>
      exfalso
      obtain ⟨r, rfl⟩ := params_par h3
      obtain ⟨j1, j2, j3, j4, j5⟩ := static_cut hu p1 h0 h1 (R' := c2 ++ (.punct "(" :: r ++ (c4 ++ R'))) (by simpa using he)
      obtain ⟨_, k2, _⟩ := form_cut p2 h2 (noBrk_punct (by decide)) (noBrk_punct (by decide)) j3
      injection k2 with k2 _
      exact absurd k2 (by decide)
  | forwardFunc d =>
    obtain ⟨p1, p2, p3⟩ := hp
    obtain ⟨r', hr'⟩ := paramsToks_par d.params
    have he : staticToks (kStatic d.isStatic d.form) ++ (specToks d.typename ++ (formToks d.form ++
      (paramsToks d.params ++ .punct ";" :: R))) = c ++ R' := by simpa [elemToks] using he
    have nb : NoBrk (paramsToks d.params ++ .punct ";" :: R) := by rw [hr']; exact noBrk_punct (by decide)
    cases h with
    | typedef => exact (printed_not hu p1 (by simp) he).elim
    | enum => exact (printed_not hu p1 (by simp) he).elim
    | structDecl hw => exact (printed_not hu p1 (by simp) he).elim
    | structDef => exact (printed_not hu p1 (by simp) he).elim
    | @var b c0 t c1 d' c2 h0 h1 h2 =>
      exfalso
      obtain ⟨j1, j2, j3, j4, j5⟩ := static_cut hu p1 h0 h1 (R' := c2 ++ .punct ";" :: R') (by simpa using he)
      rw [hr'] at j3
      exact initDecl_par p2 h2 j3
    | @proto b c0 t c1 f c2 ps dots c3 h0 h1 h2 h3 =>
      obtain ⟨j1, j2, j3, j4, j5⟩ := static_cut hu p1 h0 h1 (R' := c2 ++ (c3 ++ .punct ";" :: R')) (by simpa using he)
      obtain ⟨k1, k2, k3⟩ := form_cut p2 h2 nb (by obtain ⟨r, rfl⟩ := params_par h3; exact noBrk_punct (by decide)) j3
      obtain ⟨l1, l2, l3, l4⟩ := params_cut p3 h3 k2
      injection l3 with _ l3
      subst j1 j2 l2
      exact ⟨.proto k1 l1, l3, by rw [j4, j5, k3, l4]; simp [elemToks]⟩
    | @func b c0 t c1 f c2 ps dots c3 ss c4 h0 h1 h2 h3 h4 =>
      exfalso
      obtain ⟨j1, j2, j3, j4, j5⟩ := static_cut hu p1 h0 h1 (R' := c2 ++ (c3 ++ (c4 ++ R'))) (by simpa using he)
      obtain ⟨k1, k2, k3⟩ := form_cut p2 h2 nb (by obtain ⟨r, rfl⟩ := params_par h3; exact noBrk_punct (by decide)) j3
      obtain ⟨l1, l2, l3, l4⟩ := params_cut p3 h3 k2
      obtain ⟨r, rfl⟩ := block_head h4
      injection l3 with l3 _
      exact absurd l3 (by decide)
  | funcDef d =>
    obtain ⟨p1, p2, p3, p4⟩ := hp
    obtain ⟨r', hr'⟩ := paramsToks_par d.params
    have he : staticToks (kStatic d.isStatic d.form) ++ (specToks d.typename ++ (formToks d.form ++
      (paramsToks d.params ++ .punct "{" :: (toksSs d.body ++ .punct "}" :: R)))) = c ++ R' := by simpa [elemToks] using he
    have nb : ∀ X, NoBrk (paramsToks d.params ++ X) := by intro X; rw [hr']; exact noBrk_punct (by decide)
    cases h with
    | typedef => exact (printed_not hu p1 (by simp) he).elim
    | enum => exact (printed_not hu p1 (by simp) he).elim
    | structDecl hw => exact (printed_not hu p1 (by simp) he).elim
    | structDef => exact (printed_not hu p1 (by simp) he).elim
    | @var b c0 t c1 d' c2 h0 h1 h2 =>
      exfalso
      obtain ⟨j1, j2, j3, j4, j5⟩ := static_cut hu p1 h0 h1 (R' := c2 ++ .punct ";" :: R') (by simpa using he)
      rw [hr'] at j3
      exact initDecl_par p2 h2 j3
    | @proto b c0 t c1 f c2 ps dots c3 h0 h1 h2 h3 =>
      exfalso
      obtain ⟨j1, j2, j3, j4, j5⟩ := static_cut hu p1 h0 h1 (R' := c2 ++ (c3 ++ .punct ";" :: R')) (by simpa using he)
      obtain ⟨k1, k2, k3⟩ := form_cut p2 h2 (nb _) (by obtain ⟨r, rfl⟩ := params_par h3; exact noBrk_punct (by decide)) j3
      obtain ⟨l1, l2, l3, l4⟩ := params_cut p3 h3 k2
      injection l3 with l3 _
      exact absurd l3 (by decide)
    | @func b c0 t c1 f c2 ps dots c3 ss c4 h0 h1 h2 h3 h4 =>
      obtain ⟨j1, j2, j3, j4, j5⟩ := static_cut hu p1 h0 h1 (R' := c2 ++ (c3 ++ (c4 ++ R'))) (by simpa using he)
      obtain ⟨k1, k2, k3⟩ := form_cut p2 h2 (nb _) (by obtain ⟨r, rfl⟩ := params_par h3; exact noBrk_punct (by decide)) j3
      obtain ⟨l1, l2, l3, l4⟩ := params_cut p3 h3 k2
      obtain ⟨m1, m2, m3⟩ := block_cut ((frontSs hu.1 p4).seq hu.1) h4 l3
      cases m1 with
      | block m1 =>
        subst j1 j2 l2
        exact ⟨.func k1 l1 m1, m2, by rw [j4, j5, k3, l4, m3]; simp [elemToks]⟩

/-! ## Modules -/

/-- The tokens before the first directive. -/
def front : List CItem → List CTok
  | .tok t :: is => t :: front is
  | _ => []

theorem front_append (c : List CTok) (is) : front (c.map .tok ++ is) = c ++ front is := by
  induction c with
  | nil => rfl
  | cons t c ih => simp only [List.map_cons, List.cons_append, front, ih]

theorem ext_ne {k c} (h : CExtDecl ty k c) : c ≠ [] := by
  cases h with
  | var h0 h1 h2 => simp
  | proto h0 h1 h2 h3 => simp
  | func h0 h1 h2 h3 h4 => obtain ⟨r, rfl⟩ := block_head h4; simp
  | _ => simp

theorem elem_ne {e : CModElem} (hd : isDir e = false) : elemToks e ≠ [] := by
  cases e <;> first | (cases hd; done) | simp [elemToks]

theorem unit_back (hu : UnitNames ty) : ∀ {es : List CModElem} {ks}, (∀ e ∈ es, PlainElem ty e) →
    CUnit ty ks (es.flatMap elemItems) → ListAlike (ExtAlike (Rd ty) (RdI ty)) (es.map kElem) ks
  | [], ks, _, h => by
    generalize hi : ([] : List CModElem).flatMap elemItems = is at h
    cases h with
    | nil => exact .nil
    | dir _ => cases hi
    | @decl k c _ _ h _ =>
      cases c with
      | nil => exact absurd rfl (ext_ne h)
      | cons t c => cases hi
  | e :: es, ks, hp, h => by
    have he := hp e (by simp)
    have hes : ∀ x ∈ es, PlainElem ty x := fun x hx => hp x (by simp [hx])
    generalize hi : (e :: es).flatMap elemItems = is at h
    rw [List.flatMap_cons] at hi
    cases hd : isDir e with
    | true =>
      obtain ⟨l, hl, hk⟩ : ∃ l, elemItems e = [.dir l] ∧ kElem e = .directive l := by
        cases e <;> first | (cases hd; done) | exact ⟨_, rfl, rfl⟩
      rw [hl] at hi
      cases h with
      | nil => cases hi
      | dir h =>
        injection hi with h1 h2
        injection h1 with h1
        subst h1 h2
        rw [List.map_cons, hk]
        exact .cons .directive (unit_back hu hes h)
      | @decl k c _ _ h _ =>
        cases c with
        | nil => exact absurd rfl (ext_ne h)
        | cons t c => cases hi
    | false =>
      have hl : elemItems e = (elemToks e).map .tok := by
        cases e <;> first | rfl | cases hd
      rw [hl] at hi
      cases h with
      | nil =>
        have := elem_ne hd
        cases hx : elemToks e with
        | nil => exact absurd hx this
        | cons t c => rw [hx] at hi; cases hi
      | dir h =>
        have := elem_ne hd
        cases hx : elemToks e with
        | nil => exact absurd hx this
        | cons t c => rw [hx] at hi; cases hi
      | @decl k c ks is' h h2 =>
        have hf := congrArg front hi
        rw [front_append, front_append] at hf
        obtain ⟨h1, _, h3⟩ := ext_cut hu he hd h hf
        subst h3
        have h4 := List.append_cancel_left hi
        subst h4
        exact .cons h1 (unit_back hu hes h2)

end Che.Proofs.CUnitBack
