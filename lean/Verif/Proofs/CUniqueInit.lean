import Verif.Proofs.CUnique
/-!
# The grammar of C initialisers is unambiguous
-/
namespace Che.Spec
open Che

variable {ty : String → Bool}

theorem init_shape {e c} (h : CEx ty (.init e) c) : CEx ty (.ex 2 e) c ∨
    ∃ es c1, CEx ty (.inits es) c1 ∧ e = .compLit es ∧ c = .punct "{" :: (c1 ++ [.punct "}"]) := by
  cases h with
  | initExpr h => exact Or.inl h
  | initList h => exact Or.inr ⟨_, _, h, rfl, rfl⟩

theorem item_shape {e c} (h : CEx ty (.item e) c) :
    (∃ v, CEx ty (.init v) c ∧ e = .mk false none v) ∨
    (∃ w v c1, w ∉ cKeywords ∧ CEx ty (.init v) c1 ∧ e = .mk false (some (.ident w)) v ∧
      c = .punct "." :: .word w :: .punct "=" :: c1) ∨
    (∃ k v c1 c2, CEx ty (.ex 3 k) c1 ∧ CEx ty (.init v) c2 ∧ e = .mk true (some k) v ∧
      c = .punct "[" :: (c1 ++ .punct "]" :: .punct "=" :: c2)) := by
  cases h with
  | itemPlain h => exact Or.inl ⟨_, h, rfl⟩
  | itemField h1 h2 => exact Or.inr (Or.inl ⟨_, _, _, h1, h2, rfl, rfl⟩)
  | itemIndex h1 h2 => exact Or.inr (Or.inr ⟨_, _, _, _, h1, h2, rfl, rfl⟩)

theorem inits_shape {es c} (h : CEx ty (.inits es) c) :
    ∃ e c1, CEx ty (.item e) c1 ∧
      ((es = [e] ∧ c = c1) ∨ (es = [e] ∧ c = c1 ++ [.punct ","]) ∨
       ∃ es' c2, CEx ty (.inits es') c2 ∧ es = e :: es' ∧ c = c1 ++ .punct "," :: c2) := by
  cases h with
  | initsLast h => exact ⟨_, _, h, Or.inl ⟨rfl, rfl⟩⟩
  | initsComma h => exact ⟨_, _, h, Or.inr (Or.inl ⟨rfl, rfl⟩)⟩
  | initsCons h1 h2 => exact ⟨_, _, h1, Or.inr (Or.inr ⟨_, _, h2, rfl, rfl⟩)⟩

/-- The first token of an initialiser. -/
theorem init_begins {e c} (h : CEx ty (.init e) c) :
    ∃ t r, c = t :: r ∧ t ≠ .punct "." ∧ t ≠ .punct "[" ∧ t ≠ .punct "}" ∧ t ≠ .punct "," := by
  rcases init_shape h with h | ⟨_, _, _, rfl, rfl⟩
  · obtain ⟨⟨t, r, rfl, hb⟩, -⟩ := h.begins
    refine ⟨t, r, rfl, ?_, ?_, ?_, ?_⟩ <;> rintro rfl <;> simp [Begins] at hb
  · exact ⟨_, _, rfl, by simp, by simp, by simp, by simp⟩

theorem expr_no_brace {s e c r r'} (h : CEx ty (.ex s e) c) : c ++ r ≠ .punct "{" :: r' := by
  intro he
  obtain ⟨⟨t, rr, rfl, hb⟩, -⟩ := h.begins
  simp only [List.cons_append, List.cons.injEq] at he
  rw [he.1] at hb; simp [Begins] at hb

/-- The first token of an item. -/
theorem item_begins {e c} (h : CEx ty (.item e) c) :
    ∃ t r, c = t :: r ∧ t ≠ .punct "}" ∧ t ≠ .punct "," := by
  rcases item_shape h with ⟨v, hv, rfl⟩ | ⟨_, _, _, _, _, _, rfl⟩ | ⟨_, _, _, _, _, _, _, rfl⟩
  · obtain ⟨t, r, rfl, -, -, h1, h2⟩ := init_begins hv
    exact ⟨t, r, rfl, h1, h2⟩
  · exact ⟨_, _, rfl, by simp, by simp⟩
  · exact ⟨_, _, rfl, by simp, by simp⟩

theorem inits_begins {es c} (h : CEx ty (.inits es) c) :
    ∃ t r, c = t :: r ∧ t ≠ .punct "}" ∧ t ≠ .punct "," := by
  obtain ⟨e, c1, h1, h2⟩ := inits_shape h
  obtain ⟨t, r, rfl, h3, h4⟩ := item_begins h1
  rcases h2 with ⟨_, rfl⟩ | ⟨_, rfl⟩ | ⟨_, _, _, _, rfl⟩ <;> exact ⟨t, _, rfl, h3, h4⟩

/-- Uniqueness of initialisers. -/
def InitDet (ty : String → Bool) (n : Nat) : Prop :=
  ∀ e c, CEx ty (.init e) c → c.length ≤ n → ∀ e' c' r r', CEx ty (.init e') c' →
    c ++ r = c' ++ r' → Stop 2 r → Stop 2 r' → e = e' ∧ c = c'

/-- Uniqueness of items. -/
def ItemDet (ty : String → Bool) (n : Nat) : Prop :=
  ∀ e c, CEx ty (.item e) c → c.length ≤ n → ∀ e' c' r r', CEx ty (.item e') c' →
    c ++ r = c' ++ r' → Stop 2 r → Stop 2 r' → e = e' ∧ c = c'

theorem item_det {n : Nat} (hd : InitDet ty n) : ItemDet ty n := by
  intro e c h hn e' c' r r' h' he hr hr'
  rcases item_shape h with ⟨v, h1, rfl⟩ | ⟨w, v, c1, hw, h1, rfl, rfl⟩ | ⟨k, v, c1, c2, h1, h2, rfl, rfl⟩
  · rcases item_shape h' with ⟨v', h1', rfl⟩ | ⟨w', v', c1', hw', h1', rfl, rfl⟩ |
      ⟨k', v', c1', c2', h1', h2', rfl, rfl⟩
    · obtain ⟨rfl, rfl⟩ := hd _ _ h1 hn _ _ _ _ h1' he hr hr'
      exact ⟨rfl, rfl⟩
    · obtain ⟨t, rr, rfl, h2, h3, -, -⟩ := init_begins h1
      simp only [List.cons_append, List.cons.injEq] at he
      exact absurd he.1 h2
    · obtain ⟨t, rr, rfl, h2, h3, -, -⟩ := init_begins h1
      simp only [List.cons_append, List.cons.injEq] at he
      exact absurd he.1 h3
  · simp only [List.length_cons] at hn
    rcases item_shape h' with ⟨v', h1', rfl⟩ | ⟨w', v', c1', hw', h1', rfl, rfl⟩ |
      ⟨k', v', c1', c2', h1', h2', rfl, rfl⟩
    · obtain ⟨t, rr, rfl, h2, h3, -, -⟩ := init_begins h1'
      simp only [List.cons_append, List.cons.injEq] at he
      exact absurd he.1.symm h2
    · simp only [List.cons_append, List.cons.injEq, true_and, CTok.word.injEq] at he
      obtain ⟨rfl, he⟩ := he
      obtain ⟨rfl, rfl⟩ := hd _ _ h1 (by omega) _ _ _ _ h1' he hr hr'
      exact ⟨rfl, rfl⟩
    · simp at he
  · simp only [List.length_cons, List.length_append] at hn
    rcases item_shape h' with ⟨v', h1', rfl⟩ | ⟨w', v', c1', hw', h1', rfl, rfl⟩ |
      ⟨k', v', c1', c2', h1', h2', rfl, rfl⟩
    · obtain ⟨t, rr, rfl, h2, h3, -, -⟩ := init_begins h1'
      simp only [List.cons_append, List.cons.injEq] at he
      exact absurd he.1.symm h3
    · simp at he
    · simp only [List.cons_append, List.cons.injEq, true_and, List.append_assoc] at he
      obtain ⟨rfl, rfl, he2⟩ := expr_prefix h1 h1' he stop_bracket stop_bracket
      simp only [List.cons.injEq, true_and] at he2
      obtain ⟨rfl, rfl⟩ := hd _ _ h2 (by omega) _ _ _ _ h2' he2 hr hr'
      exact ⟨rfl, rfl⟩

theorem inits_det {n : Nat} (hd : InitDet ty n) : ∀ {es c}, CEx ty (.inits es) c → c.length ≤ n →
    ∀ {es' c' r r'}, CEx ty (.inits es') c' → c ++ .punct "}" :: r = c' ++ .punct "}" :: r' →
    es = es' ∧ c = c' := by
  have hi := item_det hd
  have sp : ∀ {X : List CTok} {t x}, X = t :: x → (t = .punct "}" ∨ t = .punct ",") → Stop 2 X := by
    rintro X t x rfl (rfl | rfl)
    · exact stop_brace
    · exact stop_comma
  intro es
  induction es with
  | nil =>
    intro c h
    obtain ⟨e, c1, -, ⟨h, -⟩ | ⟨h, -⟩ | ⟨_, _, -, h, -⟩⟩ := inits_shape h <;> cases h
  | cons x xs ih =>
    intro c h hn es' c' r r' h' he
    obtain ⟨e, c1, h1, hc⟩ := inits_shape h
    obtain ⟨e', c1', h1', hc'⟩ := inits_shape h'
    -- the item ends in the same place
    have key : ∀ {y y'}, c = c1 ++ y → c' = c1' ++ y' → Stop 2 (y ++ .punct "}" :: r) →
        Stop 2 (y' ++ .punct "}" :: r') → e = e' ∧ c1 = c1' ∧ y ++ .punct "}" :: r = y' ++ .punct "}" :: r' := by
      rintro y y' rfl rfl hs hs'
      simp only [List.append_assoc] at he
      simp only [List.length_append] at hn
      obtain ⟨rfl, rfl⟩ := hi _ _ h1 (by omega) _ _ _ _ h1' he hs hs'
      exact ⟨rfl, rfl, List.append_cancel_left he⟩
    rcases hc with ⟨h2, rfl⟩ | ⟨h2, rfl⟩ | ⟨es1, c2, h2, h3, rfl⟩
    · cases h2
      rcases hc' with ⟨rfl, rfl⟩ | ⟨rfl, rfl⟩ | ⟨es1', c2', h2', rfl, rfl⟩
      · obtain ⟨rfl, rfl, -⟩ := key (y := []) (y' := []) (by simp) (by simp) stop_brace stop_brace
        exact ⟨rfl, rfl⟩
      · obtain ⟨-, -, h⟩ := key (y := []) (by simp) rfl stop_brace stop_comma
        simp at h
      · obtain ⟨-, -, h⟩ := key (y := []) (by simp) rfl stop_brace stop_comma
        simp at h
    · cases h2
      rcases hc' with ⟨rfl, rfl⟩ | ⟨rfl, rfl⟩ | ⟨es1', c2', h2', rfl, rfl⟩
      · obtain ⟨-, -, h⟩ := key (y' := []) rfl (by simp) stop_comma stop_brace
        simp at h
      · obtain ⟨rfl, rfl, -⟩ := key rfl rfl stop_comma stop_comma
        exact ⟨rfl, rfl⟩
      · obtain ⟨-, -, h⟩ := key rfl rfl stop_comma stop_comma
        obtain ⟨t, rr, rfl, h3, -⟩ := inits_begins h2'
        simp only [List.cons_append, List.nil_append, List.cons.injEq, true_and] at h
        exact absurd h.1.symm h3
    · cases h3
      rcases hc' with ⟨rfl, rfl⟩ | ⟨rfl, rfl⟩ | ⟨es1', c2', h2', rfl, rfl⟩
      · obtain ⟨-, -, h⟩ := key (y' := []) rfl (by simp) stop_comma stop_brace
        simp at h
      · obtain ⟨-, -, h⟩ := key rfl rfl stop_comma stop_comma
        obtain ⟨t, rr, rfl, h3, -⟩ := inits_begins h2
        simp only [List.cons_append, List.nil_append, List.cons.injEq, true_and] at h
        exact absurd h.1 h3
      · obtain ⟨rfl, rfl, h⟩ := key rfl rfl stop_comma stop_comma
        simp only [List.cons_append, List.cons.injEq, true_and] at h
        simp only [List.length_append, List.length_cons] at hn
        obtain ⟨rfl, rfl⟩ := ih h2 (by omega) h2' h
        exact ⟨rfl, rfl⟩

theorem init_det : ∀ n, InitDet ty n := by
  intro n
  induction n using Nat.strongRecOn with
  | ind n hd =>
    intro e c h hn e' c' r r' h' he hr hr'
    rcases init_shape h with h1 | ⟨es, c1, h1, rfl, rfl⟩
    · rcases init_shape h' with h1' | ⟨es', c1', h1', rfl, rfl⟩
      · obtain ⟨rfl, rfl, -⟩ := expr_prefix h1 h1' he hr hr'
        exact ⟨rfl, rfl⟩
      · exact absurd he (by simpa using expr_no_brace (r := r) (r' := c1' ++ .punct "}" :: r') h1)
    · simp only [List.length_cons, List.length_append] at hn
      rcases init_shape h' with h1' | ⟨es', c1', h1', rfl, rfl⟩
      · exact absurd he.symm (by simpa using expr_no_brace (r := r') (r' := c1 ++ .punct "}" :: r) h1')
      · simp only [List.cons_append, List.append_assoc, List.cons.injEq, true_and, List.nil_append] at he
        obtain ⟨rfl, rfl⟩ := inits_det (hd (n - 1) (by omega)) h1 (by omega) h1' he
        exact ⟨rfl, rfl⟩

/-- What follows an initialiser is determined. -/
theorem init_prefix {e e' c c' r r'} (h : CEx ty (.init e) c) (h' : CEx ty (.init e') c')
    (he : c ++ r = c' ++ r') (hr : Stop 2 r) (hr' : Stop 2 r') : e = e' ∧ c = c' ∧ r = r' := by
  obtain ⟨h1, h2⟩ := init_det c.length e c h (Nat.le_refl _) e' c' r r' h' he hr hr'
  subst h2
  exact ⟨h1, rfl, List.append_cancel_left he⟩

end Che.Spec
