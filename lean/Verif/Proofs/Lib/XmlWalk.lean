import Verif.Proofs.Lib.Xml

/-!
How `xml_enter`, `xml_next` and `xml_leave` move in a file.
-/
namespace Che.Proofs.Lib.Xml
open Che.Lib Che.Lib.Xml Che.Spec.Lib.Xml

mutual
/-- The tags of an element. -/
def tags : Elem → List Tok
  | .empty n as => [.mono n as]
  | .tree n as kids => .opn n as :: (tagss kids ++ [.cls n])

def tagss : List Elem → List Tok
  | [] => []
  | e :: es => tags e ++ tagss es
end

/-- Tags and spaces up to the end. -/
def Renders : List Tok → Bytes → Prop
  | [], s => Space s
  | t :: ts, s => ∃ sp tt r, s = sp ++ tt ++ r ∧ Space sp ∧ TagText t tt ∧ Renders ts r

/-- Tags with spaces before them. -/
def Begins : List Tok → Bytes → Prop
  | [], s => s = []
  | t :: ts, s => ∃ sp tt r, s = sp ++ tt ++ r ∧ Space sp ∧ TagText t tt ∧ Begins ts r

theorem begins_append {ts us : List Tok} {a b : Bytes} (h : Begins ts a) (h' : Begins us b) : Begins (ts ++ us) (a ++ b) := by
  induction ts generalizing a with
  | nil => rw [show a = [] from h]; exact h'
  | cons t ts ih =>
    obtain ⟨sp, tt, r, rfl, hs, ht, hr⟩ := h
    exact ⟨sp, tt, r ++ b, by simp, hs, ht, ih hr⟩

theorem renders_append {ts : List Tok} {a b : Bytes} (h : Begins ts a) (h' : Space b) : Renders ts (a ++ b) := by
  induction ts generalizing a with
  | nil => rw [show a = [] from h]; exact h'
  | cons t ts ih =>
    obtain ⟨sp, tt, r, rfl, hs, ht, hr⟩ := h
    exact ⟨sp, tt, r ++ b, by simp, hs, ht, ih hr⟩

theorem begins_one {t s sp} (hs : Space sp) (h : TagText t s) : Begins [t] (sp ++ s) := ⟨sp, s, [], by simp, hs, h, rfl⟩

mutual
theorem begins_text : ∀ {e s}, Text e s → ∀ {sp}, Space sp → Begins (tags e) (sp ++ s)
  | _, _, .empty hn hl ha, _, hs => by
    rw [tags]
    exact begins_one hs (.mono hn hl ha)
  | _, _, @Text.tree n as s kids k sp' hn hl ha hk hs', sp, hs => by
    rw [tags]
    have h1 := begins_one hs (.opn hn hl ha)
    have h2 := begins_texts hk
    have h3 := begins_one hs' (.cls hn)
    have := begins_append h1 (begins_append h2 h3)
    simpa using this

theorem begins_texts : ∀ {es s}, Texts es s → Begins (tagss es) s
  | _, _, .nil => by rw [tagss]; rfl
  | _, _, .cons hs he hes => by
    rw [tagss]
    exact begins_append (begins_text he hs) (begins_texts hes)
end

/-- What is to come: the tags, the first of which may have been read. -/
def Yields (x : X) (ts : List Tok) : Prop :=
  (x.next.ty = .null ∧ Renders ts x.rest) ∨ ∃ t us, ts = t :: us ∧ Is x.next t ∧ Renders us x.rest

theorem read_yields {x t ts} (h : Yields x (t :: ts)) :
    ∃ g r, read_tag x = .ok { x with next := g, rest := r } ∧ Is g t ∧ Renders ts r := by
  rcases h with ⟨h0, sp, tt, r, hx, hs, ht, hr⟩ | ⟨t', us, he, hg, hr⟩
  · obtain ⟨g, hg, e⟩ := read_tag_text ht x hs hx h0
    exact ⟨g, r, e, hg, hr⟩
  · cases he
    refine ⟨x.next, x.rest, ?_, hg, hr⟩
    unfold read_tag
    rw [if_pos hg.ne]

theorem read_nil {x} (h : Yields x []) : read_tag x = .ok { x with rest := [] } ∧ x.next.ty = .null := by
  rcases h with ⟨h0, hr⟩ | ⟨t', us, he, _⟩
  · refine ⟨?_, h0⟩
    have : discard_spaces x = { x with rest := [] } := by
      unfold discard_spaces
      have := dropWhile_app (p := isspace) (b := []) (space_all hr) (by simp)
      rw [List.append_nil] at this
      rw [this]
    unfold read_tag
    rw [if_neg (by simp [h0]), this]
    simp
  · cases he

/-- The tag of an element. -/
def tagOf : Elem → Tag
  | .empty n as => ⟨n, .mono, as⟩
  | .tree n as _ => ⟨n, .opening, as⟩

/-- The tags after the first one of an element. -/
def inside : Elem → List Tok
  | .empty _ _ => []
  | .tree n _ kids => tagss kids ++ [.cls n]

/-- The tags after the element and its siblings: the parents and what follows them. -/
def after : List (Bytes × List Elem) → List Tok
  | [] => []
  | (n, es) :: up => .cls n :: (tagss es ++ after up)

/-- The parser is where the cursor is. -/
def At (x : X) (here : List Elem) (up : List (Bytes × List Elem)) : Prop :=
  x.error = false ∧ x.path = up.map Prod.fst ∧
  match here with
  | [] => x.node.ty = .null ∧ Yields x (after up)
  | e :: es => x.node = tagOf e ∧ Yields x (inside e ++ tagss es ++ after up)

theorem tags_eq (e : Elem) : ∃ t, tags e = t :: inside e ∧ ∀ g, Is g t ↔ g = tagOf e := by
  cases e with
  | empty n as => exact ⟨_, rfl, fun g => Iff.rfl⟩
  | tree n as kids => exact ⟨_, by rw [tags, inside], fun g => Iff.rfl⟩

theorem tagOf_ty (e : Elem) : (tagOf e).ty = .opening ∨ (tagOf e).ty = .mono := by cases e <;> simp [tagOf]

/-- The next tag becomes the node. -/
theorem shift_at {x e ts} (h : Yields x (tags e ++ ts)) :
    ∃ r g, read_tag x = .ok { x with next := tagOf e, rest := r } ∧ shift x = .ok { x with node := tagOf e, next := g, rest := r } ∧
      g.ty = .null ∧ Renders (inside e ++ ts) r := by
  obtain ⟨t, et, ht⟩ := tags_eq e
  rw [et] at h
  obtain ⟨g, r, e1, hg, hr⟩ := read_yields h
  rw [(ht g).1 hg] at e1
  refine ⟨r, { tagOf e with ty := .null }, e1, ?_, rfl, hr⟩
  unfold shift
  rw [e1]
  rfl

theorem shift_cached {x : X} (h : x.next.ty ≠ .null) : shift x = .ok { x with node := x.next, next := { x.next with ty := .null } } := by
  unfold shift read_tag
  rw [if_pos h]
  rfl

/-- The parser goes to the first of the elements that follow. -/
theorem sibling_at {x es up} (he : x.error = false) (hp : x.path = up.map Prod.fst) (h : Yields x (tagss es ++ after up)) :
    ∃ x', sibling x = .ok x' ∧ At x' es up := by
  cases es with
  | nil =>
    rw [tagss, List.nil_append] at h
    cases up with
    | nil =>
      obtain ⟨e1, h0⟩ := read_nil h
      refine ⟨{ x with rest := [], node := { x.node with ty := .null } }, ?_, he, hp, rfl, .inl ⟨h0, ?_⟩⟩
      · unfold sibling
        rw [e1]
        simp [Res.bind, h0]
      · show Space []
        intro c hc; cases hc
    | cons f up =>
      obtain ⟨n, fs⟩ := f
      obtain ⟨g, r, e1, hg, hr⟩ := read_yields h
      refine ⟨{ x with next := g, rest := r, node := { x.node with ty := .null } }, ?_, he, hp, rfl, .inr ⟨_, _, rfl, hg, hr⟩⟩
      unfold sibling
      rw [e1]
      simp [Res.bind, hg.2]
  | cons e es =>
    rw [tagss, List.append_assoc] at h
    obtain ⟨r, g, e1, _, _, hr⟩ := shift_at h
    refine ⟨{ x with node := tagOf e, next := { tagOf e with ty := .null }, rest := r }, ?_, he, hp, rfl, .inl ⟨rfl, ?_⟩⟩
    · unfold sibling
      rw [e1]
      simp only [Res.bind]
      rw [if_pos (tagOf_ty e), shift_cached (by rcases tagOf_ty e with h | h <;> simp [h])]
    · rw [List.append_assoc]; exact hr

/-- `xml_enter` of an element with two tags. -/
theorem enter_at {x n as kids es up} (h : At x (.tree n as kids :: es) up) (hu : up.length < 4) :
    ∃ x', xml_enter x = .ok (x', true) ∧ At x' kids ((n, es) :: up) := by
  obtain ⟨he, hp, hn, hy⟩ := h
  have hpl : ¬ x.path.length ≥ 4 := by rw [hp]; simp; omega
  have hne : ¬ (x.node.ty = .null ∨ x.node.ty = .mono) := by rw [hn]; simp [tagOf]
  unfold xml_enter
  rw [he, if_neg (by simp), if_neg hne]
  cases kids with
  | nil =>
    simp only [inside, tagss, List.nil_append, List.cons_append] at hy
    obtain ⟨g, r, e1, hg, hr⟩ := read_yields hy
    rw [e1]
    have hnn : g.name = x.node.name := by rw [hn]; exact hg.1
    refine ⟨{ x with next := g, rest := r, path := x.node.name :: x.path, node := { x.node with ty := .null } }, ?_, he, ?_, rfl,
      .inr ⟨_, _, rfl, hg, hr⟩⟩
    · simp only [Res.bind, hg.2, hnn, ne_eq, not_true_eq_false, if_false, pushparent, if_neg hpl]
    · simp [hp, hn, tagOf]
  | cons k kids =>
    simp only [inside, tagss, List.append_assoc] at hy
    obtain ⟨r, g, e1, e2, hg, hr⟩ := shift_at hy
    rw [e1]
    refine ⟨{ x with node := tagOf k, next := { tagOf k with ty := .null }, rest := r, path := x.node.name :: x.path }, ?_, he, ?_, rfl,
      .inl ⟨rfl, ?_⟩⟩
    · simp only [Res.bind]
      have hc := shift_cached (x := { x with next := tagOf k, rest := r, path := x.node.name :: x.path })
        (by rcases tagOf_ty k with h | h <;> simp [h])
      rcases tagOf_ty k with h | h
      · simp only [h, pushparent, if_neg hpl, Res.bind]
        simp only [h] at hc
        rw [hc]
      · simp only [h, pushparent, if_neg hpl, Res.bind]
        simp only [h] at hc
        rw [hc]
    · simp [hp, hn, tagOf]
    · simpa [after] using hr

/-- The end of `xml_leave`. -/
theorem leaveEnd_at {x n es up} (h : At x [] ((n, es) :: up)) : ∃ x', leaveEnd x = .ok x' ∧ At x' es up := by
  obtain ⟨he, hp, hn, hy⟩ := h
  obtain ⟨g, r, e1, hg, hr⟩ := read_yields hy
  obtain ⟨x', e2, h2⟩ := sibling_at (x := { x with next := { g with ty := .null }, rest := r, path := up.map Prod.fst }) (es := es)
    (up := up) he rfl (.inl ⟨rfl, hr⟩)
  refine ⟨x', ?_, h2⟩
  unfold leaveEnd
  rw [e1]
  simp only [Res.bind, hp, List.map_cons, hg.1, hg.2, ne_eq, not_true_eq_false, or_self, if_false]
  rw [hg.1] at e2
  exact e2

theorem skip_succ (n : Nat) (x : X) : skip (n + 1) x = if x.node.ty = .null then .ok x else (xml_next n x).bind fun x => skip n x := rfl
theorem xml_leave_succ (n : Nat) (x : X) : xml_leave (n + 1) x = if x.error then .ok x else (skip n x).bind leaveEnd := rfl

mutual
theorem next_at : ∀ (e : Elem) {x es up}, At x (e :: es) up → Elem.Depth (4 - up.length) e →
    ∃ N x', (∀ n, N ≤ n → xml_next n x = .ok x') ∧ At x' es up
  | .empty nm as, x, es, up, h, _ => by
    obtain ⟨he, hp, hn, hy⟩ := h
    obtain ⟨x', e1, h1⟩ := sibling_at he hp (by simpa [inside] using hy)
    refine ⟨1, x', ?_, h1⟩
    intro n hn1
    obtain ⟨n, rfl⟩ : ∃ m, n = m + 1 := ⟨n - 1, by omega⟩
    rw [xml_next, he, if_neg (by simp), hn]
    exact e1
  | .tree nm as kids, x, es, up, h, hd => by
    rw [Elem.Depth] at hd
    have hu : up.length < 4 := by omega
    obtain ⟨x1, e1, h1⟩ := enter_at h hu
    obtain ⟨N, x2, e2, h2⟩ := skip_at kids h1 (by simpa [Nat.sub_sub] using hd.2)
    obtain ⟨x3, e3, h3⟩ := leaveEnd_at h2
    refine ⟨N + 2, x3, ?_, h3⟩
    intro n hn1
    obtain ⟨n, rfl⟩ : ∃ m, n = m + 2 := ⟨n - 2, by omega⟩
    obtain ⟨he, hp, hn, hy⟩ := h
    rw [xml_next, he, if_neg (by simp), hn]
    simp only [tagOf]
    rw [e1]
    simp only [Res.bind]
    rw [xml_leave_succ, h1.1, if_neg (by simp), e2 n (by omega)]
    exact e3

theorem skip_at : ∀ (es : List Elem) {x up}, At x es up → Elem.Depths (4 - up.length) es →
    ∃ N x', (∀ n, N ≤ n → skip n x = .ok x') ∧ At x' [] up
  | [], x, up, h, _ => by
    refine ⟨1, x, ?_, h⟩
    intro n hn1
    obtain ⟨n, rfl⟩ : ∃ m, n = m + 1 := ⟨n - 1, by omega⟩
    rw [skip_succ, if_pos h.2.2.1]
  | e :: es, x, up, h, hd => by
    rw [Elem.Depths] at hd
    obtain ⟨N1, x1, e1, h1⟩ := next_at e h hd.1
    obtain ⟨N2, x2, e2, h2⟩ := skip_at es h1 hd.2
    refine ⟨N1 + N2 + 1, x2, ?_, h2⟩
    intro n hn1
    obtain ⟨n, rfl⟩ : ∃ m, n = m + 1 := ⟨n - 1, by omega⟩
    have hne : ¬ x.node.ty = .null := by
      rw [h.2.2.1]; rcases tagOf_ty e with h | h <;> simp [h]
    rw [skip_succ, if_neg hne, e1 n (by omega)]
    exact e2 n (by omega)
end

/-- `xml_leave`. -/
theorem leave_at {x here n es up} (h : At x here ((n, es) :: up)) (hd : Elem.Depths (4 - (up.length + 1)) here) :
    ∃ N x', (∀ n, N ≤ n → xml_leave n x = .ok x') ∧ At x' es up := by
  obtain ⟨N, x1, e1, h1⟩ := skip_at here h hd
  obtain ⟨x2, e2, h2⟩ := leaveEnd_at h1
  refine ⟨N + 1, x2, ?_, h2⟩
  intro n hn1
  obtain ⟨n, rfl⟩ : ∃ m, n = m + 1 := ⟨n - 1, by omega⟩
  rw [xml_leave_succ, h.1, if_neg (by simp), e1 n (by omega)]
  exact e2

/-- `xml_open`. -/
theorem open_at {root s} (h : File root s) : ∃ x, xml_open s = .ok x ∧ At x [root] [] := by
  obtain ⟨h, sp, t, sp', ⟨s0, hh, hs0, hhh, rfl⟩, hsp, ht, hsp', rfl⟩ := h
  let x0 : X := { rest := sp ++ t ++ sp', node := ⟨[], .null, []⟩, next := ⟨[], .null, []⟩, path := [], error := false }
  have e0 : header { x0 with rest := s0 ++ [60, 63] ++ hh ++ [62] ++ sp ++ t ++ sp' } = x0 := by
    have e1 : (s0 ++ [60, 63] ++ hh ++ [62] ++ sp ++ t ++ sp').dropWhile isspace = 60 :: 63 :: (hh ++ 62 :: (sp ++ t ++ sp')) := by
      have : s0 ++ [60, 63] ++ hh ++ [62] ++ sp ++ t ++ sp' = s0 ++ (60 :: 63 :: (hh ++ 62 :: (sp ++ t ++ sp'))) := by simp
      rw [this, dropWhile_app (space_all hs0) (by intro c hc; simp at hc; subst hc; decide)]
    have e2 : (hh ++ 62 :: (sp ++ t ++ sp')).dropWhile (· ≠ 62) = 62 :: (sp ++ t ++ sp') :=
      dropWhile_app (by intro c hc; simp [hhh c hc]) (by intro c hc; simp at hc; simp [← hc])
    unfold header discard_spaces
    simp only [e1, expect, List.tail_cons, List.head?_cons, ne_eq, not_true_eq_false, decide_false, Bool.or_false, e2]
    rfl
  have hy : Yields x0 (tags root ++ []) := by
    refine .inl ⟨rfl, ?_⟩
    rw [List.append_nil]
    exact renders_append (begins_text ht hsp) hsp'
  obtain ⟨r, g, e1, e2, hg, hr⟩ := shift_at hy
  refine ⟨{ x0 with node := tagOf root, next := { tagOf root with ty := .null }, rest := r }, ?_, rfl, rfl, rfl, .inl ⟨rfl, ?_⟩⟩
  · show (read_tag (header { x0 with rest := s0 ++ [60, 63] ++ hh ++ [62] ++ sp ++ t ++ sp' })).bind _ = _
    rw [e0, e1]
    simp only [Res.bind]
    have hc : ¬ ((tagOf root).ty ≠ .opening ∧ (tagOf root).ty ≠ .mono) := by
      rcases tagOf_ty root with h | h <;> simp [h]
    rw [if_neg hc, shift_cached (by rcases tagOf_ty root with h | h <;> simp [h])]
  · simpa [tagss, after] using hr
end Che.Proofs.Lib.Xml
