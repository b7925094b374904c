import Verif.Proofs.Layout
import Verif.Spec.Demo
/-!
# C07: blanks and comments
-/
namespace Che.Props
open Spec

/-- What the parser sees of the tokens, positions left out: kinds and contents,
or that reading aborts or never ends. -/
inductive Outline where
  | tokens (ts : List (String × String))
  | abort
  | endless
deriving DecidableEq, Repr

def face (t : Token) : String × String := (t.kind, t.content)

def outline : LexAll → Outline
  | .ok ts _ => .tokens (ts.map face)
  | .panic _ => .abort
  | .diverge => .endless

def Outline.after (ts : List (String × String)) : Outline → Outline
  | .tokens us => .tokens (ts ++ us)
  | .abort => .abort
  | .endless => .endless

/-- Tokens do not depend on the text before them but for positions, nor on
blanks put in front. -/
theorem run_shift [Unicode] {pre s ts pre' s'} (h : Run pre s ts pre' s') {sp : List Char}
    (hsp : Blanks sp) (q : List Char) :
    ∃ ts' q' sp', Run q (sp ++ s) ts' q' (sp' ++ s') ∧ Blanks sp' ∧ ts'.map face = ts.map face := by
  induction h generalizing sp q with
  | nil => exact ⟨[], q, sp, .nil, hsp, rfl⟩
  | @token pre sp0 lx r k c ts pre' s' h1 h2 h3 ih =>
    have hb : Blanks (sp ++ sp0) := by
      intro c hc
      rcases List.mem_append.1 hc with hc | hc
      · exact hsp c hc
      · exact h1 c hc
    obtain ⟨ts', q', sp', h4, h5, h6⟩ := ih (sp := []) (by intro c hc; simp at hc)
      (q ++ (sp ++ sp0) ++ lx)
    rw [List.nil_append] at h4
    rw [show sp ++ (sp0 ++ lx ++ r) = sp ++ sp0 ++ lx ++ r by simp]
    exact ⟨_, q', sp', Run.token hb h2 h4, h5, by simp [face, h6]⟩
  | @error pre sp0 lx n r msg ts pre' s' h1 h2 h2' h3 ih =>
    have hb : Blanks (sp ++ sp0) := by
      intro c hc
      rcases List.mem_append.1 hc with hc | hc
      · exact hsp c hc
      · exact h1 c hc
    obtain ⟨ts', q', sp', h4, h5, h6⟩ := ih (sp := []) (by intro c hc; simp at hc)
      (q ++ (sp ++ sp0) ++ lx)
    rw [List.nil_append] at h4
    rw [show sp ++ (sp0 ++ lx ++ r) = sp ++ sp0 ++ lx ++ r by simp]
    exact ⟨_, q', sp', Run.error hb h2 h2' h4, h5, by simp [face, h6]⟩

theorem significant_face (ts : List Token) :
    (significant ts).map face = (ts.map face).filter (fun p => p.1 != "comment") := by
  induction ts with
  | nil => rfl
  | cons t ts ih =>
    simp only [significant, List.filter_cons, List.map_cons, face] at *
    split <;> simp [ih, face]

/-- Reading a text goes by what was read and what is left. -/
theorem outline_run [Unicode] {text ts pre sp v} (h : Run [] text ts pre (sp ++ v))
    (hsp : Blanks sp) :
    outline (lexAll text) = (outline (lexAll v)).after ((significant ts).map face) := by
  have hs : ∀ {us us' : List Token}, us'.map face = us.map face →
      (significant (ts ++ us')).map face =
        (significant ts).map face ++ (significant us).map face := by
    intro us us' e
    rw [significant_face, List.map_append, e, List.filter_append, ← significant_face,
      ← significant_face]
  rcases outcome_total v.length [] v (Nat.le_refl _) with ⟨h1, h2⟩ | ⟨h1, h2, h3⟩ | ⟨h1, h2, h3⟩
  · obtain ⟨ts', q', sp', h4, h5, h6⟩ := run_shift h1 hsp pre
    rw [lexAll_done h1 h2, lexAll_done (run_append h h4) (by
      intro c hc
      rcases List.mem_append.1 hc with hc | hc
      · exact h5 c hc
      · exact h2 c hc)]
    simp only [outline, Outline.after, hs h6]
  · obtain ⟨ts', q', sp', h4, h5, h6⟩ := run_shift h1 hsp pre
    obtain ⟨m, e1⟩ := lexAll_crash h1 h2 h3
    have h7 := run_append h h4
    rw [← List.append_assoc] at h7
    obtain ⟨m', e2⟩ := lexAll_crash h7 (by
      intro c hc
      rcases List.mem_append.1 hc with hc | hc
      · exact h5 c hc
      · exact h2 c hc) h3
    rw [e1, e2]; rfl
  · obtain ⟨ts', q', sp', h4, h5, h6⟩ := run_shift h1 hsp pre
    have h7 := run_append h h4
    rw [← List.append_assoc] at h7
    rw [lexAll_stuck h1 h2 h3, lexAll_stuck h7 (by
      intro c hc
      rcases List.mem_append.1 hc with hc | hc
      · exact h5 c hc
      · exact h2 c hc) h3]
    rfl

theorem _root_.Che.Spec.Filler.append {a b : List Char} (ha : Filler a) (hb : Filler b) : Filler (a ++ b) := by
  induction ha with
  | nil => exact hb
  | blank h _ ih => exact .blank h ih
  | block h _ ih => have := Filler.block h ih; simpa only [List.append_assoc] using this
  | line h _ ih => have := Filler.line h ih; simpa only [List.append_assoc, List.cons_append] using this

/-- A filler is read as comments, with blanks left at the end. -/
theorem filler_run [Unicode] {f : List Char} (h : Filler f) (pre sp v : List Char) (hsp : Blanks sp) :
    ∃ cs q sp', Run pre (sp ++ f ++ v) cs q (sp' ++ v) ∧ Blanks sp' ∧ significant cs = [] := by
  induction h generalizing pre sp with
  | nil => exact ⟨[], pre, sp, by simpa using Run.nil, hsp, rfl⟩
  | @blank c w hc _ ih =>
    obtain ⟨cs, q, sp', h1, h2, h3⟩ := ih pre (sp ++ [c]) (by
      intro d hd
      rcases List.mem_append.1 hd with hd | hd
      · exact hsp d hd
      · simp at hd; subst hd; exact hc)
    exact ⟨cs, q, sp', by simpa using h1, h2, h3⟩
  | @block x w hx _ ih =>
    obtain ⟨cs, q, sp', h1, h2, h3⟩ := ih (pre ++ sp ++ ("/*".toList ++ x ++ "*/".toList)) []
      (by intro c hc; simp at hc)
    rw [List.nil_append] at h1
    rw [show sp ++ ("/*".toList ++ x ++ "*/".toList ++ w) ++ v =
      sp ++ ("/*".toList ++ x ++ "*/".toList) ++ (w ++ v) by simp only [List.append_assoc]]
    refine ⟨_, q, sp', Run.token hsp (Lexeme.blockComment hx) h1, h2, ?_⟩
    simpa [significant] using h3
  | @line x w hx _ ih =>
    obtain ⟨cs, q, sp', h1, h2, h3⟩ := ih (pre ++ sp ++ ("//".toList ++ x)) ['\n']
      (by intro c hc; simp at hc; subst hc; exact .inr (.inr (.inl rfl)))
    rw [show sp ++ ("//".toList ++ x ++ '\n' :: w) ++ v =
      sp ++ ("//".toList ++ x) ++ (['\n'] ++ w ++ v) by
        simp only [List.append_assoc, List.cons_append, List.nil_append]]
    refine ⟨_, q, sp', Run.token hsp (Lexeme.lineComment hx (by
      intro c hc; simp at hc; exact hc.symm)) h1, h2, ?_⟩
    simpa [significant] using h3

theorem filler_head {f : List Char} (h : Filler f) (hne : f ≠ []) (v : List Char) :
    GapHead (f ++ v) := by
  cases h with
  | nil => exact absurd rfl hne
  | blank h => exact ⟨_, rfl, .inl h⟩
  | block => exact ⟨'/', rfl, .inr rfl⟩
  | line => exact ⟨'/', rfl, .inr rfl⟩

/-- Reading up to a point between tokens does not depend on what comes after, as
long as the last token does not. -/
theorem run_local [Unicode] {pre s ts pre' s'} (h : Run pre s ts pre' s') (sp r : List Char)
    (herr : ∀ t ∈ ts, t.kind ≠ "error") (hdot : (sp ++ r).head? ≠ some '.')
    (hlast : ∀ t, ts.getLast? = some t → ∀ lx, Lexeme t.kind t.content lx s' →
      Lexeme t.kind t.content (lx ++ sp) r) (hsp : ts = [] → sp = []) :
    ∃ x, s = x ++ s' ∧ pre' = pre ++ x ∧ (ts ≠ [] → x ≠ []) ∧
      Run pre (x ++ sp ++ r) ts (pre ++ x ++ sp) r := by
  induction h with
  | nil => exact ⟨[], by simp, by simp, by simp, by rw [hsp rfl]; simpa using Run.nil⟩
  | @token pre sp0 lx r0 k c ts pre' s' h1 h2 h3 ih =>
    cases ts with
    | nil =>
      cases h3
      have : Lexeme k c (lx ++ sp) r := hlast ⟨k, c, posAt (pre ++ sp0)⟩ rfl lx h2
      refine ⟨sp0 ++ lx, rfl, by simp, fun _ => ?_, ?_⟩
      · simp [lexeme_ne_nil h2]
      · have := Run.token (pre := pre) h1 this .nil
        simpa only [List.append_assoc] using this
    | cons t ts =>
      obtain ⟨x, rfl, rfl, hx, h4⟩ := ih (fun t ht => herr t (by simp [ht]))
        (fun t ht => hlast t (by rw [List.getLast?_cons_cons]; exact ht)) (by simp)
      obtain ⟨d, x', rfl⟩ := List.exists_cons_of_ne_nil (hx (by simp))
      have h2' : Lexeme k c lx (d :: x' ++ sp ++ r) := by
        refine lexeme_local h2 rfl ?_
        intro hd
        cases x' with
        | cons e x' =>
          obtain ⟨u, hu⟩ := hd
          simp only [List.cons_append, List.nil_append, List.cons.injEq] at hu
          obtain ⟨rfl, rfl, _⟩ := hu
          exact ⟨x' ++ s', rfl⟩
        | nil =>
          exfalso
          obtain ⟨u, hu⟩ := hd
          simp only [List.cons_append, List.nil_append, List.cons.injEq] at hu
          rw [← hu.2] at hdot
          exact hdot rfl
      refine ⟨sp0 ++ lx ++ (d :: x'), by simp, by simp, by simp, ?_⟩
      have := Run.token h1 h2' h4
      simpa only [List.append_assoc] using this
  | error => exact absurd rfl (herr _ List.mem_cons_self)

/-- A point of a text where layout may be put: just after the tokens `raw`
written `u`, and after the filler `f`.  After an import or a macro the line must
have been ended; and nothing that begins with a slash may be put directly after a
slash. -/
structure Place [Unicode] (u f v w : List Char) (raw : List Token) : Prop where
  run : Run [] (u ++ f ++ v) raw u (f ++ v)
  noError : ∀ t ∈ raw, t.kind ≠ "error"
  filler : Filler f
  line : ∀ t, raw.getLast? = some t → t.kind = "import" ∨ t.kind = "macro" → f.head? = some '\n'
  slash : ∀ t, raw.getLast? = some t → t.kind = "/" → (f ++ w).head? ≠ some '/'
  comment : ∀ t, raw.getLast? = some t → t.kind ≠ "comment"

/-- **C07.** At such a point any amount of blanks and comments may be inserted
without changing the kinds and contents of the tokens of the text (or that it
aborts the lexer, or that its tokens have no end). -/
theorem C07_insert_partial [Unicode] {u f v w : List Char} {raw : List Token} (h : Place u f v w raw)
    (hw : Filler w) :
    outline (lexAll (u ++ f ++ w ++ v)) = outline (lexAll (u ++ f ++ v)) := by
  obtain ⟨hrun, herr, hf, hline, hslash, hcom⟩ := h
  -- the text as it was
  have hold : outline (lexAll (u ++ f ++ v)) =
      (outline (lexAll v)).after ((significant raw).map face) := by
    obtain ⟨cs, q, sp', h1, h2, h3⟩ := filler_run hf u [] v (by intro c hc; simp at hc)
    have := outline_run (run_append hrun (by simpa using h1)) h2
    rw [this]
    simp only [significant, List.filter_append] at h3 ⊢
    rw [h3, List.append_nil]
  rw [hold]
  by_cases hwe : w = []
  · subst hwe
    rw [List.append_nil, hold]
  have hg : Filler (f ++ w) := hf.append hw
  have hgne : f ++ w ≠ [] := by simp [hwe]
  have hgap := filler_head hg hgne v
  have hnodot : (f ++ w ++ v).head? ≠ some '.' := by
    obtain ⟨c, e, hc⟩ := hgap
    rw [e]
    intro h; cases h
    exact (gap_ne hc).2.1 rfl
  -- it is enough that the old tokens are read, and some of the filler's blanks
  suffices hnew : ∃ sp g, f ++ w = sp ++ g ∧ Blanks sp ∧ Filler g ∧
      Run [] (u ++ sp ++ (g ++ v)) raw (u ++ sp) (g ++ v) by
    obtain ⟨sp, g, e, hsp, hg, hr⟩ := hnew
    obtain ⟨cs, q, sp', h1, h2, h3⟩ := filler_run hg (u ++ sp) [] v (by intro c hc; simp at hc)
    have := outline_run (run_append hr (by simpa using h1)) h2
    rw [show u ++ f ++ w ++ v = u ++ sp ++ (g ++ v) by
      rw [List.append_assoc u f w, e]; simp only [List.append_assoc], this]
    simp only [significant, List.filter_append] at h3 ⊢
    rw [h3, List.append_nil]
  have simple : (∀ t, raw.getLast? = some t → ∀ lx, Lexeme t.kind t.content lx (f ++ v) →
      Lexeme t.kind t.content lx (f ++ w ++ v)) → ∃ sp g, f ++ w = sp ++ g ∧ Blanks sp ∧ Filler g ∧
      Run [] (u ++ sp ++ (g ++ v)) raw (u ++ sp) (g ++ v) := by
    intro hl
    obtain ⟨x, e1, e2, _, h4⟩ := run_local hrun [] (f ++ w ++ v) herr (by simpa using hnodot)
      (by simpa using hl) (by simp)
    rw [List.nil_append] at e2
    subst e2
    exact ⟨[], f ++ w, by simp, by intro c hc; simp at hc, hg, by simpa using h4⟩
  by_cases hfe : f = []
  · subst hfe
    simp only [List.nil_append] at hgap hnodot hg simple hslash hrun ⊢
    cases hlast : raw.getLast? with
    | none => exact simple (by simp [hlast])
    | some t =>
      have hnl : t.kind ≠ "import" ∧ t.kind ≠ "macro" := by
        constructor <;> (intro hk; have := hline t hlast (by simp [hk]); simp at this)
      by_cases hstr : t.kind = "string"
      · -- the string takes in the blanks
        obtain ⟨sp, g, e, hsp, hst⟩ := spanC Blank w
        have hgf : Filler g := by
          clear hrun hold hgap hnodot hg simple hwe hgne hslash
          induction sp generalizing w with
          | nil => simp at e; subst e; exact hw
          | cons c sp ih =>
            subst e
            generalize hw' : c :: sp ++ g = w' at hw
            cases hw with
            | nil => cases hw'
            | blank _ h2 => cases hw'; exact ih h2 rfl (fun d hd => hsp d (by simp [hd]))
            | block =>
              have : c = '/' := by simp at hw'; exact hw'.1
              exact absurd (hsp c (by simp)) (by rw [this]; unfold Blank; decide)
            | line =>
              have : c = '/' := by simp at hw'; exact hw'.1
              exact absurd (hsp c (by simp)) (by rw [this]; unfold Blank; decide)
        obtain ⟨x, e1, e2, _, h4⟩ := run_local hrun sp (g ++ v) herr
          (by rw [← List.append_assoc, ← e]; exact hnodot)
          (by
            intro t' ht' lx hl
            rw [hlast] at ht'; cases ht'
            rw [hstr] at hl ⊢
            refine lexeme_string hl hsp ?_
            by_cases hge : g = []
            · subst hge
              simp only [List.nil_append]
              generalize hk : "string" = k at hl
              generalize t.content = tc at hl
              cases hl with
              | str _ _ a => exact a
              | keyword a1 a2 a3 a4 => rw [← hk] at a4; exact absurd a4 (by decide)
              | op a1 => rw [← hk] at a1; exact absurd a1 (by decide +kernel)
              | _ => exact absurd hk (by decide)
            · intro c hc hb
              have hh := filler_head hgf hge v
              obtain ⟨d, hd, hgd⟩ := hh
              rw [hc] at hd; cases hd
              rcases hb with hb | hb
              · obtain ⟨c', g', rfl⟩ := List.exists_cons_of_ne_nil hge
                exact hst c' rfl (by cases hc; exact hb)
              · exact (gap_ne hgd).2.2.2.1 hb)
          (by intro h; rw [h] at hlast; cases hlast)
        rw [List.nil_append] at e2
        subst e2
        exact ⟨sp, g, e, hsp, hgf, by simpa using h4⟩
      · refine simple ?_
        intro t' ht' lx hl
        rw [hlast] at ht'; cases ht'
        refine lexeme_gap hl hgap hnl.1 hnl.2 (hcom t hlast) ?_ (fun h => absurd h hstr)
        intro hk
        have := hslash t hlast hk
        cases w with
        | nil => exact absurd rfl hwe
        | cons c w => simpa using this
  · refine simple ?_
    intro t ht lx hl
    obtain ⟨c, f', rfl⟩ := List.exists_cons_of_ne_nil hfe
    refine lexeme_local hl rfl ?_
    intro hd
    exfalso
    obtain ⟨t, ht⟩ := hd
    rw [← ht] at hnodot
    exact hnodot rfl

/-- **C07, the full claim**: with no condition on where the layout is put, but
that it is between two tokens. -/
def C07_full [Unicode] : Prop :=
  ∀ (u v w : List Char) (raw ts : List Token), Run [] (u ++ v) raw u v → Tokens (u ++ v) ts →
    (∀ t ∈ ts, t.kind ≠ "error") → Filler w →
    outline (lexAll (u ++ w ++ v)) = outline (lexAll (u ++ v))

section Examples
attribute [local instance] asciiOnly

/-- **C07 counterexample**: a comment put directly after a slash makes a line
comment of it. -/
theorem C07_counterexample : ¬ C07_full := by
  intro h
  have hs : Lexeme "/" "" ['/'] ['b'] :=
    .op (o := "/") (by decide +kernel) (by decide +kernel) (by decide +kernel) (by decide +kernel)
  have hb : Lexeme "word" "b" ['b'] [] :=
    .word (c := 'b') (w := []) (by unfold WordStart Letter; decide) (by intro c hc; simp at hc)
      (by intro c hc; simp at hc) (by decide) (by decide)
  have h1 : Run [] ("/".toList ++ "b".toList) [⟨"/", "", posAt []⟩] "/".toList "b".toList :=
    .token (sp := []) (by intro c hc; simp at hc) hs .nil
  have h2 : Run "/".toList "b".toList [⟨"word", "b", posAt ['/']⟩] "/b".toList [] :=
    .token (sp := []) (by intro c hc; simp at hc) hb .nil
  have := h "/".toList "b".toList "/*x*/".toList _ _ h1
    ⟨_, _, run_append h1 h2, by intro c hc; simp at hc⟩ (by decide +kernel)
    (Filler.block (x := ['x']) (w := []) (by decide +kernel) .nil)
  revert this
  decide +kernel

/-- The outline of a text. -/
def outlineText (s : String) : Outline := outline (lexAll s.toList)

example : outlineText "x=/* a */y//z\n+\t\n1" = outlineText "x=y+1" := by decide +kernel
example : outlineText "x=y+1" =
    .tokens [("word", "x"), ("=", ""), ("word", "y"), ("+", ""), ("num", "1")] := by decide +kernel
/-- An import takes the rest of its line. -/
example : outlineText "#import os /* a */\nx" ≠ outlineText "#import os\nx" := by decide +kernel
example : outlineText "a / /* b */ c" = outlineText "a / c" := by decide +kernel
example : outlineText "a //* b */ c" ≠ outlineText "a / c" := by decide +kernel

end Examples
end Che.Props
