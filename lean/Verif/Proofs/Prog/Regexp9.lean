import Verif.Proofs.Prog.Regexp9Opt
import Verif.Proofs.Prog.Regexp9Lex

/-!
Expressions as they are written, the programs made of them, and what the programs find.
-/
namespace Che.Proofs.Regexp9
open Che Che.Lib Che.Lib.Utf Che.Prog.Regexp9 Che.Spec.Regexp9 Che.Spec.Utf

/-! ## Compiling -/

/-- The compiler before the first symbol. -/
def c0 : Comp := ⟨[], [], [(START - 1, 0)], 0, false, 0⟩

/-- The compiler with trees before the first symbol. -/
def a0 : A := ⟨[(START - 1, 0)], [], 0, false, 0⟩

theorem rel0 : Rel c0 a0 :=
  ⟨⟨rfl, rfl, by simp [c0], by intro p hp h; simp [c0] at hp; subst hp; cases h⟩, rfl, rfl, by decide, rfl, rfl⟩

theorem regcomp1_eq (literal : Bool) (dot : Op) (e : Bytes) :
    regcomp1 literal dot e = (compLoop literal dot e (e.length + 2) ⟨0, false⟩ 0 c0).bind finishC := by
  rfl

theorem Good.same {prog e e'} (h : Good prog e') (hs : Same e' e) : Good prog e :=
  ⟨fun t i j c c' => (h.run t i j c c').trans (hs t i j c c'), h.ids, h.rune, h.start, h.flow⟩

/-- No limits. -/
def limInf : Lim := ⟨fun _ => true, fun _ => true⟩

/-- Symbols that are an expression, once read. -/
theorem reads_good {ts e n} (h : Reads .alts 0 ts e n) {toks : List Token} (hl : toks.length = ts.length)
    (hm : ∀ p ∈ toks.zip ts, Means p.1 p.2) :
    (∀ c, stepsC c0 toks = .ok c → ∃ prog, finishC c = .ok prog ∧ Good prog e) ∧
    (e.depth ≤ 4 → n ≤ 31 → ∃ c, stepsC c0 toks = .ok c) := by
  have href := steps_ref hl hm rel0
  have htop : Top a0.ators OR := ⟨START - 1, 0, [], rfl, by decide⟩
  constructor
  · intro c hc
    cases hr : runA lim20 a0 ts with
    | none => rw [hr] at href; exact absurd hc (href c)
    | some a =>
      rw [hr] at href
      obtain ⟨c', hc', hrel⟩ := href
      rw [hc] at hc'; cases hc'
      have hinf := runA_mono (L' := limInf) (fun _ _ => rfl) (fun _ _ => rfl) hr
      obtain ⟨b, e', b1, b2, b3, b4, b5, b6⟩ := parse (L := limInf) h a0 rfl rfl htop (by simp [a0]) ⟨fun _ _ => rfl, fun _ _ => rfl⟩
      rw [hinf] at b2; cases b2
      obtain ⟨prog, p1, p2⟩ := finish_spec hrel b3 b5 (e' := e') (by
        rw [evalA_cont (k := START) (by decide) (by decide) b6]
        exact evalA_top ⟨START - 1, 0, [], rfl, by decide⟩ (by decide))
      exact ⟨prog, p1, p2.same b1⟩
  · intro h1 h2
    obtain ⟨b, e', _, b2, _⟩ := parse (L := lim20) h a0 rfl rfl htop (by simp [a0])
      ⟨fun k hk => by simp [a0] at hk; simp [lim20]; omega, fun k hk => by simp [lim20]; omega⟩
    rw [b2] at href
    obtain ⟨c, hc, _⟩ := href
    exact ⟨c, hc⟩

theorem tokText_length {da t x} (h : TokText da t x) : 0 < x.length := by
  cases h <;> simp

theorem toksText_length {da ts x} (h : ToksText da ts x) : ts.length ≤ x.length := by
  induction h with
  | nil => simp
  | slash => simp
  | cons h1 _ ih =>
    have := tokText_length h1
    simp only [List.length_cons, List.length_append]
    omega

theorem at_nil : (⟨0, false⟩ : Lex) = at_ [] := rfl

/-- The program of an expression. -/
theorem regcomp_good {dot da} (hd : DotFor dot da) {x e prog} (h : Written da x e) (hp : regcomp1 false dot (encode x) = .ok prog) : Good prog e := by
  rw [regcomp1_eq] at hp
  cases h with
  | empty ht =>
    have hc : compLoop false dot (encode x) ((encode x).length + 2) ⟨0, false⟩ 0 c0 = .ok c0 := by
      cases ht with
      | nil => exact compLoop_end c0
      | slash => exact compLoop_slash (pre := []) c0
    rw [hc] at hp
    obtain ⟨prog', h1, h2⟩ := finish_empty (g := 0) rfl
    simp only [Res.bind] at hp
    have : finishC c0 = .ok prog' := h1
    rw [this] at hp; cases hp
    exact h2
  | @some ts _ _ n ht hr =>
    obtain ⟨toks, t1, t2, t3⟩ := compLoop_spec hd ht
    have hlen := toksText_length ht
    have hle := length_le_encode x
    obtain ⟨g1, _⟩ := t3 [] ((encode x).length + 2) 0 c0 (by omega)
    rw [List.nil_append, ← at_nil] at g1
    cases hc : compLoop false dot (encode x) ((encode x).length + 2) ⟨0, false⟩ 0 c0 with
    | ok c =>
      rw [hc] at hp
      obtain ⟨prog', p1, p2⟩ := (reads_good hr t1 t2).1 c (g1 c hc)
      simp only [Res.bind] at hp
      rw [p1] at hp; cases hp
      exact p2
    | err _ => rw [hc] at hp; cases hp
    | panic _ => rw [hc] at hp; cases hp
    | diverge => rw [hc] at hp; cases hp

/-- Expressions within the limits are accepted. -/
theorem regcomp_accepts {dot da} (hd : DotFor dot da) {ts x e n} (ht : ToksText da ts x) (hr : Reads .alts 0 ts e n) (hf : Fit ts)
    (h1 : e.depth ≤ 4) (h2 : n ≤ 31) : ∃ prog, regcomp1 false dot (encode x) = .ok prog := by
  obtain ⟨toks, t1, t2, t3⟩ := compLoop_spec hd ht
  have hlen := toksText_length ht
  have hle := length_le_encode x
  obtain ⟨_, g2⟩ := t3 [] ((encode x).length + 2) 0 c0 (by omega)
  rw [List.nil_append, ← at_nil] at g2
  obtain ⟨r1, r2⟩ := reads_good hr t1 t2
  obtain ⟨c, hc⟩ := r2 h1 h2
  obtain ⟨prog, p1, _⟩ := r1 c hc
  refine ⟨prog, ?_⟩
  rw [regcomp1_eq, g2 hf.1 (by simpa using hf.2), hc]
  exact p1

/-! ## Literal expressions -/

theorem reads_lit (cs : List Char) : ∀ (ts : List Tok) (e : Re), Reads .cats 0 ts e 0 →
    Reads .cats 0 (ts ++ cs.map fun d => .atom (.chr d.val.toNat)) (cs.foldl (fun e d => .cat e (.one (.chr d.val.toNat))) e) 0 := by
  induction cs with
  | nil => intro ts e h; simpa using h
  | cons c cs ih =>
    intro ts e h
    have := ih (ts ++ [.atom (.chr c.val.toNat)]) (.cat e (.one (.chr c.val.toNat))) (.cat h (.base .atom))
    simpa using this

theorem compLoop_lit {dot : Op} (x : List Char) (hz : ∀ c ∈ x, c ≠ '\x00' ∧ c ≠ '\\') : ∀ (pre : List Char) (fuel n : Nat) (c : Comp), x.length < fuel →
    compLoop true dot (encode (pre ++ x)) fuel (at_ pre) n c = stepsC c (x.map fun d => .operand (.rune d.val.toNat)) := by
  induction x with
  | nil =>
    intro pre fuel n c hf
    cases fuel with
    | zero => simp at hf
    | succ fuel => rw [List.append_nil, compLoop_end]; rfl
  | cons d x ih =>
    intro pre fuel n c hf
    obtain ⟨fuel, rfl⟩ : ∃ m, fuel = m + 1 := ⟨fuel - 1, by simp at hf; omega⟩
    simp only [List.length_cons] at hf
    obtain ⟨h1, h2⟩ := hz d (by simp)
    have hl : lex true dot (encode (pre ++ d :: x)) (at_ pre) n = .ok (at_ (pre ++ [d]), .operand (.rune d.val.toNat)) := by
      rw [lex, nextc_bare h2 h1]
      simp only [Res.bind]
      rw [if_pos (by simp), if_neg (val_ne_zero h1)]
    rw [compLoop_tok c hl (by simp), List.map_cons, stepsC]
    congr 1
    funext c1
    have := ih (fun c hc => hz c (List.mem_cons_of_mem _ hc)) (pre ++ [d]) fuel n c1 (by omega)
    simpa [classes] using this

/-- `regcomplit` makes a program for the string, if there is no backslash in it. -/
theorem regcomplit_good {x : List Char} (hz : ∀ c ∈ x, c ≠ '\x00' ∧ c ≠ '\\') : ∃ prog, regcomplit (encode x) = .ok prog ∧ Good prog (lit x) := by
  rw [regcomplit, regcomp1_eq, at_nil]
  have hle := length_le_encode x
  have := compLoop_lit (dot := .any) x hz [] ((encode x).length + 2) 0 c0 (by omega)
  rw [List.nil_append] at this
  rw [this]
  cases x with
  | nil => exact finish_empty rfl
  | cons c x =>
    have hr : Reads .alts 0 ((c :: x).map fun d => .atom (.chr d.val.toNat)) (lit (c :: x)) 0 := by
      have := reads_lit x [.atom (.chr c.val.toNat)] _ (.rep (.base .atom))
      exact .cats this
    have hm : ∀ p ∈ ((c :: x).map fun d => Token.operand (.rune d.val.toNat)).zip ((c :: x).map fun d => Tok.atom (.chr d.val.toNat)), Means p.1 p.2 := by
      intro p hp
      rw [List.zip_map', List.mem_map] at hp
      obtain ⟨d, hd, rfl⟩ := hp
      refine .atom rfl (fun r => ?_) (fun r hr => ?_)
      · simp [takes, Atom.has]; exact eq_comm
      · cases hr; exact val_ne_zero (hz d hd).1
    obtain ⟨r1, r2⟩ := reads_good hr (by simp) hm
    have hdep : ∀ (y : List Char) (e : Re), e.depth = 0 → (y.foldl (fun e d => .cat e (.one (.chr d.val.toNat))) e : Re).depth = 0 := by
      intro y
      induction y with
      | nil => intro e h; exact h
      | cons a y ih => intro e h; exact ih _ (by simp [Re.depth, h])
    obtain ⟨c1, hc⟩ := r2 (by rw [lit, hdep x _ rfl]; omega) (by omega)
    obtain ⟨prog, p1, p2⟩ := r1 c1 hc
    rw [hc]
    exact ⟨prog, p1, p2⟩

/-! ## Searching -/

theorem between_iff {cs lo x} : Between cs lo x ↔ Bd cs lo x := Iff.rfl

theorem startType_ok {prog e ty} (hg : Good prog e) (h : startType prog = .ok ty) : TyOk prog.insts prog.start ty := by
  unfold startType at h
  cases hi : prog.insts[prog.start]? with
  | none => rw [hi] at h; cases h
  | some x =>
    rw [hi] at h
    simp only at h
    cases ho : x.op <;> rw [ho] at h <;> simp only at h
    case rune r =>
      split at h
      · cases h; exact ⟨hg.rune _ x r hi ho, by assumption, x, hi, ho⟩
      · cases h; trivial
    case bol => cases h; exact ⟨x, hi, ho⟩
    all_goals (cases h; trivial)

/-- A program that begins with `BOL` matches only where lines begin. -/
theorem bol_inside {prog e} (hg : Good prog e) (h : TyOk prog.insts prog.start .bol) : ¬ Inside e := by
  rintro ⟨t, i, j, c, c', hm, hb⟩
  obtain ⟨n, q, hf, hs⟩ := (hg.run t i j c c').2 hm
  obtain ⟨x, h1, h2⟩ := h
  cases hs with
  | refl =>
    obtain ⟨y, h3, h4⟩ := hf
    rw [h1] at h3; cases h3
    rw [h2] at h4; cases h4
  | head s _ =>
    cases s with
    | take a b => rw [h1] at a; cases a; rw [h2] at b; cases b
    | lbra _ a b => rw [h1] at a; cases a; rw [h2] at b; cases b
    | rbra _ a b => rw [h1] at a; cases a; rw [h2] at b; cases b
    | bol a b c d => exact hb d
    | eol a b => rw [h1] at a; cases a; rw [h2] at b; cases b
    | orL _ a b => rw [h1] at a; cases a; rw [h2] at b; cases b
    | orR _ a b => rw [h1] at a; cases a; rw [h2] at b; cases b
    | nop a => cases a

/-- What `regexec1` finds. -/
theorem regexec1_spec {prog e ty cs pre post cap ms res} (hg : Good prog e) (hty : TyOk prog.insts prog.start ty) (hz : ∀ c ∈ cs, c ≠ '\x00')
    (hcs : cs = pre ++ post) (h : regexec1 prog ty (encode cs) cap (encode pre).length none ms = .ok res) :
    (res.1 = true → ∃ x j c, Found cs (encode pre).length e x j c ∧ res.2.length = ms ∧
      (∀ n m, res.2[n]? = some m → (m.sp, m.ep) = c n) ∧ c 0 = (some x, some j)) ∧
    (('\n' ∉ cs ∨ Inside e) → ∀ x j c, Found cs (encode pre).length e x j c → Done res.2 res.1 x j) := by
  have hsnd : Snd prog.insts prog.start (Text.of cs) (Bd cs (encode pre).length) ms (encode pre).length [] (List.replicate ms ⟨none, none⟩) false :=
    ⟨bd_here hcs (Nat.le_refl _), by simp, 0, ⟨fun _ => rfl, fun h => by cases h⟩, fun h => by cases h⟩
  obtain ⟨⟨s, hmo⟩, hcomp⟩ := execLoop_spec hg.ids hz hty _ pre post _ _ _ _ res hcs h (fun _ => rfl) hsnd
  constructor
  · intro hm
    obtain ⟨x, q, j, se, h1, h2, h3, h4⟩ := hmo.2 hm
    obtain ⟨n, hn⟩ := h3.steps
    have hM := (hg.run _ _ _ _ _).1 ⟨n, q, h2, hn⟩
    have hcap : capOf (setEp se 0 j) = (capOf se).closed 0 j := capOf_setEp (by rw [h3.len]; omega)
    have hlen : (setEp se 0 j).length = 32 := by simp [setEp, h3.len]
    refine ⟨x, j, (capOf se).closed 0 j, ⟨h3.begins, .grp hM⟩, ?_, ?_, ?_⟩
    · rw [h4]; simp only [stored, List.length_append, List.length_take, List.length_replicate, hlen]; omega
    · intro n m hnm
      rw [← hcap, capOf]
      rw [h4, stored, List.getElem?_append] at hnm
      split at hnm
      · rename_i hlt
        rw [List.getElem?_take] at hnm
        split at hnm
        · rw [List.getD_eq_getElem?_getD, hnm]; rfl
        · cases hnm
      · rename_i hge
        rw [List.getElem?_replicate] at hnm
        split at hnm
        · cases hnm
          rename_i hlt
          rw [List.length_take, hlen] at hge hlt
          rw [List.getD_eq_getElem?_getD, List.getElem?_eq_none (by rw [hlen]; omega)]
          rfl
        · cases hnm
    · have := h3.sp
      simp only [first] at this
      simp [Caps.closed, capOf, List.getD_eq_getElem?_getD] at this ⊢
      rw [this]
  · intro hnl x j c hf
    have hbol : ty = .bol → '\n' ∉ cs := by
      rintro rfl
      rcases hnl with hnl | hnl
      · exact hnl
      · exact absurd hnl (bol_inside hg hty)
    obtain ⟨hx, hM⟩ := hf
    cases hM with
    | grp hM =>
      obtain ⟨n, q, hq, hs⟩ := (hg.run _ _ _ _ _).2 hM
      have hplace : ∀ {n a b}, Steps false prog.insts (Text.of cs) n a b → Bd cs (encode pre).length a.2.1 → Bd cs (encode pre).length b.2.1 :=
        fun h h0 => steps_place (B := Bd cs (encode pre).length) (t := Text.of cs) (fun i r j => bd_chr) h h0
      refine hcomp hbol ⟨?_, ?_⟩ x n q j _ hx hs hq
      · rintro y pc hy ⟨n, pc0, i, c, z, r, h1, h2, h3, h4, h5⟩
        have : (encode pre).length ≤ i := (hplace h1 hy).1
        have := charAt_lt h5
        omega
      · intro y n q j c hy hs hq hj
        have := (hplace hs hy).1
        simp only at this
        omega

/-- What `regexec` finds comes from one of its two runs. -/
theorem regexec_cases {prog text starts eol ms r} (h : regexec prog text starts eol ms = .ok r) :
    r = .full ∨ ∃ ty cap b mp, startType prog = .ok ty ∧ regexec1 prog ty text cap starts eol ms = .ok (b, mp) ∧
      r = if b then .match mp else .no := by
  unfold regexec at h
  cases hty : startType prog with
  | ok ty =>
    rw [hty] at h
    simp only at h
    cases h1 : regexec1 prog ty text 10 starts eol ms with
    | ok p =>
      obtain ⟨b, mp⟩ := p
      rw [h1] at h
      refine Or.inr ⟨ty, 10, b, mp, rfl, h1, ?_⟩
      cases b <;> cases h <;> rfl
    | err u =>
      rw [h1] at h
      simp only at h
      cases h2 : regexec1 prog ty text 250 starts eol ms with
      | ok p =>
        obtain ⟨b, mp⟩ := p
        rw [h2] at h
        refine Or.inr ⟨ty, 250, b, mp, rfl, h2, ?_⟩
        cases b <;> cases h <;> rfl
      | err u => rw [h2] at h; cases h; exact Or.inl rfl
      | panic m => rw [h2] at h; cases h
      | diverge => rw [h2] at h; cases h
    | panic m => rw [h1] at h; cases h
    | diverge => rw [h1] at h; cases h
  | err u => rw [hty] at h; cases h; exact Or.inl rfl
  | panic m => rw [hty] at h; cases h
  | diverge => rw [hty] at h; cases h

/-- `regexec` reports a match. -/
theorem regexec_match {prog e cs pre post ms mp} (hg : Good prog e) (hz : ∀ c ∈ cs, c ≠ '\x00') (hcs : cs = pre ++ post)
    (h : regexec prog (encode cs) (encode pre).length none ms = .ok (.match mp)) :
    ∃ x j c, Found cs (encode pre).length e x j c ∧ mp.length = ms ∧ (∀ n m, mp[n]? = some m → (m.sp, m.ep) = c n) ∧
      c 0 = (some x, some j) ∧ (ms ≠ 0 → ('\n' ∉ cs ∨ Inside e) → Best cs (encode pre).length e x j) := by
  rcases regexec_cases h with h | ⟨ty, cap, b, mp', h1, h2, h3⟩
  · cases h
  · cases b with
    | false => cases h3
    | true =>
      cases h3
      obtain ⟨g1, g2⟩ := regexec1_spec hg (startType_ok hg h1) hz hcs h2
      obtain ⟨x, j, c, f1, f2, f3, f4⟩ := g1 rfl
      refine ⟨x, j, c, f1, f2, f3, f4, fun hms hi x' j' c' hf => ?_⟩
      obtain ⟨_, h5⟩ := g2 hi x' j' c' hf
      simp only at f2 f3 h5
      have hpos : 0 < mp.length := by omega
      have hm0 : mp[0]? = some (first mp) := by
        rw [first, List.getD_eq_getElem?_getD, List.getElem?_eq_getElem hpos]; rfl
      have h6 := f3 0 _ hm0
      rw [f4] at h6
      rcases h5 with h5 | ⟨a, b, h5, h7⟩
      · rw [h5] at hpos; simp at hpos
      · rw [h5] at h6
        cases h6
        omega

/-- `regexec` reports that there is no match. -/
theorem regexec_no {prog e cs pre post ms} (hg : Good prog e) (hz : ∀ c ∈ cs, c ≠ '\x00') (hcs : cs = pre ++ post)
    (h : regexec prog (encode cs) (encode pre).length none ms = .ok .no) (hi : '\n' ∉ cs ∨ Inside e) :
    ∀ x j c, ¬ Found cs (encode pre).length e x j c := by
  rcases regexec_cases h with h | ⟨ty, cap, b, mp', h1, h2, h3⟩
  · cases h
  · cases b with
    | true => cases h3
    | false =>
      obtain ⟨_, g2⟩ := regexec1_spec hg (startType_ok hg h1) hz hcs h2
      intro x j c hf
      have := (g2 hi x j c hf).1
      cases this

theorem noBol_any {t : Text} {e i j c c'} (h : M t e i j c c') : e.noBol = true → M { t with bol := fun _ => False } e i j c c' := by
  induction h with
  | eps => exact fun _ => .eps
  | one h1 h2 => exact fun _ => .one h1 h2
  | bol => intro h; cases h
  | eol h => exact fun _ => .eol h
  | grp _ ih => exact fun h => .grp (ih h)
  | altL _ ih => intro h; simp [Re.noBol] at h; exact .altL (ih h.1)
  | altR _ ih => intro h; simp [Re.noBol] at h; exact .altR (ih h.2)
  | cat _ _ ih1 ih2 => intro h; simp [Re.noBol] at h; exact .cat (ih1 h.1) (ih2 h.2)
  | starNil => exact fun _ => .starNil
  | starCons _ _ ih1 ih2 => exact fun h => .starCons (ih1 h) (ih2 h)
  | plus _ _ ih1 ih2 => exact fun h => .plus (ih1 h) (ih2 h)
  | optNil => exact fun _ => .optNil
  | optSome _ ih => exact fun h => .optSome (ih h)

/-- An expression without `^` that matches somewhere matches also within a line. -/
theorem noBol_inside {cs lo e x j c} (h : Found cs lo e x j c) (he : e.noBol = true) : Inside e := by
  obtain ⟨_, h⟩ := h
  cases h with
  | grp h => exact ⟨_, _, _, _, _, noBol_any h he, fun h => h⟩

end Che.Proofs.Regexp9
