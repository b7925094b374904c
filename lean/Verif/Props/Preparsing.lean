import Mathlib.Data.List.Forall2
import Verif.Proofs.Preparse
import Verif.Props.Lookahead
/-!
# C45: type names and imports are known before parsing
-/
namespace Che.Props
open Spec

/-! ## The whole token sequence of a text -/

theorem stream_read [Unicode] {b b' : Buf} {t : Token} (h : readToken b = .tok t b') (i : Nat) :
    stream b i = match (significant [t])[i]? with
      | some t => .tok t
      | none => stream b' (i - (significant [t]).length) := by
  have hn := nextTok_eq b
  rw [h] at hn
  simp only at hn
  by_cases hk : t.kind = "comment"
  · rw [if_pos hk] at hn
    have : significant [t] = [] := by simp [significant, hk]
    rw [this]
    cases i <;> simp [stream, hn]
  · rw [if_neg hk] at hn
    have : significant [t] = [t] := by simp [significant, hk]
    rw [this]
    cases i <;> simp [stream, hn]

theorem stream_run [Unicode] {pre s ts pre' s'} (h : Run pre s ts pre' s') (b : Buf)
    (hb : BufOk b) (hp : b.past.reverse = pre) (hr : b.rest = s) :
    ∃ b', BufOk b' ∧ b'.past.reverse = pre' ∧ b'.rest = s' ∧ ∀ i,
      stream b i = match (significant ts)[i]? with
        | some t => .tok t
        | none => stream b' (i - (significant ts).length) := by
  have join : ∀ {b b1 b2 : Buf} {t : Token} {ts : List Token}, readToken b = .tok t b1 →
      (∀ i, stream b1 i = match (significant ts)[i]? with
        | some t => .tok t
        | none => stream b2 (i - (significant ts).length)) →
      ∀ i, stream b i = match (significant (t :: ts))[i]? with
        | some t => .tok t
        | none => stream b2 (i - (significant (t :: ts)).length) := by
    intro b b1 b2 t ts e h i
    have hs : significant (t :: ts) = significant [t] ++ significant ts := by
      simp [significant, List.filter_cons]; split <;> simp
    rw [stream_read e i, hs, List.getElem?_append]
    split
    · next ht =>
      rw [if_pos (List.getElem?_eq_some_iff.1 ht).1, ht]
    · next ht =>
      rw [if_neg (by simpa using List.getElem?_eq_none_iff.1 ht), h, List.length_append, Nat.sub_sub]
  induction h generalizing b with
  | nil => exact ⟨b, hb, hp, hr, fun i => by simp [significant]⟩
  | token hsp hl _ ih =>
    obtain ⟨b1, e1, ha, hr1⟩ := readToken_lexeme hb hr hsp hl
    obtain ⟨b2, hb2, hp2, hr2, h2⟩ := ih b1 (ha.ok hb) (by rw [ha.past, hp]; simp) hr1
    exact ⟨b2, hb2, hp2, hr2, join (hp ▸ e1) h2⟩
  | error hsp hl _ _ ih =>
    obtain ⟨b1, e1, ha, hr1⟩ := readToken_malformed hb hr hsp hl
    obtain ⟨b2, hb2, hp2, hr2, h2⟩ := ih b1 (ha.ok hb) (by rw [ha.past, hp]; simp) hr1
    exact ⟨b2, hb2, hp2, hr2, join (hp ▸ e1) h2⟩

theorem stream_panic [Unicode] {b : Buf} {m : String} (h : readToken b = .panic m) (i : Nat) :
    stream b i = .abort m := by
  have hn := nextTok_eq b
  rw [h] at hn
  cases i <;> simp [stream, hn]

theorem stream_fixed [Unicode] {b : Buf} {t : Token} (h : readToken b = .tok t b)
    (hk : t.kind ≠ "comment") (i : Nat) : stream b i = .tok t := by
  have hn := nextTok_eq b
  rw [h] at hn
  simp only [if_neg hk] at hn
  induction i with
  | zero => simp [stream, hn]
  | succ i ih => simpa [stream, hn] using ih

theorem stream_stuck [Unicode] {b : Buf} {sp s : List Char} (h : b.rest = sp ++ s)
    (hsp : Blanks sp) (hs : Stuck s) : ∃ t, t.kind = "error" ∧ ∀ i, stream b i = .tok t := by
  obtain ⟨t, b', e1, hk, _, e2⟩ := stuck_again h hsp hs
  have hk' : t.kind ≠ "comment" := by rw [hk]; decide
  refine ⟨t, hk, fun i => ?_⟩
  rw [stream_read e1 i]
  have : significant [t] = [t] := by simp [significant, hk']
  rw [this]
  cases i with
  | zero => rfl
  | succ i => simpa using stream_fixed e2 hk' i

/-- The sequence ends only if the text has an end to read. -/
theorem tokens_of_eof [Unicode] {text : List Char} {k : Nat} {ts : List Token}
    (h : Seg (sequence text) 0 ts k) (he : sequence text k = .eof) :
    ∃ all, Tokens text all ∧ significant all = ts := by
  have key : ∃ all, Tokens text all := by
    rcases outcome_total text.length [] text (Nat.le_refl _) with ⟨h1, h2⟩ | ⟨h1, h2, h3⟩ |
      ⟨h1, h2, h3⟩
    · exact ⟨_, _, _, h1, h2⟩
    · obtain ⟨b, _, _, hr, hs⟩ := stream_run h1 (Buf.new text) (bufOk_new _) rfl rfl
      obtain ⟨m, hm⟩ := readToken_crash hr h2 h3
      have := hs k
      rw [show stream (Buf.new text) k = .eof from he] at this
      split at this
      · cases this
      · rw [stream_panic hm] at this; cases this
    · obtain ⟨b, _, _, hr, hs⟩ := stream_run h1 (Buf.new text) (bufOk_new _) rfl rfl
      obtain ⟨t, _, ht⟩ := stream_stuck hr h2 h3
      have := hs k
      rw [show stream (Buf.new text) k = .eof from he] at this
      split at this
      · cases this
      · rw [ht] at this; cases this
  obtain ⟨all, hall⟩ := key
  refine ⟨all, hall, ?_⟩
  have hseq := C06_sequence hall
  have hk : k = ts.length := by simpa using h.end_
  have hlen : (significant all).length = ts.length := by
    apply Nat.le_antisymm
    · rw [← hk]
      have := hseq k
      rw [he] at this
      split at this
      · cases this
      · next e => exact List.getElem?_eq_none_iff.1 e
    · apply Nat.le_of_not_lt
      intro hlt
      have h1 := h.get _ hlt
      rw [Nat.zero_add, hseq, List.getElem?_eq_none (by omega)] at h1
      cases h1
  apply List.ext_getElem hlen
  intro i h1 h2
  have h3 := h.get i h2
  rw [Nat.zero_add, hseq, List.getElem?_eq_getElem h1] at h3
  exact Item.tok.inj h3

theorem seg_of_tokens [Unicode] {text : List Char} {all : List Token} (h : Tokens text all) :
    Seg (sequence text) 0 (significant all) (significant all).length ∧
      sequence text (significant all).length = .eof := by
  have hseq := C06_sequence h
  refine ⟨?_, by rw [hseq]; simp⟩
  have key : ∀ (ts : List Token) (k : Nat), (∀ i (hi : i < ts.length), sequence text (k + i) = .tok ts[i]) →
      Seg (sequence text) k ts (k + ts.length) := by
    intro ts
    induction ts with
    | nil => intro k _; exact .nil
    | cons t ts ih =>
      intro k hk
      refine .cons (hk 0 (by simp)) ?_
      have := ih (k + 1) (fun i hi => by
        have := hk (i + 1) (by simpa using hi)
        rw [show k + 1 + i = k + (i + 1) by omega, this]; rfl)
      rwa [show k + 1 + ts.length = k + (t :: ts).length by simp; omega] at this
  have := key (significant all) 0 (fun i hi => by rw [Nat.zero_add, hseq, List.getElem?_eq_getElem hi])
  simpa using this

/-! ## Trimming and `#type` lines -/

theorem trimmed_trim (s : List Char) : Trimmed s (RStr.trim (String.ofList s)) := by
  have e : (RStr.trim (String.ofList s)).toList = RStr.trimEnd (RStr.trimStart s) := by
    simp [RStr.trim, String.toList_ofList]
  have h1 := List.takeWhile_append_dropWhile (p := isWhitespace) (l := s)
  have h2 := List.takeWhile_append_dropWhile (p := isWhitespace) (l := (s.dropWhile isWhitespace).reverse)
  refine ⟨s.takeWhile isWhitespace, ((s.dropWhile isWhitespace).reverse.takeWhile isWhitespace).reverse,
    ?_, fun c hc => List.mem_takeWhile_imp hc, fun c hc => List.mem_takeWhile_imp (by simpa using hc),
    ?_, ?_⟩
  · rw [e, RStr.trimEnd, RStr.trimStart, List.append_assoc, ← List.reverse_append, h2,
      List.reverse_reverse, h1]
  · intro c hc
    rw [e, RStr.trimEnd, RStr.trimStart] at hc
    cases hd : s.dropWhile isWhitespace with
    | nil => rw [hd] at hc; simp at hc
    | cons x xs =>
      have hx : isWhitespace x = false := by
        have := List.head?_dropWhile_not isWhitespace s
        rw [hd] at this
        simpa using this
      rw [hd] at hc
      have hmem : x ∈ ((x :: xs).reverse.dropWhile isWhitespace).reverse := by
        have h3 := List.takeWhile_append_dropWhile (p := isWhitespace) (l := (x :: xs).reverse)
        have : x ∈ (x :: xs).reverse := by simp
        rw [← h3, List.mem_append] at this
        rcases this with h | h
        · have := List.mem_takeWhile_imp h; rw [hx] at this; cases this
        · simpa using h
      rw [List.reverse_cons] at hc hmem
      have hpre : ((xs.reverse ++ [x]).dropWhile isWhitespace).reverse <+: x :: xs := by
        have := List.dropWhile_suffix (l := xs.reverse ++ [x]) isWhitespace
        have := List.reverse_prefix.2 this
        simpa using this
      obtain ⟨t, ht⟩ := hpre
      cases hd' : ((xs.reverse ++ [x]).dropWhile isWhitespace).reverse with
      | nil => rw [hd'] at hc; cases hc
      | cons y ys =>
        rw [hd'] at hc ht
        simp only [List.head?_cons, Option.some.injEq] at hc
        simp only [List.cons_append, List.cons.injEq] at ht
        rw [← hc, ht.1, hx]
  · intro c hc
    rw [e, RStr.trimEnd, List.getLast?_reverse] at hc
    have := List.head?_dropWhile_not isWhitespace (RStr.trimStart s).reverse
    rw [hc] at this
    simpa using this

/-- The text without the white space around it is unique. -/
theorem trimmed_unique {s : List Char} {n m : String} (h : Trimmed s n) (h' : Trimmed s m) :
    n = m := by
  have key : ∀ {n : String}, Trimmed s n → n.toList = RStr.trimEnd (RStr.trimStart s) := by
    rintro n ⟨a, b, e, ha, hb, h1, h2⟩
    have e1 : RStr.trimEnd (n.toList) = n.toList := by
      rw [RStr.trimEnd]
      cases hr : n.toList.reverse with
      | nil => simp at hr; simp [hr]
      | cons x xs =>
        have hx := h2 x (by rw [← List.head?_reverse, hr]; rfl)
        rw [List.dropWhile_cons_of_neg (by simp [hx]), ← hr, List.reverse_reverse]
    have e2 : ∀ (u : List Char), RStr.trimEnd (u ++ b) = RStr.trimEnd u := by
      intro u
      rw [RStr.trimEnd, RStr.trimEnd, List.reverse_append, List.dropWhile_append_of_pos]
      intro x hx; exact hb x (by simpa using hx)
    rw [e, RStr.trimStart, List.append_assoc, List.dropWhile_append_of_pos ha]
    cases hn : n.toList with
    | nil =>
      have : b.dropWhile isWhitespace = [] := by
        rw [List.dropWhile_eq_nil_iff]; exact fun x hx => hb x hx
      simp [this, RStr.trimEnd]
    | cons x xs =>
      rw [List.cons_append, List.dropWhile_cons_of_neg (by simp [h1 x (by rw [hn]; rfl)]),
        ← List.cons_append, ← hn, e2, e1]
  apply String.ext
  rw [key h, key h']

theorem dropBytes_type (rest : List Char) : dropBytes 6 ("#type".toList ++ rest) =
    match rest with
    | [] => none
    | c :: cs => if c.utf8Size = 1 then some cs else none := by
  have : dropBytes 6 ("#type".toList ++ rest) = dropBytes.go rest 1 := by
    simp [dropBytes, dropBytes.go, show '#'.utf8Size = 1 by decide, show 't'.utf8Size = 1 by decide,
      show 'y'.utf8Size = 1 by decide, show 'p'.utf8Size = 1 by decide,
      show 'e'.utf8Size = 1 by decide]
  rw [this]
  cases rest with
  | nil => rfl
  | cons c cs =>
    have h1 := Char.utf8Size_pos c
    by_cases h : c.utf8Size = 1
    · simp [dropBytes.go, h]
    · have : ¬ c.utf8Size ≤ 1 := by omega
      simp [dropBytes.go, h, this]

/-! ## The main loop -/

theorem getTypename_ok [Unicode] {S : Nat → Item} {n k : Nat} {l l' : Lexer} {name : String}
    (h : At S k l) (e : getTypename n l = .ok (name, l')) :
    (∃ o a c w s j, Seg S k (o :: a ++ [c, w, s]) j ∧ o.kind = "{" ∧ Braced a ∧ c.kind = "}" ∧
      w.kind = "word" ∧ s.kind = ";" ∧ name = w.content ∧ At S j l') ∨
    (∃ a s j, Seg S k (a ++ [s]) j ∧ (∀ x ∈ a, x.kind ≠ ";") ∧ s.kind = ";" ∧
      (∀ x, a.head? = some x → x.kind ≠ "{") ∧ DeclaredName a name ∧ At S j l') ∨
    ∃ a j, Seg S k a j ∧ S j = .eof ∧ (∀ x ∈ a, x.kind ≠ ";") ∧
      (∀ x, a.head? = some x → x.kind ≠ "{") ∧ DeclaredName a name ∧ At S j l' := by
  unfold getTypename at e
  obtain ⟨b, l1, e1, e⟩ := Pre.bind_ok e
  obtain ⟨h1, hb, hb'⟩ := lift_follows_ok h (Pre.lift_ok e1)
  cases b with
  | true =>
    simp only [if_true] at e
    obtain ⟨_, l2, e2, e⟩ := Pre.bind_ok e
    obtain ⟨o, a, c, j, hs, ho, hc, ha, h2⟩ := skipBrackets_ok n h1 e2
    obtain ⟨w, l3, e3, e⟩ := Pre.bind_ok e
    obtain ⟨hw, hwk, h3⟩ := preExpect_ok h2 (preUnwrap_ok.1 e3)
    obtain ⟨s, l4, e4, e⟩ := Pre.bind_ok e
    obtain ⟨hs', hsk, h4⟩ := preExpect_ok h3 e4
    cases e
    refine .inl ⟨o, a, c, w, s, _, ?_, ho, ha, hc, hwk, hsk, rfl, h4⟩
    have := (hs.append (.one hw)).append (.one hs')
    simpa using this
  | false =>
    simp only [Bool.false_eq_true, if_false] at e
    obtain ⟨buf, l2, e2, e⟩ := Pre.bind_ok e
    have hfirst : ∀ {a : List Token} {j : Nat}, Seg S k a j → ∀ x, a.head? = some x → x.kind ≠ "{" := by
      intro a j hs x hx
      cases hs with
      | nil => cases hx
      | cons ht _ => cases hx; exact hb' rfl _ ht
    cases hn : nameOfTypedef buf with
    | ok m =>
      simp only [hn] at e
      cases e
      rcases tokensToSemi_ok n h1 e2 with ⟨a, j, hr, ha, hs, hat, he⟩ | ⟨a, s, j, hr, ha, hsk, hs, hat⟩
      · simp only [List.reverse_nil, List.nil_append] at hr
        subst hr
        exact .inr (.inr ⟨_, j, hs, he, ha, hfirst hs, nameOfTypedef_iff.1 hn, hat⟩)
      · simp only [List.reverse_nil, List.nil_append] at hr
        subst hr
        obtain ⟨_, hs1, _⟩ := hs.split
        exact .inr (.inl ⟨_, s, j, hs, ha, hsk, hfirst hs1, nameOfTypedef_iff.1 hn, hat⟩)
    | _ => simp only [hn] at e; cases e

theorem getTypename_struct [Unicode] {S : Nat → Item} {n k j : Nat} {l : Lexer} {a : List Token}
    {o c w s : Token} (h : At S k l) (hs : Seg S k (o :: a ++ [c, w, s]) j) (ho : o.kind = "{")
    (ha : Braced a) (hc : c.kind = "}") (hw : w.kind = "word") (hs' : s.kind = ";")
    (hn : a.length + 1 < n) : ∃ l', getTypename n l = .ok (w.content, l') ∧ At S j l' := by
  obtain ⟨i, hs1, hs2⟩ := hs.split
  cases hs1 with
  | cons ht hs1 =>
    cases hs2 with
    | cons hc' hs2 =>
      cases hs2 with
      | cons hw' hs2 =>
        cases hs2 with
        | cons hsm hs2 =>
          cases hs2
          obtain ⟨m, rfl⟩ : ∃ m, n = m + 1 := ⟨n - 1, by omega⟩
          obtain ⟨l1, e1, g1⟩ := follows_tok h ht "{"
          obtain ⟨l2, e2, g2⟩ := preExpect_of g1 ht ho
          obtain ⟨l3, e3, g3⟩ := skipBracketsLoop_of ha m g2 hs1 hc' hc (by omega)
          obtain ⟨l4, e4, g4⟩ := preExpect_of g3 hc' hc
          obtain ⟨l5, e5, g5⟩ := preExpect_of g4 hw' hw
          obtain ⟨l6, e6, g6⟩ := preExpect_of g5 hsm hs'
          refine ⟨l6, ?_, g6⟩
          have e7 : skipBrackets (m + 1) l1 = .ok ((), l4) := by
            rw [skipBrackets, Pre.bind_of_ok (preUnwrap_ok.2 e2), Pre.bind_of_ok e3,
              Pre.bind_of_ok (preUnwrap_ok.2 e4)]
            rfl
          rw [getTypename, Pre.bind_of_ok e1, if_pos (by simpa using ho), Pre.bind_of_ok e7,
            Pre.bind_of_ok (preUnwrap_ok.2 e5), Pre.bind_of_ok e6]
          rfl

/-- At a place where no opening brace stands. -/
theorem getTypename_alias [Unicode] {S : Nat → Item} {n k j : Nat} {l : Lexer} {a : List Token}
    {name : String} (h : At S k l) (hne : ∀ t, S k = .tok t → t.kind ≠ "{") (hm : ∀ m, S k ≠ .abort m)
    (hd : DeclaredName a name)
    (e : ∀ l, At S k l → ∃ l', tokensToSemi n [] l = .ok (a, l') ∧ At S j l') :
    ∃ l', getTypename n l = .ok (name, l') ∧ At S j l' := by
  have hf := follows_at h "{"
  have : ∃ l1, l.follows "{" = .ok false l1 ∧ At S k l1 := by
    cases hs : S k with
    | tok t =>
      simp only [hs] at hf
      obtain ⟨l1, e1, h1⟩ := hf
      have := hne t hs
      exact ⟨l1, by rw [e1]; congr 1; simpa using this, h1⟩
    | eof => simpa only [hs] using hf
    | abort m => exact absurd hs (hm m)
  obtain ⟨l1, e1, h1⟩ := this
  obtain ⟨l2, e2, h2⟩ := e l1 h1
  refine ⟨l2, ?_, h2⟩
  rw [getTypename, Pre.bind_of_ok (Pre.lift_of_ok e1)]
  simp only [Bool.false_eq_true, if_false]
  refine (Pre.bind_of_ok (f := fun buf => (fun l => match nameOfTypedef buf with
      | .ok n => .ok (n, l)
      | .err e => .err e
      | .panic m => .panic m
      | .diverge => .diverge : Pre String)) e2).trans ?_
  simp only [nameOfTypedef_iff.2 hd]

theorem typeLine_iff {t : Token} : (decide (t.kind = "macro") && RStr.startsWith t.content "#type") = true ↔
    TypeLine t := by
  simp [TypeLine, RStr.startsWith, List.isPrefixOf_iff_prefix]

/-- The imports `is` of a file resolve to `refs`. -/
def Resolved (fs : FS) (path : String) (is : List String) (refs : List ModuleRef) : Prop :=
  List.Forall₂ (fun i r => resolveImport fs path i = .ok r) is refs

theorem preparseLoop_ok [Unicode] {fs : FS} {path : String} {S : Nat → Item} : ∀ (n : Nat) {k : Nat}
    {l : Lexer} {is is' : List ModuleRef} {ns ns' : List String}, At S k l →
    preparseLoop fs path n is ns l = .ok (is', ns') →
    ∃ ts j names imps refs, Seg S k ts j ∧ S j = .eof ∧ Heads ts imps names ∧
      Resolved fs path imps refs ∧ is' = is ++ refs ∧ ns' = ns ++ names
  | 0, _, _, _, _, _, _, _, e => by cases e
  | n + 1, k, l, is, is', ns, ns', h, e => by
    rw [preparseLoop] at e
    cases hg : l.get with
    | panic m => rw [hg] at e; cases e
    | diverge => rw [hg] at e; cases e
    | ok o l1 =>
      rw [hg] at e
      have h1 := lift_get_ok h hg
      cases o with
      | none =>
        cases e
        exact ⟨[], k, [], [], [], .nil, h1.1, .nil, .nil, by simp, by simp⟩
      | some t =>
        obtain ⟨ht, h1⟩ := h1
        simp only at e
        split at e
        · cases e
        · next hk =>
          cases hr : resolveImport fs path t.content with
          | ok r =>
            simp only [hr] at e
            obtain ⟨ts, j, names, imps, refs, hs, he, hh, hres, rfl, rfl⟩ := preparseLoop_ok n h1 e
            exact ⟨t :: ts, j, names, t.content :: imps, r :: refs, .cons ht hs, he,
              .importing hk hh, .cons hr hres, by simp, rfl⟩
          | _ => simp only [hr] at e; cases e
        · next hk =>
          cases hr : getTypename n l1 with
          | ok r =>
            obtain ⟨name, l2⟩ := r
            simp only [hr] at e
            rcases getTypename_ok h1 hr with ⟨o, a, c, w, s, j, hs, ho, ha, hc, hw, hsk, rfl, h2⟩ |
              ⟨a, s, j, hs, ha, hsk, hf, hd, h2⟩ | ⟨a, j, hs, he', ha, hf, hd, h2⟩
            · obtain ⟨ts, i, names, imps, refs, hs', he, hh, hres, rfl, rfl⟩ := preparseLoop_ok n h2 e
              refine ⟨t :: o :: a ++ c :: w :: s :: ts, i, w.content :: names, imps, refs, ?_, he,
                .struct hk ho ha hc hw hsk hh, hres, rfl, by simp⟩
              have := Seg.cons ht (hs.append hs')
              simpa using this
            · obtain ⟨ts, i, names, imps, refs, hs', he, hh, hres, rfl, rfl⟩ := preparseLoop_ok n h2 e
              refine ⟨t :: a ++ s :: ts, i, name :: names, imps, refs, ?_, he,
                .named hk ha hf hd hsk hh, hres, rfl, by simp⟩
              have := Seg.cons ht (hs.append hs')
              simpa using this
            · obtain ⟨ts, i, names, imps, refs, hs', he, hh, hres, rfl, rfl⟩ := preparseLoop_ok n h2 e
              cases hs' with
              | cons hx _ => rw [he'] at hx; cases hx
              | nil =>
                cases hh
                cases hres
                exact ⟨t :: a, j, [name], [], [], .cons ht hs, he', .unclosed hk ha hf hd, .nil, rfl, by simp⟩
          | _ => simp only [hr] at e; cases e
        · next hk1 hk2 hk3 =>
          split at e
          · next htl =>
            have htl' := typeLine_iff.1 htl
            obtain ⟨rest, hrest⟩ := htl'.2
            rw [← hrest, dropBytes_type] at e
            cases rest with
            | nil => cases e
            | cons c cs =>
              simp only at e
              by_cases hc : c.utf8Size = 1
              · rw [if_pos hc] at e
                obtain ⟨ts, i, names, imps, refs, hs', he, hh, hres, rfl, rfl⟩ := preparseLoop_ok n h1 e
                exact ⟨t :: ts, i, _ :: names, imps, refs, .cons ht hs', he,
                  .typeLine htl'.1 hrest.symm hc (trimmed_trim cs) hh, hres, rfl, by simp⟩
              · rw [if_neg hc] at e; cases e
          · next htl =>
            obtain ⟨ts, i, names, imps, refs, hs', he, hh, hres, rfl, rfl⟩ := preparseLoop_ok n h1 e
            exact ⟨t :: ts, i, names, imps, refs, .cons ht hs', he,
              .other hk1 hk2 hk3 (fun h => htl (typeLine_iff.2 h)) hh, hres, rfl, rfl⟩

theorem preparseLoop_of [Unicode] {fs : FS} {path : String} {S : Nat → Item} {ts : List Token}
    {imps names : List String} (hh : Heads ts imps names) : ∀ (n : Nat) {k j : Nat} {l : Lexer}
    {is refs : List ModuleRef} {ns : List String}, At S k l → Seg S k ts j → S j = .eof →
    Resolved fs path imps refs → ts.length < n →
    preparseLoop fs path n is ns l = .ok (is ++ refs, ns ++ names) := by
  induction hh with
  | nil =>
    intro n k j l is refs ns h hs he hr hn
    obtain ⟨m, rfl⟩ : ∃ m, n = m + 1 := ⟨n - 1, by omega⟩
    cases hs; cases hr
    have hg := get_at h
    simp only [he] at hg
    obtain ⟨l1, e1, _⟩ := hg
    simp [preparseLoop, e1]
  | importing hk _ ih =>
    intro n k j l is refs ns h hs he hr hn
    obtain ⟨m, rfl⟩ : ∃ m, n = m + 1 := ⟨n - 1, by simp at hn; omega⟩
    cases hs with
    | cons ht hs =>
      cases hr with
      | cons hr1 hr2 =>
        obtain ⟨l1, e1, g1⟩ := get_tok h ht
        rw [preparseLoop, e1]
        simp only [hk, hr1]
        rw [ih m g1 hs he hr2 (by simpa using hn)]
        simp
  | @struct t o a c w s ts is' ns' hk ho ha hc hw hsk _ ih =>
    intro n k j l is refs ns h hs he hr hn
    simp only [List.length_cons, List.length_append] at hn
    obtain ⟨m, rfl⟩ : ∃ m, n = m + 1 := ⟨n - 1, by omega⟩
    cases hs with
    | cons ht hs =>
      have e0 : o :: a ++ c :: w :: s :: ts = (o :: a ++ [c, w, s]) ++ ts := by simp
      obtain ⟨i, hs1, hs2⟩ := (e0 ▸ hs : Seg S (k + 1) ((o :: a ++ [c, w, s]) ++ ts) j).split
      obtain ⟨l1, e1, g1⟩ := get_tok h ht
      obtain ⟨l2, e2, g2⟩ := getTypename_struct (n := m) g1 hs1 ho ha hc hw hsk (by omega)
      rw [preparseLoop, e1]
      simp only [hk, e2]
      rw [ih m g2 hs2 he hr (by omega)]
      simp
  | @named t a s ts is' nm ns' hk ha hf hd hsk _ ih =>
    intro n k j l is refs ns h hs he hr hn
    simp only [List.length_cons, List.length_append] at hn
    obtain ⟨m, rfl⟩ : ∃ m, n = m + 1 := ⟨n - 1, by omega⟩
    cases hs with
    | cons ht hs =>
      have e0 : a ++ s :: ts = (a ++ [s]) ++ ts := by simp
      obtain ⟨i, hs1, hs2⟩ := (e0 ▸ hs : Seg S (k + 1) ((a ++ [s]) ++ ts) j).split
      obtain ⟨l1, e1, g1⟩ := get_tok h ht
      have hne : ∀ x, S (k + 1) = .tok x → x.kind ≠ "{" := by
        intro x hx
        cases a with
        | nil =>
          cases hs1 with
          | cons hx' _ => rw [hx] at hx'; cases hx'; rw [hsk]; decide
        | cons y a =>
          cases hs1 with
          | cons hx' _ => rw [hx] at hx'; cases hx'; exact hf _ rfl
      have hna : ∀ msg, S (k + 1) ≠ .abort msg := by
        intro msg hx
        cases a with
        | nil => cases hs1 with | cons hx' _ => rw [hx] at hx'; cases hx'
        | cons y a => cases hs1 with | cons hx' _ => rw [hx] at hx'; cases hx'
      obtain ⟨l2, e2, g2⟩ := getTypename_alias (n := m) (j := i) g1 hne hna hd
        (fun l hl => by simpa using tokensToSemi_semi m (acc := []) hl ha hsk hs1 (by omega))
      rw [preparseLoop, e1]
      simp only [hk, e2]
      rw [ih m g2 hs2 he hr (by omega)]
      simp
  | @unclosed t a nm hk ha hf hd =>
    intro n k j l is refs ns h hs he hr hn
    simp only [List.length_cons] at hn
    obtain ⟨m, rfl⟩ : ∃ m, n = m + 2 := ⟨n - 2, by omega⟩
    cases hr
    cases hs with
    | cons ht hs =>
      obtain ⟨l1, e1, g1⟩ := get_tok h ht
      have hne : ∀ x, S (k + 1) = .tok x → x.kind ≠ "{" := by
        intro x hx
        cases hs with
        | nil => rw [he] at hx; cases hx
        | cons hx' _ => rw [hx] at hx'; cases hx'; exact hf _ rfl
      have hna : ∀ msg, S (k + 1) ≠ .abort msg := by
        intro msg hx
        cases hs with
        | nil => rw [he] at hx; cases hx
        | cons hx' _ => rw [hx] at hx'; cases hx'
      obtain ⟨l2, e2, g2⟩ := getTypename_alias (n := m + 1) (j := j) g1 hne hna hd
        (fun l hl => by simpa using tokensToSemi_open (m + 1) (acc := []) hl ha hs he (by omega))
      have hg := get_at g2
      simp only [he] at hg
      obtain ⟨l3, e3, _⟩ := hg
      rw [preparseLoop, e1]
      simp only [hk, e2]
      simp [preparseLoop, e3]
  | @typeLine t c rest nm ts is' ns' hk hc hu htr _ ih =>
    intro n k j l is refs ns h hs he hr hn
    simp only [List.length_cons] at hn
    obtain ⟨m, rfl⟩ : ∃ m, n = m + 1 := ⟨n - 1, by omega⟩
    cases hs with
    | cons ht hs =>
      obtain ⟨l1, e1, g1⟩ := get_tok h ht
      have htl := typeLine_iff.2 (show TypeLine t from ⟨hk, _, hc.symm⟩)
      rw [preparseLoop, e1]
      simp only
      rw [if_pos htl, hc, dropBytes_type]
      simp only [hu, if_true, hk]
      rw [ih m g1 hs he hr (by omega), trimmed_unique (trimmed_trim rest) htr]
      simp
  | @other t ts is' ns' h1 h2 h3 h4 _ ih =>
    intro n k j l is refs ns h hs he hr hn
    simp only [List.length_cons] at hn
    obtain ⟨m, rfl⟩ : ∃ m, n = m + 1 := ⟨n - 1, by omega⟩
    cases hs with
    | cons ht hs =>
      obtain ⟨l1, e1, g1⟩ := get_tok h ht
      rw [preparseLoop, e1]
      simp only
      rw [if_neg (fun h => h4 (typeLine_iff.1 h)), ih m g1 hs he hr (by omega)]

/-! ## The property -/

/-- **C45.** What the pre-parser reports for a file is what its token sequence
declares: the import lines, resolved one by one, and the type names, all in source
order; and the file has no error token outside of typedefs. -/
theorem C45_sound [Unicode] {fs : FS} {fuel : Nat} {path : String} {m : ModuleInfo}
    (h : preparse fs fuel path = .ok m) :
    ∃ text all imps, fs.read path = .ok text ∧ Tokens text.toList all ∧
      Heads (significant all) imps m.typedefs ∧ Resolved fs path imps m.imports := by
  unfold preparse at h
  cases hr : fs.read path with
  | error e => rw [hr] at h; cases h
  | ok text =>
    rw [hr] at h
    simp only at h
    cases hp : preparseLoop fs path fuel [] [] (Lexer.ofText text.toList) with
    | ok r =>
      obtain ⟨is', ns'⟩ := r
      simp only [hp] at h
      cases h
      obtain ⟨ts, j, names, imps, refs, hs, he, hh, hres, rfl, rfl⟩ :=
        preparseLoop_ok fuel (at_ofText text.toList) hp
      obtain ⟨all, hall, rfl⟩ := tokens_of_eof hs he
      exact ⟨text, all, imps, rfl, hall, by simpa using hh, by simpa using hres⟩
    | _ => simp only [hp] at h; cases h

/-- **C45.** Every file whose token sequence declares imports that exist and type
names is accepted, and exactly these are reported. -/
theorem C45_complete [Unicode] {fs : FS} {fuel : Nat} {path text : String} {all : List Token}
    {imps names : List String} {refs : List ModuleRef} (hr : fs.read path = .ok text)
    (hall : Tokens text.toList all) (hh : Heads (significant all) imps names)
    (hres : Resolved fs path imps refs) (hf : text.length < fuel) :
    ∃ m, preparse fs fuel path = .ok m ∧ m.imports = refs ∧ m.typedefs = names := by
  obtain ⟨hs, he⟩ := seg_of_tokens hall
  have hlen : (significant all).length ≤ text.length := by
    obtain ⟨pre, sp, hrun, _⟩ := hall
    have h1 := run_length hrun
    have h2 : (significant all).length ≤ all.length := List.length_filter_le _ _
    rw [String.length_toList] at h1
    omega
  have := preparseLoop_of (fs := fs) (path := path) hh fuel (is := []) (ns := [])
    (at_ofText text.toList) hs he hres (by omega)
  unfold preparse
  rw [hr]
  simp only [this]
  exact ⟨_, rfl, by simp, by simp⟩

/-- An error token before any typedef is not part of any head. -/
theorem heads_no_error {a : List Token} {e : Token} {b : List Token} {imps names : List String}
    (he : e.kind = "error") (ha : ∀ t ∈ a, t.kind ≠ "typedef") :
    ¬ Heads (a ++ e :: b) imps names := by
  induction a generalizing imps names with
  | nil =>
    intro h
    generalize hg : [] ++ e :: b = x at h
    cases h with
    | nil => cases hg
    | importing hk => cases hg; rw [he] at hk; exact absurd hk (by decide)
    | struct hk => cases hg; rw [he] at hk; exact absurd hk (by decide)
    | named hk => cases hg; rw [he] at hk; exact absurd hk (by decide)
    | unclosed hk => cases hg; rw [he] at hk; exact absurd hk (by decide)
    | typeLine hk => cases hg; rw [he] at hk; exact absurd hk (by decide)
    | other hk => cases hg; exact hk he
  | cons t a ih =>
    intro h
    have ih := fun {i n} => @ih i n (fun x hx => ha x (by simp [hx]))
    have ht := ha t (by simp)
    generalize hg : t :: a ++ e :: b = x at h
    cases h with
    | nil => cases hg
    | importing hk h => cases hg; exact ih h
    | struct hk => rw [List.cons_append, List.cons_append] at hg; injection hg with hg; exact ht (hg ▸ hk)
    | named hk => rw [List.cons_append, List.cons_append] at hg; injection hg with hg; exact ht (hg ▸ hk)
    | unclosed hk => cases hg; exact ht hk
    | typeLine _ _ _ _ h => cases hg; exact ih h
    | other _ _ _ _ h => cases hg; exact ih h

/-- **C45.** A lexical error before the first typedef makes the pre-parser reject
the file. -/
theorem C45_rejects [Unicode] {fs : FS} {fuel : Nat} {path text : String} {all : List Token}
    {a b : List Token} {e : Token} (hr : fs.read path = .ok text) (hall : Tokens text.toList all)
    (hsig : significant all = a ++ e :: b) (he : e.kind = "error")
    (ha : ∀ t ∈ a, t.kind ≠ "typedef") (m : ModuleInfo) : preparse fs fuel path ≠ .ok m := by
  intro h
  obtain ⟨text', all', imps, hr', hall', hh, _⟩ := C45_sound h
  rw [hr] at hr'; cases hr'
  obtain ⟨p1, s1, r1, b1⟩ := hall
  obtain ⟨p2, s2, r2, b2⟩ := hall'
  have e1 := lexAll_done r1 b1
  rw [lexAll_done r2 b2] at e1
  have e1 : significant all' = significant all := by injection e1
  rw [e1, hsig] at hh
  exact heads_no_error he ha hh

/-! ## A stray character in a typedef -/

theorem tokensToSemi_endless [Unicode] {S : Nat → Item} : ∀ (n : Nat) {k : Nat} {l : Lexer}
    {acc : List Token}, At S k l → (∀ i, k ≤ i → ∃ t, S i = .tok t ∧ t.kind ≠ ";") →
    tokensToSemi n acc l = .diverge
  | 0, _, _, _, _, _ => rfl
  | n + 1, k, l, acc, h, hs => by
    obtain ⟨t, ht, hk⟩ := hs k (Nat.le_refl _)
    obtain ⟨l1, e1, g1⟩ := more_true h ht
    obtain ⟨l2, e2, g2⟩ := get_tok g1 ht
    rw [tokensToSemi, Pre.bind_of_ok e1, if_pos rfl, Pre.bind_of_ok (Pre.lift_of_ok e2)]
    simp only [if_neg hk]
    exact tokensToSemi_endless n g2 (fun i hi => hs i (by omega))

theorem preparse_endless [Unicode] {fs : FS} {path text : String} {t0 : Token}
    (hr : fs.read path = .ok text) (h0 : sequence text.toList 0 = .tok t0) (hk : t0.kind = "typedef")
    (hb : ∀ t, sequence text.toList 1 = .tok t → t.kind ≠ "{")
    (hs : ∀ i, 1 ≤ i → ∃ t, sequence text.toList i = .tok t ∧ t.kind ≠ ";") (fuel : Nat) :
    preparse fs fuel path = .diverge := by
  cases fuel with
  | zero => unfold preparse; rw [hr]; rfl
  | succ n =>
    obtain ⟨l1, e1, g1⟩ := get_tok (at_ofText text.toList) h0
    obtain ⟨t1, h1, _⟩ := hs 1 (Nat.le_refl _)
    obtain ⟨l2, e2, g2⟩ := follows_tok g1 h1 "{"
    have e3 : getTypename n l1 = .diverge := by
      rw [getTypename, Pre.bind_of_ok e2, if_neg (by simpa using hb t1 h1)]
      refine Pre.bind_of_diverge ?_
      exact tokensToSemi_endless n g2 hs
    unfold preparse
    rw [hr]
    simp only [preparseLoop, e1, hk, e3]

/-- The full property asks for more than holds: that a file with a lexical error is
always answered. -/
def C45_full [Unicode] : Prop :=
  ∀ (fs : FS) (path text : String), fs.read path = .ok text →
    ∃ fuel, preparse fs fuel path ≠ .diverge

section Examples
attribute [local instance] asciiOnly

/-- What the pre-parser reports for a one-file project. -/
def headsText (text : String) : String :=
  let fs : FS := { home := "/h", metaOk := fun _ => true,
                   read := fun p => if p = "d/x.c" then .ok text else .error "none" }
  match preparse fs 400 "d/x.c" with
  | .ok m => String.intercalate "," (m.imports.map (·.path)) ++ " | " ++
      String.intercalate "," m.typedefs
  | .err e => "error " ++ e
  | .panic m => "panic " ++ m
  | .diverge => "diverge"

example : headsText
    "#import strings
#import ../y.c
#type FILE
typedef { int a; struct { int b; } c; } pair_t;
/* typedef no */
typedef int fn_t(int, char *);
int main() { return 0; }
typedef double vec_t[3];
" = "/h/lib/strings.c,d/../y.c | FILE,pair_t,fn_t,vec_t" := by decide +kernel

example : headsText "int x = @;" = "error Unexpected character: '@' at d/x.c:1:9" := by decide +kernel
example : headsText "typedef { int a; } ;" = "panic preparser.rs:69" := by decide +kernel
example : headsText "#type\n" = "panic preparser.rs:43" := by decide +kernel

/-- **C45.** A stray character inside a typedef: the pre-parser never answers. -/
theorem C45_counterexample : ¬ C45_full := by
  intro h
  let text := "typedef int @ t;"
  let fs : FS := { home := "/h", metaOk := fun _ => true, read := fun _ => .ok text }
  obtain ⟨fuel, hf⟩ := h fs "x.c" text rfl
  let b0 := Buf.new text.toList
  let b1 := b0.skipN 7
  let b2 := b0.skipN 11
  let b3 := b0.skipN 12
  let t0 : Token := ⟨"typedef", "", ⟨1, 1⟩⟩
  let t1 : Token := ⟨"word", "int", ⟨1, 9⟩⟩
  let t2 : Token := ⟨"error", "Unexpected character: '@'", ⟨1, 13⟩⟩
  have e0 : readToken b0 = .tok t0 b1 := by decide +kernel
  have e1 : readToken b1 = .tok t1 b2 := by decide +kernel
  have e2 : readToken b2 = .tok t2 b3 := by decide +kernel
  have e3 : readToken b3 = .tok t2 b3 := by decide +kernel
  have s0 : ∀ i, sequence text.toList i = match i with | 0 => .tok t0 | 1 => .tok t1 | _ => .tok t2 := by
    intro i
    show stream b0 i = _
    rw [stream_read e0]
    match i with
    | 0 => rfl
    | 1 =>
      show stream b1 0 = _
      rw [stream_read e1]; rfl
    | 2 =>
      show stream b1 1 = _
      rw [stream_read e1]
      show stream b2 0 = _
      rw [stream_read e2]; rfl
    | i + 3 =>
      show stream b1 (i + 2) = _
      rw [stream_read e1]
      show stream b2 (i + 1) = _
      rw [stream_read e2]
      exact stream_fixed e3 (by decide) i
  refine hf (preparse_endless (text := text) (t0 := t0) rfl (s0 0) rfl ?_ ?_ fuel)
  · intro t ht
    rw [s0] at ht; cases ht; decide
  · intro i hi
    match i with
    | 1 => exact ⟨_, s0 1, by decide⟩
    | i + 2 => exact ⟨_, s0 (i + 2), by decide⟩

end Examples

end Che.Props
