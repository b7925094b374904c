import Verif.Proofs.Lib.Conf

namespace Che.Props
open Che.Lib Che.Lib.Conf Che.Spec.Conf

/-! ## C117: pairs of config files -/

/-- Lines as in `Line` with limits: only spaces around `=`, nothing between the value and the comment, a value that does
not begin with `=`, and no more bytes than the arrays of the program have. -/
inductive C117_Line : Bytes → Option (Bytes × Bytes) → Prop where
  | empty (b c : Bytes) : (∀ x ∈ b, Blank x) → Comment c → C117_Line (b ++ c) none
  | pair (b key b1 b2 val c : Bytes) : (∀ x ∈ b, Blank x) → Key key → (∀ x ∈ b1, x = 32) → (∀ x ∈ b2, x = 32) →
      Val val → val.head? ≠ some 61 → Comment c → key.length < 100 → val.length < 200 →
      key.length + b1.length + 1 + b2.length + val.length < 256 →
      C117_Line (b ++ key ++ b1 ++ [61] ++ b2 ++ val ++ c) (some (key, val))

/-- Lines that have newlines, and the pairs in them. -/
inductive C117_Lines : Bytes → List (Bytes × Bytes) → Prop where
  | nil : C117_Lines [] []
  | cons (l : Bytes) (r : Option (Bytes × Bytes)) (s : Bytes) (rs : List (Bytes × Bytes)) : C117_Line l r → C117_Lines s rs →
      C117_Lines (l ++ [10] ++ s) (r.toList ++ rs)

theorem C117_line {l r} (h : C117_Line l r) : Line l r := by
  have sp : ∀ x : UInt8, x = 32 → Blank x := fun x h => .inl h
  cases h with
  | empty b c hb hc => exact .empty b c hb hc
  | pair b key b1 b2 val c hb hk h1 h2 hv _ hc =>
    have := Line.pair b key b1 b2 val [] c hb hk (fun x hx => sp x (h1 x hx)) (fun x hx => sp x (h2 x hx)) hv (by simp) hc
    simpa using this

/-- Such files are files as specified. -/
theorem C117_file {s ps l r} (h : C117_Lines s ps) (hl : C117_Line l r) : File (s ++ l) (ps ++ r.toList) := by
  induction h with
  | nil => exact .last l r (C117_line hl)
  | cons l' r' s' rs h1 _ ih =>
    have := File.line l' r' _ _ (C117_line h1) ih
    simpa using this

/-- One line. -/
theorem C117_next {l r e s f} {p : P} (h : C117_Line l r) (h255 : (255 : UInt8) ∉ l) (he : Ends e s f) (hp : p.file = l ++ e) (h0 : p.eof = false) :
    ∃ q, q.file = s ∧ q.eof = f ∧
      match r with
      | none => next p = next q
      | some (key, val) => q.key = key ∧ q.val = val ∧ next p = .ok (q, true) := by
  cases h with
  | empty b c hb hc =>
    exact next_skip hb hc (fun h => h255 (by simp [h])) he (by simpa using hp) h0
  | pair b key b1 b2 val c hb hk h1 h2 hv hv1 hc k1 k2 k3 =>
    have hb1 : ∀ x ∈ b1 ++ [61] ++ b2, notSep x = false := by
      intro x hx
      simp only [List.mem_append, List.mem_singleton] at hx
      rcases hx with (hx | hx) | hx
      · rw [h1 x hx]; rfl
      · rw [hx]; rfl
      · rw [h2 x hx]; rfl
    have hpair : pair (key ++ ((b1 ++ [61] ++ b2) ++ val)) = some (key, val) := by
      refine pair_eq (fun x hx => ?_) hb1 (by simp) (fun x hx => ?_) hv.any
      · have := hk.bytes x hx
        simp only [notSep, Bool.and_eq_true, decide_eq_true_eq]
        exact ⟨this.2.1, fun e => this.1 (.inl e)⟩
      · simp only [notSep, Bool.and_eq_true, decide_eq_true_eq]
        exact ⟨fun e => hv1 (by rw [hx, e]), fun e => hv.first x hx (.inl e)⟩
    have t1 : ∀ x ∈ key ++ ((b1 ++ [61] ++ b2) ++ val), x ≠ 255 ∧ x ≠ 10 ∧ x ≠ 35 ∧ x ≠ 0 := by
      intro x hx
      refine ⟨?_, ?_⟩
      · rintro rfl
        exact h255 (by simp only [List.mem_append, List.mem_singleton] at hx ⊢; rcases hx with h | (h | h) | h <;> simp_all)
      · simp only [List.mem_append, List.mem_singleton] at hx
        rcases hx with hx | ((hx | hx) | hx) | hx
        · have := hk.bytes x hx; exact ⟨this.2.2.2.1, this.2.2.1, this.2.2.2.2⟩
        · rw [h1 x hx]; decide
        · rw [hx]; decide
        · rw [h2 x hx]; decide
        · have := hv.bytes x hx; exact ⟨this.2.1, this.1, this.2.2⟩
    have t2 : ∀ x, (key ++ ((b1 ++ [61] ++ b2) ++ val)).head? = some x → ¬ Blank x := by
      intro x hx
      have : key.head? = some x := by
        cases key with
        | nil => exact absurd rfl hk.any
        | cons a _ => simpa using hx
      exact (hk.bytes x (List.mem_of_mem_head? this)).1
    obtain ⟨k, hk'⟩ := next_text (p := p) (b := b) (t := key ++ ((b1 ++ [61] ++ b2) ++ val)) (c := c) (e := e) (s := s) (f := f)
      hb t1 t2 (by simp) hc (fun h => h255 (by simp [h])) (by simp; omega) he (by rw [hp]; simp) h0
    rw [hpair] at hk'
    simp only at hk'
    rw [if_neg (by omega)] at hk'
    exact ⟨_, rfl, rfl, rfl, rfl, hk'⟩

theorem C117_readAll (n : Nat) (p : P) : readAll (n + 1) p = (next p).bind fun (p, more) =>
      if more then (readAll n p).bind fun ps => .ok ((p.key, p.val) :: ps) else .ok [] := rfl

/-- Lines with newlines are read, and then what follows. -/
theorem C117_go {s ps} (h : C117_Lines s ps) : ∀ {t} {p : P}, (255 : UInt8) ∉ s → p.file = s ++ t → p.eof = false →
    ∃ q : P, q.file = t ∧ q.eof = false ∧ ∀ n, readAll (ps.length + (n + 1)) p = (readAll (n + 1) q).bind fun r => .ok (ps ++ r) := by
  induction h with
  | nil =>
    intro t p _ hp h0
    refine ⟨p, by simpa using hp, h0, fun n => ?_⟩
    rw [List.length_nil, Nat.zero_add]
    cases readAll (n + 1) p <;> simp [Res.bind]
  | cons l r s rs hl _ ih =>
    intro t p h255 hp h0
    simp only [List.mem_append, not_or] at h255
    obtain ⟨q, q1, q2, q3⟩ := C117_next hl h255.1.1 (.newline (s ++ t)) (by rw [hp]; simp) h0
    obtain ⟨q', e1, e2, e3⟩ := ih h255.2 q1 q2
    refine ⟨q', e1, e2, fun n => ?_⟩
    cases r with
    | none =>
      have : ∀ m, readAll (m + 1) p = readAll (m + 1) q := fun m => by rw [C117_readAll, C117_readAll, q3]
      have e4 : (Option.toList (none : Option (Bytes × Bytes)) ++ rs).length + (n + 1) = (rs.length + n) + 1 := by simp; omega
      rw [e4, this, Nat.add_assoc, e3 n]
      simp
    | some kv =>
      have e4 : (Option.toList (some kv) ++ rs).length + (n + 1) = (rs.length + (n + 1)) + 1 := by simp; omega
      rw [e4, C117_readAll, q3.2.2]
      simp only [Res.bind, if_true]
      rw [e3 n, q3.1, q3.2.1]
      cases readAll (n + 1) q' <;> simp [Res.bind]

/-- C117: the usual loop reads the pairs of a file in their order, and then there are no more. -/
theorem C117_pairs_partial {s ps l r} (h : C117_Lines s ps) (hl : C117_Line l r) (h255 : (255 : UInt8) ∉ s ++ l) :
    File (s ++ l) (ps ++ r.toList) ∧ ∀ n, (ps ++ r.toList).length < n → readAll n (new (s ++ l)) = .ok (ps ++ r.toList) := by
  refine ⟨C117_file h hl, fun n hn => ?_⟩
  simp only [List.mem_append, not_or] at h255
  obtain ⟨q, q1, q2, q3⟩ := C117_go h (p := new (s ++ l)) h255.1 rfl rfl
  obtain ⟨w, w1, w2, w3⟩ := C117_next hl h255.2 .eof (by rw [q1]; simp) q2
  rw [List.length_append] at hn
  obtain ⟨m, rfl⟩ : ∃ m, n = ps.length + (m + 1) := ⟨n - ps.length - 1, by omega⟩
  rw [q3 m]
  cases r with
  | none => rw [C117_readAll, w3, next_end w2]; simp [Res.bind]
  | some kv =>
    obtain ⟨m, rfl⟩ : ∃ k, m = k + 1 := ⟨m - 1, by simp at hn; omega⟩
    rw [C117_readAll, w3.2.2]
    simp only [Res.bind, if_true]
    rw [C117_readAll, next_end w2]
    simp [Res.bind, w3.1, w3.2.1]

/-- What the usual loop reads. -/
def C117_read (s : String) : Res String (List (String × String)) :=
  (readAll 10 (new (cstr s))).bind fun ps => .ok (ps.map fun p => (String.ofList (p.1.map fun c => Char.ofNat c.toNat), String.ofList (p.2.map fun c => Char.ofNat c.toNat)))

example : C117_read "# config\n\nport = 80\n  root=/var/www files# here\n" = .ok [("port", "80"), ("root", "/var/www files")] := by decide +kernel

/-- C117 is false: spaces before a comment, or before the end of a line, or the carriage return of a line, are a part of the value; tabs do not separate;
and a value loses `=` at its beginning. -/
theorem C117_counterexample :
    C117_read "a = b # c\n" = .ok [("a", "b ")] ∧
    C117_read "a = b\r\n" = .ok [("a", "b\r")] ∧
    C117_read "a\t= b\n" = .ok [("a\t", "b")] ∧
    C117_read "a = ==b\n" = .ok [("a", "b")] := by decide +kernel

/-- C117 is false: a line of more than 255 bytes ends the program, and a key of 100 bytes is written past its array. -/
theorem C117_counterexample_long : ∃ s ps s' ps', File s ps ∧ readAll 10 (new s) = .panic "buf too small" ∧
    File s' ps' ∧ readAll 10 (new s') = .panic "undefined: copy past the end of an array" := by
  have key : ∀ k, Key (List.replicate (k + 1) 97) := by
    intro k
    refine ⟨by simp [List.replicate_succ], fun c hc => ?_⟩
    rw [(List.mem_replicate.1 hc).2]
    unfold Blank
    decide
  have val : Val [98] := by
    refine ⟨by simp, by decide, ?_, ?_⟩ <;> (intro c hc; simp at hc; subst hc; unfold Blank; decide)
  have file : ∀ k, File (List.replicate (k + 1) 97 ++ [61, 98]) [(List.replicate (k + 1) 97, [98])] := by
    intro k
    have := File.last _ _ (Line.pair [] _ [] [] _ [] [] (by simp) (key k) (by simp) (by simp) val (by simp) (.inl rfl))
    simpa using this
  exact ⟨_, _, _, _, file 299, by decide +kernel, file 99, by decide +kernel⟩

/-- C117: the bytes of a line and the zero after them fit into the array. -/
theorem C117_room (n : Nat) : ∀ (s : Bytes) (comment : Bool) (buf : Bytes) (r : Read), buf.length < n → lineLoop n s comment buf = .ok r → r.buf.length < n := by
  intro s
  induction s with
  | nil => intro c buf r hb h; cases h; exact hb
  | cons c s ih =>
    intro comment buf r hb h
    unfold lineLoop at h
    split at h
    · cases h; exact hb
    · split at h
      · exact ih _ _ _ hb h
      · split at h
        · cases h; exact hb
        · split at h
          · exact ih _ _ _ hb h
          · split at h
            · cases h
            · exact ih _ _ _ (by simp; omega) h

/-- C117 is false: a byte 255 in the middle of a line ends it. -/
theorem C117_counterexample_255 :
    readAll 10 (new (cstr "a = b" ++ [255] ++ cstr "c = d\n")) = .ok [(cstr "a", cstr "b"), (cstr "c", cstr "d")] := by decide +kernel

/-! ## C118: lines that are no pairs -/

/-- A line with text that has no separator, or nothing after it. -/
inductive C118_Bad : Bytes → Prop where
  | mk (b t sep c : Bytes) : (∀ x ∈ b, Blank x) → Key t → (∀ x ∈ sep, x = 61 ∨ x = 32) → Comment c → t.length + sep.length < 256 →
      C118_Bad (b ++ t ++ sep ++ c)

theorem C118_pair {t sep : Bytes} (ht : ∀ x ∈ t, notSep x = true) (hs : ∀ x ∈ sep, notSep x = false) : pair (t ++ sep) = none := by
  cases sep with
  | nil =>
    have := dropWhile_stop (t := []) ht (by simp)
    unfold pair; rw [this]
  | cons d sep =>
    have h1 := dropWhile_stop (t := d :: sep) ht (by intro x hx; simp at hx; subst hx; exact hs d (by simp))
    have h2 : sep.dropWhile (!notSep ·) = [] := by
      have := dropWhile_stop (q := (!notSep ·)) (s := sep) (t := []) (fun x hx => by simp [hs x (by simp [hx])]) (by simp)
      simpa using this
    unfold pair; rw [h1]; simp only [h2]

/-- C118: a line that has no separator or no value is reported, after the pairs before it have been read. -/
theorem C118_reported_partial {s ps l e t f} (h : C117_Lines s ps) (hl : C118_Bad l) (he : Ends e t f) (h255 : (255 : UInt8) ∉ s ++ l)
    {n : Nat} (hn : ps.length < n) : ∃ k : Nat, readAll n (new (s ++ (l ++ e))) = .err ("config parse error at line " ++ toString k) := by
  simp only [List.mem_append, not_or] at h255
  obtain ⟨q, q1, q2, q3⟩ := C117_go h (p := new (s ++ (l ++ e))) h255.1 rfl rfl
  obtain ⟨m, rfl⟩ : ∃ m, n = ps.length + (m + 1) := ⟨n - ps.length - 1, by omega⟩
  rw [q3 m]
  cases hl with
  | mk b u sep c hb hu hs hc hlen =>
    have hpair : pair (u ++ sep) = none := by
      refine C118_pair (fun x hx => ?_) (fun x hx => ?_)
      · have := hu.bytes x hx
        simp only [notSep, Bool.and_eq_true, decide_eq_true_eq]
        exact ⟨this.2.1, fun e => this.1 (.inl e)⟩
      · rcases hs x hx with h | h <;> rw [h] <;> rfl
    have t1 : ∀ x ∈ u ++ sep, x ≠ 255 ∧ x ≠ 10 ∧ x ≠ 35 ∧ x ≠ 0 := by
      intro x hx
      refine ⟨?_, ?_⟩
      · rintro rfl
        exact h255.2 (by simp only [List.mem_append] at hx ⊢; rcases hx with h | h <;> simp_all)
      · simp only [List.mem_append] at hx
        rcases hx with hx | hx
        · have := hu.bytes x hx; exact ⟨this.2.2.2.1, this.2.2.1, this.2.2.2.2⟩
        · rcases hs x hx with h | h <;> rw [h] <;> decide
    have t2 : ∀ x, (u ++ sep).head? = some x → ¬ Blank x := by
      intro x hx
      have : u.head? = some x := by
        cases u with
        | nil => exact absurd rfl hu.any
        | cons a _ => simpa using hx
      exact (hu.bytes x (List.mem_of_mem_head? this)).1
    obtain ⟨k, hk⟩ := next_text (p := q) (b := b) (t := u ++ sep) (c := c) (e := e) (s := t) (f := f) hb t1 t2
      (by have := hu.any; simp [this]) hc (fun h => h255.2 (by simp [h])) (by simp; omega) he (by rw [q1]; simp) q2
    rw [hpair] at hk
    exact ⟨k, by rw [C117_readAll, hk]; simp [Res.bind]⟩

example : C117_read "a = b\nc =\n" = .err "config parse error at line 3" := by decide +kernel

/-- C118 is false: the number of the line is too big when the line has a newline, and too small when there are empty lines before it. -/
theorem C118_counterexample_number :
    C117_read "a\n" = .err "config parse error at line 2" ∧ C117_read "\n\n\na" = .err "config parse error at line 1" := by decide +kernel

/-- C118 is false: lines without `=`, without a key, and with more than one `=` are read as pairs. -/
theorem C118_counterexample_read :
    C117_read "a b\n" = .ok [("a", "b")] ∧ C117_read "= b\n" = .ok [("", "b")] ∧ C117_read "a = = b\n" = .ok [("a", "b")] := by decide +kernel

end Che.Props
