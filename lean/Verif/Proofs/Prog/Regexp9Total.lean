import Verif.Proofs.Prog.Regexp9

/-!
`regexec` always comes to an end, and what can go wrong is one thing: a write past the end of the list.
-/
namespace Che.Proofs.Regexp9
open Che Che.Lib Che.Prog.Regexp9 Che.Spec.Regexp9 Che.Lib.Utf Che.Spec.Utf

/-- What a write past the list is called in the model. -/
def overflow : String := "undefined: write past the end of the list"

/-- The result, if there is one, has the property; and nothing goes wrong but a write past the list. -/
def Fine {ε α : Type} (P : α → Prop) : Res ε α → Prop
  | .ok a => P a
  | .err _ => True
  | .panic m => m = overflow
  | .diverge => False

theorem Fine.bind {ε α β : Type} {P : α → Prop} {Q : β → Prop} {r : Res ε α} {f : α → Res ε β} (h : Fine P r)
    (hf : ∀ a, P a → Fine Q (f a)) : Fine Q (r.bind f) := by
  cases r with
  | ok a => exact hf a h
  | err _ => trivial
  | panic m => exact h
  | diverge => exact h.elim

theorem Fine.imp {ε α : Type} {P Q : α → Prop} {r : Res ε α} (h : Fine P r) (hf : ∀ a, P a → Q a) : Fine Q r := by
  cases r with
  | ok a => exact hf a h
  | err _ => trivial
  | panic m => exact h
  | diverge => exact h.elim

/-- The threads stand in the program. -/
def In (I : List Inst) (l : List Thread) : Prop := ∀ t ∈ l, t.inst < I.length

theorem renewthread_in {I : List Inst} {ip se} (hip : ip < I.length) : ∀ {l}, In I l →
    In I (renewthread ip se l).1 ∧ (renewthread ip se l).1.length = l.length + (if (renewthread ip se l).2 then 1 else 0) := by
  intro l
  induction l with
  | nil => intro _; exact ⟨by intro t ht; simp [renewthread] at ht; subst ht; exact hip, rfl⟩
  | cons t ts ih =>
    intro h
    obtain ⟨h1, h2⟩ := ih (fun t ht => h t (List.mem_cons_of_mem _ ht))
    rw [renewthread]
    split
    · rename_i he
      refine ⟨?_, ?_⟩
      · simp only
        split
        · intro t' ht'
          rcases List.mem_cons.1 ht' with rfl | ht'
          · exact hip
          · exact h _ (List.mem_cons_of_mem _ ht')
        · exact h
      · simp only
        split <;> simp
    · refine ⟨?_, ?_⟩
      · intro t' ht'
        rcases List.mem_cons.1 ht' with rfl | ht'
        · exact h _ (List.mem_cons_self)
        · exact h1 _ ht'
      · simp only [List.length_cons, h2]; omega

theorem addthread_fine {I : List Inst} {cap used ip se l} (hip : ip < I.length) (hl : In I l) (hu : used < cap) (hul : l.length ≤ used) :
    Fine (fun l' => In I l' ∧ used - l.length + l'.length < cap) (addthread cap used ip se l) := by
  obtain ⟨h1, h2⟩ := renewthread_in (se := se) hip hl
  unfold addthread
  generalize renewthread ip se l = q at h1 h2
  obtain ⟨l', added⟩ := q
  simp only at h1 h2 ⊢
  cases added with
  | false => simp at h2; exact ⟨h1, by omega⟩
  | true =>
    simp only [if_true] at h2 ⊢
    split
    · rfl
    · split
      · trivial
      · exact ⟨h1, by omega⟩

/-- The lists of the machine. -/
structure RunOk (I : List Inst) (cap : Nat) (st : Run) : Prop where
  pend : In I st.pend
  nl : In I st.nl
  room : st.used + st.pend.length < cap
  roomNl : st.nl.length < cap

theorem accept_fine {I : List Inst} {p : Place} {next se st cond m} (h : RunOk I p.cap st) (hn : next = some m) (hm : m < I.length) :
    Fine (fun st' => RunOk I p.cap st' ∧ st'.used = st.used) (accept p next se st cond) := by
  subst hn
  unfold accept
  split
  · refine (addthread_fine hm h.nl h.roomNl (Nat.le_refl _)).bind fun nl hnl => ?_
    exact ⟨⟨h.pend, hnl.1, h.room, by have := hnl.2; simp only; omega⟩, rfl⟩
  · exact ⟨h, rfl⟩

theorem walk_fine {I : List Inst} {p : Place} {ent : Nat} {ρ : Nat → Nat}
    (hρ : ∀ (n : Nat) (x : Inst), I[n]? = some x → x.op ≠ .fin →
      (∃ m, x.next = some m ∧ m < I.length ∧ ρ m < ρ n) ∧ ∀ r, x.op = .or r → r < I.length) :
    ∀ (fuel pc : Nat) se st, pc < I.length → ρ pc < fuel → RunOk I p.cap st →
      Fine (fun st' => RunOk I p.cap st' ∧ st'.used = st.used) (walk I p ent fuel (some pc) se st) := by
  intro fuel
  induction fuel with
  | zero => intro pc se st _ h; omega
  | succ n ih =>
    intro pc se st hpc hf h
    rw [walk, List.getElem?_eq_getElem hpc]
    simp only
    generalize hx : I[pc] = x
    have hx' : I[pc]? = some x := by rw [List.getElem?_eq_getElem hpc, hx]
    by_cases hop : x.op = .fin
    · rw [hop]; exact ⟨⟨h.pend, h.nl, h.room, h.roomNl⟩, rfl⟩
    · obtain ⟨⟨m, m1, m2, m3⟩, hr⟩ := hρ pc x hx' hop
      cases ho : x.op with
      | fin => exact absurd ho hop
      | rune c => exact accept_fine h m1 m2
      | any => exact accept_fine h m1 m2
      | anynl => exact accept_fine h m1 m2
      | cclass s => exact accept_fine h m1 m2
      | ncclass s => exact accept_fine h m1 m2
      | nop => exact ⟨h, rfl⟩
      | lbra g => simp only [m1]; exact ih m _ st m2 (by omega) h
      | rbra g => simp only [m1]; exact ih m _ st m2 (by omega) h
      | bol =>
        simp only [m1]
        split
        · exact ih m _ st m2 (by omega) h
        · exact ⟨h, rfl⟩
      | eol =>
        simp only [m1]
        split
        · exact ih m _ st m2 (by omega) h
        · exact ⟨h, rfl⟩
      | or right =>
        simp only [m1]
        split
        · exact ih m _ st m2 (by omega) h
        · refine (addthread_fine (hr right ho) h.pend h.room (by omega)).bind fun pend hpend => ?_
          exact ih m se { st with pend := pend } m2 (by omega) ⟨hpend.1, h.nl, by have := hpend.2; simp only; omega, h.roomNl⟩

theorem runList_fine {I : List Inst} {p : Place} (hflow : Flow I) : ∀ (fuel : Nat) st, RunOk I p.cap st → p.cap ≤ st.used + fuel →
    Fine (fun st' => RunOk I p.cap st') (runList I p fuel st) := by
  obtain ⟨ρ, hb, hρ⟩ := hflow
  intro fuel
  induction fuel with
  | zero => intro st h hf; have := h.room; omega
  | succ n ih =>
    intro st h hf
    rw [runList]
    cases hp : st.pend with
    | nil => exact h
    | cons t ts =>
      have hr := h.room
      have hpend := h.pend
      rw [hp] at hr hpend
      simp only [List.length_cons] at hr
      have ht := hpend t List.mem_cons_self
      simp only
      refine (walk_fine (p := p) (ent := t.inst) hρ (I.length + 1) t.inst t.se { st with used := st.used + 1, pend := ts } ht
        (by have := hb _ ht; omega) ⟨fun t' h' => hpend t' (List.mem_cons_of_mem _ h'), h.nl, by simp only; omega, h.roomNl⟩).bind ?_
      intro st' ⟨h1, h2⟩
      exact ih st' h1 (by rw [h2]; simp only; omega)

theorem renewempty_fine {I : List Inst} {cap start s tl} (hs : start < I.length) (htl : In I tl) (hl : tl.length < cap) :
    Fine (fun tl' => In I tl' ∧ tl'.length < cap) (renewempty cap start s tl) := by
  obtain ⟨h1, h2⟩ := renewthread_in (se := setSp (List.replicate 32 ⟨none, none⟩) 0 s) hs htl
  unfold renewempty
  simp only
  generalize renewthread start (setSp (List.replicate 32 ⟨none, none⟩) 0 s) tl = q at h1 h2
  obtain ⟨l', added⟩ := q
  simp only at h1 h2 ⊢
  cases added with
  | false => simp at h2; simp; exact ⟨h1, by omega⟩
  | true =>
    simp only [if_true] at h2
    split
    · rfl
    · rename_i h; exact ⟨h1, by simp at h; omega⟩

theorem skipTo_fine {ty : StartType} {cs pre post : List Char} (hz : ∀ c ∈ cs, c ≠ '\x00') (hty : ∀ c, ty = .rune c → c ≠ 0 ∧ c < 0x80)
    (hcs : cs = pre ++ post) :
    Fine (fun q => ∀ s, q = some s → ∃ pre' post', cs = pre' ++ post' ∧ s = (encode pre').length ∧ (encode pre).length ≤ s)
      (skipTo ty (encode cs) none (encode pre).length) := by
  have hzp : ∀ c ∈ post, c ≠ '\x00' := fun c hc => hz c (by rw [hcs]; simp [hc])
  cases ty with
  | no => intro s hs; cases hs; exact ⟨pre, post, hcs, rfl, Nat.le_refl _⟩
  | rune c =>
    obtain ⟨h0, h128⟩ := hty c rfl
    have hval : (Char.ofNat c).val.toNat = c := by
      rw [Char.ofNat, dif_pos (by left; omega)]
      simp [Char.ofNatAux]
    obtain ⟨u1, u2⟩ := utfrune_eq (Char.ofNat c) pre post hzp (by
      intro e; rw [e] at hval; simp at hval; omega)
    rw [hval, ← hcs] at u1 u2
    by_cases hm : Char.ofNat c ∈ post
    · obtain ⟨a, b, e, hna⟩ := exists_first _ _ hm
      simp only [skipTo, u2 a b e hna, lift', Res.bind]
      intro s hs
      cases hs
      exact ⟨pre ++ a, Char.ofNat c :: b, by rw [hcs, e]; simp, rfl, by rw [encode_append, List.length_append]; omega⟩
    · simp only [skipTo, u1 hm, lift', Res.bind]
      intro s hs; cases hs
  | bol =>
    simp only [skipTo]
    split
    · intro s hs; cases hs; exact ⟨pre, post, hcs, rfl, Nat.le_refl _⟩
    · obtain ⟨u1, u2⟩ := utfrune_eq '\n' pre post hzp (by decide)
      rw [← hcs, show ('\n' : Char).val.toNat = 10 by decide] at u1 u2
      by_cases hm : '\n' ∈ post
      · obtain ⟨a, b, e, hna⟩ := exists_first _ _ hm
        simp only [u2 a b e hna, lift', Res.bind]
        intro s hs
        cases hs
        refine ⟨pre ++ (a ++ ['\n']), b, by rw [hcs, e]; simp, ?_, by rw [encode_append, List.length_append]; omega⟩
        rw [← List.append_assoc, encode_snoc_length]; rfl
      · simp only [u1 hm, lift', Res.bind]
        intro s hs; cases hs

theorem execLoop_fine {prog : Prog} {cs : List Char} {cap : Nat} {ty : StartType} (hflow : Flow prog.insts) (hstart : prog.start < prog.insts.length)
    (hz : ∀ c ∈ cs, c ≠ '\x00') (hty : ∀ c, ty = .rune c → c ≠ 0 ∧ c < 0x80) (hcap : 0 < cap) :
    ∀ (fuel : Nat) (pre post : List Char) (cst : Bool) tl mp matched, cs = pre ++ post → In prog.insts tl → tl.length < cap →
      (encode cs).length < (encode pre).length + fuel →
      Fine (fun _ => True) (execLoop prog ty (encode cs) cap none fuel cst (encode pre).length tl mp matched) := by
  intro fuel
  induction fuel with
  | zero => intro pre post cst tl mp matched hcs _ _ h; rw [hcs, encode_append, List.length_append] at h; omega
  | succ n ih =>
    intro pre post cst tl mp matched hcs htl hl hf
    rw [execLoop]
    refine Fine.bind (P := fun q => ∀ s, q = some s → ∃ pre' post', cs = pre' ++ post' ∧ s = (encode pre').length ∧ (encode pre).length ≤ s) ?_ ?_
    · split
      · exact skipTo_fine hz hty hcs
      · intro s hs; cases hs; exact ⟨pre, post, hcs, rfl, Nat.le_refl _⟩
    · intro q hq
      cases q with
      | none => trivial
      | some s =>
        obtain ⟨pre', post', e1, e2, e3⟩ := hq s rfl
        subst e2
        simp only
        have hrune : (post' = [] ∧ runeAt (encode cs) (encode pre').length = .ok (0, 1)) ∨
            ∃ c post'', post' = c :: post'' ∧ runeAt (encode cs) (encode pre').length = .ok (c.val.toNat, (String.utf8EncodeChar c).length) := by
          cases post' with
          | nil => left; rw [e1, List.append_nil]; exact ⟨rfl, runeAt_end _⟩
          | cons c post'' => right; rw [e1]; exact ⟨c, post'', rfl, runeAt_char _ _ _⟩
        obtain ⟨r, k, hr, hnext⟩ : ∃ r k, runeAt (encode cs) (encode pre').length = .ok (r, k) ∧
            (r ≠ 0 → ∃ c post'', cs = (pre' ++ [c]) ++ post'' ∧ (encode pre').length + k = (encode (pre' ++ [c])).length) := by
          rcases hrune with ⟨_, h⟩ | ⟨c, post'', h1, h⟩
          · exact ⟨0, 1, h, fun h => absurd rfl h⟩
          · exact ⟨_, _, h, fun _ => ⟨c, post'', by rw [e1, h1]; simp, by rw [encode_snoc_length]⟩⟩
        rw [hr]
        simp only [lift', Res.bind]
        refine Fine.bind (P := fun tl' => In prog.insts tl' ∧ tl'.length < cap) ?_ ?_
        · split
          · exact ⟨htl, hl⟩
          · exact renewempty_fine hstart htl hl
        · intro tl' ⟨t1, t2⟩
          refine Fine.bind (runList_fine hflow cap _ ⟨t1, by intro t ht; simp at ht, by simpa using t2, by simpa using hcap⟩ (by simp)) ?_
          intro st hst
          simp only [reduceCtorEq, if_false]
          split
          · trivial
          · rename_i h0
            obtain ⟨c, post'', e4, e5⟩ := hnext h0
            rw [e5]
            have h1 := encode_snoc_length pre' c
            have h2 := encodeChar_pos c
            exact ih _ _ _ _ _ _ e4 hst.nl hst.roomNl (by omega)

/-- `regexec` comes to an end; only the list of threads can go wrong. -/
theorem regexec_fine {prog e cs pre post ms} (hg : Good prog e) (hz : ∀ c ∈ cs, c ≠ '\x00') (hcs : cs = pre ++ post) :
    Fine (fun _ => True) (regexec prog (encode cs) (encode pre).length none ms) := by
  have hst : ∃ ty, startType prog = .ok ty := by
    unfold startType
    rw [List.getElem?_eq_getElem hg.start]
    simp only
    split
    · split <;> exact ⟨_, rfl⟩
    · exact ⟨_, rfl⟩
    · exact ⟨_, rfl⟩
  obtain ⟨ty, hty⟩ := hst
  have htk := startType_ok hg hty
  have htk' : ∀ c, ty = .rune c → c ≠ 0 ∧ c < 0x80 := by
    rintro c rfl; exact ⟨htk.1, htk.2.1⟩
  have run : ∀ cap, 0 < cap → Fine (fun _ => True) (regexec1 prog ty (encode cs) cap (encode pre).length none ms) := by
    intro cap hcap
    exact execLoop_fine hg.flow hg.start hz htk' hcap _ pre post _ _ _ _ hcs (by intro t ht; simp at ht) (by simpa using hcap) (by omega)
  have h1 := run 10 (by omega)
  have h2 := run 250 (by omega)
  unfold regexec
  rw [hty]
  simp only
  generalize regexec1 prog ty (encode cs) 10 (encode pre).length none ms = r1 at h1
  generalize regexec1 prog ty (encode cs) 250 (encode pre).length none ms = r2 at h2
  cases r1 with
  | ok p => obtain ⟨b, mp⟩ := p; cases b <;> trivial
  | panic m => exact h1
  | diverge => exact h1.elim
  | err _ =>
    cases r2 with
    | ok p => obtain ⟨b, mp⟩ := p; cases b <;> trivial
    | panic m => exact h2
    | diverge => exact h2.elim
    | err _ => trivial

end Che.Proofs.Regexp9
