import Verif.Proofs.Prog.Regexp9Code

/-!
The machine of `regexec1` at one place of the text: every thread is a run of the program, and
no run is lost to one that began later.
-/
namespace Che.Proofs.Regexp9
open Che Che.Lib Che.Prog.Regexp9 Che.Spec.Regexp9

/-- The groups of a thread. -/
def capOf (se : List Resub) : Caps := fun n => ((se.getD n ⟨none, none⟩).sp, (se.getD n ⟨none, none⟩).ep)

theorem capOf_setSp {se : List Resub} {g s : Nat} (h : g < se.length) : capOf (setSp se g s) = (capOf se).opened g s := by
  funext n
  simp only [capOf, Caps.opened, setSp, List.getD_eq_getElem?_getD, List.getElem?_modify]
  by_cases hn : n = g
  · subst hn; simp [h]
  · rw [if_neg hn]
    cases se[n]? <;> simp [Ne.symm hn]

theorem capOf_setEp {se : List Resub} {g s : Nat} (h : g < se.length) : capOf (setEp se g s) = (capOf se).closed g s := by
  funext n
  simp only [capOf, Caps.closed, setEp, List.getD_eq_getElem?_getD, List.getElem?_modify]
  by_cases hn : n = g
  · subst hn; simp [h]
  · rw [if_neg hn]
    cases se[n]? <;> simp [Ne.symm hn]

theorem setSp_length (se : List Resub) (g s : Nat) : (setSp se g s).length = se.length := by simp [setSp]
theorem setEp_length (se : List Resub) (g s : Nat) : (setEp se g s).length = se.length := by simp [setEp]

theorem first_setSp {se : List Resub} {g s : Nat} (h : g ≠ 0) : first (setSp se g s) = first se := by
  simp only [first, setSp, List.getD_eq_getElem?_getD, List.getElem?_modify]
  cases se[0]? <;> simp [h]

theorem first_setEp {se : List Resub} {g s : Nat} (h : g ≠ 0) : first (setEp se g s) = first se := by
  simp only [first, setEp, List.getD_eq_getElem?_getD, List.getElem?_modify]
  cases se[0]? <;> simp [h]

theorem first_setEp_zero {se : List Resub} {s : Nat} (h : 0 < se.length) : first (setEp se 0 s) = ⟨(first se).sp, some s⟩ := by
  cases se with
  | nil => simp at h
  | cons a l => simp [first, setEp]

/-- The numbers of groups are those that have a place. -/
def IdsOk (I : List Inst) : Prop := ∀ (p : Nat) x, I[p]? = some x → ∀ g, x.op = .lbra g ∨ x.op = .rbra g → 1 ≤ g ∧ g < 32

/-! ## Lists of threads -/

/-- The list has a thread at the instruction that began not later. -/
def Cov (l : List Thread) (ip x : Nat) : Prop := ∃ t ∈ l, t.inst = ip ∧ ∃ y, (first t.se).sp = some y ∧ y ≤ x

/-- The thread knows where it began. -/
def HasSp (t : Thread) : Prop := ∃ y, (first t.se).sp = some y

theorem renew_mem {ip : Nat} {se : List Resub} {l : List Thread} {t : Thread} (h : t ∈ (renewthread ip se l).1) :
    t ∈ l ∨ t = ⟨ip, se⟩ := by
  induction l with
  | nil => simp [renewthread] at h; exact .inr h
  | cons a l ih =>
    rw [renewthread] at h
    split at h
    · split at h
      · simp at h; rcases h with h | h
        · exact .inr h
        · exact .inl (List.mem_cons_of_mem _ h)
      · exact .inl h
    · simp at h; rcases h with h | h
      · exact .inl (h ▸ List.mem_cons_self ..)
      · rcases ih h with h | h
        · exact .inl (List.mem_cons_of_mem _ h)
        · exact .inr h

theorem renew_cov {ip z : Nat} {se : List Resub} {l : List Thread} (hl : ∀ t ∈ l, HasSp t) (hs : (first se).sp = some z) :
    (∀ q x, Cov l q x → Cov (renewthread ip se l).1 q x) ∧ Cov (renewthread ip se l).1 ip z := by
  induction l with
  | nil => exact ⟨by rintro q x ⟨t, ht, _⟩; simp at ht, ⟨⟨ip, se⟩, by simp [renewthread], rfl, z, hs, Nat.le_refl _⟩⟩
  | cons a l ih =>
    obtain ⟨i1, i2⟩ := ih fun t ht => hl t (List.mem_cons_of_mem _ ht)
    rw [renewthread]
    split
    · rename_i ha
      obtain ⟨y, hy⟩ := hl a (List.mem_cons_self ..)
      split
      · rename_i hb
        rw [hs, hy] at hb
        simp [before] at hb
        refine ⟨?_, ⟨ip, se⟩, List.mem_cons_self .., rfl, z, hs, Nat.le_refl _⟩
        rintro q x ⟨t, ht, e, w, hw, hx⟩
        rcases List.mem_cons.1 ht with rfl | ht
        · rw [hy] at hw; cases hw
          exact ⟨⟨ip, se⟩, List.mem_cons_self .., ha ▸ e, z, hs, by omega⟩
        · exact ⟨t, List.mem_cons_of_mem _ ht, e, w, hw, hx⟩
      · rename_i hb
        rw [hs, hy] at hb
        simp [before] at hb
        exact ⟨fun _ _ h => h, a, List.mem_cons_self .., ha, y, hy, hb⟩
    · simp only
      constructor
      · rintro q x ⟨t, ht, h⟩
        rcases List.mem_cons.1 ht with rfl | ht
        · exact ⟨t, List.mem_cons_self .., h⟩
        · obtain ⟨t', ht', h'⟩ := i1 q x ⟨t, ht, h⟩
          exact ⟨t', List.mem_cons_of_mem _ ht', h'⟩
      · obtain ⟨t', ht', h'⟩ := i2
        exact ⟨t', List.mem_cons_of_mem _ ht', h'⟩

theorem addthread_ok {cap used ip : Nat} {se : List Resub} {l l' : List Thread} (h : addthread cap used ip se l = .ok l') :
    l' = (renewthread ip se l).1 := by
  rw [addthread] at h
  split at h
  rename_i a b e
  rw [e]
  split at h
  · split at h
    · cases h
    · split at h
      · cases h
      · cases h; rfl
  · cases h; rfl

/-! ## The best match so far -/

/-- The match so far is at least as good: it began before, or at the same place and is as long. -/
def Done (mp : List Resub) (matched : Bool) (x j : Nat) : Prop :=
  matched = true ∧ (mp = [] ∨ ∃ a b, first mp = ⟨some a, some b⟩ ∧ (a < x ∨ a = x ∧ j ≤ b))

/-- The match so far began before. -/
def Beat (mp : List Resub) (matched : Bool) (x : Nat) : Prop :=
  matched = true ∧ (mp = [] ∨ ∃ a b, first mp = ⟨some a, some b⟩ ∧ a < x)

/-- What is stored for a match. -/
def stored (ms : Nat) (se : List Resub) : List Resub := se.take ms ++ List.replicate (ms - 32) ⟨none, none⟩

theorem first_stored {ms : Nat} {se : List Resub} (h : ms ≠ 0) (hs : 0 < se.length) : first (stored ms se) = first se := by
  cases se with
  | nil => simp at hs
  | cons a l =>
    cases ms with
    | zero => exact absurd rfl h
    | succ n => simp [first, stored]

theorem stored_length {ms : Nat} {se : List Resub} (h : se.length = 32) : (stored ms se).length = ms := by
  simp [stored, h]; omega

theorem renewmatch_eq {mp se : List Resub} (h : se.length = 32) :
    renewmatch mp se = mp ∨ renewmatch mp se = stored mp.length se := by
  rw [renewmatch]
  split
  · exact .inl rfl
  · split
    · exact .inr rfl
    · exact .inl rfl

section
variable (I : List Inst) (start : Nat) (t : Text) (B : Nat → Prop) (ms : Nat)

/-- A run from where it began to a place, as a thread keeps it. -/
structure RunTo (x pc s : Nat) (se : List Resub) : Prop where
  begins : B x
  le : x ≤ s
  steps : ∃ n, Steps false I t n (start, x, Caps.none.opened 0 x) (pc, s, capOf se)
  len : se.length = 32
  sp : first se = ⟨some x, none⟩

/-- A thread at a place. -/
def ThreadOk (s : Nat) (th : Thread) : Prop := ∃ x, RunTo I start t B x th.inst s th.se

/-- The match so far. -/
def MatchOk (s : Nat) (mp : List Resub) (matched : Bool) : Prop :=
  (matched = false → mp = List.replicate ms ⟨none, none⟩) ∧
  (matched = true → ∃ x q j se, j ≤ s ∧ AtFin I q ∧ RunTo I start t B x q j se ∧ mp = stored ms (setEp se 0 j))

variable {I start t B ms}

theorem ThreadOk.hasSp {s th} (h : ThreadOk I start t B s th) : HasSp th := by
  obtain ⟨x, h⟩ := h
  exact ⟨x, by rw [h.sp]⟩

theorem MatchOk.length {s mp matched} (h : MatchOk I start t B ms s mp matched) : mp.length = ms := by
  cases matched with
  | false => rw [h.1 rfl]; simp
  | true =>
    obtain ⟨x, q, j, se, _, _, hr, rfl⟩ := h.2 rfl
    exact stored_length (by rw [setEp_length, hr.len])

theorem MatchOk.shape {s mp} (h : MatchOk I start t B ms s mp true) (hm : mp ≠ []) :
    ∃ a b, first mp = ⟨some a, some b⟩ ∧ a ≤ b ∧ b ≤ s := by
  obtain ⟨x, q, j, se, hj, _, hr, rfl⟩ := h.2 rfl
  have hl : (setEp se 0 j).length = 32 := by rw [setEp_length, hr.len]
  have h0 : ms ≠ 0 := by
    rintro rfl
    exact hm (List.eq_nil_of_length_eq_zero (stored_length hl))
  rw [first_stored h0 (by omega), first_setEp_zero (by have := hr.len; omega), hr.sp]
  exact ⟨x, j, rfl, hr.le, hj⟩

/-- A new match. -/
theorem renewmatch_ok {s mp matched x q se} (h : MatchOk I start t B ms s mp matched) (hf : AtFin I q)
    (hr : RunTo I start t B x q s se) :
    MatchOk I start t B ms s (renewmatch mp (setEp se 0 s)) true ∧
    Done (renewmatch mp (setEp se 0 s)) true x s ∧
    (∀ y j, Done mp matched y j → Done (renewmatch mp (setEp se 0 s)) true y j) ∧
    (∀ y, Beat mp matched y → Beat (renewmatch mp (setEp se 0 s)) true y) := by
  have hlen := h.length
  have hl : (setEp se 0 s).length = 32 := by rw [setEp_length, hr.len]
  have hfs : first (setEp se 0 s) = ⟨some x, some s⟩ := by
    rw [first_setEp_zero (by have := hr.len; omega), hr.sp]
  have hnew : MatchOk I start t B ms s (stored ms (setEp se 0 s)) true :=
    ⟨by simp, fun _ => ⟨x, q, s, se, Nat.le_refl _, hf, hr, rfl⟩⟩
  by_cases h0 : ms = 0
  · have e : mp = [] := List.eq_nil_of_length_eq_zero (hlen.trans h0)
    subst e
    have e2 : renewmatch [] (setEp se 0 s) = [] := by simp [renewmatch]
    rw [e2]
    refine ⟨?_, ⟨rfl, .inl rfl⟩, fun _ _ _ => ⟨rfl, .inl rfl⟩, fun _ _ => ⟨rfl, .inl rfl⟩⟩
    have : stored ms (setEp se 0 s) = [] := List.eq_nil_of_length_eq_zero ((stored_length hl).trans h0)
    rwa [this] at hnew
  · have hne : mp ≠ [] := by rintro rfl; simp at hlen; omega
    have hfst : first (stored ms (setEp se 0 s)) = ⟨some x, some s⟩ := by rw [first_stored h0 (by omega), hfs]
    have hne2 : stored ms (setEp se 0 s) ≠ [] := by
      intro e; have := stored_length (ms := ms) hl; rw [e] at this; simp at this; omega
    cases matched with
    | false =>
      have e : renewmatch mp (setEp se 0 s) = stored ms (setEp se 0 s) := by
        rw [renewmatch, if_neg (by omega), if_pos, hlen]
        · rfl
        · left
          rw [h.1 rfl]
          cases ms with
          | zero => exact absurd rfl h0
          | succ n => simp [first]
      rw [e]
      exact ⟨hnew, ⟨rfl, .inr ⟨x, s, hfst, .inr ⟨rfl, Nat.le_refl _⟩⟩⟩, fun y j h => by simp [Done] at h,
        fun y h => by simp [Beat] at h⟩
    | true =>
      obtain ⟨a, b, hab, _, hb⟩ := h.shape hne
      by_cases hc : x < a ∨ x = a ∧ b < s
      · have e : renewmatch mp (setEp se 0 s) = stored ms (setEp se 0 s) := by
          rw [renewmatch, if_neg (by omega), if_pos, hlen]
          · rfl
          · right
            rw [hfs, hab]
            simpa [before] using hc
        rw [e]
        refine ⟨hnew, ⟨rfl, .inr ⟨x, s, hfst, .inr ⟨rfl, Nat.le_refl _⟩⟩⟩, ?_, ?_⟩
        · rintro y j ⟨_, hd | ⟨a', b', hd, hd2⟩⟩
          · exact absurd hd hne
          · rw [hab] at hd; cases hd
            exact ⟨rfl, .inr ⟨x, s, hfst, by omega⟩⟩
        · rintro y ⟨_, hd | ⟨a', b', hd, hd2⟩⟩
          · exact absurd hd hne
          · rw [hab] at hd; cases hd
            exact ⟨rfl, .inr ⟨x, s, hfst, by omega⟩⟩
      · have e : renewmatch mp (setEp se 0 s) = mp := by
          rw [renewmatch, if_neg (by omega), if_neg]
          rw [hfs, hab]
          simpa [before] using hc
        rw [e]
        exact ⟨h, ⟨rfl, .inr ⟨a, b, hab, by omega⟩⟩, fun _ _ h => h, fun _ h => h⟩

/-! ## One thread -/

/-- One step along `next` without taking a character. -/
def NextEps (I : List Inst) (t : Text) (s pc q : Nat) : Prop :=
  ∃ x, I[pc]? = some x ∧ x.next = some q ∧
    ((∃ g, x.op = .lbra g) ∨ (∃ g, x.op = .rbra g) ∨ (x.op = .bol ∧ t.bol s) ∨ (x.op = .eol ∧ t.eol s) ∨ ∃ r, x.op = .or r)

/-- Some steps along `next` without taking a character. -/
inductive Chain (I : List Inst) (t : Text) (s : Nat) : Nat → Nat → Prop
  | refl : Chain I t s p p
  | head : NextEps I t s p q → Chain I t s q r → Chain I t s p r

theorem Chain.tail {I t s p q r} (h : Chain I t s p q) (h2 : NextEps I t s q r) : Chain I t s p r := by
  induction h with
  | refl => exact .head h2 .refl
  | head a _ ih => exact .head a (ih h2)

/-- The thread is among those that were run or wait. -/
def CovD (D : List (Nat × Nat)) (pend : List Thread) (q x : Nat) : Prop := (∃ y, y ≤ x ∧ (q, y) ∈ D) ∨ Cov pend q x

/-- What has to be so when an instruction was run for a thread that began at `x`. -/
def Ran (I : List Inst) (p : Place) (D : List (Nat × Nat)) (st : Run) (x pc : Nat) : Prop :=
  ∀ i, I[pc]? = some i →
    (takes i.op p.r = true → ∀ k, i.next = some k → Cov st.nl k x) ∧
    (i.op = .fin → Done st.mp st.matched x p.s) ∧
    (∀ q, i.op = .or q → CovD D st.pend q x)

/-- Nothing is lost. -/
structure Mono (st st' : Run) : Prop where
  nl : ∀ q x, Cov st.nl q x → Cov st'.nl q x
  pend : ∀ q x, Cov st.pend q x → Cov st'.pend q x
  done : ∀ y j, Done st.mp st.matched y j → Done st'.mp st'.matched y j
  beat : ∀ y, Beat st.mp st.matched y → Beat st'.mp st'.matched y

theorem Mono.refl (st : Run) : Mono st st := ⟨fun _ _ h => h, fun _ _ h => h, fun _ _ h => h, fun _ h => h⟩
theorem Mono.trans {a b c : Run} (h : Mono a b) (h2 : Mono b c) : Mono a c :=
  ⟨fun _ _ x => h2.nl _ _ (h.nl _ _ x), fun _ _ x => h2.pend _ _ (h.pend _ _ x), fun _ _ x => h2.done _ _ (h.done _ _ x),
    fun _ x => h2.beat _ (h.beat _ x)⟩

theorem CovD.mono {D D' pend pend' q x} (h : CovD D pend q x) (h1 : ∀ y, (q, y) ∈ D → (q, y) ∈ D')
    (h2 : Cov pend q x → CovD D' pend' q x) : CovD D' pend' q x := by
  rcases h with ⟨y, hy, hd⟩ | h
  · exact .inl ⟨y, hy, h1 y hd⟩
  · exact h2 h

theorem Ran.mono {p D st st' x pc} (h : Ran I p D st x pc) (hm : Mono st st') : Ran I p D st' x pc := by
  intro i hi
  obtain ⟨h1, h2, h3⟩ := h i hi
  exact ⟨fun a k b => hm.nl _ _ (h1 a k b), fun a => hm.done _ _ (h2 a),
    fun q a => (h3 q a).mono (fun _ h => h) fun h => .inr (hm.pend _ _ h)⟩

variable (I start t B ms) in
/-- The lists and the match are right. -/
structure StOk (p : Place) (s' : Nat) (st : Run) : Prop where
  pend : ∀ th ∈ st.pend, ThreadOk I start t B p.s th
  nlSp : ∀ th ∈ st.nl, HasSp th
  nl : p.r ≠ 0 → ∀ th ∈ st.nl, ThreadOk I start t B s' th
  mp : MatchOk I start t B ms p.s st.mp st.matched

variable (t) in
/-- The place is a place of the text. -/
structure PlaceOk (p : Place) (s' : Nat) : Prop where
  chr : p.r ≠ 0 → t.chr p.s p.r s'
  only : ∀ r j, t.chr p.s r j → r = p.r ∧ j = s'
  lt : p.s < s'
  bol : atBol p = true ↔ t.bol p.s
  eol : atEol p = true ↔ t.eol p.s

theorem RunTo.step {x pc s se q c} (h : RunTo I start t B x pc s se) (h2 : Step false I t (pc, s, capOf se) (q, s, c))
    {se' : List Resub} (hc : c = capOf se') (hl : se'.length = 32) (hf : first se' = first se) : RunTo I start t B x q s se' := by
  obtain ⟨n, hn⟩ := h.steps
  exact ⟨h.begins, h.le, ⟨_, hc ▸ hn.trans (.one h2)⟩, hl, hf ▸ h.sp⟩

theorem single_takes {o : Op} {r : Nat} (h : takes o r = true) : single o = true := by
  cases o <;> simp [takes, single] at *

/-- A thread that takes a character, or does not. -/
theorem accept_spec {p s' x pc se st st' i} (hp : PlaceOk t p s') (hi : I[pc]? = some i)
    {cond : Bool} (hcond : cond = takes i.op p.r) (hs : single i.op = true)
    (h : accept p i.next se st cond = .ok st') (hr : RunTo I start t B x pc p.s se) (hst : StOk I start t B ms p s' st)
    (D : List (Nat × Nat)) :
    StOk I start t B ms p s' st' ∧ Mono st st' ∧ Ran I p D st' x pc := by
  have nofin : i.op ≠ .fin := single_not_fin hs
  have noor : ∀ q, i.op ≠ .or q := by rintro q e; rw [e] at hs; simp [single] at hs
  cases hc : cond with
  | false =>
    rw [hc] at h hcond
    simp only [accept] at h
    cases h
    refine ⟨hst, .refl _, fun i' hi' => ?_⟩
    rw [hi] at hi'; cases hi'
    exact ⟨fun e => by rw [← hcond] at e; simp at e, fun e => absurd e nofin, fun q e => absurd e (noor q)⟩
  | true =>
    rw [hc] at h hcond
    simp only [accept] at h
    cases hn : i.next with
    | none => rw [hn] at h; cases h
    | some k =>
      rw [hn] at h
      simp only [if_true] at h
      obtain ⟨nl', e1, e2⟩ : ∃ nl', addthread p.cap st.nl.length k se st.nl = .ok nl' ∧ st' = { st with nl := nl' } := by
        cases ha : addthread p.cap st.nl.length k se st.nl <;> rw [ha] at h <;> cases h
        exact ⟨_, rfl, rfl⟩
      have e1 := addthread_ok e1
      subst e2
      have hsp : (first se).sp = some x := by rw [hr.sp]
      obtain ⟨c1, c2⟩ := renew_cov (ip := k) hst.nlSp hsp
      refine ⟨⟨hst.pend, ?_, ?_, hst.mp⟩, ⟨?_, fun _ _ h => h, fun _ _ h => h, fun _ h => h⟩, ?_⟩
      · intro th hth
        rcases renew_mem (e1 ▸ hth) with hth | rfl
        · exact hst.nlSp th hth
        · exact ⟨x, hsp⟩
      · intro h0 th hth
        rcases renew_mem (e1 ▸ hth) with hth | rfl
        · exact hst.nl h0 th hth
        · obtain ⟨n, hn'⟩ := hr.steps
          exact ⟨x, hr.begins, Nat.le_trans hr.le (Nat.le_of_lt hp.lt), ⟨_, hn'.trans (.one (.take hi hcond.symm hn (hp.chr h0)))⟩, hr.len, hr.sp⟩
      · intro q y hq
        exact e1 ▸ c1 q y hq
      · intro i' hi'
        rw [hi] at hi'; cases hi'
        refine ⟨fun _ k' hk' => ?_, fun e => absurd e nofin, fun q e => absurd e (noor q)⟩
        rw [hn] at hk'; cases hk'
        exact e1 ▸ c2

/-- An instruction that only leads to the next one. -/
theorem chain_spec {p D st' x pc q} (hn : ∀ q', NextEps I t p.s pc q' → q' = q)
    (h1 : Ran I p D st' x pc) (h2 : ∀ pc', Chain I t p.s q pc' → Ran I p D st' x pc') :
    ∀ pc', Chain I t p.s pc pc' → Ran I p D st' x pc' := by
  intro pc' hc
  cases hc with
  | refl => exact h1
  | head a b => exact h2 pc' (hn _ a ▸ b)

theorem chain_none {p D st' x pc} (hn : ∀ q', ¬ NextEps I t p.s pc q') (h1 : Ran I p D st' x pc) :
    ∀ pc', Chain I t p.s pc pc' → Ran I p D st' x pc' := by
  intro pc' hc
  cases hc with
  | refl => exact h1
  | head a b => exact absurd a (hn _)

theorem single_next {o : Op} {s pc : Nat} {nx} (hi : I[pc]? = some ⟨o, nx⟩) (hs : single o = true) : ∀ q', ¬ NextEps I t s pc q' := by
  rintro q' ⟨x, hx, _, h⟩
  rw [hi] at hx; cases hx
  rcases h with ⟨g, h⟩ | ⟨g, h⟩ | ⟨h, _⟩ | ⟨h, _⟩ | ⟨g, h⟩ <;> simp at h <;> subst h <;> simp [single] at hs

theorem next_only {s pc : Nat} {o k} (hi : I[pc]? = some ⟨o, some k⟩) : ∀ q', NextEps I t s pc q' → q' = k := by
  rintro q' ⟨x, hx, hn, h⟩
  rw [hi] at hx; cases hx
  simpa using hn.symm

/-- The run of one thread. -/
theorem walk_spec {p s' ent x} (hids : IdsOk I) (hp : PlaceOk t p s') (D : List (Nat × Nat)) (hD : (ent, x) ∈ D) :
    ∀ (fuel pc : Nat) se st st', walk I p ent fuel (some pc) se st = .ok st' → RunTo I start t B x pc p.s se →
      StOk I start t B ms p s' st →
      StOk I start t B ms p s' st' ∧ Mono st st' ∧ ∀ pc', Chain I t p.s pc pc' → Ran I p D st' x pc' := by
  intro fuel
  induction fuel with
  | zero => intro pc se st st' h; simp [walk] at h
  | succ n ih =>
    intro pc se st st' h hr hst
    have ih' : ∀ (nx : Option Nat) se st st', walk I p ent n nx se st = .ok st' → ∃ k, nx = some k ∧
        (RunTo I start t B x k p.s se → StOk I start t B ms p s' st →
        StOk I start t B ms p s' st' ∧ Mono st st' ∧ ∀ pc', Chain I t p.s k pc' → Ran I p D st' x pc') := by
      intro nx se st st' h
      cases nx with
      | none => cases n <;> simp [walk] at h
      | some k => exact ⟨k, rfl, fun a b => ih k se st st' h a b⟩
    rw [walk] at h
    cases hi : I[pc]? with
    | none => rw [hi] at h; cases h
    | some i =>
      rw [hi] at h
      obtain ⟨o, nx⟩ := i
      have single_case : ∀ cond : Bool, cond = takes o p.r → single o = true → accept p nx se st cond = .ok st' →
          StOk I start t B ms p s' st' ∧ Mono st st' ∧ ∀ pc', Chain I t p.s pc pc' → Ran I p D st' x pc' := by
        intro cond hc hs ha
        obtain ⟨a, b, c⟩ := accept_spec (i := ⟨o, nx⟩) hp hi hc hs ha hr hst D
        exact ⟨a, b, chain_none (single_next hi hs) c⟩
      cases o with
      | rune c => exact single_case _ (by simp [takes]) rfl h
      | any => exact single_case _ (by simp [takes]) rfl h
      | anynl => exact single_case _ (by simp [takes]) rfl h
      | cclass s => exact single_case _ (by simp [takes]) rfl h
      | ncclass s => exact single_case _ (by simp [takes]) rfl h
      | nop =>
        cases h
        refine ⟨hst, .refl _, chain_none ?_ ?_⟩
        · rintro q' ⟨x, hx, _, h⟩
          rw [hi] at hx; cases hx
          rcases h with ⟨g, h⟩ | ⟨g, h⟩ | ⟨h, _⟩ | ⟨h, _⟩ | ⟨g, h⟩ <;> simp at h
        · intro i' hi'
          rw [hi] at hi'; cases hi'
          exact ⟨by simp [takes], by simp, by simp⟩
      | fin =>
        cases h
        obtain ⟨a, b, c, d⟩ := renewmatch_ok hst.mp ⟨_, hi, rfl⟩ hr
        refine ⟨⟨hst.pend, hst.nlSp, hst.nl, a⟩, ⟨fun _ _ h => h, fun _ _ h => h, c, d⟩, chain_none ?_ ?_⟩
        · rintro q' ⟨x, hx, _, h⟩
          rw [hi] at hx; cases hx
          rcases h with ⟨g, h⟩ | ⟨g, h⟩ | ⟨h, _⟩ | ⟨h, _⟩ | ⟨g, h⟩ <;> simp at h
        · intro i' hi'
          rw [hi] at hi'; cases hi'
          exact ⟨by simp [takes], fun _ => b, by simp⟩
      | lbra g =>
        obtain ⟨k, rfl, hk⟩ := ih' _ _ _ _ h
        obtain ⟨g1, g2⟩ := hids _ _ hi g (.inl rfl)
        obtain ⟨a, b, c⟩ := hk (hr.step (.lbra g hi rfl rfl) (capOf_setSp (by rw [hr.len]; exact g2)).symm
          (by rw [setSp_length, hr.len]) (first_setSp (by omega))) hst
        refine ⟨a, b, chain_spec (next_only hi) ?_ c⟩
        intro i' hi'
        rw [hi] at hi'; cases hi'
        exact ⟨by simp [takes], by simp, by simp⟩
      | rbra g =>
        obtain ⟨k, rfl, hk⟩ := ih' _ _ _ _ h
        obtain ⟨g1, g2⟩ := hids _ _ hi g (.inr rfl)
        obtain ⟨a, b, c⟩ := hk (hr.step (.rbra g hi rfl rfl) (capOf_setEp (by rw [hr.len]; exact g2)).symm
          (by rw [setEp_length, hr.len]) (first_setEp (by omega))) hst
        refine ⟨a, b, chain_spec (next_only hi) ?_ c⟩
        intro i' hi'
        rw [hi] at hi'; cases hi'
        exact ⟨by simp [takes], by simp, by simp⟩
      | bol =>
        simp only at h
        split at h
        · rename_i hb
          obtain ⟨k, rfl, hk⟩ := ih' _ _ _ _ h
          obtain ⟨a, b, c⟩ := hk (hr.step (.bol hi rfl rfl (hp.bol.1 hb)) rfl hr.len rfl) hst
          refine ⟨a, b, chain_spec (next_only hi) ?_ c⟩
          intro i' hi'
          rw [hi] at hi'; cases hi'
          exact ⟨by simp [takes], by simp, by simp⟩
        · rename_i hb
          cases h
          refine ⟨hst, .refl _, chain_none ?_ ?_⟩
          · rintro q' ⟨x, hx, _, h⟩
            rw [hi] at hx; cases hx
            rcases h with ⟨g, h⟩ | ⟨g, h⟩ | ⟨h, h'⟩ | ⟨h, _⟩ | ⟨g, h⟩
            · cases h
            · cases h
            · exact hb (hp.bol.2 h')
            · cases h
            · cases h
          · intro i' hi'
            rw [hi] at hi'; cases hi'
            exact ⟨by simp [takes], by simp, by simp⟩
      | eol =>
        simp only at h
        split at h
        · rename_i hb
          obtain ⟨k, rfl, hk⟩ := ih' _ _ _ _ h
          obtain ⟨a, b, c⟩ := hk (hr.step (.eol hi rfl rfl (hp.eol.1 hb)) rfl hr.len rfl) hst
          refine ⟨a, b, chain_spec (next_only hi) ?_ c⟩
          intro i' hi'
          rw [hi] at hi'; cases hi'
          exact ⟨by simp [takes], by simp, by simp⟩
        · rename_i hb
          cases h
          refine ⟨hst, .refl _, chain_none ?_ ?_⟩
          · rintro q' ⟨x, hx, _, h⟩
            rw [hi] at hx; cases hx
            rcases h with ⟨g, h⟩ | ⟨g, h⟩ | ⟨h, _⟩ | ⟨h, h'⟩ | ⟨g, h⟩
            · cases h
            · cases h
            · cases h
            · exact hb (hp.eol.2 h')
            · cases h
          · intro i' hi'
            rw [hi] at hi'; cases hi'
            exact ⟨by simp [takes], by simp, by simp⟩
      | or right =>
        simp only at h
        split at h
        · rename_i he
          obtain ⟨k, rfl, hk⟩ := ih' _ _ _ _ h
          obtain ⟨a, b, c⟩ := hk (hr.step (.orL right hi rfl rfl) rfl hr.len rfl) hst
          refine ⟨a, b, chain_spec (next_only hi) ?_ c⟩
          intro i' hi'
          rw [hi] at hi'; cases hi'
          refine ⟨by simp [takes], by simp, ?_⟩
          intro q hq
          cases hq
          exact .inl ⟨x, Nat.le_refl _, he ▸ hD⟩
        · obtain ⟨pend', e1, e2⟩ : ∃ pend', addthread p.cap (st.used + st.pend.length) right se st.pend = .ok pend' ∧
              walk I p ent n nx se { st with pend := pend' } = .ok st' := by
            cases ha : addthread p.cap (st.used + st.pend.length) right se st.pend <;> rw [ha] at h <;> simp only [Res.bind] at h <;> try cases h
            exact ⟨_, rfl, h⟩
          have e1 := addthread_ok e1
          obtain ⟨k, rfl, hk⟩ := ih' _ _ _ _ e2
          have hsp : (first se).sp = some x := by rw [hr.sp]
          obtain ⟨c1, c2⟩ := renew_cov (ip := right) (fun th hth => (hst.pend th hth).hasSp) hsp
          have hright := hr.step (.orR right hi rfl) rfl hr.len rfl
          obtain ⟨a, b, c⟩ := hk (hr.step (.orL right hi rfl rfl) rfl hr.len rfl) (by
            refine ⟨?_, hst.nlSp, hst.nl, hst.mp⟩
            intro th hth
            rcases renew_mem (e1 ▸ hth) with hth | rfl
            · exact hst.pend th hth
            · exact ⟨x, hright⟩)
          have m1 : Mono st { st with pend := pend' } := ⟨fun _ _ h => h, fun q y hq => e1 ▸ c1 q y hq, fun _ _ h => h, fun _ h => h⟩
          refine ⟨a, m1.trans b, chain_spec (next_only hi) ?_ c⟩
          intro i' hi'
          rw [hi] at hi'; cases hi'
          refine ⟨by simp [takes], by simp, ?_⟩
          intro q hq
          cases hq
          exact .inr (b.pend _ _ (e1 ▸ c2))

/-- All threads of a place. -/
theorem runList_spec {p s'} (hids : IdsOk I) (hp : PlaceOk t p s') : ∀ (fuel : Nat) (D : List (Nat × Nat)) st st',
    runList I p fuel st = .ok st' → StOk I start t B ms p s' st →
    (∀ e ∈ D, ∀ pc', Chain I t p.s e.1 pc' → Ran I p D st e.2 pc') →
    ∃ D', StOk I start t B ms p s' st' ∧ (∀ q x, Cov st.nl q x → Cov st'.nl q x) ∧
      (∀ y j, Done st.mp st.matched y j → Done st'.mp st'.matched y j) ∧
      (∀ y, Beat st.mp st.matched y → Beat st'.mp st'.matched y) ∧
      (∀ q x, CovD D st.pend q x → CovD D' [] q x) ∧
      (∀ e ∈ D', ∀ pc', Chain I t p.s e.1 pc' → Ran I p D' st' e.2 pc') ∧ st'.pend = [] := by
  intro fuel
  induction fuel with
  | zero => intro D st st' h; simp [runList] at h
  | succ n ih =>
    intro D st st' h hst hD
    rw [runList] at h
    cases hpd : st.pend with
    | nil =>
      rw [hpd] at h
      cases h
      exact ⟨D, hst, fun _ _ h => h, fun _ _ h => h, fun _ h => h, fun _ _ h => h, hD, hpd⟩
    | cons th ts =>
      rw [hpd] at h
      simp only at h
      obtain ⟨st1, h1, h2⟩ : ∃ st1, walk I p th.inst (I.length + 1) (some th.inst) th.se { st with used := st.used + 1, pend := ts } = .ok st1 ∧
          runList I p n st1 = .ok st' := by
        cases ha : walk I p th.inst (I.length + 1) (some th.inst) th.se { st with used := st.used + 1, pend := ts } <;>
          rw [ha] at h <;> simp only [Res.bind] at h <;> try cases h
        exact ⟨_, rfl, h⟩
      obtain ⟨x, hx⟩ := hst.pend th (by rw [hpd]; exact List.mem_cons_self ..)
      obtain ⟨a, b, c⟩ := walk_spec hids hp ((th.inst, x) :: D) (List.mem_cons_self ..) _ _ _ _ _ h1 hx
        ⟨fun th' h' => hst.pend th' (by rw [hpd]; exact List.mem_cons_of_mem _ h'), hst.nlSp, hst.nl, hst.mp⟩
      have hcov : ∀ q y, CovD D st.pend q y → CovD ((th.inst, x) :: D) ts q y := by
        intro q y hq
        refine hq.mono (fun _ h => List.mem_cons_of_mem _ h) ?_
        rintro ⟨t', ht', e1, z, e2, e3⟩
        rw [hpd] at ht'
        rcases List.mem_cons.1 ht' with rfl | ht'
        · rw [hx.sp] at e2; cases e2
          exact .inl ⟨x, e3, by rw [← e1]; exact List.mem_cons_self ..⟩
        · exact .inr ⟨t', ht', e1, z, e2, e3⟩
      have hcov2 : ∀ q y, CovD ((th.inst, x) :: D) ts q y → CovD ((th.inst, x) :: D) st1.pend q y := by
        intro q y hq
        exact hq.mono (fun _ h => h) fun h => .inr (b.pend _ _ h)
      obtain ⟨D', r1, r2, r3, r4, r5, r6, r7⟩ := ih ((th.inst, x) :: D) st1 st' h2 a (by
        intro e he pc' hc
        rcases List.mem_cons.1 he with rfl | he
        · exact c pc' hc
        · intro i hi
          obtain ⟨g1, g2, g3⟩ := hD e he pc' hc i hi
          exact ⟨fun a' k b' => b.nl _ _ (g1 a' k b'), fun a' => b.done _ _ (g2 a'), fun q a' => hcov2 _ _ (hcov _ _ (g3 q a'))⟩)
      exact ⟨D', r1, fun q x h => r2 _ _ (b.nl _ _ h), fun y j h => r3 _ _ (b.done _ _ h), fun y h => r4 _ (b.beat _ h),
        fun q x h => r5 _ _ (hcov2 _ _ (hcov _ _ (hpd ▸ h))), r6, r7⟩

end

end Che.Proofs.Regexp9
