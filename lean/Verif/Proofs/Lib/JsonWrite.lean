import Verif.Proofs.Lib.Json
import Verif.Spec.Lib.JsonValue

/-!
The values of JSON texts, and the texts that `lib/formats/json.c` writes.
-/
namespace Che.Lib.Json
open Che.Lib Che.Spec.Lib

variable {D : Type}

theorem filterMap_same {α β : Type} {f g : α → Option β} {l : List α} (h : ∀ x ∈ l, f x = g x) : l.filterMap f = l.filterMap g := by
  induction l with
  | nil => rfl
  | cons a l ih =>
    rw [List.filterMap_cons, List.filterMap_cons, h a (by simp), ih fun x hx => h x (List.mem_cons_of_mem _ hx)]

theorem mem_firsts (k : Bytes) (ks : List Bytes) : k ∈ firsts ks ↔ k ∈ ks := by
  induction ks with
  | nil => rfl
  | cons a ks ih =>
    simp only [firsts, List.mem_cons, List.mem_filter, ih]
    by_cases h : k = a <;> simp [h]

theorem firsts_nodup (ks : List Bytes) : (firsts ks).Nodup := by
  induction ks with
  | nil => exact List.nodup_nil
  | cons a ks ih =>
    refine List.nodup_cons.mpr ⟨?_, ih.filter _⟩
    simp

theorem firsts_snoc (ks : List Bytes) (k : Bytes) : firsts (ks ++ [k]) = if k ∈ ks then firsts ks else firsts ks ++ [k] := by
  induction ks with
  | nil => rfl
  | cons a ks ih =>
    simp only [List.cons_append, firsts, ih]
    by_cases h : k ∈ ks
    · simp [h]
    · by_cases ha : k = a
      · subst ha; simp [h]
      · simp [h, ha]

theorem firsts_of_nodup {ks : List Bytes} (h : ks.Nodup) : firsts ks = ks := by
  induction ks with
  | nil => rfl
  | cons a ks ih =>
    rw [List.nodup_cons] at h
    simp only [firsts, ih h.2]
    congr 1
    rw [List.filter_eq_self]
    intro x hx
    simp only [decide_eq_true_eq]
    rintro rfl; exact h.1 hx

theorem lastFor_snoc {V : Type} (k k' : Bytes) (v : V) (es : List (Bytes × V)) :
    lastFor k (es ++ [(k', v)]) = if k' = k then some v else lastFor k es := by
  unfold lastFor
  rw [List.reverse_append, List.reverse_singleton, List.singleton_append, List.find?_cons]
  by_cases h : k' = k <;> simp [h]

theorem lastFor_some {V : Type} {k : Bytes} {es : List (Bytes × V)} (h : k ∈ es.map Prod.fst) : ∃ v, lastFor k es = some v := by
  unfold lastFor
  cases hf : es.reverse.find? (fun e => decide (e.1 = k)) with
  | some e => exact ⟨e.2, rfl⟩
  | none =>
    rw [List.find?_eq_none] at hf
    obtain ⟨e, he, rfl⟩ := List.mem_map.mp h
    exact absurd (hf e (List.mem_reverse.mpr he)) (by simp)

theorem put_map {V : Type} (k : Bytes) (v : V) (f : Bytes → Option V) (ks : List Bytes) (hk : k ∉ ks) :
    put k v (ks.filterMap fun x => (f x).map fun v => (x, v)) = (ks.filterMap fun x => (f x).map fun v => (x, v)) ++ [(k, v)] := by
  induction ks with
  | nil => rfl
  | cons a ks ih =>
    simp only [List.mem_cons, not_or] at hk
    cases hfa : f a with
    | none => simp [List.filterMap_cons, hfa, ih hk.2]
    | some w =>
      simp only [List.filterMap_cons, hfa, Option.map_some, put, List.cons_append]
      rw [if_neg (fun e => hk.1 e.symm), ih hk.2]

theorem put_mem {V : Type} (k : Bytes) (v : V) (f : Bytes → Option V) (ks : List Bytes) (hn : ks.Nodup) (hk : k ∈ ks)
    (hf : ∀ x ∈ ks, ∃ w, f x = some w) :
    put k v (ks.filterMap fun x => (f x).map fun v => (x, v)) =
      ks.filterMap fun x => (if k = x then some v else f x).map fun v => (x, v) := by
  induction ks with
  | nil => simp at hk
  | cons a ks ih =>
    obtain ⟨w, hw⟩ := hf a (by simp)
    rw [List.nodup_cons] at hn
    simp only [List.filterMap_cons, hw, Option.map_some, put]
    by_cases h : a = k
    · subst h
      simp only [if_true, Option.map_some]
      congr 1
      apply filterMap_same
      intro x hx
      rw [if_neg (fun e : a = x => hn.1 (e ▸ hx))]
    · have hk' : k ∈ ks := by simpa [Ne.symm h] using hk
      rw [if_neg h, if_neg (Ne.symm h)]
      simp only [Option.map_some]
      rw [ih hn.2 hk' (fun x hx => hf x (List.mem_cons_of_mem _ hx))]

theorem lastWins_snoc {V : Type} (k : Bytes) (v : V) (es : List (Bytes × V)) : lastWins (es ++ [(k, v)]) = put k v (lastWins es) := by
  unfold lastWins
  simp only [List.map_append, List.map_cons, List.map_nil, firsts_snoc, lastFor_snoc]
  by_cases h : k ∈ es.map Prod.fst
  · rw [if_pos h, put_mem k v (fun x => lastFor x es) _ (firsts_nodup _) ((mem_firsts _ _).mpr h)
      (fun x hx => lastFor_some ((mem_firsts _ _).mp hx))]
  · rw [if_neg h, put_map k v (fun x => lastFor x es) _ (fun e => h ((mem_firsts _ _).mp e)), List.filterMap_append]
    congr 1
    · apply filterMap_same
      intro x hx
      rw [if_neg]
      rintro rfl
      exact h ((mem_firsts _ _).mp hx)
    · simp

/-- The loop that puts entries makes every name appear once, with its last value. -/
theorem fold_put {V : Type} (es done : List (Bytes × V)) :
    es.foldl (fun o e => put e.1 e.2 o) (lastWins done) = lastWins (done ++ es) := by
  induction es generalizing done with
  | nil => simp
  | cons e es ih => rw [List.foldl_cons, ← lastWins_snoc, ih]; simp

mutual
theorem toVal_value (dbl : Dbl D) : ∀ j : JVal, toVal dbl j = j.value dbl.scan
  | .null => rfl
  | .bool _ => rfl
  | .num _ => rfl
  | .str _ => rfl
  | .arr vs => by rw [toVal, JVal.value, toVals_values dbl vs]
  | .obj es => by
    rw [toVal, JVal.value, toEntries_members dbl es []]
    exact congrArg Val.obj (fold_put (JVal.members dbl.scan es) [])

theorem toVals_values (dbl : Dbl D) : ∀ vs : List JVal, toVals dbl vs = JVal.values dbl.scan vs
  | [] => rfl
  | v :: vs => by rw [toVals, JVal.values, toVal_value dbl v, toVals_values dbl vs]

theorem toEntries_members (dbl : Dbl D) : ∀ (es : List (Bytes × JVal)) (o : List (Bytes × Val D)),
    toEntries dbl es o = (JVal.members dbl.scan es).foldl (fun o e => put e.1 e.2 o) o
  | [], _ => rfl
  | (k, v) :: es, o => by rw [toEntries, JVal.members, toVal_value dbl v, toEntries_members dbl es, List.foldl_cons]
end

theorem lastWins_nodup {V : Type} (es : List (Bytes × V)) : ((lastWins es).map Prod.fst).Nodup := by
  have : (lastWins es).map Prod.fst = firsts (es.map Prod.fst) := by
    unfold lastWins
    rw [List.map_filterMap]
    conv => rhs; rw [← List.filterMap_some (l := firsts (es.map Prod.fst))]
    apply filterMap_same
    intro k hk
    obtain ⟨v, hv⟩ := lastFor_some ((mem_firsts _ _).mp hk)
    simp [hv]
  rw [this]; exact firsts_nodup _

theorem lastWins_cons {V : Type} (k : Bytes) (v : V) (es : List (Bytes × V)) (hk : k ∉ es.map Prod.fst) (hn : (es.map Prod.fst).Nodup) :
    lastWins ((k, v) :: es) = (k, v) :: lastWins es := by
  have hne : ∀ e ∈ es, e.1 ≠ k := fun e he h => hk (h ▸ List.mem_map.mpr ⟨e, he, rfl⟩)
  unfold lastWins
  have hfs : firsts (List.map Prod.fst ((k, v) :: es)) = k :: firsts (es.map Prod.fst) := by
    rw [List.map_cons, firsts_of_nodup (List.nodup_cons.mpr ⟨hk, hn⟩), firsts_of_nodup hn]
  have hl : ∀ x, lastFor x ((k, v) :: es) = (lastFor x es).or (if k = x then some v else none) := by
    intro x
    unfold lastFor
    rw [List.reverse_cons, List.find?_append]
    cases es.reverse.find? (fun e => decide (e.1 = x)) with
    | some e => rfl
    | none => by_cases h : k = x <;> simp [h]
  have hlk : lastFor k es = none := by
    unfold lastFor
    rw [List.find?_eq_none.mpr, Option.map_none]
    intro e he; simpa using hne e (List.mem_reverse.mp he)
  rw [hfs, List.filterMap_cons, hl k, hlk]
  simp only [if_true, Option.none_or, Option.map_some]
  congr 1
  apply filterMap_same
  intro x hx
  rw [hl x, if_neg (fun e : k = x => hk (e ▸ (mem_firsts _ _).mp hx)), Option.or_none]

theorem lastWins_self {V : Type} {es : List (Bytes × V)} (h : (es.map Prod.fst).Nodup) : lastWins es = es := by
  induction es with
  | nil => rfl
  | cons e es ih =>
    obtain ⟨k, v⟩ := e
    rw [List.map_cons, List.nodup_cons] at h
    rw [lastWins_cons k v es h.1 h.2, ih h.2]

theorem lastWins_mem {V : Type} {es : List (Bytes × V)} {e : Bytes × V} (h : e ∈ lastWins es) : e ∈ es := by
  unfold lastWins at h
  obtain ⟨k, _, hv⟩ := List.mem_filterMap.mp h
  cases hl : lastFor k es with
  | none => rw [hl] at hv; cases hv
  | some v =>
    rw [hl] at hv
    simp only [Option.map_some, Option.some.injEq] at hv
    subst hv
    unfold lastFor at hl
    cases hf : es.reverse.find? (fun e => decide (e.1 = k)) with
    | none => rw [hf] at hl; cases hl
    | some e =>
      rw [hf] at hl
      have h1 := List.find?_some hf
      have h2 := List.mem_of_find?_eq_some hf
      simp only [Option.map_some, Option.some.injEq] at hl
      simp only [decide_eq_true_eq] at h1
      rw [← hl, ← h1]; exact List.mem_reverse.mp h2

mutual
theorem value_distinct (num : Bytes → D) : ∀ j : JVal, Distinct (j.value num)
  | .null => .null
  | .bool b => .bool b
  | .num _ => .num _
  | .str s => .str s
  | .arr vs => .arr (values_distinct num vs)
  | .obj es => .obj (lastWins_nodup _) fun e he => members_distinct num es e (lastWins_mem he)

theorem values_distinct (num : Bytes → D) : ∀ vs : List JVal, ∀ v ∈ JVal.values num vs, Distinct v
  | [] => by simp [JVal.values]
  | j :: vs => by
    intro v hv
    rw [JVal.values] at hv
    rcases List.mem_cons.mp hv with rfl | hv
    · exact value_distinct num j
    · exact values_distinct num vs v hv

theorem members_distinct (num : Bytes → D) : ∀ es : List (Bytes × JVal), ∀ e ∈ JVal.members num es, Distinct e.2
  | [] => by simp [JVal.members]
  | (k, j) :: es => by
    intro e he
    rw [JVal.members] at he
    rcases List.mem_cons.mp he with rfl | he
    · exact value_distinct num j
    · exact members_distinct num es e he
end

/-! ### More lenient readings -/

/-- Every text of one lexicon is a text of the other. -/
structure Le (L M : JLex) : Prop where
  ws : ∀ c, L.ws c → M.ws c
  number : ∀ t, L.number t → M.number t
  plain : ∀ c, L.plain c → M.plain c
  esc : ∀ e x, L.esc e x → M.esc e x

theorem Le.chars {L M : JLex} (h : Le L M) {t s : Bytes} (hc : JChars L t s) : JChars M t s := by
  induction hc with
  | nil => exact .nil
  | plain hp h1 h2 _ ih => exact .plain (h.plain _ hp) h1 h2 ih
  | esc he _ ih => exact .esc (h.esc _ _ he) ih

theorem Le.string {L M : JLex} (h : Le L M) {t s : Bytes} (hc : JString L t s) : JString M t s := by
  obtain ⟨u, hu, e⟩ := hc; exact ⟨u, h.chars hu, e⟩

theorem Le.blanks {L M : JLex} (h : Le L M) {w : Bytes} (hw : Blanks L w) : Blanks M w := fun c hc => h.ws c (hw c hc)

mutual
theorem Le.text {L M : JLex} (h : Le L M) : ∀ {j t}, JText L j t → JText M j t
  | _, _, .null => .null
  | _, _, .true => .true
  | _, _, .false => .false
  | _, _, .num hn => .num (h.number _ hn)
  | _, _, .str hs => .str (h.string hs)
  | _, _, .arr0 hw => .arr0 (h.blanks hw)
  | _, _, .arr hi => .arr (h.items hi)
  | _, _, .obj0 hw => .obj0 (h.blanks hw)
  | _, _, .obj hm => .obj (h.members hm)

theorem Le.items {L M : JLex} (h : Le L M) : ∀ {j js t}, JItems L j js t → JItems M j js t
  | _, _, _, .one ha ht hb => .one (h.blanks ha) (h.text ht) (h.blanks hb)
  | _, _, _, .more ha ht hb hr => .more (h.blanks ha) (h.text ht) (h.blanks hb) (h.items hr)

theorem Le.members {L M : JLex} (h : Le L M) : ∀ {e es t}, JMembers L e es t → JMembers M e es t
  | _, _, _, .one ha hk hb hc ht hd => .one (h.blanks ha) (h.string hk) (h.blanks hb) (h.blanks hc) (h.text ht) (h.blanks hd)
  | _, _, _, .more ha hk hb hc ht hd hr =>
    .more (h.blanks ha) (h.string hk) (h.blanks hb) (h.blanks hc) (h.text ht) (h.blanks hd) (h.members hr)
end

theorem Le.doc {L M : JLex} (h : Le L M) {j : JVal} {t : Bytes} (hd : JDoc L j t) : JDoc M j t := by
  obtain ⟨a, u, b, ha, hu, hb, e⟩ := hd
  exact ⟨a, u, b, h.blanks ha, h.text hu, h.blanks hb, e⟩

theorem jint_digits {t : Bytes} (h : JInt t) : JDigits t := by
  rcases h with rfl | ⟨d, r, rfl, h1, h2, h3⟩
  · refine ⟨by simp, ?_⟩
    intro c hc
    simp only [List.mem_singleton] at hc
    subst hc; unfold JDigit; decide
  · refine ⟨by simp, ?_⟩
    intro c hc
    rcases List.mem_cons.mp hc with rfl | hc
    · refine ⟨?_, h2⟩
      rw [UInt8.le_iff_toNat_le] at *
      have : (48 : UInt8).toNat = 48 := rfl
      have : (49 : UInt8).toNat = 49 := rfl
      omega
    · exact h3 c hc

theorem number_int {t : Bytes} (h : JNumber JInt t) : JNumber JDigits t := by
  obtain ⟨sg, ds, f, x, e, h1, h2, h3⟩ := h
  exact ⟨sg, ds, f, x, e, h1, jint_digits h2, h3⟩

theorem simple_lax : Le simple lax where
  ws c h := by
    rcases h with rfl | rfl | rfl | rfl <;> simp [lax] <;> decide
  number t h := ⟨number_int h.1, h.2⟩
  plain _ _ := trivial
  esc e x h := by cases h <;> exact ⟨_, rfl, rfl⟩

theorem simple_rfc : Le simple rfc where
  ws _ h := h
  number _ h := h.1
  plain _ h := h
  esc e x h := by cases h <;> constructor

/-! ### Reading -/

theorem stop_blanks {b : Bytes} (hb : Blanks lax b) : Stop b := by
  intro x s e
  have hx : lax.ws x := hb x (by rw [e]; simp)
  revert hx; clear e hb
  simp only [lax]
  revert x
  apply Bits.forall_byte
  decide +kernel

theorem parse_doc (dbl : Dbl D) {j : JVal} {text : Bytes} (h : JDoc lax j text) :
    ∃ p, parse dbl text = .ok (p, j.value dbl.scan) ∧ p.sound = true := by
  obtain ⟨a, t, b, ha, ht, hb, rfl⟩ := h
  have hs := parse_same (strict := false) dbl (a ++ t ++ b) (by simp)
  rw [complete_text dbl ht a b _ ha (stop_blanks hb) (by simp [budget]; omega)] at hs
  rw [toVal_value] at hs
  generalize parse dbl (a ++ t ++ b) = r at *
  cases hs with
  | ok h => obtain ⟨seen, h⟩ := h; exact ⟨_, rfl, h.sound⟩

theorem parse_ok (dbl : Dbl D) {text : Bytes} {p : Tok.T} {v : Val D} (hf : NumsFit text) (h : parse dbl text = .ok (p, v)) :
    ∃ a t rest j, text = a ++ t ++ rest ∧ Blanks lax a ∧ JText lax j t ∧ j.value dbl.scan = v ∧ p.sound = true := by
  have hs := parse_same (strict := true) dbl text (fun _ => hf)
  rw [h] at hs
  generalize hl : lnode dbl (budget text) text = r at *
  cases hs with
  | ok hat =>
    obtain ⟨a, t, j, e, ha, ht, hv⟩ := (sound dbl _).1 _ _ _ hl
    obtain ⟨seen, hat⟩ := hat
    exact ⟨a, t, _, j, e, ha, ht, by rw [← toVal_value, hv], hat.sound⟩
  | over h => cases h

theorem parse_answers (dbl : Dbl D) {text : Bytes} (hf : NumsFit text) :
    (∃ p v, parse dbl text = .ok (p, v)) ∨ parse dbl text = .err () := by
  have hs := parse_same (strict := true) dbl text (fun _ => hf)
  have hd := (nodiv dbl (budget text)).1 text (Nat.le_refl _)
  generalize parse dbl text = q at *
  generalize lnode dbl (budget text) text = r at *
  cases hs with
  | ok => exact .inl ⟨_, _, rfl⟩
  | err => exact .inr rfl
  | div => exact absurd rfl hd
  | over h => cases h

/-! ### Objects -/

theorem get_put {V : Type} (k k' : Bytes) (v : V) (es : List (Bytes × V)) :
    get k' (put k v es) = if k' = k then some v else get k' es := by
  induction es with
  | nil => by_cases h : k = k' <;> simp [put, get, h, eq_comm]
  | cons e es ih =>
    simp only [put]
    by_cases h : e.1 = k
    · rw [if_pos h]
      simp only [get, h]
      by_cases hk : k = k'
      · rw [if_pos hk, if_pos hk.symm]
      · rw [if_neg hk, if_neg (Ne.symm hk), if_neg hk]
    · rw [if_neg h]
      simp only [get, ih]
      by_cases he : e.1 = k'
      · rw [if_pos he, if_neg (fun e' => h (he.trans e')), if_pos he]
      · rw [if_neg he, if_neg he]

theorem put_keys {V : Type} (k : Bytes) (v : V) (es : List (Bytes × V)) :
    (put k v es).map Prod.fst = if k ∈ es.map Prod.fst then es.map Prod.fst else es.map Prod.fst ++ [k] := by
  induction es with
  | nil => rfl
  | cons e es ih =>
    simp only [put]
    by_cases h : e.1 = k
    · simp [h]
    · rw [if_neg h, List.map_cons, ih]
      by_cases hm : k ∈ es.map Prod.fst
      · rw [if_pos hm, if_pos (by rw [List.map_cons]; exact List.mem_cons_of_mem _ hm), List.map_cons]
      · rw [if_neg hm, if_neg (by rw [List.map_cons, List.mem_cons, not_or]; exact ⟨Ne.symm h, hm⟩)]
        simp

mutual
theorem clone_ok : ∀ v : Val D, NoNull v → Distinct v → clone v = .ok v
  | .null, h, _ => by cases h
  | .bool _, _, _ => rfl
  | .num _, _, _ => rfl
  | .str _, _, _ => rfl
  | .arr vs, h, d => by
    cases h with | arr h => cases d with | arr d =>
    rw [clone, cloneVals_ok vs [] h d]; rfl
  | .obj es, h, d => by
    cases h with | obj h => cases d with | obj hn d =>
    rw [clone, cloneEntries_ok es [] h d]
    show Res.ok (Val.obj (es.foldl (fun o e => put e.1 e.2 o) [])) = _
    rw [show ([] : List (Bytes × Val D)) = lastWins [] from rfl, fold_put, List.nil_append, lastWins_self hn]

theorem cloneVals_ok : ∀ (vs copy : List (Val D)), (∀ v ∈ vs, NoNull v) → (∀ v ∈ vs, Distinct v) →
    cloneVals vs copy = .ok (copy ++ vs)
  | [], copy, _, _ => by simp [cloneVals]
  | v :: vs, copy, h, d => by
    rw [cloneVals, clone_ok v (h v (by simp)) (d v (by simp))]
    show cloneVals vs (push v copy) = _
    rw [cloneVals_ok vs _ (fun w hw => h w (by simp [hw])) (fun w hw => d w (by simp [hw]))]
    simp [push]

theorem cloneEntries_ok : ∀ (es copy : List (Bytes × Val D)), (∀ e ∈ es, NoNull e.2) → (∀ e ∈ es, Distinct e.2) →
    cloneEntries es copy = .ok (es.foldl (fun o e => put e.1 e.2 o) copy)
  | [], copy, _, _ => by simp [cloneEntries]
  | (k, v) :: es, copy, h, d => by
    rw [cloneEntries, clone_ok v (h (k, v) (by simp)) (d (k, v) (by simp))]
    show cloneEntries es (put k v copy) = _
    rw [cloneEntries_ok es _ (fun w hw => h w (by simp [hw])) (fun w hw => d w (by simp [hw]))]
    simp
end

mutual
/-- Copying either gives a value or stops the program, and the latter on a null. -/
theorem clone_null : ∀ v : Val D, ¬ NoNull v → ∃ m, clone v = .panic m
  | .null, _ => ⟨_, by rw [clone]⟩
  | .bool b, h => absurd (.bool b) h
  | .num d, h => absurd (.num d) h
  | .str s, h => absurd (.str s) h
  | .arr vs, h => by
    obtain ⟨m, e⟩ := cloneVals_null vs [] fun hv => h (.arr hv)
    exact ⟨m, by rw [clone, e]; rfl⟩
  | .obj es, h => by
    obtain ⟨m, e⟩ := cloneEntries_null es [] fun hv => h (.obj hv)
    exact ⟨m, by rw [clone, e]; rfl⟩

theorem cloneVals_null : ∀ (vs copy : List (Val D)), (¬ ∀ v ∈ vs, NoNull v) → ∃ m, cloneVals vs copy = .panic m
  | [], _, h => absurd (by simp) h
  | v :: vs, copy, h => by
    rw [cloneVals]
    by_cases hv : NoNull v
    · rcases clone_answers v with ⟨w, e⟩ | ⟨m, e⟩
      · rw [e]
        exact cloneVals_null vs _ fun h' => h fun x hx => by
          rcases List.mem_cons.mp hx with rfl | hx
          · exact hv
          · exact h' x hx
      · exact ⟨m, by rw [e]; rfl⟩
    · obtain ⟨m, e⟩ := clone_null v hv
      exact ⟨m, by rw [e]; rfl⟩

theorem cloneEntries_null : ∀ (es copy : List (Bytes × Val D)), (¬ ∀ e ∈ es, NoNull e.2) → ∃ m, cloneEntries es copy = .panic m
  | [], _, h => absurd (by simp) h
  | (k, v) :: es, copy, h => by
    rw [cloneEntries]
    by_cases hv : NoNull v
    · rcases clone_answers v with ⟨w, e⟩ | ⟨m, e⟩
      · rw [e]
        exact cloneEntries_null es _ fun h' => h fun x hx => by
          rcases List.mem_cons.mp hx with rfl | hx
          · exact hv
          · exact h' x hx
      · exact ⟨m, by rw [e]; rfl⟩
    · obtain ⟨m, e⟩ := clone_null v hv
      exact ⟨m, by rw [e]; rfl⟩

theorem clone_answers : ∀ v : Val D, (∃ w, clone v = .ok w) ∨ ∃ m, clone v = .panic m
  | .null => .inr ⟨_, by rw [clone]⟩
  | .bool _ => .inl ⟨_, by rw [clone]⟩
  | .num _ => .inl ⟨_, by rw [clone]⟩
  | .str _ => .inl ⟨_, by rw [clone]⟩
  | .arr vs => by
    rcases cloneVals_answers vs [] with ⟨w, e⟩ | ⟨m, e⟩
    · exact .inl ⟨_, by rw [clone, e]; rfl⟩
    · exact .inr ⟨m, by rw [clone, e]; rfl⟩
  | .obj es => by
    rcases cloneEntries_answers es [] with ⟨w, e⟩ | ⟨m, e⟩
    · exact .inl ⟨_, by rw [clone, e]; rfl⟩
    · exact .inr ⟨m, by rw [clone, e]; rfl⟩

theorem cloneVals_answers : ∀ vs copy : List (Val D), (∃ w, cloneVals vs copy = .ok w) ∨ ∃ m, cloneVals vs copy = .panic m
  | [], _ => .inl ⟨_, by rw [cloneVals]⟩
  | v :: vs, copy => by
    rw [cloneVals]
    rcases clone_answers v with ⟨w, e⟩ | ⟨m, e⟩
    · rw [e]; exact cloneVals_answers vs _
    · exact .inr ⟨m, by rw [e]; rfl⟩

theorem cloneEntries_answers : ∀ es copy : List (Bytes × Val D),
    (∃ w, cloneEntries es copy = .ok w) ∨ ∃ m, cloneEntries es copy = .panic m
  | [], _ => .inl ⟨_, by rw [cloneEntries]⟩
  | (k, v) :: es, copy => by
    rw [cloneEntries]
    rcases clone_answers v with ⟨w, e⟩ | ⟨m, e⟩
    · rw [e]; exact cloneEntries_answers es _
    · exact .inr ⟨m, by rw [e]; rfl⟩
end

/-! ### Writing -/

/-- A backslash before a quote, a backslash or a slash means that character. -/
def Escapes (L : JLex) : Prop := L.esc [34] [34] ∧ L.esc [92] [92] ∧ L.esc [47] [47]

/-- The characters that `writestr` writes so that they can be read. -/
def Clean (L : JLex) (s : Bytes) : Prop := ∀ c ∈ s, c ≠ 9 ∧ c ≠ 10 ∧ L.plain c

/-- The names that `writeobj` writes so that they can be read. -/
def Bare (L : JLex) (s : Bytes) : Prop := ∀ c ∈ s, c ≠ 34 ∧ c ≠ 92 ∧ L.plain c

/-- The numbers that `writenum` writes so that they can be read, as the same numbers. -/
def Printed (L : JLex) (dbl : Dbl D) (d : D) : Prop :=
  L.number (numText dbl d) ∧ (numText dbl d).length < 100 ∧ dbl.scan (numText dbl d) = d

theorem _root_.Che.Spec.Lib.Within.mono {A B A' B' : Bytes → Prop} {C C' : D → Prop} {v : Val D} (h : Within A B C v)
    (hA : ∀ s, A s → A' s) (hB : ∀ s, B s → B' s) (hC : ∀ d, C d → C' d) : Within A' B' C' v := by
  induction h with
  | null => exact .null
  | bool b => exact .bool b
  | num h => exact .num (hC _ h)
  | str h => exact .str (hA _ h)
  | arr _ ih => exact .arr ih
  | obj hk _ ih => exact .obj (fun e he => hB _ (hk e he)) ih

theorem writestr_text {L : JLex} (hL : Escapes L) {s : Bytes} (h : Clean L s) : JString L s (writestr s) := by
  refine ⟨s.flatMap writechar, ?_, rfl⟩
  induction s with
  | nil => exact .nil
  | cons c s ih =>
    have ih := ih fun x hx => h x (by simp [hx])
    obtain ⟨h9, h10, hp⟩ := h c (by simp)
    rw [List.flatMap_cons]
    unfold writechar
    rw [if_neg h10, if_neg h9]
    split
    · rename_i hc
      simp only [Bool.or_eq_true, decide_eq_true_eq] at hc
      have he : L.esc [c] [c] := by
        rcases hc with (rfl | rfl) | rfl
        · exact hL.2.1
        · exact hL.1
        · exact hL.2.2
      exact .esc (e := [c]) (x := [c]) he ih
    · rename_i hc
      simp only [Bool.or_eq_true, decide_eq_true_eq, not_or] at hc
      exact .plain hp hc.1.2 hc.1.1 ih

theorem bare_text {L : JLex} {s : Bytes} (h : Bare L s) : JString L s ([34] ++ s ++ [34]) := by
  refine ⟨s, ?_, rfl⟩
  induction s with
  | nil => exact .nil
  | cons c s ih =>
    obtain ⟨h1, h2, h3⟩ := h c (by simp)
    exact .plain h3 h1 h2 (ih fun x hx => h x (by simp [hx]))

theorem no_blanks {L : JLex} : Blanks L [] := by simp [Blanks]

theorem members_simple1 {L : JLex} {k : Bytes} {v : JVal} {t : Bytes} (hk : Bare L k) (ht : JText L v t) :
    JMembers L (k, v) [] ([34] ++ k ++ [34, 58] ++ t) := by
  have := JMembers.one (no_blanks (L := L)) (bare_text hk) no_blanks no_blanks ht no_blanks
  simpa using this

theorem members_simple {L : JLex} {k : Bytes} {v : JVal} {t r : Bytes} {e : Bytes × JVal} {es : List (Bytes × JVal)}
    (hk : Bare L k) (ht : JText L v t) (hr : JMembers L e es r) :
    JMembers L (k, v) (e :: es) ([34] ++ k ++ [34, 58] ++ t ++ [44] ++ r) := by
  have := JMembers.more (no_blanks (L := L)) (bare_text hk) no_blanks no_blanks ht no_blanks hr
  simpa using this

theorem items_simple1 {L : JLex} {v : JVal} {t : Bytes} (ht : JText L v t) : JItems L v [] t := by
  have := JItems.one (no_blanks (L := L)) ht no_blanks
  simpa using this

theorem items_simple {L : JLex} {v w : JVal} {vs : List JVal} {t r : Bytes} (ht : JText L v t) (hr : JItems L w vs r) :
    JItems L v (w :: vs) (t ++ [44] ++ r) := by
  have := JItems.more (no_blanks (L := L)) ht no_blanks hr
  simpa using this

mutual
theorem writenode_text {L : JLex} (hL : Escapes L) (dbl : Dbl D) : ∀ v : Val D, Within (Clean L) (Bare L) (Printed L dbl) v →
    Distinct v → ∃ t j, writenode dbl v = some t ∧ JText L j t ∧ j.value dbl.scan = v
  | .null, _, _ => ⟨_, .null, by rw [writenode], .null, rfl⟩
  | .bool true, _, _ => ⟨_, .bool true, by rw [writenode], .true, rfl⟩
  | .bool false, _, _ => ⟨_, .bool false, by rw [writenode], .false, rfl⟩
  | .num d, h, _ => by
    cases h with | num h =>
    obtain ⟨h1, h2, h3⟩ := h
    exact ⟨_, .num (numText dbl d), by rw [writenode, writenum, if_pos h2], .num h1, by rw [JVal.value, h3]⟩
  | .str s, h, _ => by
    cases h with | str h =>
    exact ⟨_, .str s, by rw [writenode], .str (writestr_text hL h), rfl⟩
  | .arr vs, h, d => by
    cases h with | arr h => cases d with | arr d =>
    obtain ⟨t, js, e, hv, hj⟩ := writevals_text hL dbl vs h d
    refine ⟨_, .arr js, by rw [writenode, e]; rfl, ?_, by rw [JVal.value, hv]⟩
    cases js with
    | nil =>
      rw [JVal.values] at hv; subst hv
      rw [writevals] at e; injection e with e; subst e
      exact JText.arr0 (w := []) no_blanks
    | cons j js => exact .arr (hj j js rfl)
  | .obj es, h, d => by
    cases h with | obj hk h => cases d with | obj hn d =>
    obtain ⟨t, js, e, hv, hj⟩ := writeentries_text hL dbl es hk h d
    refine ⟨_, .obj js, by rw [writenode, e]; rfl, ?_, by rw [JVal.value, hv, lastWins_self hn]⟩
    cases js with
    | nil =>
      rw [JVal.members] at hv; subst hv
      rw [writeentries] at e; injection e with e; subst e
      exact JText.obj0 (w := []) no_blanks
    | cons j js => exact .obj (hj j js rfl)

theorem writevals_text {L : JLex} (hL : Escapes L) (dbl : Dbl D) : ∀ vs : List (Val D),
    (∀ w ∈ vs, Within (Clean L) (Bare L) (Printed L dbl) w) → (∀ w ∈ vs, Distinct w) →
    ∃ t js, writevals dbl vs = some t ∧ JVal.values dbl.scan js = vs ∧ ∀ j js', js = j :: js' → JItems L j js' t
  | [], _, _ => ⟨[], [], by rw [writevals], rfl, fun _ _ h => by cases h⟩
  | [v], h, d => by
    obtain ⟨t, j, e, hj, hv⟩ := writenode_text hL dbl v (h v (by simp)) (d v (by simp))
    refine ⟨t, [j], by rw [writevals, e], by rw [JVal.values, JVal.values, hv], ?_⟩
    intro i is he; injection he with h1 h2; subst h1 h2; exact items_simple1 hj
  | v :: w :: vs, h, d => by
    obtain ⟨t, j, e, hj, hv⟩ := writenode_text hL dbl v (h v (by simp)) (d v (by simp))
    obtain ⟨r, js, e', hw, hi⟩ := writevals_text hL dbl (w :: vs) (fun x hx => h x (List.mem_cons_of_mem _ hx))
      (fun x hx => d x (List.mem_cons_of_mem _ hx))
    refine ⟨t ++ [44] ++ r, j :: js, ?_, by rw [JVal.values, hv, hw], ?_⟩
    · rw [writevals, e, e']
      · rfl
      · simp
    · intro i is he; injection he with h1 h2; subst h1 h2
      cases js with
      | nil => rw [JVal.values] at hw; cases hw
      | cons i js => exact items_simple hj (hi i js rfl)

theorem writeentries_text {L : JLex} (hL : Escapes L) (dbl : Dbl D) : ∀ es : List (Bytes × Val D),
    (∀ e ∈ es, Bare L e.1) → (∀ e ∈ es, Within (Clean L) (Bare L) (Printed L dbl) e.2) →
    (∀ e ∈ es, Distinct e.2) →
    ∃ t js, writeentries dbl es = some t ∧ JVal.members dbl.scan js = es ∧ ∀ j js', js = j :: js' → JMembers L j js' t
  | [], _, _, _ => ⟨[], [], by rw [writeentries], rfl, fun _ _ h => by cases h⟩
  | [(k, v)], hk, h, d => by
    obtain ⟨t, j, e, hj, hv⟩ := writenode_text hL dbl v (h (k, v) (by simp)) (d (k, v) (by simp))
    refine ⟨_, [(k, j)], by rw [writeentries, e]; rfl, by rw [JVal.members, JVal.members, hv], ?_⟩
    intro i is he; injection he with h1 h2; subst h1 h2; exact members_simple1 (hk (k, v) (by simp)) hj
  | (k, v) :: f :: es, hk, h, d => by
    obtain ⟨t, j, e, hj, hv⟩ := writenode_text hL dbl v (h (k, v) (by simp)) (d (k, v) (by simp))
    obtain ⟨r, js, e', hw, hi⟩ := writeentries_text hL dbl (f :: es) (fun x hx => hk x (List.mem_cons_of_mem _ hx))
      (fun x hx => h x (List.mem_cons_of_mem _ hx)) (fun x hx => d x (List.mem_cons_of_mem _ hx))
    refine ⟨[34] ++ k ++ [34, 58] ++ t ++ [44] ++ r, (k, j) :: js, ?_, by rw [JVal.members, hv, hw], ?_⟩
    · rw [writeentries, e, e']
      · rfl
      · simp
    · intro i is he; injection he with h1 h2; subst h1 h2
      cases js with
      | nil => rw [JVal.members] at hw; cases hw
      | cons i js => exact members_simple (hk (k, v) (by simp)) hj (hi i js rfl)
end

theorem write_string_text {s : Bytes} (h : ∀ c ∈ s, 32 ≤ c ∨ c = 9 ∨ c = 10 ∨ c = 13) : JString rfc s (write_string s) := by
  refine ⟨s.flatMap write_char, ?_, rfl⟩
  induction s with
  | nil => exact .nil
  | cons c s ih =>
    have ih := ih fun x hx => h x (by simp [hx])
    have hc := h c (by simp)
    rw [List.flatMap_cons]
    unfold write_char
    by_cases h10 : c = 10
    · subst h10; exact .esc (e := [110]) (x := [10]) RfcEsc.n ih
    by_cases h13 : c = 13
    · subst h13; exact .esc (e := [114]) (x := [13]) RfcEsc.r ih
    by_cases h9 : c = 9
    · subst h9; exact .esc (e := [116]) (x := [9]) RfcEsc.t ih
    by_cases h92 : c = 92
    · subst h92; exact .esc (e := [92]) (x := [92]) RfcEsc.backslash ih
    by_cases h34 : c = 34
    · subst h34; exact .esc (e := [34]) (x := [34]) RfcEsc.quote ih
    simp only [h10, h13, h9, h92, h34, if_false]
    refine .plain ?_ h34 h92 ih
    rcases hc with hc | hc | hc | hc
    · exact hc
    · exact absurd hc h9
    · exact absurd hc h10
    · exact absurd hc h13

end Che.Lib.Json
