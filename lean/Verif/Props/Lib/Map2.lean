import Verif.Proofs.Lib.Map2

/-!
C53: hash maps (`clip/map2.c`).
-/
namespace Che.Props
open Che.Lib Che.Spec.Lib

/-- A hash map after a series of assignments. -/
def hashMapAfter (history : List (Bytes × Bytes)) : Res Unit Map2.Inner :=
  history.foldl (fun m op => m.bind fun m => Map2.set m op.1 op.2) (.ok Map2.new)

theorem hashMap_run (L : Bytes → Nat) (history : List (Bytes × Bytes)) (hk : ∀ op ∈ history, op.1 ≠ [])
    (hv : ∀ op ∈ history, op.2.length = L op.1) :
    ∃ m, hashMapAfter history = .ok m ∧ Map2.Inv L m ∧ m.size ≤ Map2.cap m ∧
      ∀ k, Map2.lookL m.slots k = lastValue history k := by
  induction history using List.reverseRecOn with
  | nil =>
    refine ⟨Map2.new, rfl, Map2.inv_empty L 1 32 (by omega) (by omega), by decide, ?_⟩
    intro k
    rw [lastValue_nil]
    apply Map2.look_none_of
    intro s hs
    rw [(List.mem_replicate.1 hs).2]
    simp [Map2.emptySlot]
  | append_singleton h op ih =>
    obtain ⟨m, i1, i2, i3, i4⟩ := ih (fun x hx => hk x (List.mem_append_left _ hx)) (fun x hx => hv x (List.mem_append_left _ hx))
    have hop : op ∈ h ++ [op] := List.mem_append_right _ (by simp)
    obtain ⟨m', s1, s2, s3, s4⟩ := Map2.set_spec i2 op.1 op.2 (hk op hop) (hv op hop) i3
    refine ⟨m', ?_, s2, s3, ?_⟩
    · have e : hashMapAfter (h ++ [op]) = (hashMapAfter h).bind fun m => Map2.set m op.1 op.2 := by
        simp [hashMapAfter, List.foldl_append]
      rw [e, i1]
      exact s1
    · intro k
      rw [s4, lastValue_snoc, i4]
      by_cases he : k = op.1
      · rw [if_pos he, if_pos he.symm]
      · rw [if_neg he, if_neg (fun e => he e.symm)]

/-- C53, what holds of it: as long as keys are not empty and a key is only assigned
values of the same length, no call fails, however many there are, and a key has the
value last assigned to it. -/
theorem C53_get_partial (history : List (Bytes × Bytes)) (hk : ∀ op ∈ history, op.1 ≠ [])
    (hv : ∀ a ∈ history, ∀ b ∈ history, a.1 = b.1 → a.2.length = b.2.length) :
    ∃ m, hashMapAfter history = .ok m ∧ ∀ key, key ≠ [] → Map2.get m key = lastValue history key := by
  obtain ⟨m, h1, h2, _, h4⟩ := hashMap_run (fun k => ((lastValue history k).getD []).length) history hk (by
    intro op hop
    simp only [lastValue]
    cases hf : history.reverse.find? (fun x => x.1 = op.1) with
    | none =>
      have := List.find?_eq_none.1 hf op (List.mem_reverse.2 hop)
      simp at this
    | some x =>
      have e1 : x.1 = op.1 := by simpa using List.find?_some hf
      have e2 : x ∈ history := List.mem_reverse.1 (List.mem_of_find?_eq_some hf)
      simpa using hv op hop x e2 e1.symm)
  refine ⟨m, h1, ?_⟩
  intro key hkey
  rw [Map2.get_spec h2 key hkey, h4]

/-- What a key has after a series of assignments. -/
def hashMapGet (history : List (Bytes × Bytes)) (key : Bytes) : Res Unit (Option Bytes) :=
  (hashMapAfter history).bind fun m => .ok (Map2.get m key)

/-- C53 is false for the empty key: its value is lost with the next assignment. -/
theorem C53_counterexample_empty :
    hashMapGet [([], [1])] [] = .ok (some [1]) ∧ hashMapGet [([], [1]), ([7], [2])] [] = .ok none := by
  decide +kernel

/-- C53 is false when a value is replaced by a longer one: when the map grows, the
value is cut to its first length. -/
theorem C53_counterexample_longer :
    hashMapGet ([([200], [1]), ([200], [1, 2])] ++ (List.range 25).map fun i => ([UInt8.ofNat i], [0])) [200] = .ok (some [1]) := by
  decide +kernel

/-- C53 is false when a value is replaced by a shorter one: when the map grows, memory
after the value is read. -/
theorem C53_counterexample_shorter :
    hashMapGet ([([200], [1, 2]), ([200], [1])] ++ (List.range 25).map fun i => ([UInt8.ofNat i], [0])) [200] =
      .panic "undefined: read past the end" := by
  decide +kernel

-- keys with the same hash, across two enlargements
example : hashMapGet ((List.range 60).map (fun i => ([UInt8.ofNat i], [UInt8.ofNat (i + 1)])) ++ [([0, 5], [9])]) [5] =
    .ok (some [6]) := by decide +kernel
example : hashMapGet ((List.range 60).map (fun i => ([UInt8.ofNat i], [UInt8.ofNat (i + 1)])) ++ [([0, 5], [9])]) [0, 5] =
    .ok (some [9]) := by decide +kernel

end Che.Props
