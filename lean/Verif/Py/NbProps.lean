import Mathlib.Tactic.NormNum
import Verif.CommonLemmas
import Verif.Py.ExperimentFileProps
import Verif.Py.NbModel

/-! # C260: numbers of particles of the frames -/

namespace Colloids
namespace Py
namespace Nb

open Colloids.Py.Exp

theorem counts {frames : List (List Char)} {ns : List Nat} (h : List.Forall₂ (fun line n => (words line)[1]? = some (showNat n)) frames ns) :
    frames.mapM count = .ok ns := by
  induction h with
  | nil => rfl
  | cons h _ ih =>
    rw [List.mapM_cons, count, h]
    simp only
    rw [pyInt_show, ok_bind, ih, ok_bind]
    rfl

/-- C260. If the numbers were not saved before, `get_nb` gives the numbers that are the second word of the files of the frames; if there are several frames it
gives them again at each other call. The mean is the same for any number of frames but zero. -/
theorem C260_numbers_partial (frames : List (List Char)) (ns : List Nat)
    (h : List.Forall₂ (fun line n => (words line)[1]? = some (showNat n)) frames ns) :
    ∃ d, getNb ⟨none, frames⟩ = .ok (.array ns, d) ∧ (ns.length ≠ 1 → getNb d = .ok (.array ns, d)) ∧
      ∃ a, getNb d = .ok (a, d) ∧ mean a = (ns.map fun n : Nat => (n : ℚ)).sum / ns.length := by
  refine ⟨⟨some ns, frames⟩, ?_, fun h1 => ?_, load ns, rfl, ?_⟩
  · rw [getNb]
    simp only
    rw [counts h, ok_bind]
    rfl
  · rw [getNb]
    simp only
    rw [load]
    intro n hn
    rw [hn] at h1
    exact h1 rfl
  · unfold load
    split
    · rw [mean]
      simp
    · rfl

/-- C260, the part that is false. For a single frame, the second call gives a number without dimension and the loop on the frames is an error. -/
theorem C260_single_counterexample (line : List Char) (n : Nat) (h : (words line)[1]? = some (showNat n)) :
    ∃ d, getNb ⟨none, [line]⟩ = .ok (.array [n], d) ∧ ∃ a, getNb d = .ok (a, d) ∧ a ≠ .array [n] ∧ items (.array [n]) = .ok [n] ∧ items a = .error .invalidArgument := by
  refine ⟨⟨some [n], [line]⟩, ?_, .number n, rfl, by simp, rfl, rfl⟩
  rw [getNb]
  simp only
  rw [counts (List.Forall₂.cons h List.Forall₂.nil), ok_bind]
  rfl

/-- C260, the part that is false. When the frames change, as after `cut`, the numbers are still those of before. -/
theorem C260_stale_counterexample (frames frames' : List (List Char)) (ns ns' : List Nat)
    (h : List.Forall₂ (fun line n => (words line)[1]? = some (showNat n)) frames ns)
    (h' : List.Forall₂ (fun line n => (words line)[1]? = some (showNat n)) frames' ns') (hne : ns ≠ ns') (hl : ns.length ≠ 1) :
    ∃ d, getNb ⟨none, frames⟩ = .ok (.array ns, d) ∧ getNb ⟨none, frames'⟩ = .ok (.array ns', ⟨some ns', frames'⟩) ∧
      getNb { d with frames := frames' } = .ok (.array ns, { d with frames := frames' }) ∧ Arr.array ns ≠ .array ns' := by
  refine ⟨⟨some ns, frames⟩, ?_, ?_, ?_, by simpa using hne⟩
  · rw [getNb]
    simp only
    rw [counts h, ok_bind]
    rfl
  · rw [getNb]
    simp only
    rw [counts h', ok_bind]
    rfl
  · rw [getNb]
    simp only
    rw [load]
    intro n hn
    rw [hn] at hl
    exact hl rfl

/-- Two frames, of which a particle is removed. -/
example : List.Forall₂ (fun line n => (words line)[1]? = some (showNat n)) ["1\t12\t1\n".toList, "1\t7\t1\n".toList] [12, 7] ∧
    List.Forall₂ (fun line n => (words line)[1]? = some (showNat n)) ["1\t11\t1\n".toList, "1\t7\t1\n".toList] [11, 7] :=
  ⟨.cons (by decide +kernel) (.cons (by decide +kernel) .nil), .cons (by decide +kernel) (.cons (by decide +kernel) .nil)⟩

end Nb
end Py
end Colloids
