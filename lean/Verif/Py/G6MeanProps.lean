import Mathlib.Algebra.Field.Rat
import Mathlib.Algebra.Order.Field.Rat
import Mathlib.Algebra.BigOperators.Ring.List
import Mathlib.Algebra.CharZero.Defs
import Mathlib.Data.Fin.VecNotation
import Mathlib.Tactic.Ring
import Verif.CommonLemmas
import Verif.Py.G6MeanModel

/-! # C266: mean bond order correlation -/

namespace Colloids
namespace Py
namespace G6Mean

variable {F : Type} [Field F]

theorem fold_add (l : List (List (Line F))) (tot : List (Fin 3 → F)) (hl : ∀ f ∈ l, f.length = tot.length) :
    ∃ out, l.foldlM addFile tot = .ok out ∧ out.length = tot.length ∧
      ∀ (i : Nat) a, tot[i]? = some a → out[i]? = some fun c => a c + (l.map fun f => ((f[i]?).bind fun r => r c).getD 0).sum := by
  induction l generalizing tot with
  | nil => exact ⟨tot, rfl, rfl, fun i a h => by simpa using h⟩
  | cons f l ih =>
    have h1 := hl f List.mem_cons_self
    have hlen : (List.zipWith (fun a b (c : Fin 3) => a c + b c) tot (f.map nanToNum)).length = tot.length := by simp [h1]
    obtain ⟨out, h2, h3, h4⟩ := ih (List.zipWith (fun a b c => a c + b c) tot (f.map nanToNum)) fun g hg => by
      rw [hlen]
      exact hl g (List.mem_cons_of_mem _ hg)
    refine ⟨out, ?_, h3.trans hlen, fun i a ha => ?_⟩
    · have ha : addFile tot f = .ok (List.zipWith (fun a b c => a c + b c) tot (f.map nanToNum)) := by
        unfold addFile
        rw [if_pos h1]
      rw [List.foldlM_cons, ha, ok_bind, h2]
    · have hi : i < tot.length := by
        by_contra hge
        rw [List.getElem?_eq_none (by omega)] at ha
        exact absurd ha (by simp)
      have hfi : f[i]? = some (f[i]'(by omega)) := List.getElem?_eq_getElem (by omega)
      rw [h4 i (fun c => a c + nanToNum (f[i]'(by omega)) c) (by simp [List.getElem?_zipWith, ha, hfi])]
      simp only [Option.some.injEq]
      funext c
      rw [List.map_cons, List.sum_cons, hfi, Option.bind_some, add_assoc]
      rfl

/-- The result for files of the right number of lines. -/
theorem g6_eq (frames : List Nat) (disk : Nat → Option (List (Line F))) (compute : Nat → List (Line F)) (nbins : Nat) (force : Bool)
    (h : ∀ f ∈ files frames disk compute force, f.length = nbins) :
    ∃ out, g6 frames disk compute nbins force = .ok out ∧ out.length = nbins ∧ ∀ i < nbins,
      out[i]? = some fun c => ((files frames disk compute force).map fun f => ((f[i]?).bind fun r => r c).getD 0).sum / (frames.length : F) := by
  obtain ⟨tot, h1, h2, h3⟩ := fold_add (files frames disk compute force) (List.replicate nbins fun _ => 0) (by simpa using h)
  refine ⟨tot.map fun a c => a c / (frames.length : F), by rw [g6, h1, ok_bind]; rfl, by simpa using h2, fun i hi => ?_⟩
  rw [List.getElem?_map, h3 i (fun _ => 0) (by simp [hi]), Option.map_some]
  simp only [zero_add]

/-- C266. If all values are numbers, the result of a computation is their mean on the frames; all files are computed if one is missing, or if it is asked for. -/
theorem C266_mean_partial (frames : List Nat) (disk : Nat → Option (List (Line F))) (compute : Nat → List (Line F)) (nbins : Nat) (force : Bool)
    (hc : force = true ∨ ∃ t ∈ frames, disk t = none) (x : Nat → Nat → Fin 3 → F) (hx : ∀ t ∈ frames, compute t = (List.range nbins).map fun i c => some (x t i c)) :
    ∃ out, g6 frames disk compute nbins force = .ok out ∧ out.length = nbins ∧
      ∀ i < nbins, out[i]? = some fun c => (frames.map fun t => x t i c).sum / (frames.length : F) := by
  have hf : files frames disk compute force = frames.map compute := by
    rw [files, if_pos]
    rcases hc with rfl | ⟨t, h1, h2⟩
    · rfl
    · rw [Bool.or_eq_true]
      right
      rw [List.any_eq_true]
      exact ⟨t, h1, by rw [h2]; rfl⟩
  obtain ⟨out, h1, h2, h3⟩ := g6_eq frames disk compute nbins force (by
    rw [hf]
    intro f hf'
    obtain ⟨t, ht, rfl⟩ := List.mem_map.1 hf'
    rw [hx t ht]
    simp)
  refine ⟨out, h1, h2, fun i hi => ?_⟩
  rw [h3 i hi, hf, Option.some.injEq]
  funext c
  rw [List.map_map]
  congr 2
  apply List.map_congr_left
  intro t ht
  simp only [Function.comp]
  rw [hx t ht, List.getElem?_map, List.getElem?_range hi]
  rfl

/-- The sum of a column on the frames, where only some have a value. -/
theorem sum_some (l : List Nat) (y : Nat → F) (v : F) (has : Nat → Bool) (h : ∀ t ∈ l, y t = if has t = true then v else 0) :
    (l.map y).sum = ((l.countP has : Nat) : F) * v := by
  induction l with
  | nil => simp
  | cons t l ih =>
    rw [List.map_cons, List.sum_cons, ih fun s hs => h s (List.mem_cons_of_mem _ hs), h t List.mem_cons_self, List.countP_cons]
    cases has t
    · simp
    · simp [add_mul, add_comm]

/-- C266, the part that is false. A value that is not a number, should a file have one, is counted as zero: if the frames that have a value have the same one in a column of a line, the result is
this one times their number and divided by the number of all frames. -/
theorem C266_nan_counterexample (frames : List Nat) (disk : Nat → Option (List (Line F))) (compute : Nat → List (Line F)) (nbins : Nat) (hn : ∀ t ∈ frames, (compute t).length = nbins)
    (i : Nat) (hi : i < nbins) (c : Fin 3) (v : F) (has : Nat → Bool) (hx : ∀ t ∈ frames, ((compute t)[i]?).bind (fun r => r c) = if has t = true then some v else none) :
    ∃ out a, g6 frames disk compute nbins true = .ok out ∧ out[i]? = some a ∧ a c = ((frames.countP has : Nat) : F) * v / (frames.length : F) := by
  have hf : files frames disk compute true = frames.map compute := by
    rw [files]
    rfl
  obtain ⟨out, h1, -, h3⟩ := g6_eq frames disk compute nbins true (by
    rw [hf]
    intro f hf'
    obtain ⟨t, ht, rfl⟩ := List.mem_map.1 hf'
    exact hn t ht)
  refine ⟨out, _, h1, h3 i hi, ?_⟩
  rw [hf, List.map_map]
  congr 1
  apply sum_some
  intro t ht
  simp only [Function.comp]
  rw [hx t ht]
  cases has t <;> rfl

/-- C266, what can be made of the result. The second column divided by the third one is the sum of the products on all pairs of all frames, divided by the number of these pairs. -/
theorem C266_ratio [CharZero F] (frames : List Nat) (h0 : frames ≠ []) (disk : Nat → Option (List (Line F))) (nbins : Nat) (r : Nat → F) (gl : Nat → Nat → F) (nb : Nat → Nat → Nat) :
    ∃ out, g6 frames disk (fun t => program nbins r (gl t) (nb t)) nbins true = .ok out ∧ ∀ i < nbins, ∃ a, out[i]? = some a ∧ a 0 = r i ∧
      a 1 / a 2 = (frames.map fun t => gl t i).sum / (frames.map fun t => (nb t i : F)).sum := by
  obtain ⟨out, h1, -, h3⟩ := C266_mean_partial frames disk (fun t => program nbins r (gl t) (nb t)) nbins true (.inl rfl) (fun t i => ![r i, gl t i, (nb t i : F)]) (fun _ _ => rfl)
  refine ⟨out, h1, fun i hi => ⟨_, h3 i hi, ?_, ?_⟩⟩
  · have hl : (frames.length : F) ≠ 0 := by
      rw [Nat.cast_ne_zero]
      exact fun h => h0 (List.length_eq_zero_iff.1 h)
    simp [List.map_const', List.sum_replicate, nsmul_eq_mul, hl]
  · have hl : (frames.length : F) ≠ 0 := by
      rw [Nat.cast_ne_zero]
      exact fun h => h0 (List.length_eq_zero_iff.1 h)
    exact div_div_div_cancel_right₀ hl _ _

/-- C266, the part that is false. The second column is not the correlation: if the product is the same for all pairs, it is multiplied by the mean number of pairs at this distance. -/
theorem C266_sum_counterexample (frames : List Nat) (disk : Nat → Option (List (Line F))) (nbins : Nat) (r : Nat → F) (v : F) (nb : Nat → Nat → Nat) :
    ∃ out, g6 frames disk (fun t => program nbins r (fun i => (nb t i : F) * v) (nb t)) nbins true = .ok out ∧ ∀ i < nbins, ∃ a, out[i]? = some a ∧
      a 1 = (frames.map fun t => (nb t i : F)).sum / (frames.length : F) * v := by
  obtain ⟨out, h1, -, h3⟩ := C266_mean_partial frames disk (fun t => program nbins r (fun i => (nb t i : F) * v) (nb t)) nbins true (.inl rfl)
    (fun t i => ![r i, (nb t i : F) * v, (nb t i : F)]) (fun _ _ => rfl)
  refine ⟨out, h1, fun i hi => ⟨_, h3 i hi, ?_⟩⟩
  show (frames.map fun t => (nb t i : F) * v).sum / _ = _
  rw [List.sum_map_mul_right]
  ring

/-- C266, the part that is false. If all files exist with another number of lines, but a single one, than the one asked for, it is an error. -/
theorem C266_stale_counterexample (frames : List Nat) (h0 : frames ≠ []) (disk : Nat → Option (List (Line F))) (compute : Nat → List (Line F)) (nbins m : Nat)
    (hm : m ≠ nbins) (hm1 : m ≠ 1) (hd : ∀ t ∈ frames, ∃ f, disk t = some f ∧ f.length = m) : g6 frames disk compute nbins false = .error .invalidArgument := by
  have hf : files frames disk compute false = frames.map fun t => (disk t).getD [] := by
    rw [files, if_neg]
    rw [Bool.false_or, List.any_eq_true]
    rintro ⟨t, h1, h2⟩
    obtain ⟨f, h3, -⟩ := hd t h1
    rw [h3] at h2
    exact absurd h2 (by simp)
  obtain ⟨t, l, rfl⟩ := List.exists_cons_of_ne_nil h0
  obtain ⟨f, h3, h4⟩ := hd t List.mem_cons_self
  have hadd : addFile (List.replicate nbins fun _ => (0 : F)) f = .error .invalidArgument := by
    unfold addFile
    rw [if_neg (by rw [List.length_replicate, h4]; exact hm)]
    rcases f with _ | ⟨a, _ | ⟨b, f⟩⟩
    · rfl
    · exact absurd h4.symm hm1
    · rfl
  rw [g6, hf, List.map_cons, List.foldlM_cons, h3]
  show ((addFile _ f >>= _) >>= _) = _
  rw [hadd]
  rfl

/-- C266. If all files exist and it is not asked to compute them, the result is the mean of these files. -/
theorem C266_disk_partial (frames : List Nat) (disk : Nat → Option (List (Line F))) (compute : Nat → List (Line F)) (nbins : Nat) (x : Nat → Nat → Fin 3 → F)
    (hx : ∀ t ∈ frames, disk t = some ((List.range nbins).map fun i c => some (x t i c))) :
    ∃ out, g6 frames disk compute nbins false = .ok out ∧ out.length = nbins ∧
      ∀ i < nbins, out[i]? = some fun c => (frames.map fun t => x t i c).sum / (frames.length : F) := by
  have hf : files frames disk compute false = files frames disk (fun t => (disk t).getD []) true := by
    rw [files, files, if_neg, if_pos (by rfl)]
    rw [Bool.false_or, List.any_eq_true]
    rintro ⟨t, h1, h2⟩
    rw [hx t h1] at h2
    exact absurd h2 (by simp)
  have hg : g6 frames disk compute nbins false = g6 frames disk (fun t => (disk t).getD []) nbins true := by
    rw [g6, g6, hf]
  rw [hg]
  refine C266_mean_partial frames disk _ nbins true (.inl rfl) x fun t ht => ?_
  rw [hx t ht]
  rfl

/-- C266, the part that is false. The range asked for is ignored if the files exist: with files of range `old`, the distances of the result are those of this range, whatever the program would
write. -/
theorem C266_range_counterexample [CharZero F] (frames : List Nat) (h0 : frames ≠ []) (compute : Nat → List (Line F)) (nbins : Nat) (old : F) (gl : Nat → Nat → F) (nb : Nat → Nat → Nat) :
    ∃ out, g6 frames (fun t => some (program nbins (fun i => (i : F) / (nbins : F) * old) (gl t) (nb t))) compute nbins false = .ok out ∧
      ∀ i < nbins, ∃ a, out[i]? = some a ∧ a 0 = (i : F) / (nbins : F) * old := by
  obtain ⟨out, h1, -, h3⟩ := C266_disk_partial frames (fun t => some (program nbins (fun i => (i : F) / (nbins : F) * old) (gl t) (nb t))) compute nbins
    (fun t i => ![(i : F) / (nbins : F) * old, gl t i, (nb t i : F)]) (fun _ _ => rfl)
  refine ⟨out, h1, fun i hi => ⟨_, h3 i hi, ?_⟩⟩
  have hl : (frames.length : F) ≠ 0 := by
    rw [Nat.cast_ne_zero]
    exact fun h => h0 (List.length_eq_zero_iff.1 h)
  show (frames.map fun _ => (i : F) / (nbins : F) * old).sum / _ = _
  rw [List.map_const', List.sum_replicate, nsmul_eq_mul, mul_div_cancel_left₀ _ hl]

/-- Two frames with 2 and 4 pairs of product 1/2 at the same distance: 3/2 instead of 1/2; and files of two lines when three are asked for. -/
example : (g6 [0, 1] (fun _ => none) (fun t => program 1 (fun _ => (1 : ℚ)) (fun _ => t + 1) (fun _ => 2 * t + 2)) 1 false).map (fun l => l.map fun a => (a 0, a 1, a 2)) = .ok [(1, 3 / 2, 3)] ∧
    (g6 [0, 1] (fun _ => some (program 2 (fun _ => (1 : ℚ)) (fun _ => 1) (fun _ => 2))) (fun _ => []) 3 false).map (fun l => l.map fun a => (a 0, a 1, a 2)) = .error .invalidArgument := by
  decide +kernel

end G6Mean
end Py
end Colloids
