import Mathlib.Algebra.Order.Field.Basic
import Mathlib.Algebra.Order.Ring.Rat
import Mathlib.Algebra.Order.BigOperators.Group.List
import Mathlib.Tactic.Linarith
import Mathlib.Tactic.NormNum
import Mathlib.Tactic.Ring
import Mathlib.Tactic.FieldSimp
import Verif.CommonLemmas
import Verif.Py.StatHistModel
import Verif.Py.StatHistProps

/-!
# Structure factors of python/colloids/statistics.py
-/

namespace Colloids
namespace Py
namespace StatHist

section Factor

variable {F : Type} [Field F] [LinearOrder F]

/-- **C213** Counterexample: `StructureFactor2D` fails for each shape and each list of positions that is not empty. -/
theorem C213_2d_counterexample (shape : List Nat) (pos : List (List Nat)) (h : pos ≠ []) : ∃ e, structureFactor2D (F := F) shape pos = .error e := by
  unfold structureFactor2D
  split
  · exact ⟨_, rfl⟩
  · cases pos with
    | nil => exact absurd rfl h
    | cons p rest =>
      dsimp only
      split
      · exact ⟨_, rfl⟩
      · exact ⟨_, rfl⟩

/-- **C213** The distances of `StructureFactor3D` are those of the wave numbers when the second and the third dimensions are the same. -/
theorem C213_dists_partial (n0 n i j k : Nat) (hi : i < n0) (hj : j < n) (hk : k < n / 2 + 1) :
    dist3D n0 n n i j k = .ok (freq n0 i ^ 2 + freq n j ^ 2 + freq n k ^ 2 : F) := by
  unfold dist3D
  rw [if_pos ⟨hi, hj, by omega⟩]

variable [IsStrictOrderedRing F]

theorem freq_one_sq (n : Nat) (h : 2 ≤ n) : (freq n 1 : F) ^ 2 = 1 / (n : F) ^ 2 := by
  unfold freq
  by_cases h2 : n = 2
  · subst h2
    norm_num
  · rw [if_pos (by omega)]
    push_cast
    rw [div_pow, one_pow]

/-- **C213** Counterexample: when they are not, the first wave number along the third dimension is wrong. -/
theorem C213_dists_counterexample (n0 n1 n2 : Nat) (h0 : 0 < n0) (h1 : 2 ≤ n1) (h2 : 2 ≤ n2) (hne : n1 ≠ n2) :
    ∃ d, dist3D n0 n1 n2 0 0 1 = .ok d ∧ d = 1 / (n1 : F) ^ 2 ∧ d ≠ freq n0 0 ^ 2 + freq n1 0 ^ 2 + (freq n2 1 : F) ^ 2 := by
  have hz : ∀ n, (freq n 0 : F) = 0 := by
    intro n
    unfold freq
    rw [if_pos (by omega)]
    simp
  have hp1 : (0 : F) < n1 := by exact_mod_cast (by omega : 0 < n1)
  have hp2 : (0 : F) < n2 := by exact_mod_cast (by omega : 0 < n2)
  refine ⟨_, if_pos ⟨h0, by omega, by omega⟩, ?_, ?_⟩
  · rw [hz, hz, freq_one_sq n1 h1]
    ring
  · rw [hz, hz, freq_one_sq n1 h1, freq_one_sq n2 h2]
    intro he
    have he : 1 / (n1 : F) ^ 2 = 1 / (n2 : F) ^ 2 := by linarith
    rw [div_eq_div_iff (by positivity) (by positivity), one_mul, one_mul] at he
    have : (n2 : F) = n1 := (pow_left_inj₀ hp2.le hp1.le (by norm_num)).1 he
    exact hne (by exact_mod_cast this.symm)

example : (2 : Nat) ≤ 8 ∧ (2 : Nat) ≤ 4 ∧ (8 : Nat) ≠ 4 := by norm_num

omit [IsStrictOrderedRing F] in
/-- **C213** Counterexample: when the second dimension is less than about half of the third one, each call is an error. -/
theorem C213_flat_counterexample (n0 n1 n2 : Nat) (h0 : 0 < n0) (h1 : 0 < n1) (h2 : n1 < n2 / 2 + 1) (b dists spectrum : List F) :
    radialSum3D n0 n1 n2 b dists spectrum = .error .invalidArgument := by
  unfold radialSum3D
  rw [if_pos]
  intro he
  have hp : 0 < n0 * n1 := Nat.mul_pos h0 h1
  have := Nat.eq_of_mul_eq_mul_left hp he
  omega

/-! ### Accumulation -/

/-- the sum over the calls of `N × S` in bin `k` -/
def weighted (calls : List (Nat × List F)) (k : Nat) : F := (calls.map fun x => x.2.getD k 0 * (x.1 : F)).sum

omit [LinearOrder F] [IsStrictOrderedRing F] in
theorem calls_fold (m : Nat) (calls : List (Nat × List F)) (h : ∀ x ∈ calls, x.1 ≠ 0 → x.2.length = m) :
    (calls.foldl SF3D.call ⟨List.replicate m 0, []⟩).S = (List.range m).map (weighted calls) ∧
    (calls.foldl SF3D.call ⟨List.replicate m (0 : F), []⟩).Ns = calls.map Prod.fst := by
  induction calls using List.reverseRecOn with
  | nil =>
    refine ⟨?_, rfl⟩
    apply List.ext_getElem <;> simp [weighted]
  | append_singleton calls x ih =>
    obtain ⟨h1, h2⟩ := ih fun y hy => h y (List.mem_append_left _ hy)
    rw [List.foldl_append, List.foldl_cons, List.foldl_nil]
    generalize calls.foldl SF3D.call ⟨List.replicate m (0 : F), []⟩ = st at h1 h2
    unfold SF3D.call
    by_cases hx : x.1 = 0
    · rw [if_pos hx]
      dsimp only
      constructor
      · rw [h1]
        apply List.map_congr_left
        intro k _
        simp [weighted, hx]
      · rw [h2, List.map_append]
        simp [hx]
    · rw [if_neg hx]
      dsimp only
      constructor
      · have hl := h x (by simp) hx
        rw [h1]
        apply List.ext_getElem
        · simp [hl]
        · intro k hk1 hk2
          simp only [List.length_map, List.length_range] at hk2
          rw [List.getElem_zipWith, List.getElem_map, List.getElem_map, List.getElem_range]
          unfold weighted
          rw [List.map_append, List.sum_append, List.map_singleton, List.sum_singleton, List.getD_eq_getElem?_getD, List.getElem?_eq_getElem (by omega)]
          rfl
      · rw [h2, List.map_append]
        rfl

theorem varLen_eq (Ns : List Nat) (h : Ns ≠ []) :
    (varLen Ns : F) = (Ns.map fun (n : Nat) => ((n : F) - (Ns.map fun (n : Nat) => (n : F)).sum / (Ns.length : F)) ^ 2).sum := by
  have hn : (Ns.length : F) ≠ 0 := by
    have : 0 < Ns.length := List.length_pos_of_ne_nil h
    have : Ns.length ≠ 0 := by omega
    exact_mod_cast this
  unfold varLen
  dsimp only
  rw [List.length_map, div_mul_cancel₀ _ hn, List.map_map]
  rfl

/-- **C213** After some calls, `get_S` gives in each bin but the first the sum over the calls of `N × S` divided by the number of wave vectors of the bin, and in the first one
the sum of the squares of the deviations of `N`; calls without positions count in this one only. -/
theorem C213_get (m : Nat) (nbq : List Nat) (hq : nbq.length = m + 1) (calls : List (Nat × List F)) (hc : calls ≠ [])
    (h : ∀ x ∈ calls, x.1 ≠ 0 → x.2.length = m + 1) :
    ∃ out, (calls.foldl SF3D.call ⟨List.replicate (m + 1) 0, []⟩).getS nbq = .ok out ∧ out.length = m + 1 ∧
      out[0]? = some (some (calls.map fun x => ((x.1 : F) - (calls.map fun x => (x.1 : F)).sum / (calls.length : F)) ^ 2).sum) ∧
      ∀ k, 1 ≤ k → k ≤ m → out[k]? = some (some (if 0 < nbq.getD k 0 then weighted calls k / (nbq.getD k 0 : F) else weighted calls k)) := by
  obtain ⟨h1, h2⟩ := calls_fold (m + 1) calls h
  generalize calls.foldl SF3D.call ⟨List.replicate (m + 1) (0 : F), []⟩ = st at h1 h2
  unfold SF3D.getS
  have hz : List.zipWith (fun (s : F) (n : Nat) => if 0 < n then s / (n : F) else s) st.S nbq =
      (List.range (m + 1)).map fun k => if 0 < nbq.getD k 0 then weighted calls k / (nbq.getD k 0 : F) else weighted calls k := by
    rw [h1]
    apply List.ext_getElem
    · simp [hq]
    · intro k hk1 hk2
      simp only [List.length_map, List.length_range] at hk2
      rw [List.getElem_zipWith, List.getElem_map, List.getElem_map, List.getElem_range, List.getD_eq_getElem?_getD, List.getElem?_eq_getElem (by omega)]
      rfl
  rw [hz, List.range_succ_eq_map, List.map_cons]
  have hne : st.Ns ≠ [] := by
    rw [h2]
    simpa using hc
  dsimp only
  rw [if_neg hne, varLen_eq _ hne, h2]
  refine ⟨_, rfl, by simp, ?_, ?_⟩
  · rw [List.getElem?_cons_zero, List.map_map, List.map_map, List.length_map]
    rfl
  · intro k hk1 hk2
    obtain ⟨k, rfl⟩ : ∃ i, k = i + 1 := ⟨k - 1, by omega⟩
    rw [List.getElem?_cons_succ, List.getElem?_map, List.getElem?_map, List.getElem?_map, List.getElem?_range (by omega)]
    rfl

example : ∀ x ∈ [((3 : Nat), [(1 : ℚ), 2]), (0, [])], x.1 ≠ 0 → x.2.length = 1 + 1 := by simp

/-- **C213** Counterexample: the result is not a mean.  The same calls once more double each bin but the first. -/
theorem C213_double_counterexample (m : Nat) (nbq : List Nat) (hq : nbq.length = m + 1) (calls : List (Nat × List F)) (hc : calls ≠ [])
    (h : ∀ x ∈ calls, x.1 ≠ 0 → x.2.length = m + 1) :
    ∃ o1 o2, (calls.foldl SF3D.call ⟨List.replicate (m + 1) 0, []⟩).getS nbq = .ok o1 ∧
      ((calls ++ calls).foldl SF3D.call ⟨List.replicate (m + 1) 0, []⟩).getS nbq = .ok o2 ∧
      ∀ k, 1 ≤ k → k ≤ m → ∃ v : F, o1[k]? = some (some v) ∧ o2[k]? = some (some (2 * v)) := by
  obtain ⟨o1, a1, -, -, a2⟩ := C213_get m nbq hq calls hc h
  obtain ⟨o2, b1, -, -, b2⟩ := C213_get m nbq hq (calls ++ calls) (by simpa using hc) (by
    intro x hx
    rcases List.mem_append.1 hx with hx | hx <;> exact h x hx)
  refine ⟨o1, o2, a1, b1, fun k hk1 hk2 => ⟨_, a2 k hk1 hk2, ?_⟩⟩
  rw [b2 k hk1 hk2]
  have hw : weighted (calls ++ calls) k = 2 * weighted calls k := by
    unfold weighted
    rw [List.map_append, List.sum_append]
    ring
  rw [hw]
  congr 2
  split
  · ring
  · rfl

/-! ### Images -/

omit [IsStrictOrderedRing F] in
/-- **C213** `ImageStructureFactor`: a bin with a wave vector has the mean of the spectrum in the bin over the mean of the spectrum; others are not a number. -/
theorem C213_image (b dists spectrum : List F) (hl : dists.length = spectrum.length) (hs : spectrum.sum ≠ 0) :
    (imageS b dists spectrum).length = b.length - 1 ∧ ∀ k < b.length - 1,
      let s := ((dists.zip spectrum).filter fun x => inBin b k x.1).map Prod.snd
      (imageS b dists spectrum)[k]? = some (if s = [] then none else some (s.sum / (s.length : F) / (spectrum.sum / (spectrum.length : F)))) := by
  unfold imageS
  constructor
  · simp [histogramW, histogramN]
  · intro k hk s
    have hcount : (dists.filter fun y => inBin b k y).length = s.length := by
      rw [List.length_map]
      exact filter_zip_length (inBin b k) dists spectrum hl
    rw [List.getElem?_zipWith]
    unfold histogramW histogramN
    rw [List.getElem?_map, List.getElem?_map, List.getElem?_range hk, Option.map_some, Option.map_some]
    dsimp only
    rw [hcount]
    by_cases h0 : s = []
    · rw [if_pos h0, if_pos (Or.inl (by rw [h0]; rfl))]
    · rw [if_neg h0, if_neg]
      rintro (h | h)
      · exact h0 (List.length_eq_zero_iff.1 h)
      · exact hs h

/-- **C213** A spectrum that is the same for all wave vectors, as that of one pixel, has a structure factor of 1. -/
theorem C213_white (b dists : List F) (s : F) (hs : s ≠ 0) (k : Nat) (hk : k < b.length - 1) (hbin : ∃ x ∈ dists, inBin b k x = true) :
    (imageS b dists (List.replicate dists.length s))[k]? = some (some 1) := by
  obtain ⟨x, hx, hxb⟩ := hbin
  have hd : 0 < dists.length := List.length_pos_of_mem hx
  have hdF : (dists.length : F) ≠ 0 := by
    have : (0 : F) < dists.length := by exact_mod_cast hd
    exact this.ne'
  have hsum : (List.replicate dists.length s).sum = (dists.length : F) * s := by rw [List.sum_replicate, nsmul_eq_mul]
  obtain ⟨-, h2⟩ := C213_image b dists (List.replicate dists.length s) (by simp) (by rw [hsum]; exact mul_ne_zero hdF hs)
  have h2 := h2 k hk
  dsimp only at h2
  rw [h2]
  set l := ((dists.zip (List.replicate dists.length s)).filter fun x => inBin b k x.1).map Prod.snd with hldef
  have hall : ∀ y ∈ l, y = s := by
    intro y hy
    obtain ⟨z, hz, rfl⟩ := List.mem_map.1 hy
    exact (List.mem_replicate.1 (List.of_mem_zip (List.mem_filter.1 hz).1).2).2
  have hlen : l.length = (dists.filter fun y => inBin b k y).length := by
    rw [hldef, List.length_map]
    exact (filter_zip_length (inBin b k) dists _ (by simp)).symm
  have hpos : 0 < l.length := by
    rw [hlen]
    exact List.length_pos_of_mem (List.mem_filter.2 ⟨hx, hxb⟩)
  have hlF : (l.length : F) ≠ 0 := by
    have : (0 : F) < l.length := by exact_mod_cast hpos
    exact this.ne'
  have hls : l.sum = (l.length : F) * s := by
    rw [List.eq_replicate_of_mem hall, List.sum_replicate, List.length_replicate, nsmul_eq_mul]
  rw [if_neg (List.ne_nil_of_length_pos hpos), hls, hsum, List.length_replicate, mul_div_cancel_left₀ _ hlF, mul_div_cancel_left₀ _ hdF, div_self hs]

example : ∃ x ∈ [(0 : ℚ), 1, 2], inBin [0, 1, 2] 0 x = true := ⟨0, by simp, by decide +kernel⟩

end Factor

end StatHist
end Py
end Colloids
