import Mathlib.LinearAlgebra.Matrix.Determinant.Basic
import Mathlib.Analysis.Real.Pi.Bounds
import Mathlib.Analysis.Complex.ExponentialBounds
import Verif.Py.TrackRescaleProps

/-!
# C190: the brightness of neighbouring particles in `python/colloids/track.py`
-/

namespace Colloids
namespace Py
namespace Track

open Real MeasureTheory

noncomputable section

/-- the distances and the bonds as the loop of `solve_intensities` takes them -/
theorem intensity_matrix {N : Nat} (f : ℝ → Fin N → Fin N → ℝ) (l : List (ℝ × Fin N × Fin N))
    (M : Matrix (Fin N) (Fin N) ℝ) (i j : Fin N)
    (hl : (l.map Prod.snd).Pairwise (fun x y => x ≠ y ∧ x ≠ (y.2, y.1))) :
    l.foldl (fun M x => setAt (setAt M x.2.1 x.2.2 (f x.1 x.2.1 x.2.2)) x.2.2 x.2.1 (f x.1 x.2.2 x.2.1)) M i j
      = if ∀ x ∈ l, x.2 ≠ (i, j) ∧ x.2 ≠ (j, i) then M i j
        else (l.map fun x => if x.2 = (i, j) ∨ x.2 = (j, i) then f x.1 i j else 0).sum := by
  induction l generalizing M with
  | nil => simp
  | cons x l ih =>
    rw [List.map_cons, List.pairwise_cons] at hl
    rw [List.foldl_cons, ih _ hl.2]
    have hstep : setAt (setAt M x.2.1 x.2.2 (f x.1 x.2.1 x.2.2)) x.2.2 x.2.1 (f x.1 x.2.2 x.2.1) i j
        = if x.2 = (i, j) ∨ x.2 = (j, i) then f x.1 i j else M i j := by
      obtain ⟨d, a, b⟩ := x
      simp only [setAt, Prod.mk.injEq]
      by_cases h1 : i = b ∧ j = a
      · obtain ⟨rfl, rfl⟩ := h1; simp
      · rw [if_neg h1]
        by_cases h2 : i = a ∧ j = b
        · obtain ⟨rfl, rfl⟩ := h2; simp
        · rw [if_neg h2, if_neg]
          rintro (⟨rfl, rfl⟩ | ⟨rfl, rfl⟩)
          · exact h2 ⟨rfl, rfl⟩
          · exact h1 ⟨rfl, rfl⟩
    rw [hstep]
    simp only [List.map_cons, List.sum_cons, List.forall_mem_cons]
    by_cases hx : x.2 = (i, j) ∨ x.2 = (j, i)
    · have hrest : ∀ y ∈ l, y.2 ≠ (i, j) ∧ y.2 ≠ (j, i) := by
        intro y hy
        have h := hl.1 y.2 (List.mem_map_of_mem hy)
        rcases hx with hx | hx <;> rw [hx] at h <;> refine ⟨fun e => ?_, fun e => ?_⟩ <;>
          rw [e] at h <;> simp at h
      have hne : ¬((x.2 ≠ (i, j) ∧ x.2 ≠ (j, i)) ∧ ∀ y ∈ l, y.2 ≠ (i, j) ∧ y.2 ≠ (j, i)) := by
        rintro ⟨⟨h1, h2⟩, -⟩
        rcases hx with hx | hx
        · exact h1 hx
        · exact h2 hx
      rw [if_pos hrest, if_pos hx, if_neg hne, if_pos hx]
      have hz : (l.map fun x => if x.2 = (i, j) ∨ x.2 = (j, i) then f x.1 i j else 0).sum = 0 := by
        refine List.sum_eq_zero fun v hv => ?_
        obtain ⟨y, hy, rfl⟩ := List.mem_map.1 hv
        rw [if_neg]
        rintro (h | h)
        · exact (hrest y hy).1 h
        · exact (hrest y hy).2 h
      rw [hz, add_zero]
    · have hx' : x.2 ≠ (i, j) ∧ x.2 ≠ (j, i) := ⟨fun h => hx (.inl h), fun h => hx (.inr h)⟩
      rw [if_neg hx]
      simp only [hx', ne_eq, not_false_eq_true, and_self, true_and, zero_add, or_self, if_false]

/-- the matrix of `solve_intensities` -/
def imat {N : Nat} (σ R : Fin N → ℝ) (α : ℝ) (l : List (ℝ × Fin N × Fin N)) : Matrix (Fin N) (Fin N) ℝ :=
  fun i j => if i = j then blur (R i) (α * σ i) 0 - blur (R i) (σ i) 0
    else (l.map fun x => if x.2 = (i, j) ∨ x.2 = (j, i) then
      2 * (blur (R j) (α * σ i) x.1 - blur (R j) (σ i) x.1) else 0).sum

theorem solve_eq {N : Nat} (spsolve : Spsolve N) (σ R m : Fin N → ℝ) (b : List (Fin N × Fin N))
    (dists : List ℝ) (n : Nat) (hn : 0 < n) (hlen : b.length = dists.length) (hb : Simple b)
    (hσ : ∀ i, 0 < σ i) (hR : ∀ i, 0 ≤ R i) (hd : ∀ d ∈ dists, d ≠ 0) :
    solveIntensities spsolve σ (asNat b) dists m (some R) n
      = .ok (spsolve (imat σ R (alphaOf n) (dists.zip b)) m) := by
  unfold solveIntensities
  have hlen' : (asNat b).length = dists.length := by simp [asNat, hlen]
  have hα0 : 0 < alphaOf n := by linarith [alpha_gt n hn]
  rw [if_neg (by simp [hlen']), checked_ok, ok_bind]
  simp only [Option.getD_some, pure_eq_ok]
  congr 2
  funext i j
  have hsnd : (dists.zip b).map Prod.snd = b := List.map_snd_zip (by omega)
  unfold imat
  by_cases hij : i = j
  · subst hij
    rw [if_pos rfl, if_pos rfl]
    simp only [DoG]
    rw [C188_center _ _ (hR i) (mul_pos hα0 (hσ i)), C188_center _ _ (hR i) (hσ i)]
  · rw [if_neg hij, if_neg hij]
    have h := intensity_matrix (fun d a c => DoG (R c) (σ a) (alphaOf n) (some d)) (dists.zip b)
      (fun _ _ => 0) i j (by rw [hsnd]; exact hb.1)
    refine h.trans ?_
    have hval : (dists.zip b).map (fun x => if x.2 = (i, j) ∨ x.2 = (j, i) then
        DoG (R j) (σ i) (alphaOf n) (some x.1) else 0)
        = (dists.zip b).map (fun x => if x.2 = (i, j) ∨ x.2 = (j, i) then
          2 * (blur (R j) (alphaOf n * σ i) x.1 - blur (R j) (σ i) x.1) else 0) := by
      refine List.map_congr_left fun x hx => ?_
      have hx0 : x.1 ≠ 0 := hd _ (List.of_mem_zip hx).1
      have e : DoG (R j) (σ i) (alphaOf n) (some x.1)
          = 2 * (blur (R j) (alphaOf n * σ i) x.1 - blur (R j) (σ i) x.1) := by
        simp only [DoG]
        rw [G_some _ _ _ (hR j) (mul_pos hα0 (hσ i)) hx0, G_some _ _ _ (hR j) (hσ i) hx0]; ring
      rw [e]
    split
    · rename_i h'
      symm
      refine List.sum_eq_zero fun w hw => ?_
      obtain ⟨y, hy, rfl⟩ := List.mem_map.1 hw
      rw [if_neg]
      rintro (h | h)
      · exact (h' y hy).1 h
      · exact (h' y hy).2 h
    · rw [hval]

theorem sum_comm_list {N : Nat} {ι : Type} (l : List ι) (F : ι → Fin N → ℝ) :
    ∑ j, (l.map fun x => F x j).sum = (l.map fun x => ∑ j, F x j).sum := by
  induction l with
  | nil => simp
  | cons x l ih => simp only [List.map_cons, List.sum_cons, Finset.sum_add_distrib, ih]

/-- the product of the matrix and the brightness `x`: the response, the neighbours counted twice -/
theorem imat_mulVec {N : Nat} (σ R x : Fin N → ℝ) (α : ℝ) (l : List (ℝ × Fin N × Fin N)) (i : Fin N)
    (hl : ∀ y ∈ l, y.2.1 ≠ y.2.2) :
    (imat σ R α l).mulVec x i = 2 * response R x α l i (σ i)
      - x i * (blur (R i) (α * σ i) 0 - blur (R i) (σ i) 0) := by
  rw [Matrix.mulVec, dotProduct]
  have hsplit : ∀ j, imat σ R α l i j * x j
      = (if i = j then (blur (R i) (α * σ i) 0 - blur (R i) (σ i) 0) * x i else 0)
        + (l.map fun y => if (y.2 = (i, j) ∨ y.2 = (j, i)) then
          2 * (blur (R j) (α * σ i) y.1 - blur (R j) (σ i) y.1) * x j else 0).sum := by
    intro j
    unfold imat
    by_cases hij : i = j
    · subst hij
      rw [if_pos rfl, if_pos rfl, List.sum_eq_zero, add_zero]
      intro w hw
      obtain ⟨y, hy, rfl⟩ := List.mem_map.1 hw
      rw [if_neg]
      rintro (h | h) <;> exact hl y hy (by rw [h])
    · rw [if_neg hij, if_neg hij, zero_add, ← List.sum_map_mul_right]
      congr 1
      refine List.map_congr_left fun y _ => ?_
      split <;> ring
  rw [Finset.sum_congr rfl fun j _ => hsplit j, Finset.sum_add_distrib, sum_comm_list]
  rw [Finset.sum_ite_eq, if_pos (Finset.mem_univ i)]
  unfold response
  have hterm : ∀ y ∈ l, (∑ j, if (y.2 = (i, j) ∨ y.2 = (j, i)) then
          2 * (blur (R j) (α * σ i) y.1 - blur (R j) (σ i) y.1) * x j else 0)
      = 2 * ((if y.2.1 = i then x y.2.2 * (blur (R y.2.2) (α * σ i) y.1 - blur (R y.2.2) (σ i) y.1) else 0)
      + (if y.2.2 = i then x y.2.1 * (blur (R y.2.1) (α * σ i) y.1 - blur (R y.2.1) (σ i) y.1) else 0)) := by
    intro y hy
    obtain ⟨d, a, c⟩ := y
    have hac : a ≠ c := hl _ hy
    simp only [Prod.mk.injEq]
    by_cases h1 : a = i
    · subst h1
      have hca : c ≠ a := Ne.symm hac
      have : ∀ j, ((a = a ∧ c = j) ∨ (a = j ∧ c = a)) ↔ c = j := by
        intro j
        constructor
        · rintro (h | h)
          · exact h.2
          · exact absurd h.2 hca
        · intro h; exact .inl ⟨rfl, h⟩
      rw [Finset.sum_congr rfl fun j _ => if_congr (this j) rfl rfl]
      simp only [Finset.sum_ite_eq, Finset.mem_univ, if_true, if_neg hca]
      ring
    · by_cases h2 : c = i
      · subst h2
        have : ∀ j, ((a = c ∧ c = j) ∨ (a = j ∧ c = c)) ↔ a = j := by
          intro j
          constructor
          · rintro (h | h)
            · exact absurd h.1 h1
            · exact h.1
          · intro h; exact .inr ⟨h, rfl⟩
        rw [Finset.sum_congr rfl fun j _ => if_congr (this j) rfl rfl]
        simp only [Finset.sum_ite_eq, Finset.mem_univ, if_true, if_neg h1]
        ring
      · simp [h1, h2]
  rw [List.map_congr_left hterm, List.sum_map_mul_left]
  ring

/-- **C190, partial** What `solve_intensities` returns: if the system is regular, brightnesses for which
the measured value of each particle is its own response plus twice that of its neighbours.  The neighbours
ought to be counted once (see the counterexample). -/
theorem C190_solves_partial {N : Nat} (spsolve : Spsolve N) (hs : Solves spsolve) (σ R m : Fin N → ℝ)
    (b : List (Fin N × Fin N)) (dists : List ℝ) (n : Nat) (hn : 0 < n) (hlen : b.length = dists.length)
    (hb : Simple b) (hσ : ∀ i, 0 < σ i) (hR : ∀ i, 0 ≤ R i) (hd : ∀ d ∈ dists, d ≠ 0)
    (hdet : (imat σ R (alphaOf n) (dists.zip b)).det ≠ 0) :
    ∃ x, solveIntensities spsolve σ (asNat b) dists m (some R) n = .ok x ∧
      ∀ i, m i = 2 * response R x (alphaOf n) (dists.zip b) i (σ i)
        - x i * (blur (R i) (alphaOf n * σ i) 0 - blur (R i) (σ i) 0) := by
  refine ⟨_, solve_eq spsolve σ R m b dists n hn hlen hb hσ hR hd, fun i => ?_⟩
  have h := congrFun (hs _ m hdet) i
  rw [imat_mulVec σ R _ (alphaOf n) (dists.zip b) i fun y hy => hb.2 _ (List.of_mem_zip hy).2] at h
  exact h.symm

/-- **C190** Without neighbours, the brightness that is returned is that of the balls. -/
theorem C190_isolated {N : Nat} (spsolve : Spsolve N) (hs : Solves spsolve) (σ R I : Fin N → ℝ)
    (n : Nat) (hn : 0 < n) (hσ : ∀ i, 0 < σ i) (hR : ∀ i, 0 < R i) :
    solveIntensities spsolve σ [] [] (fun i => response R I (alphaOf n) [] i (σ i)) (some R) n = .ok I := by
  have e := solve_eq spsolve σ R (fun i => response R I (alphaOf n) [] i (σ i)) [] [] n hn rfl
    ⟨by simp, by simp⟩ hσ (fun i => (hR i).le) (by simp)
  rw [show asNat ([] : List (Fin N × Fin N)) = [] from rfl] at e
  rw [e]
  congr 1
  have hD : imat σ R (alphaOf n) [] = Matrix.diagonal fun i =>
      blur (R i) (alphaOf n * σ i) 0 - blur (R i) (σ i) 0 := by
    funext i j
    simp only [imat, List.map_nil, List.sum_nil, Matrix.diagonal_apply]
  have hdet : (imat σ R (alphaOf n) []).det ≠ 0 := by
    rw [hD, Matrix.det_diagonal]
    exact Finset.prod_ne_zero_iff.2 fun i _ => ((C188_response (R i) n (hR i) hn).2.2.1 (σ i) (hσ i)).ne
  have h := hs (imat σ R (alphaOf n) []) (fun i => response R I (alphaOf n) [] i (σ i)) hdet
  have h2 : (imat σ R (alphaOf n) []).mulVec I = fun i => response R I (alphaOf n) [] i (σ i) := by
    funext i
    rw [imat_mulVec σ R I (alphaOf n) [] i (by simp)]
    simp only [response, List.map_nil, List.sum_nil, add_zero]; ring
  have hz : (imat σ R (alphaOf n) []).mulVec
      (spsolve (imat σ R (alphaOf n) []) (fun i => response R I (alphaOf n) [] i (σ i)) - I) = 0 := by
    rw [Matrix.mulVec_sub, h, h2, sub_self]
  exact sub_eq_zero.1 (Matrix.eq_zero_of_mulVec_eq_zero hdet hz)

example : ∃ s : Spsolve 2, Solves s := solves_exists 2

/-- **C190** Without radii given, they are those of the scales: isolated balls of these radii are found with
their brightness. -/
theorem C190_default {N : Nat} (spsolve : Spsolve N) (hs : Solves spsolve) (σ I : Fin N → ℝ)
    (n : Nat) (hn : 0 < n) (hσ : ∀ i, 0 < σ i) :
    ∃ R : Fin N → ℝ, (∀ i, radius2sigma (R i) n 3 = σ i) ∧
      solveIntensities spsolve σ [] [] (fun i => response R I (alphaOf n) [] i (σ i)) none n = .ok I := by
  have hn' : (0 : ℝ) < n := by exact_mod_cast hn
  refine ⟨fun i => sigma2radius (σ i) n 3, fun i => (C188_scales 1 n 3 one_pos hn' (by norm_num)).2.2.1 (σ i),
    C190_isolated spsolve hs σ _ I n hn hσ fun i => ?_⟩
  have h := (shape_sigma n 3 hn' (by norm_num)).symm ▸ (mul_pos
    (Real.rpow_pos_of_pos (by norm_num : (0:ℝ) < 2) (1 / (n : ℝ)))
    (Real.sqrt_pos.2 (shape_pos n 3 hn' (by norm_num))))
  exact mul_pos (hσ i) h

/-- **C190** As many distances as bonds, all between existing particles; otherwise an exception. -/
theorem C190_errors {N : Nat} (spsolve : Spsolve N) (σ m : Fin N → ℝ) (bonds : List (Nat × Nat))
    (dists : List ℝ) (R0 : Option (Fin N → ℝ)) (n : Nat) :
    (bonds.length ≠ dists.length →
      solveIntensities spsolve σ bonds dists m R0 n = .error .logicError) ∧
    (bonds.length = dists.length → (∃ b ∈ bonds, N ≤ b.1 ∨ N ≤ b.2) →
      solveIntensities spsolve σ bonds dists m R0 n = .error .outOfRange) := by
  constructor
  · intro h; unfold solveIntensities; rw [if_pos h]
  · intro h hb
    unfold solveIntensities
    rw [if_neg (by simp [h]), checked_error bonds hb]; rfl

example : [((0 : Nat), (7 : Nat))].length = [(1 : ℝ)].length
    ∧ ∃ b ∈ [((0 : Nat), (7 : Nat))], 2 ≤ b.1 ∨ 2 ≤ b.2 := ⟨rfl, (0, 7), by simp, by norm_num⟩

/-- far from a ball, the blurred intensity increases with the width of the blur -/
theorem far_increases (R d a c : ℝ) (hR : 0 < R) (hd : 0 < d) (ha : 0 < a) (hac : a < c)
    (hfar : R ^ 2 + c ^ 2 ≤ d * R) : blur R a d < blur R c d := by
  have hmono : StrictMonoOn (fun s => blur R s d) (Set.Icc a c) := by
    refine strictMonoOn_of_deriv_pos (convex_Icc _ _)
      (fun s hs => (((C188_derivatives R s hR.le (ha.trans_le hs.1)).2.1 d hd.ne').continuousAt).continuousWithinAt)
      fun s hs => ?_
    rw [interior_Icc] at hs
    have hs0 : 0 < s := ha.trans hs.1
    rw [((C188_derivatives R s hR.le hs0).2.1 d hd.ne').deriv]
    simp only [Gdsigma, halfGdsigma]
    have hs2 : s ^ 2 ≤ c ^ 2 := by nlinarith [hs.2]
    have h1 : 0 < (R ^ 2 + d * R + s ^ 2) * exp (-(R + d) ^ 2 / (2 * s ^ 2)) / √(2 * π) / d / s ^ 2 := by
      positivity
    have h2 : (R ^ 2 + -d * R + s ^ 2) * exp (-(R + -d) ^ 2 / (2 * s ^ 2)) / √(2 * π) / -d / s ^ 2
        = (d * R - R ^ 2 - s ^ 2) * (exp (-(R + -d) ^ 2 / (2 * s ^ 2)) / √(2 * π) / d / s ^ 2) := by
      have : 0 < √(2 * π) := by positivity
      generalize √(2 * π) = w at *
      generalize exp _ = E
      field_simp
      ring
    rw [h2]
    have h3 : 0 ≤ (d * R - R ^ 2 - s ^ 2) * (exp (-(R + -d) ^ 2 / (2 * s ^ 2)) / √(2 * π) / d / s ^ 2) :=
      mul_nonneg (by linarith) (by positivity)
    linarith
  exact hmono ⟨le_rfl, hac.le⟩ ⟨hac.le, le_rfl⟩ hac

/-- far from a ball, almost nothing -/
theorem far_small (R σ d : ℝ) (hR : 0 < R) (hσ : 0 < σ) (hd : R ≤ d) :
    blur R σ d ≤ exp (-(d - R) ^ 2 / (2 * σ ^ 2)) / (√(2 * π) * σ) * (2 * R) := by
  rw [blur_slices R σ d hR.le hσ]
  refine (le_abs_self _).trans ?_
  have h := intervalIntegral.norm_integral_le_of_norm_le_const
    (a := -R) (b := R) (C := exp (-(d - R) ^ 2 / (2 * σ ^ 2)) / (√(2 * π) * σ))
    (f := fun z => (exp (-(z - d) ^ 2 / (2 * σ ^ 2)) - exp (-(R ^ 2 + d ^ 2 - 2 * z * d) / (2 * σ ^ 2)))
        / (√(2 * π) * σ)) (fun z hz => by
      rw [Set.uIoc_of_le (by linarith)] at hz
      have hz2 : z ^ 2 ≤ R ^ 2 := by nlinarith [hz.1, hz.2]
      have hp : 0 < √(2 * π) * σ := by positivity
      have h1 : exp (-(R ^ 2 + d ^ 2 - 2 * z * d) / (2 * σ ^ 2)) ≤ exp (-(z - d) ^ 2 / (2 * σ ^ 2)) := by
        refine exp_le_exp.2 ?_
        gcongr
        nlinarith
      have h2 : exp (-(z - d) ^ 2 / (2 * σ ^ 2)) ≤ exp (-(d - R) ^ 2 / (2 * σ ^ 2)) := by
        refine exp_le_exp.2 ?_
        refine div_le_div_of_nonneg_right (neg_le_neg ?_) (by positivity)
        nlinarith [hz.2]
      rw [Real.norm_eq_abs, abs_of_nonneg (div_nonneg (by linarith) hp.le)]
      gcongr
      linarith [exp_pos (-(R ^ 2 + d ^ 2 - 2 * z * d) / (2 * σ ^ 2))])
  rw [Real.norm_eq_abs, show R - -R = 2 * R by ring, abs_of_pos (by linarith : (0 : ℝ) < 2 * R)] at h
  exact h

theorem alpha3 : alphaOf 3 ^ 3 = 2 := by
  unfold alphaOf
  rw [← Real.rpow_natCast, ← Real.rpow_mul (by norm_num)]
  norm_num

theorem alpha3_bounds : 1.25 < alphaOf 3 ∧ alphaOf 3 < 1.26 := by
  have h := alpha3
  have h1 := alpha_gt 3 (by norm_num)
  constructor
  · by_contra hh
    rw [not_lt] at hh
    have : alphaOf 3 ^ 3 ≤ 1.25 ^ 3 := by gcongr
    norm_num at this; linarith
  · by_contra hh
    rw [not_lt] at hh
    have : (1.26 : ℝ) ^ 3 ≤ alphaOf 3 ^ 3 := by gcongr
    norm_num at this; linarith

/-- the response of a ball of radius 1 to blurs of width 1 and `2^(1/3)` -/
theorem own_response : blur 1 (alphaOf 3 * 1) 0 - blur 1 1 0 < -0.039 := by
  have hb := alpha3_bounds
  have h1 : (1 : ℝ) < alphaOf 3 := by linarith [hb.1]
  rw [mul_one]
  obtain ⟨c, hc, hc2⟩ := exists_hasDerivAt_eq_slope (fun s => blur 1 s 0) (fun s => Gdsigma 1 s none) h1
    (fun s hs => ((C188_derivatives 1 s zero_le_one (by linarith [hs.1])).1).continuousAt.continuousWithinAt)
    (fun s hs => (C188_derivatives 1 s zero_le_one (by linarith [hs.1])).1)
  have hpos : 0 < alphaOf 3 - 1 := by linarith
  rw [eq_div_iff hpos.ne'] at hc2
  rw [← hc2]
  simp only [Gdsigma, midGdsigma]
  have hc0 : 0 < c := by linarith [hc.1]
  have hc13 : c < 1.26 := by linarith [hc.2, hb.2]
  have hexp : (0.5 : ℝ) ≤ exp (-1 ^ 2 / 2 / c ^ 2) := by
    have h2 : (-(1 / 2) : ℝ) ≤ -1 ^ 2 / 2 / c ^ 2 := by
      have hcc : 1 ≤ c ^ 2 := by nlinarith [hc.1]
      rw [le_div_iff₀ (by positivity)]
      nlinarith
    have h3 : -(1 / 2 : ℝ) + 1 ≤ exp (-(1 / 2)) := add_one_le_exp _
    have := exp_le_exp.2 h2
    linarith
  have hw : (0.79 : ℝ) < √(2 / π) := by
    rw [Real.lt_sqrt (by norm_num)]
    rw [lt_div_iff₀ pi_pos]
    have := pi_lt_d2
    nlinarith
  have hc4 : c ^ 4 < 2.53 := by
    have : c ^ 4 < 1.26 ^ 4 := by gcongr
    refine this.trans (by norm_num)
  have hinv : (0.395 : ℝ) < 1 / c ^ 4 := by
    rw [lt_div_iff₀ (by positivity)]; nlinarith
  have e : (-1 ^ 3 / c ^ 4 * √(2 / π) * exp (-1 ^ 2 / 2 / c ^ 2)) * (alphaOf 3 - 1)
      = -(1 / c ^ 4 * √(2 / π) * exp (-1 ^ 2 / 2 / c ^ 2) * (alphaOf 3 - 1)) := by ring
  rw [e]
  have hprod : (0.395 : ℝ) * 0.79 * 0.5 * 0.25 < 1 / c ^ 4 * √(2 / π) * exp (-1 ^ 2 / 2 / c ^ 2) * (alphaOf 3 - 1) := by
    have q1 : (0.395 : ℝ) * 0.79 < 1 / c ^ 4 * √(2 / π) := by nlinarith
    have q2 : (0.395 : ℝ) * 0.79 * 0.5 < 1 / c ^ 4 * √(2 / π) * exp (-1 ^ 2 / 2 / c ^ 2) := by nlinarith
    nlinarith [hb.1]
  norm_num at hprod ⊢
  linarith

/-- **C190, counterexample** Two balls of radius 1 and brightness 1 at a distance of 6, of which the measured
values are exactly what the blur gives, are not found with brightness 1: the neighbour is counted twice. -/
theorem C190_neighbour_counterexample (spsolve : Spsolve 2) (hs : Solves spsolve) :
    ∃ x, solveIntensities spsolve (fun _ => 1) [(0, 1)] [6]
        (fun i => response (fun _ => 1) (fun _ => 1) (alphaOf 3) [(6, 0, 1)] i 1) (some fun _ => 1) 3 = .ok x ∧
      x ≠ fun _ => 1 := by
  have hb := alpha3_bounds
  have e := solve_eq spsolve (fun _ => 1) (fun _ => 1)
    (fun i => response (fun _ => 1) (fun _ => 1) (alphaOf 3) [(6, 0, 1)] i 1) [((0 : Fin 2), (1 : Fin 2))] [6] 3
    (by norm_num) rfl ⟨by simp, by simp⟩ (fun _ => one_pos) (fun _ => zero_le_one) (by simp)
  rw [show asNat [((0 : Fin 2), (1 : Fin 2))] = [(0, 1)] from rfl] at e
  refine ⟨_, e, fun hx => ?_⟩
  have hown := own_response
  have hnear : blur 1 1 6 < blur 1 (alphaOf 3) 6 :=
    far_increases 1 6 1 (alphaOf 3) one_pos (by norm_num) one_pos (by linarith [hb.1]) (by nlinarith [hb.2, hb.1])
  have hsmall : blur 1 (alphaOf 3) 6 < 0.01 := by
    have h := far_small 1 (alphaOf 3) 6 one_pos (by linarith [hb.1]) (by norm_num)
    have h25 : exp (-(6 - 1) ^ 2 / (2 * alphaOf 3 ^ 2)) ≤ 1 / 128 := by
      have hle : -(6 - 1) ^ 2 / (2 * alphaOf 3 ^ 2) ≤ (-7 : ℝ) := by
        rw [div_le_iff₀ (by nlinarith [hb.1])]
        nlinarith [hb.2, hb.1]
      have h2 : exp (-7 : ℝ) ≤ 1 / 128 := by
        rw [exp_neg, one_div]
        refine inv_anti₀ (by norm_num) ?_
        have : (2 : ℝ) ^ 7 ≤ exp 1 ^ 7 := by
          have : (2 : ℝ) ≤ exp 1 := by have := add_one_le_exp (1 : ℝ); linarith
          gcongr
        rw [← Real.exp_nat_mul] at this
        norm_num at this
        exact this
      exact (exp_le_exp.2 hle).trans h2
    have hw : (2.5 : ℝ) < √(2 * π) := by
      rw [Real.lt_sqrt (by norm_num)]
      have := pi_gt_d2
      nlinarith
    have hden : (2 : ℝ) < √(2 * π) * alphaOf 3 := by nlinarith [hb.1]
    have hE : 0 < exp (-(6 - 1) ^ 2 / (2 * alphaOf 3 ^ 2)) := exp_pos _
    have : exp (-(6 - 1) ^ 2 / (2 * alphaOf 3 ^ 2)) / (√(2 * π) * alphaOf 3) * (2 * 1) < 0.01 := by
      rw [div_mul_eq_mul_div, div_lt_iff₀ (by linarith)]
      nlinarith
    linarith
  have hp1 := blur_positive 1 1 6 one_pos one_pos
  have hdet : (imat (fun _ : Fin 2 => 1) (fun _ => 1) (alphaOf 3) ([6].zip [((0 : Fin 2), (1 : Fin 2))])).det ≠ 0 := by
    rw [Matrix.det_fin_two]
    simp only [imat, List.zip_cons_cons, List.zip_nil_left, List.map_cons, List.map_nil, List.sum_cons, List.sum_nil]
    simp
    intro h
    rw [mul_one] at hown
    nlinarith
  have h := congrFun (hs _ (fun i => response (fun _ => 1) (fun _ => 1) (alphaOf 3) [(6, 0, 1)] i 1) hdet) 0
  rw [hx, imat_mulVec _ _ _ _ _ _ (by simp)] at h
  simp only [response, List.zip_cons_cons, List.zip_nil_left, List.map_cons, List.map_nil, List.sum_cons, List.sum_nil] at h
  simp at h
  linarith

example : ∃ s : Spsolve 2, Solves s := solves_exists 2

end

end Track
end Py
end Colloids
