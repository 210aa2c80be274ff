import Mathlib.LinearAlgebra.Matrix.NonsingularInverse
import Verif.Py.TrackBlurProps
import Verif.CommonLemmas

/-!
# C188 (continued), C189: the response of a blurred ball and the radii of neighbouring particles
-/

namespace Colloids
namespace Py
namespace Track

open Real MeasureTheory

noncomputable section

theorem alpha_gt (n : Nat) (hn : 0 < n) : 1 < alphaOf n := by
  unfold alphaOf
  have : (0 : ℝ) < n := by exact_mod_cast hn
  exact Real.one_lt_rpow (by norm_num) (by positivity)

theorem alpha_log (n : Nat) : log (alphaOf n) = log 2 / n := by
  unfold alphaOf
  rw [Real.log_rpow (by norm_num)]; norm_num; ring

theorem alpha_sq (n : Nat) : (2 : ℝ) ^ (-2.0 / (n : ℝ)) = ((alphaOf n) ^ 2)⁻¹ := by
  unfold alphaOf
  rw [← Real.rpow_natCast, ← Real.rpow_mul (by norm_num), ← Real.rpow_neg (by norm_num)]
  congr 1; norm_num; ring

/-- the square of the factor of `sigma2radius` -/
theorem shape_alpha (n : Nat) (_hn : 0 < n) :
    2 * (3 : ℝ) * log 2 / n / (1 - (2 : ℝ) ^ (-2.0 / (n : ℝ)))
      = 6 * log (alphaOf n) / (1 - ((alphaOf n) ^ 2)⁻¹) := by
  rw [alpha_sq, alpha_log]; ring

theorem DoGdsigma_none (R s α : ℝ) (hs : 0 < s) (hα : 0 < α) :
    DoGdsigma R s α none = R ^ 3 / s ^ 4 * √(2 / π) *
      (exp (-R ^ 2 / (2 * s ^ 2)) - exp (-(3 * log α) + -R ^ 2 / (2 * (α * s) ^ 2))) := by
  have e : exp (-(3 * log α)) = (α ^ 3)⁻¹ := by
    rw [exp_neg, show 3 * log α = ((3 : Nat) : ℝ) * log α by norm_num, ← Real.log_pow, exp_log (by positivity)]
  rw [exp_add, e]
  simp only [DoGdsigma, Gdsigma, midGdsigma]
  rw [show -R ^ 2 / 2 / s ^ 2 = -R ^ 2 / (2 * s ^ 2) by ring,
    show -R ^ 2 / 2 / (α * s) ^ 2 = -R ^ 2 / (2 * (α * s) ^ 2) by ring]
  generalize exp _ = E
  generalize exp _ = E'
  generalize √(2 / π) = w
  field_simp
  ring

/-- the sign of the derivative of the response -/
theorem exps_lt (R s : ℝ) (n : Nat) (hR : 0 < R) (hs : 0 < s) (hn : 0 < n) :
    (-R ^ 2 / (2 * s ^ 2) < -(3 * log (alphaOf n)) + -R ^ 2 / (2 * (alphaOf n * s) ^ 2)
      ↔ s < radius2sigma R n 3) ∧
    (-(3 * log (alphaOf n)) + -R ^ 2 / (2 * (alphaOf n * s) ^ 2) < -R ^ 2 / (2 * s ^ 2)
      ↔ radius2sigma R n 3 < s) := by
  have hα := alpha_gt n hn
  have hl : 0 < log (alphaOf n) := log_pos hα
  unfold radius2sigma
  rw [shape_alpha n hn]
  generalize alphaOf n = α at *
  have hw : 0 < 1 - (α ^ 2)⁻¹ := by
    have : (α ^ 2)⁻¹ < 1 := inv_lt_one_of_one_lt₀ (by nlinarith)
    linarith
  have hsplit : R ^ 2 / (2 * (α * s) ^ 2) = R ^ 2 / (2 * s ^ 2) * (α ^ 2)⁻¹ := by
    have : 0 < α := by linarith
    field_simp
  have e1 : -R ^ 2 / (2 * (α * s) ^ 2) = -(R ^ 2 / (2 * s ^ 2) * (α ^ 2)⁻¹) := by
    rw [neg_div, hsplit]
  rw [e1, neg_div]
  generalize (α ^ 2)⁻¹ = w at *
  generalize log α = L at *
  have hc : 0 < 6 * L / (1 - w) := by positivity
  have hkey : ∀ c : ℝ, 0 < c → (s < R / √c ↔ s ^ 2 * c < R ^ 2) ∧ (R / √c < s ↔ R ^ 2 < s ^ 2 * c) := by
    intro c hc
    have hsq : √c ^ 2 = c := Real.sq_sqrt hc.le
    have hp : 0 < √c := Real.sqrt_pos.2 hc
    rw [lt_div_iff₀ hp, div_lt_iff₀ hp]
    have h1 : s ^ 2 * c = (s * √c) ^ 2 := by rw [mul_pow, hsq]
    rw [h1]
    constructor
    · exact (pow_lt_pow_iff_left₀ (by positivity) hR.le (by norm_num)).symm
    · exact (pow_lt_pow_iff_left₀ hR.le (by positivity) (by norm_num)).symm
  rw [(hkey _ hc).1, (hkey _ hc).2]
  have hs2 : 0 < s ^ 2 := by positivity
  have h3 : s ^ 2 * (6 * L / (1 - w)) = s ^ 2 * 6 * L / (1 - w) := by ring
  rw [h3, div_lt_iff₀ hw, lt_div_iff₀ hw]
  have hx : R ^ 2 / (2 * s ^ 2) * (2 * s ^ 2) = R ^ 2 := by field_simp
  generalize R ^ 2 / (2 * s ^ 2) = x at *
  rw [← hx]
  constructor
  · constructor
    · intro h
      have : 3 * L < x * (1 - w) := by linarith
      nlinarith
    · intro h
      have : 3 * L < x * (1 - w) := by
        by_contra hh
        rw [not_lt] at hh
        nlinarith
      linarith
  · constructor
    · intro h
      have : x * (1 - w) < 3 * L := by linarith
      nlinarith
    · intro h
      have : x * (1 - w) < 3 * L := by
        by_contra hh
        rw [not_lt] at hh
        nlinarith
      linarith

theorem diff_deriv (R s α d : ℝ) (hR : 0 ≤ R) (hs : 0 < s) (hα : 0 < α) :
    HasDerivAt (fun s => blur R (α * s) 0 - blur R s 0) (DoGdsigma R s α none) s ∧
    (d ≠ 0 → HasDerivAt (fun s => blur R (α * s) d - blur R s d) (DoGdsigma R s α (some d)) s) := by
  have hm : HasDerivAt (fun s : ℝ => α * s) α s := by
    simpa using (hasDerivAt_id s).const_mul α
  have hαs : 0 < α * s := by positivity
  have h1 := C188_derivatives R (α * s) hR hαs
  have h2 := C188_derivatives R s hR hs
  refine ⟨?_, fun hd => ?_⟩
  · refine ((h1.1.comp s hm).sub h2.1).congr_deriv ?_
    simp only [DoGdsigma]; ring
  · refine (((h1.2.1 d hd).comp s hm).sub (h2.2.1 d hd)).congr_deriv ?_
    simp only [DoGdsigma]; ring

/-- **C188** The response of a bright ball to the difference of two blurs of ratio `2^(1/n)` is negative, and
decreases then increases with the width of the blur: its only minimum is where `radius2sigma` says. -/
theorem C188_response (R : ℝ) (n : Nat) (hR : 0 < R) (hn : 0 < n) :
    StrictAntiOn (fun s => blur R (alphaOf n * s) 0 - blur R s 0) (Set.Ioc 0 (radius2sigma R n 3)) ∧
    StrictMonoOn (fun s => blur R (alphaOf n * s) 0 - blur R s 0) (Set.Ici (radius2sigma R n 3)) ∧
    (∀ s, 0 < s → blur R (alphaOf n * s) 0 - blur R s 0 < 0) ∧ 0 < radius2sigma R n 3 := by
  have hα := alpha_gt n hn
  have hα0 : 0 < alphaOf n := by linarith
  have hstar : 0 < radius2sigma R n 3 := by
    unfold radius2sigma
    refine div_pos hR (Real.sqrt_pos.2 ?_)
    rw [shape_alpha n hn]
    have hl : 0 < log (alphaOf n) := log_pos hα
    have : ((alphaOf n) ^ 2)⁻¹ < 1 := inv_lt_one_of_one_lt₀ (by nlinarith)
    exact div_pos (by positivity) (by linarith)
  have hder : ∀ s, 0 < s → HasDerivAt (fun s => blur R (alphaOf n * s) 0 - blur R s 0)
      (DoGdsigma R s (alphaOf n) none) s := fun s hs => (diff_deriv R s _ 0 hR.le hs hα0).1
  have hpos : ∀ s, 0 < s → 0 < R ^ 3 / s ^ 4 * √(2 / π) := fun s hs => by positivity
  refine ⟨?_, ?_, fun s hs => ?_, hstar⟩
  · refine strictAntiOn_of_deriv_neg (convex_Ioc _ _)
      (fun s hs => (hder s hs.1).continuousAt.continuousWithinAt) fun s hs => ?_
    rw [interior_Ioc] at hs
    rw [(hder s hs.1).deriv, DoGdsigma_none _ _ _ hs.1 hα0]
    refine mul_neg_of_pos_of_neg (hpos s hs.1) (sub_neg.2 (exp_lt_exp.2 ?_))
    exact ((exps_lt R s n hR hs.1 hn).1).2 hs.2
  · refine strictMonoOn_of_deriv_pos (convex_Ici _)
      (fun s hs => (hder s (hstar.trans_le hs)).continuousAt.continuousWithinAt) fun s hs => ?_
    rw [interior_Ici] at hs
    have hs0 : 0 < s := hstar.trans hs
    rw [(hder s hs0).deriv, DoGdsigma_none _ _ _ hs0 hα0]
    refine mul_pos (hpos s hs0) (sub_pos.2 (exp_lt_exp.2 ?_))
    exact ((exps_lt R s n hR hs0 hn).2).2 hs
  · have hanti : StrictAntiOn (fun s => blur R s 0) (Set.Ioi 0) := by
      refine strictAntiOn_of_deriv_neg (convex_Ioi _)
        (fun s hs => ((C188_derivatives R s hR.le hs).1).continuousAt.continuousWithinAt) fun s hs => ?_
      rw [interior_Ioi] at hs
      have hs' : (0 : ℝ) < s := hs
      rw [((C188_derivatives R s hR.le hs).1).deriv]
      simp only [Gdsigma, midGdsigma]
      have : 0 < R ^ 3 / s ^ 4 * √(2 / π) * exp (-R ^ 2 / 2 / s ^ 2) := by positivity
      have e : -R ^ 3 / s ^ 4 * √(2 / π) * exp (-R ^ 2 / 2 / s ^ 2)
        = -(R ^ 3 / s ^ 4 * √(2 / π) * exp (-R ^ 2 / 2 / s ^ 2)) := by ring
      rw [e]; linarith
    have := hanti (Set.mem_Ioi.2 hs) (Set.mem_Ioi.2 (by positivity : 0 < alphaOf n * s))
      (by nlinarith)
    simp only at this
    linarith

example : (0 : ℝ) < radius2sigma 4 3 3 := by
  simpa using (C188_response 4 3 (by norm_num) (by norm_num)).2.2.2

theorem root_iff (R s : ℝ) (n : Nat) (hR : 0 < R) (hs : 0 < s) (hn : 0 < n) :
    DoGdsigma R s (alphaOf n) none = 0 ↔ s = radius2sigma R n 3 := by
  have hα0 : 0 < alphaOf n := by linarith [alpha_gt n hn]
  rw [DoGdsigma_none _ _ _ hs hα0]
  have hp : R ^ 3 / s ^ 4 * √(2 / π) ≠ 0 := by positivity
  have h := exps_lt R s n hR hs hn
  rw [mul_eq_zero, or_iff_right hp, sub_eq_zero, exp_eq_exp]
  constructor
  · intro e
    by_contra hne
    rcases lt_or_gt_of_ne hne with h1 | h1
    · have := h.1.2 h1; linarith
    · have := h.2.2 h1; linarith
  · intro e
    by_contra hne
    rcases lt_or_gt_of_ne hne with h1 | h1
    · have := h.1.1 h1; linarith
    · have := h.2.1 h1; linarith

/-! ### The radii of neighbouring particles -/

/-- What the difference of the blurs of widths `α s` and `s` of the image of all balls is at the center of
the ball `i`: its own contribution and that of the balls it is bonded to, at the distances of `l`. -/
def response {N : Nat} (R I : Fin N → ℝ) (α : ℝ) (l : List (ℝ × Fin N × Fin N)) (i : Fin N) (s : ℝ) : ℝ :=
  I i * (blur (R i) (α * s) 0 - blur (R i) s 0)
    + (l.map fun x =>
      (if x.2.1 = i then I x.2.2 * (blur (R x.2.2) (α * s) x.1 - blur (R x.2.2) s x.1) else 0)
      + (if x.2.2 = i then I x.2.1 * (blur (R x.2.1) (α * s) x.1 - blur (R x.2.1) s x.1) else 0)).sum

/-- a solver of linear systems: it solves those that have one solution -/
def Solves {N : Nat} (spsolve : Spsolve N) : Prop :=
  ∀ (A : Matrix (Fin N) (Fin N) ℝ) (b : Fin N → ℝ), A.det ≠ 0 → A.mulVec (spsolve A b) = b

theorem solves_exists (N : Nat) : ∃ s : Spsolve N, Solves s :=
  ⟨fun A b => A⁻¹.mulVec b, fun A b h => by
    rw [Matrix.mulVec_mulVec, Matrix.mul_nonsing_inv _ (isUnit_iff_ne_zero.2 h), Matrix.one_mulVec]⟩

/-- two bonds are different bonds, and none binds a particle to itself -/
def Simple {N : Nat} (b : List (Fin N × Fin N)) : Prop :=
  b.Pairwise (fun x y => x ≠ y ∧ x ≠ (y.2, y.1)) ∧ ∀ x ∈ b, x.1 ≠ x.2

/-- the indices of bonds as the caller gives them -/
def asNat {N : Nat} (b : List (Fin N × Fin N)) : List (Nat × Nat) := b.map fun x => (x.1.val, x.2.val)

theorem checked_ok {N : Nat} (b : List (Fin N × Fin N)) : checked N (asNat b) = .ok b := by
  unfold checked asNat
  induction b with
  | nil => rfl
  | cons x b ih =>
    rw [List.map_cons, List.mapM_cons, ih]
    simp only [x.1.isLt, x.2.isLt, and_self, dif_pos, ok_bind]
    rfl

theorem sum_deriv {ι : Type} (l : List ι) (F : ι → ℝ → ℝ) (F' : ι → ℝ) (t : ℝ)
    (h : ∀ x ∈ l, HasDerivAt (F x) (F' x) t) :
    HasDerivAt (fun t => (l.map fun x => F x t).sum) ((l.map F').sum) t := by
  induction l with
  | nil => simpa using hasDerivAt_const t (0 : ℝ)
  | cons x l ih =>
    simp only [List.map_cons, List.sum_cons]
    exact (h x (by simp)).add (ih fun y hy => h y (by simp [hy]))

/-- the derivative of the response, as the code computes it -/
def slope {N : Nat} (σ R I : Fin N → ℝ) (α : ℝ) (l : List (ℝ × Fin N × Fin N)) (i : Fin N) : ℝ :=
  I i * DoGdsigma (R i) (σ i) α none
    + (l.map fun x =>
      (if x.2.1 = i then I x.2.2 * DoGdsigma (R x.2.2) (σ i) α (some x.1) else 0)
      + (if x.2.2 = i then I x.2.1 * DoGdsigma (R x.2.1) (σ i) α (some x.1) else 0)).sum

theorem response_deriv {N : Nat} (σ R I : Fin N → ℝ) (α : ℝ) (l : List (ℝ × Fin N × Fin N)) (i : Fin N)
    (hσ : 0 < σ i) (hα : 0 < α) (hR : ∀ j, 0 ≤ R j) (hl : ∀ x ∈ l, x.1 ≠ 0) :
    HasDerivAt (response R I α l i) (slope σ R I α l i) (σ i) := by
  unfold response slope
  refine ((diff_deriv (R i) (σ i) α 0 (hR i) hσ hα).1.const_mul _).add (sum_deriv _ _ _ _ fun x hx => ?_)
  have h0 := hl x hx
  refine HasDerivAt.add ?_ ?_
  · split
    · exact ((diff_deriv (R x.2.2) (σ i) α x.1 (hR _) hσ hα).2 h0).const_mul _
    · exact hasDerivAt_const _ _
  · split
    · exact ((diff_deriv (R x.2.1) (σ i) α x.1 (hR _) hσ hα).2 h0).const_mul _
    · exact hasDerivAt_const _ _

theorem loop_v {N : Nat} (σ R I : Fin N → ℝ) (α : ℝ) (l : List (ℝ × Fin N × Fin N))
    (s : Matrix (Fin N) (Fin N) ℝ × (Fin N → ℝ)) (i : Fin N) :
    (rescaleLoop σ R I α l s).2 i = s.2 i + (l.map fun x =>
      (if x.2.1 = i then I x.2.2 * DoGdsigma (R x.2.2) (σ i) α (some x.1) else 0)
      + (if x.2.2 = i then I x.2.1 * DoGdsigma (R x.2.1) (σ i) α (some x.1) else 0)).sum := by
  unfold rescaleLoop
  induction l generalizing s with
  | nil => simp
  | cons x l ih =>
    rw [List.foldl_cons, ih]
    simp only [List.map_cons, List.sum_cons, addTo, eq_comm (a := i)]
    by_cases h1 : x.2.1 = i <;> by_cases h2 : x.2.2 = i
    · subst h1
      simp only [h2, if_true]; ring
    · subst h1
      simp only [if_neg h2, if_true]; ring
    · subst h2
      simp only [if_neg h1, if_true]; ring
    · simp only [if_neg h1, if_neg h2]; ring

theorem loop_j {N : Nat} (σ R I : Fin N → ℝ) (α : ℝ) (l : List (ℝ × Fin N × Fin N))
    (s : Matrix (Fin N) (Fin N) ℝ × (Fin N → ℝ)) (i j : Fin N) (hij : i ≠ j)
    (hl : (l.map Prod.snd).Pairwise (fun x y => x ≠ y ∧ x ≠ (y.2, y.1))) :
    (rescaleLoop σ R I α l s).1 i j =
      if ∀ x ∈ l, x.2 ≠ (i, j) ∧ x.2 ≠ (j, i) then s.1 i j
      else (l.map fun x => if x.2 = (i, j) ∨ x.2 = (j, i) then
        I j * DoGdsigmadR (R j) (σ i) α (some x.1) else 0).sum := by
  unfold rescaleLoop
  induction l generalizing s with
  | nil => simp
  | cons x l ih =>
    rw [List.map_cons, List.pairwise_cons] at hl
    rw [List.foldl_cons, ih _ hl.2]
    have hstep : setAt (setAt s.1 x.2.1 x.2.2 (I x.2.2 * DoGdsigmadR (R x.2.2) (σ x.2.1) α (some x.1)))
        x.2.2 x.2.1 (I x.2.1 * DoGdsigmadR (R x.2.1) (σ x.2.2) α (some x.1)) i j
        = if x.2 = (i, j) ∨ x.2 = (j, i) then I j * DoGdsigmadR (R j) (σ i) α (some x.1) else s.1 i j := by
      obtain ⟨d, a, b⟩ := x
      simp only [setAt, Prod.mk.injEq]
      by_cases h1 : i = b ∧ j = a
      · obtain ⟨rfl, rfl⟩ := h1; simp
      · rw [if_neg h1]
        by_cases h2 : i = a ∧ j = b
        · obtain ⟨rfl, rfl⟩ := h2; simp
        · rw [if_neg h2, if_neg]
          rintro (⟨rfl, rfl⟩ | ⟨rfl, rfl⟩)
          · exact h2 ⟨rfl, rfl⟩
          · exact h1 ⟨rfl, rfl⟩
    simp only at hstep ⊢
    rw [hstep]
    simp only [List.map_cons, List.sum_cons, List.forall_mem_cons]
    by_cases hx : x.2 = (i, j) ∨ x.2 = (j, i)
    · have hrest : ∀ y ∈ l, y.2 ≠ (i, j) ∧ y.2 ≠ (j, i) := by
        intro y hy
        have h := hl.1 y.2 (List.mem_map_of_mem hy)
        rcases hx with hx | hx <;> rw [hx] at h <;> refine ⟨fun e => ?_, fun e => ?_⟩ <;>
          rw [e] at h <;> simp at h
      have hne : ¬((x.2 ≠ (i, j) ∧ x.2 ≠ (j, i)) ∧ ∀ y ∈ l, y.2 ≠ (i, j) ∧ y.2 ≠ (j, i)) := by
        rintro ⟨⟨h1, h2⟩, -⟩
        rcases hx with hx | hx
        · exact h1 hx
        · exact h2 hx
      rw [if_pos hrest, if_pos hx, if_neg hne, if_pos hx]
      have hz : (l.map fun x => if x.2 = (i, j) ∨ x.2 = (j, i) then
          I j * DoGdsigmadR (R j) (σ i) α (some x.1) else 0).sum = 0 := by
        refine List.sum_eq_zero fun v hv => ?_
        obtain ⟨y, hy, rfl⟩ := List.mem_map.1 hv
        rw [if_neg]
        rintro (h | h)
        · exact (hrest y hy).1 h
        · exact (hrest y hy).2 h
      rw [hz, add_zero]
    · have hx' : x.2 ≠ (i, j) ∧ x.2 ≠ (j, i) := ⟨fun h => hx (.inl h), fun h => hx (.inr h)⟩
      rw [if_neg hx]
      simp only [hx', ne_eq, not_false_eq_true, and_self, true_and, zero_add, or_self, if_false]

/-- the matrix of the code -/
def jac {N : Nat} (σ R I : Fin N → ℝ) (α : ℝ) (l : List (ℝ × Fin N × Fin N)) : Matrix (Fin N) (Fin N) ℝ :=
  fun i j => if i = j then I i * DoGdsigmadR (R i) (σ i) α none
    else (l.map fun x => if x.2 = (i, j) ∨ x.2 = (j, i) then
        I j * DoGdsigmadR (R j) (σ i) α (some x.1) else 0).sum

theorem loop_j0 {N : Nat} (σ R I : Fin N → ℝ) (α : ℝ) (l : List (ℝ × Fin N × Fin N)) (v : Fin N → ℝ)
    (i j : Fin N) (hij : i ≠ j)
    (hl : (l.map Prod.snd).Pairwise (fun x y => x ≠ y ∧ x ≠ (y.2, y.1))) :
    (rescaleLoop σ R I α l (fun _ _ => 0, v)).1 i j = jac σ R I α l i j := by
  rw [loop_j σ R I α l _ i j hij hl, jac, if_neg hij]
  split
  · rename_i h
    symm
    refine List.sum_eq_zero fun w hw => ?_
    obtain ⟨y, hy, rfl⟩ := List.mem_map.1 hw
    rw [if_neg]
    rintro (h' | h')
    · exact (h y hy).1 h'
    · exact (h y hy).2 h'
  · rfl

theorem dsigma_dR (R s α : ℝ) (d : Option ℝ) (hR : 0 ≤ R) (hs : 0 < s) (hα : 0 < α) (hd : d ≠ some 0) :
    HasDerivAt (fun r => DoGdsigma r s α d) (DoGdsigmadR R s α d) R := by
  have h1 := C188_derivatives R (α * s) hR (by positivity)
  have h2 := C188_derivatives R s hR hs
  cases d with
  | none => exact (h1.2.2.1.const_mul α).sub h2.2.2.1
  | some d =>
    have hd' : d ≠ 0 := fun e => hd (by rw [e])
    exact ((h1.2.2.2 d hd').const_mul α).sub (h2.2.2.2 d hd')

theorem slope_deriv {N : Nat} (σ R I : Fin N → ℝ) (α : ℝ) (l : List (ℝ × Fin N × Fin N)) (i j : Fin N)
    (hσ : 0 < σ i) (hα : 0 < α) (hR : ∀ j, 0 ≤ R j) (hl : ∀ x ∈ l, x.1 ≠ 0 ∧ x.2.1 ≠ x.2.2) :
    HasDerivAt (fun t => slope σ (Function.update R j t) I α l i) (jac σ R I α l i j) (R j) := by
  have hup : ∀ k (d : Option ℝ), d ≠ some 0 →
      HasDerivAt (fun t => DoGdsigma (Function.update R j t k) (σ i) α d)
      (if k = j then DoGdsigmadR (R j) (σ i) α d else 0) (R j) := by
    intro k d hd
    by_cases hk : k = j
    · subst hk
      simp only [Function.update_self, if_true]
      exact dsigma_dR _ _ _ _ (hR k) hσ hα hd
    · simp only [Function.update_of_ne hk, if_neg hk]
      exact hasDerivAt_const _ _
  unfold slope
  have hsum := sum_deriv l (fun x t =>
      (if x.2.1 = i then I x.2.2 * DoGdsigma (Function.update R j t x.2.2) (σ i) α (some x.1) else 0)
      + (if x.2.2 = i then I x.2.1 * DoGdsigma (Function.update R j t x.2.1) (σ i) α (some x.1) else 0))
    (fun x => (if x.2.1 = i then I x.2.2 * (if x.2.2 = j then DoGdsigmadR (R j) (σ i) α (some x.1) else 0) else 0)
      + (if x.2.2 = i then I x.2.1 * (if x.2.1 = j then DoGdsigmadR (R j) (σ i) α (some x.1) else 0) else 0))
    (R j) (fun x hx => by
      have h0 : some x.1 ≠ some (0 : ℝ) := fun e => (hl x hx).1 (Option.some.inj e)
      refine HasDerivAt.add ?_ ?_
      · split
        · exact (hup x.2.2 _ h0).const_mul _
        · exact hasDerivAt_const _ _
      · split
        · exact (hup x.2.1 _ h0).const_mul _
        · exact hasDerivAt_const _ _)
  refine (((hup i none (by simp)).const_mul (I i)).add hsum).congr_deriv ?_
  unfold jac
  by_cases hij : i = j
  · subst hij
    rw [if_pos rfl, if_pos rfl, List.sum_eq_zero, add_zero]
    intro w hw
    obtain ⟨x, hx, rfl⟩ := List.mem_map.1 hw
    have hne := (hl x hx).2
    by_cases h1 : x.2.1 = i <;> by_cases h2 : x.2.2 = i <;> simp [h1, h2]
    exact absurd (h1.trans h2.symm) hne
  · rw [if_neg hij, if_neg hij, mul_zero, zero_add]
    congr 1
    refine List.map_congr_left fun x hx => ?_
    obtain ⟨d, a, b⟩ := x
    simp only [Prod.mk.injEq]
    by_cases h1 : a = i <;> by_cases h2 : b = j
    · subst h1; subst h2
      simp [hij, Ne.symm hij]
    · subst h1
      simp [h2, hij]
    · subst h2
      simp [h1, Ne.symm hij]
    · by_cases h3 : b = i
      · subst h3
        by_cases h4 : a = j
        · subst h4; simp [h1]
        · simp [h1, h2, h4]
      · simp [h1, h2, h3]

theorem rescale_eq {N : Nat} (spsolve : Spsolve N) (σ I R : Fin N → ℝ) (b : List (Fin N × Fin N))
    (dists : List ℝ) (n : Nat) (hlen : b.length = dists.length) (hb : Simple b) :
    globalRescaleIntensity spsolve σ (asNat b) dists I (some R) n = .ok fun i =>
      R i + spsolve (jac σ R I (alphaOf n) ((dists.zip b).map fun x => (max x.1 (R x.2.1 + R x.2.2), x.2)))
        (fun i => -slope σ R I (alphaOf n)
          ((dists.zip b).map fun x => (max x.1 (R x.2.1 + R x.2.2), x.2)) i) i := by
  unfold globalRescaleIntensity
  have hlen' : (asNat b).length = dists.length := by simp [asNat, hlen]
  rw [if_neg (by simp [hlen']), checked_ok, ok_bind]
  simp only [Option.getD_some, pure_eq_ok]
  have hsnd : (((dists.zip b).map fun x => (max x.1 (R x.2.1 + R x.2.2), x.2)).map Prod.snd) = b := by
    rw [List.map_map]
    have : (Prod.snd ∘ fun x : ℝ × Fin N × Fin N => (max x.1 (R x.2.1 + R x.2.2), x.2)) = Prod.snd := rfl
    rw [this, List.map_snd_zip (by omega)]
  generalize ((dists.zip b).map fun x => (max x.1 (R x.2.1 + R x.2.2), x.2)) = l at *
  have hv : ∀ i, (rescaleLoop σ R I (alphaOf n) l
      (fun _ _ => 0, fun i => I i * DoGdsigma (R i) (σ i) (alphaOf n) none)).2 i
      = slope σ R I (alphaOf n) l i := fun i => loop_v σ R I (alphaOf n) l _ i
  have hJ : (fun i j => if i = j then I i * DoGdsigmadR (R i) (σ i) (alphaOf n) none
      else (rescaleLoop σ R I (alphaOf n) l
        (fun _ _ => 0, fun i => I i * DoGdsigma (R i) (σ i) (alphaOf n) none)).1 i j)
      = jac σ R I (alphaOf n) l := by
    funext i j
    by_cases h : i = j
    · subst h; simp [jac]
    · rw [if_neg h, loop_j0 σ R I (alphaOf n) l _ i j h (by rw [hsnd]; exact hb.1)]
  rw [hJ]
  simp only [hv]

/-- **C189** `global_rescale_intensity` makes one step of Newton's method: at the returned radii, the slope of
the response of each particle at its scale, linearised around the given radii, is zero.  The distances are
those given or, for overlapping balls, the sum of the given radii. -/
theorem C189_newton {N : Nat} (spsolve : Spsolve N) (hs : Solves spsolve) (σ I R : Fin N → ℝ)
    (b : List (Fin N × Fin N)) (dists : List ℝ) (n : Nat) (hn : 0 < n)
    (hlen : b.length = dists.length) (hb : Simple b) (hσ : ∀ i, 0 < σ i) (hR : ∀ i, 0 < R i) :
    let l := (dists.zip b).map fun x => (max x.1 (R x.2.1 + R x.2.2), x.2)
    let V := fun (r : Fin N → ℝ) i => deriv (response r I (alphaOf n) l i) (σ i)
    ∃ (R1 : Fin N → ℝ) (J : Matrix (Fin N) (Fin N) ℝ),
      globalRescaleIntensity spsolve σ (asNat b) dists I (some R) n = .ok R1 ∧
      (∀ i, DifferentiableAt ℝ (response R I (alphaOf n) l i) (σ i)) ∧
      (∀ i j, HasDerivAt (fun t => V (Function.update R j t) i) (J i j) (R j)) ∧
      (J.det ≠ 0 → ∀ i, V R i + ∑ j, J i j * (R1 j - R j) = 0) := by
  intro l V
  have hα0 : 0 < alphaOf n := by linarith [alpha_gt n hn]
  have hl : ∀ x ∈ l, x.1 ≠ 0 ∧ x.2.1 ≠ x.2.2 := by
    intro x hx
    obtain ⟨y, hy, rfl⟩ := List.mem_map.1 hx
    refine ⟨?_, hb.2 _ (List.of_mem_zip hy).2⟩
    have : 0 < R y.2.1 + R y.2.2 := by linarith [hR y.2.1, hR y.2.2]
    exact (lt_of_lt_of_le this (le_max_right _ _)).ne'
  have hV : ∀ r : Fin N → ℝ, (∀ j, 0 ≤ r j) → ∀ i, V r i = slope σ r I (alphaOf n) l i := fun r hr i =>
    (response_deriv σ r I (alphaOf n) l i (hσ i) hα0 hr fun x hx => (hl x hx).1).deriv
  refine ⟨_, jac σ R I (alphaOf n) l, rescale_eq spsolve σ I R b dists n hlen hb, fun i =>
    (response_deriv σ R I (alphaOf n) l i (hσ i) hα0 (fun j => (hR j).le) fun x hx =>
      (hl x hx).1).differentiableAt, fun i j => ?_, fun hdet i => ?_⟩
  · refine (slope_deriv σ R I (alphaOf n) l i j (hσ i) hα0 (fun j => (hR j).le) hl).congr_of_eventuallyEq ?_
    filter_upwards [lt_mem_nhds (hR j)] with t ht
    refine hV _ (fun k => ?_) i
    by_cases hk : k = j
    · subst hk; simp [ht.le]
    · rw [Function.update_of_ne hk]; exact (hR k).le
  · have h := congrFun (hs (jac σ R I (alphaOf n) l) (fun i => -slope σ R I (alphaOf n) l i) hdet) i
    rw [Matrix.mulVec, dotProduct] at h
    rw [hV R (fun j => (hR j).le) i]
    have e : ∀ j, jac σ R I (alphaOf n) l i j * (R j + spsolve (jac σ R I (alphaOf n) l)
        (fun i => -slope σ R I (alphaOf n) l i) j - R j)
        = jac σ R I (alphaOf n) l i j * spsolve (jac σ R I (alphaOf n) l)
          (fun i => -slope σ R I (alphaOf n) l i) j := fun j => by ring
    exact (congrArg (slope σ R I (alphaOf n) l i + ·) ((Finset.sum_congr rfl fun j _ => e j).trans h)).trans
      (add_neg_cancel _)

example : ∃ (σ R : Fin 2 → ℝ), Simple (N := 2) [(0, 1)] ∧ (∀ i, 0 < σ i) ∧ ∀ i, 0 < R i :=
  ⟨fun _ => 1, fun _ => 2, ⟨by simp, by simp⟩, fun _ => by norm_num, fun _ => by norm_num⟩

/-- **C189** The radii do not change if and only if each particle has been found at an extremum of the
response of all particles together. -/
theorem C189_fixed {N : Nat} (spsolve : Spsolve N) (hs : Solves spsolve) (σ I R : Fin N → ℝ)
    (b : List (Fin N × Fin N)) (dists : List ℝ) (n : Nat) (hn : 0 < n)
    (hlen : b.length = dists.length) (hb : Simple b) (hσ : ∀ i, 0 < σ i) (hR : ∀ i, 0 < R i)
    (hreg : ∀ J : Matrix (Fin N) (Fin N) ℝ,
      (∀ i j, HasDerivAt (fun t => deriv (response (Function.update R j t) I (alphaOf n)
        ((dists.zip b).map fun x => (max x.1 (R x.2.1 + R x.2.2), x.2)) i) (σ i)) (J i j) (R j)) →
      J.det ≠ 0) :
    globalRescaleIntensity spsolve σ (asNat b) dists I (some R) n = .ok R ↔
      ∀ i, deriv (response R I (alphaOf n)
        ((dists.zip b).map fun x => (max x.1 (R x.2.1 + R x.2.2), x.2)) i) (σ i) = 0 := by
  obtain ⟨R1, J, h1, -, h3, h4⟩ := C189_newton spsolve hs σ I R b dists n hn hlen hb hσ hR
  have hdet := hreg J h3
  have h5 := h4 hdet
  rw [h1]
  constructor
  · intro h i
    have e : R1 = R := Except.ok.inj h
    have := h5 i
    rw [e] at this
    simpa using this
  · intro h
    congr 1
    have hz : J.mulVec (fun j => R1 j - R j) = 0 := by
      funext i
      have := h5 i
      simp only [h i, zero_add] at this
      simpa [Matrix.mulVec, dotProduct] using this
    have := Matrix.eq_zero_of_mulVec_eq_zero hdet hz
    funext j
    have := congrFun this j
    simp only [Pi.zero_apply] at this
    linarith

/-- the diagonal of the matrix is not zero at the radius of an isolated ball -/
theorem diag_ne_zero (R s : ℝ) (n : Nat) (hR : 0 < R) (hs : 0 < s) (hn : 0 < n)
    (h : s = radius2sigma R n 3) : DoGdsigmadR R s (alphaOf n) none ≠ 0 := by
  have hα := alpha_gt n hn
  have hα0 : 0 < alphaOf n := by linarith
  have hroot := (root_iff R s n hR hs hn).2 h
  simp only [DoGdsigma, Gdsigma, midGdsigma] at hroot
  simp only [DoGdsigmadR, GdsigmadR, midGdsigmadR]
  have hE : 0 < exp (-R ^ 2 / 2 / s ^ 2) := exp_pos _
  have hE' : 0 < exp (-R ^ 2 / 2 / (alphaOf n * s) ^ 2) := exp_pos _
  have hw : 0 < √(2 / π) := by positivity
  generalize exp (-R ^ 2 / 2 / s ^ 2) = E at *
  generalize exp (-R ^ 2 / 2 / (alphaOf n * s) ^ 2) = E' at *
  generalize √(2 / π) = w at *
  generalize alphaOf n = α at *
  have h1 : E' = α ^ 3 * E := by
    field_simp at hroot
    have hne : R ^ 3 * w ≠ 0 := by positivity
    have := (mul_eq_zero.1 (hroot.trans (mul_zero _))).resolve_left hne
    linarith
  intro e
  rw [h1] at e
  have h2 : α * (R ^ 2 * (R ^ 2 - 3 * (α * s) ^ 2) / (α * s) ^ 6 * w * (α ^ 3 * E))
      - R ^ 2 * (R ^ 2 - 3 * s ^ 2) / s ^ 6 * w * E = R ^ 4 * w * E / s ^ 6 * ((α ^ 2)⁻¹ - 1) := by
    field_simp
    ring
  rw [h2] at e
  have h3 : (α ^ 2)⁻¹ < 1 := inv_lt_one_of_one_lt₀ (by nlinarith)
  have h4 : R ^ 4 * w * E / s ^ 6 ≠ 0 := by positivity
  rcases mul_eq_zero.1 e with h | h
  · exact h4 h
  · linarith

/-- **C189** Without bonds, the radii are those of isolated balls. -/
theorem C189_isolated {N : Nat} (spsolve : Spsolve N) (hs : Solves spsolve) (σ I : Fin N → ℝ)
    (n : Nat) (hn : 0 < n) (hσ : ∀ i, 0 < σ i) (hI : ∀ i, I i ≠ 0) :
    globalRescaleIntensity spsolve σ [] [] I none n = .ok fun i => sigma2radius (σ i) n 3 := by
  have hn' : (0 : ℝ) < n := by exact_mod_cast hn
  have hsc := C188_scales 1 n 3 one_pos hn' (by norm_num)
  set R : Fin N → ℝ := fun i => sigma2radius (σ i) n 3 with hRdef
  have hR : ∀ i, 0 < R i := by
    intro i
    have h := (shape_sigma n 3 hn' (by norm_num)).symm ▸ (mul_pos (Real.rpow_pos_of_pos (by norm_num : (0:ℝ) < 2) (1 / (n : ℝ)))
      (Real.sqrt_pos.2 (shape_pos n 3 hn' (by norm_num))))
    exact mul_pos (hσ i) h
  have hroot : ∀ i, DoGdsigma (R i) (σ i) (alphaOf n) none = 0 := fun i =>
    (root_iff (R i) (σ i) n (hR i) (hσ i) hn).2 (hsc.2.2.1 (σ i)).symm
  have e0 : globalRescaleIntensity spsolve σ [] [] I none n
      = globalRescaleIntensity spsolve σ (asNat (N := N) []) [] I (some R) n := rfl
  rw [e0, rescale_eq spsolve σ I R [] [] n rfl ⟨by simp, by simp⟩]
  congr 1
  funext i
  have hJ : jac σ R I (alphaOf n) [] = Matrix.diagonal fun i => I i * DoGdsigmadR (R i) (σ i) (alphaOf n) none := by
    funext i j
    simp only [jac, List.map_nil, List.sum_nil, Matrix.diagonal_apply]
  have hdet : (jac σ R I (alphaOf n) []).det ≠ 0 := by
    rw [hJ, Matrix.det_diagonal]
    exact Finset.prod_ne_zero_iff.2 fun i _ => mul_ne_zero (hI i)
      (diag_ne_zero (R i) (σ i) n (hR i) (hσ i) hn (hsc.2.2.1 (σ i)).symm)
  have hz : (fun i => -slope σ R I (alphaOf n) [] i) = 0 := by
    funext i
    simp [slope, hroot i]
  have h := hs (jac σ R I (alphaOf n) []) 0 hdet
  have h0 := Matrix.eq_zero_of_mulVec_eq_zero hdet h
  simp only [List.zip_nil_right, List.map_nil, hz, h0, Pi.zero_apply, add_zero]

example : ∃ s : Spsolve 3, Solves s := solves_exists 3

/-- **C189** `global_rescale` is `global_rescale_intensity` with all balls as bright as each other. -/
theorem C189_same {N : Nat} (spsolve : Spsolve N) (σ : Fin N → ℝ) (bonds : List (Nat × Nat))
    (dists : List ℝ) (R0 : Option (Fin N → ℝ)) (n : Nat) :
    globalRescale spsolve σ bonds dists R0 n
      = globalRescaleIntensity spsolve σ bonds dists (fun _ => 1) R0 n := by
  unfold globalRescale globalRescaleIntensity rescaleLoop1 rescaleLoop
  simp only [one_mul]

theorem checked_error {N : Nat} (bonds : List (Nat × Nat)) (hb : ∃ b ∈ bonds, N ≤ b.1 ∨ N ≤ b.2) :
    checked N bonds = .error .outOfRange := by
  unfold checked
  induction bonds with
  | nil => simp at hb
  | cons x l ih =>
    rw [List.mapM_cons]
    by_cases hx : x.1 < N ∧ x.2 < N
    · rw [dif_pos hx, ok_bind]
      have : ∃ b ∈ l, N ≤ b.1 ∨ N ≤ b.2 := by
        obtain ⟨b, hb1, hb2⟩ := hb
        rcases List.mem_cons.1 hb1 with rfl | hb1
        · omega
        · exact ⟨b, hb1, hb2⟩
      rw [ih this]; rfl
    · rw [dif_neg hx]; rfl

/-- **C189** As many distances as bonds, all between existing particles; otherwise an exception. -/
theorem C189_errors {N : Nat} (spsolve : Spsolve N) (σ I : Fin N → ℝ) (bonds : List (Nat × Nat))
    (dists : List ℝ) (R0 : Option (Fin N → ℝ)) (n : Nat) :
    (bonds.length ≠ dists.length →
      globalRescaleIntensity spsolve σ bonds dists I R0 n = .error .logicError) ∧
    (bonds.length = dists.length → (∃ b ∈ bonds, N ≤ b.1 ∨ N ≤ b.2) →
      globalRescaleIntensity spsolve σ bonds dists I R0 n = .error .outOfRange) := by
  constructor
  · intro h; unfold globalRescaleIntensity; rw [if_pos h]
  · intro h hb
    unfold globalRescaleIntensity
    rw [if_neg (by simp [h]), checked_error bonds hb]; rfl

example : (∃ b ∈ [((0 : Nat), (7 : Nat))], 2 ≤ b.1 ∨ 2 ≤ b.2) := ⟨(0, 7), by simp, by norm_num⟩

end

end Track
end Py
end Colloids
