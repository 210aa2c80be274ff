import Mathlib.Tactic.LinearCombination
import Verif.CommonLemmas
import Verif.Py.MicroModel

/-!
# `msd2G` of `python/colloids/microrheology.py`
-/

namespace Colloids
namespace Py
namespace Micro

open Real

/-- what a fit minimises: `numpy` multiplies the differences by the weights, before the squares -/
noncomputable def misfit (data : List (ℝ × ℝ × ℝ)) (c : ℝ × ℝ × ℝ) : ℝ :=
  (data.map fun q => (q.2.2 * (q.2.1 - (c.1 * q.1 ^ 2 + c.2.1 * q.1 + c.2.2))) ^ 2).sum

/-- a fit returns the least squares if they are reached by one polynomial only -/
def Fits (polyfit : Polyfit) : Prop :=
  ∀ data c, (∀ c', c' ≠ c → misfit data c < misfit data c') → polyfit data = c

open Classical in
theorem fits_exists : ∃ polyfit, Fits polyfit := by
  refine ⟨fun data => if h : ∃ c, ∀ c', c' ≠ c → misfit data c < misfit data c' then h.choose else (0, 0, 0), ?_⟩
  intro data c hc
  have h : ∃ c, ∀ c', c' ≠ c → misfit data c < misfit data c' := ⟨c, hc⟩
  dsimp only
  rw [dif_pos h]
  by_contra hne
  have h1 := hc _ hne
  have h2 := h.choose_spec c (Ne.symm hne)
  exact absurd h1 (not_lt.2 h2.le)

theorem sum_sq_pos (data : List (ℝ × ℝ × ℝ)) (g : ℝ × ℝ × ℝ → ℝ) (q : ℝ × ℝ × ℝ) (hq : q ∈ data) (h : g q ≠ 0) :
    0 < (data.map fun q => g q ^ 2).sum := by
  have hn : ∀ x ∈ data.map fun q => g q ^ 2, 0 ≤ x := by
    intro x hx
    obtain ⟨p, -, rfl⟩ := List.mem_map.1 hx
    positivity
  have := List.single_le_sum hn (g q ^ 2) (List.mem_map_of_mem hq)
  have : 0 < g q ^ 2 := by positivity
  linarith

/-- a fit of points on a parabola is this parabola -/
theorem fit_exact {polyfit : Polyfit} (hf : Fits polyfit) (data : List (ℝ × ℝ × ℝ)) (c : ℝ × ℝ × ℝ)
    (hw : ∀ q ∈ data, q.2.2 ≠ 0) (hy : ∀ q ∈ data, q.2.1 = c.1 * q.1 ^ 2 + c.2.1 * q.1 + c.2.2)
    (h3 : ∃ p ∈ data, ∃ q ∈ data, ∃ r ∈ data, p.1 ≠ q.1 ∧ q.1 ≠ r.1 ∧ p.1 ≠ r.1) : polyfit data = c := by
  refine hf data c fun c' hc => ?_
  have h0 : misfit data c = 0 := by
    unfold misfit
    rw [List.map_congr_left (g := fun _ => 0)]
    · simp
    · intro q hq
      rw [hy q hq]
      ring
  rw [h0]
  by_contra hn
  have hz : ∀ q ∈ data, (c'.1 - c.1) * q.1 ^ 2 + (c'.2.1 - c.2.1) * q.1 + (c'.2.2 - c.2.2) = 0 := by
    intro q hq
    by_contra hne
    refine hn (sum_sq_pos data (fun q => q.2.2 * (q.2.1 - (c'.1 * q.1 ^ 2 + c'.2.1 * q.1 + c'.2.2))) q hq ?_)
    refine mul_ne_zero (hw q hq) ?_
    rw [hy q hq]
    intro e
    exact hne (by linarith)
  obtain ⟨p, hp, q, hq, r, hr, h1, h2, h3⟩ := h3
  have e1 := hz p hp
  have e2 := hz q hq
  have e3 := hz r hr
  have a1 : (c'.1 - c.1) * (p.1 + q.1) + (c'.2.1 - c.2.1) = 0 := by
    have : (p.1 - q.1) * ((c'.1 - c.1) * (p.1 + q.1) + (c'.2.1 - c.2.1)) = 0 := by linear_combination e1 - e2
    exact (mul_eq_zero.1 this).resolve_left (sub_ne_zero.2 h1)
  have a2 : (c'.1 - c.1) * (q.1 + r.1) + (c'.2.1 - c.2.1) = 0 := by
    have : (q.1 - r.1) * ((c'.1 - c.1) * (q.1 + r.1) + (c'.2.1 - c.2.1)) = 0 := by linear_combination e2 - e3
    exact (mul_eq_zero.1 this).resolve_left (sub_ne_zero.2 h2)
  have a3 : c'.1 - c.1 = 0 := by
    have : (p.1 - r.1) * (c'.1 - c.1) = 0 := by linear_combination a1 - a2
    exact (mul_eq_zero.1 this).resolve_left (sub_ne_zero.2 h3)
  rw [a3] at a1 e1
  have a4 : c'.2.1 - c.2.1 = 0 := by linarith
  rw [a4] at e1
  have a5 : c'.2.2 - c.2.2 = 0 := by linarith
  exact hc (Prod.ext (by linarith) (Prod.ext (by linarith) (by linarith)))

/-- around each point there are three points or more in the window of the Gaussian -/
def Dense (width : ℝ) (x : List ℝ) : Prop :=
  ∀ u ∈ x, ∃ p ∈ x, ∃ q ∈ x, ∃ r ∈ x, p ≠ q ∧ q ≠ r ∧ p ≠ r ∧
    ∀ v ∈ [p, q, r], 0.03 < exp (-(log v - log u) ^ 2 / (2 * width ^ 2))

/-- **C196** If the logarithm of `f` is a polynomial of degree 2 of the logarithm of `x`, `logderive` returns `f`
itself and its exact first and second logarithmic derivatives. -/
theorem C196_logderive {polyfit : Polyfit} (hf : Fits polyfit) (width : ℝ) (x : List ℝ) (f : ℝ → ℝ)
    (c2 c1 c0 : ℝ) (hx : ∀ u ∈ x, 0 < u) (hd : Dense width x)
    (hlog : ∀ u ∈ x, f u = exp (c2 * log u ^ 2 + c1 * log u + c0)) :
    logderive polyfit width (x.map fun u => (u, f u)) =
      x.map fun u => (f u, 2 * c2 * log u + c1, 2 * c2) := by
  unfold logderive
  rw [List.map_map]
  refine List.map_congr_left fun u hu => ?_
  have hfit : polyfit (fitPoints width (x.map fun u => (u, f u)) (log u)) = (c2, c1, c0) := by
    refine fit_exact hf _ _ ?_ ?_ ?_
    · intro q hq
      have := of_decide_eq_true (List.mem_filter.1 hq).2
      intro e
      rw [e] at this
      norm_num at this
    · intro q hq
      obtain ⟨p, hp, rfl⟩ := List.mem_map.1 (List.mem_filter.1 hq).1
      obtain ⟨v, hv, rfl⟩ := List.mem_map.1 hp
      dsimp only
      rw [hlog v hv, log_exp]
    · obtain ⟨p, hp, q, hq, r, hr, h1, h2, h3, hw⟩ := hd u hu
      have mem : ∀ v ∈ x, v ∈ [p, q, r] →
          (log v, log (f v), exp (-(log v - log u) ^ 2 / (2 * width ^ 2))) ∈
            fitPoints width (x.map fun u => (u, f u)) (log u) := by
        intro v hv hv3
        refine List.mem_filter.2 ⟨List.mem_map.2 ⟨(v, f v), List.mem_map.2 ⟨v, hv, rfl⟩, rfl⟩, decide_eq_true (hw v hv3)⟩
      have inj : ∀ a ∈ x, ∀ b ∈ x, a ≠ b → log a ≠ log b := fun a ha b hb hab e =>
        hab (log_injOn_pos (hx a ha) (hx b hb) e)
      exact ⟨_, mem p hp (by simp), _, mem q hq (by simp), _, mem r hr (by simp), inj p hp q hq h1, inj q hq r hr h2,
        inj p hp r hr h3⟩
  simp only [Function.comp_apply]
  rw [hfit]
  unfold poly2
  dsimp only
  rw [← hlog u hu]

/-- the same around the inverses -/
theorem dense_inv {width : ℝ} {x : List ℝ} (hd : Dense width x) : Dense width (x.map (1 / ·)) := by
  intro u hu
  obtain ⟨u0, hu0, rfl⟩ := List.mem_map.1 hu
  obtain ⟨p, hp, q, hq, r, hr, h1, h2, h3, hw⟩ := hd u0 hu0
  have inj : ∀ a b : ℝ, a ≠ b → 1 / a ≠ 1 / b := fun a b hab e => hab (by simpa using e)
  refine ⟨1 / p, List.mem_map_of_mem hp, 1 / q, List.mem_map_of_mem hq, 1 / r, List.mem_map_of_mem hr, inj p q h1, inj q r h2,
    inj p r h3, ?_⟩
  have key : ∀ v ∈ [p, q, r], 0.03 < exp (-(log (1 / v) - log (1 / u0)) ^ 2 / (2 * width ^ 2)) := by
    intro v hv
    have := hw v hv
    rw [one_div, one_div, log_inv, log_inv]
    have e : (-log v - -log u0) ^ 2 = (log v - log u0) ^ 2 := by ring
    rw [e]
    exact this
  intro v hv
  simp only [List.mem_cons, List.not_mem_nil, or_false] at hv
  rcases hv with rfl | rfl | rfl
  · exact key p (by simp)
  · exact key q (by simp)
  · exact key r (by simp)

theorem zip_self_map (l : List ℝ) (f : ℝ → ℝ) : l.zip (l.map f) = l.map fun x => (x, f x) := by
  induction l with
  | nil => rfl
  | cons a l ih => simp [ih]

theorem exp_I (θ : ℝ) : Complex.exp (θ * Complex.I) = ⟨cos θ, sin θ⟩ :=
  Complex.ext (Complex.exp_ofReal_mul_I_re θ) (Complex.exp_ofReal_mul_I_im θ)

/-- **C196** The moduli of a material whose mean square displacement is a power of time: the viscoelastic modulus
is the one of generalised Stokes and Einstein, `G(s) = d kB T / (3 π a MSD Γ(1 + α))`, times the cosine
and the sine of `π α / 2`, those lower than `clip` being replaced by zero. -/
theorem C196_power {polyfit : Polyfit} (hf : Fits polyfit) (kB a T dim clip width A α : ℝ) (dt : List ℝ)
    (hkB : 0 < kB) (ha : 0 < a) (hT : 0 < T) (hdim : 0 < dim) (hA : 0 < A) (hα : -1 < α)
    (hdt : ∀ t ∈ dt, 0 < t) (hd : Dense width dt) :
    msd2G polyfit kB dt (dt.map fun t => A * t ^ α) a T dim clip width =
      .ok (dt.map (1 / ·), dt.map fun t =>
        let Gs := dim * kB * T / (3 * π * (a * 1e-6) * (A * t ^ α * 1e-12) * Gamma (1 + α))
        (⟨if cos (π * α / 2) < clip then 0 else Gs * cos (π * α / 2),
          if sin (π * α / 2) < clip then 0 else Gs * sin (π * α / 2)⟩ : ℂ)) := by
  unfold msd2G
  rw [if_neg (by simp)]
  have hΓ : 0 < Gamma (1 + α) := Gamma_pos_of_pos (by linarith)
  have hB : 0 < A * 1e-12 := by positivity
  -- the first derivatives
  have e1 : dt.zip ((dt.map fun t => A * t ^ α).map (· * 1e-12)) = dt.map fun t => (t, A * t ^ α * 1e-12) := by
    rw [List.map_map, zip_self_map]
    rfl
  have l1 : ∀ t ∈ dt, A * t ^ α * 1e-12 = exp (0 * log t ^ 2 + α * log t + log (A * 1e-12)) := by
    intro t ht
    have := hdt t ht
    rw [zero_mul, zero_add, exp_add, exp_log hB, rpow_def_of_pos this, mul_comm α]
    ring
  have r1 := C196_logderive hf width dt (fun t => A * t ^ α * 1e-12) 0 α (log (A * 1e-12)) hdt hd l1
  -- the second ones
  have hC : 0 < dim * kB * T / (3 * π * (a * 1e-6)) := by positivity
  generalize hCe : dim * kB * T / (3 * π * (a * 1e-6)) = C at hC
  set Gs : ℝ → ℝ := fun t => C / (A * t ^ α * 1e-12 * Gamma (1 + α)) with hGs
  have e2 : ((dt.map fun t => (A * t ^ α * 1e-12, 2 * 0 * log t + α, (2 : ℝ) * 0)).map (modulusS C)) = dt.map Gs := by
    rw [List.map_map]
    refine List.map_congr_left fun t _ => ?_
    simp only [Function.comp_apply, modulusS, hGs]
    norm_num
  have e3 : (dt.map (1 / ·)).zip (dt.map Gs) = (dt.map (1 / ·)).map fun w => (w, Gs (1 / w)) := by
    rw [List.map_map, List.zip_map', ]
    refine List.map_congr_left fun t _ => ?_
    simp
  have l2 : ∀ w ∈ dt.map (1 / ·), Gs (1 / w) =
      exp (0 * log w ^ 2 + α * log w + log (C / (A * 1e-12 * Gamma (1 + α)))) := by
    intro w hw
    obtain ⟨t, ht, rfl⟩ := List.mem_map.1 hw
    have ht := hdt t ht
    rw [zero_mul, zero_add, exp_add, exp_log (by positivity), one_div_one_div, one_div, log_inv, hGs]
    dsimp only
    rw [mul_neg, exp_neg, mul_comm α, ← rpow_def_of_pos ht]
    have : 0 < t ^ α := rpow_pos_of_pos ht α
    field_simp
  have r2 := C196_logderive hf width (dt.map (1 / ·)) (fun w => Gs (1 / w)) 0 α _ (by
    intro w hw
    obtain ⟨t, ht, rfl⟩ := List.mem_map.1 hw
    have := hdt t ht
    positivity) (dense_inv hd) l2
  simp only [e1, r1, e2, e3, r2, hCe]
  congr 2
  rw [List.map_map, List.map_map, List.zip_map', List.map_map]
  refine List.map_congr_left fun t ht => ?_
  have ht := hdt t ht
  have hGp : 0 < Gs t := by
    have : 0 < t ^ α := rpow_pos_of_pos ht α
    rw [hGs]
    positivity
  have hval : modulusW (Gs t, 2 * 0 * log (1 / t) + α, 2 * 0) = ⟨Gs t * cos (π * α / 2), Gs t * sin (π * α / 2)⟩ := by
    unfold modulusW
    have hE : Complex.exp (0.5 * Complex.I * π * ((2 * 0 * log (1 / t) + α : ℝ) : ℂ)) =
        ⟨cos (π * α / 2), sin (π * α / 2)⟩ := by
      have : (0.5 * Complex.I * π * ((2 * 0 * log (1 / t) + α : ℝ) : ℂ)) = ((π * α / 2 : ℝ) : ℂ) * Complex.I := by
        push_cast
        ring
      rw [this, exp_I]
    dsimp only
    rw [hE]
    apply Complex.ext <;> simp
  simp only [Function.comp_apply, one_div, inv_inv] at hval ⊢
  rw [hval]
  unfold clipped
  have hG2 : dim * kB * T / (3 * π * (a * 1e-6) * (A * t ^ α * 1e-12) * Gamma (1 + α)) = Gs t := by
    rw [hGs]
    dsimp only
    rw [← hCe, div_div]
    congr 1
    ring
  rw [hG2]
  simp only [mul_lt_mul_iff_right₀ hGp]

/-- **C196** A viscous fluid: with the displacements of free diffusion, `MSD = 2 d D t` in microns squared, the modulus is
`i η ω` in pascals, where the viscosity is that of Stokes and Einstein, `D = kB T / (6 π η a)`. -/
theorem C196_viscous {polyfit : Polyfit} (hf : Fits polyfit) (kB a T dim clip width η : ℝ) (dt : List ℝ)
    (hkB : 0 < kB) (ha : 0 < a) (hT : 0 < T) (hdim : 0 < dim) (hη : 0 < η) (hc' : clip ≤ 1)
    (hdt : ∀ t ∈ dt, 0 < t) (hd : Dense width dt) :
    msd2G polyfit kB dt (dt.map fun t => 2 * dim * (kB * T / (6 * π * η * (a * 1e-6)) * 1e12) * t) a T dim clip width =
      .ok (dt.map (1 / ·), dt.map fun t => (⟨0, η * (1 / t)⟩ : ℂ)) := by
  have h := C196_power hf kB a T dim clip width (2 * dim * (kB * T / (6 * π * η * (a * 1e-6)) * 1e12)) 1 dt
    hkB ha hT hdim (by positivity) (by norm_num) hdt hd
  simp only [rpow_one] at h
  rw [h]
  congr 2
  refine List.map_congr_left fun t ht => ?_
  have ht := hdt t ht
  have h1 : cos (π * 1 / 2) = 0 := by rw [mul_one]; exact cos_pi_div_two
  have h2 : sin (π * 1 / 2) = 1 := by rw [mul_one]; exact sin_pi_div_two
  have h3 : Gamma (1 + 1) = 1 := by norm_num
  rw [h1, h2, h3, if_neg (not_lt.2 hc')]
  have h4 : dim * kB * T / (3 * π * (a * 1e-6) *
      (2 * dim * (kB * T / (6 * π * η * (a * 1e-6)) * 1e12) * t * 1e-12) * 1) * 1 = η * (1 / t) := by
    field_simp
    norm_num
  rw [h4]
  apply Complex.ext
  · dsimp only
    split
    · rfl
    · simp
  · rfl

/-- **C196** An elastic solid: with constant displacements, the modulus is real, `d kB T / (3 π a MSD)`. -/
theorem C196_elastic {polyfit : Polyfit} (hf : Fits polyfit) (kB a T dim clip width m : ℝ) (dt : List ℝ)
    (hkB : 0 < kB) (ha : 0 < a) (hT : 0 < T) (hdim : 0 < dim) (hm : 0 < m) (hc' : clip ≤ 1)
    (hdt : ∀ t ∈ dt, 0 < t) (hd : Dense width dt) :
    msd2G polyfit kB dt (dt.map fun _ => m) a T dim clip width =
      .ok (dt.map (1 / ·), dt.map fun _ =>
        ((dim * kB * T / (3 * π * (a * 1e-6) * (m * 1e-12)) : ℝ) : ℂ)) := by
  have h := C196_power hf kB a T dim clip width m 0 dt hkB ha hT hdim hm (by norm_num) hdt hd
  simp only [rpow_zero, mul_one] at h
  rw [h]
  congr 2
  refine List.map_congr_left fun t ht => ?_
  rw [mul_zero, zero_div, cos_zero, sin_zero, add_zero, Gamma_one, if_neg (not_lt.2 hc'), mul_one, mul_one, mul_zero, ite_self]
  rfl

/-- **C196** In general, from the smoothed modulus `g` and its logarithmic derivatives `α` and `β`, the storage and loss moduli
before clipping are those of the second order formula of Mason. -/
theorem C196_second_order (g α β : ℝ) :
    (modulusW (g, α, β)).re = g / (1 + β) * (cos (π / 2 * α) - (π / 2 - 1) * β * α) ∧
    (modulusW (g, α, β)).im = g / (1 + β) * (sin (π / 2 * α) - (π / 2 - 1) * β * (1 - α)) := by
  have hE : Complex.exp (0.5 * Complex.I * π * (α : ℂ)) = ⟨cos (π / 2 * α), sin (π / 2 * α)⟩ := by
    have : (0.5 * Complex.I * π * (α : ℂ)) = ((π / 2 * α : ℝ) : ℂ) * Complex.I := by
      push_cast
      ring
    rw [this, exp_I]
  have hg : ((g : ℂ) / (1 + β)) = ((g / (1 + β) : ℝ) : ℂ) := by push_cast; ring
  have hp : ((π : ℂ) / 2 - 1) = ((π / 2 - 1 : ℝ) : ℂ) := by push_cast; ring
  unfold modulusW
  dsimp only
  rw [hE, hg, hp, Complex.re_ofReal_mul, Complex.im_ofReal_mul]
  constructor
  · congr 1
    simp
    ring
  · congr 1
    simp
    ring

/-- **C196** Lists of different lengths are refused. -/
theorem C196_refused (polyfit : Polyfit) (kB a T dim clip width : ℝ) (dt msd : List ℝ) (h : dt.length ≠ msd.length) :
    msd2G polyfit kB dt msd a T dim clip width = .error .logicError := if_pos h

/-- three times within a factor of two are dense enough for the default width -/
example : Dense 0.7 [1, 1.5, 2] := by
  have l1 : log 1 = 0 := log_one
  have lb : ∀ u v : ℝ, 1 ≤ u → u ≤ 2 → 1 ≤ v → v ≤ 2 → 0.03 < exp (-(log v - log u) ^ 2 / (2 * 0.7 ^ 2)) := by
    intro u v hu hu' hv hv'
    have a1 : 0 ≤ log u := log_nonneg hu
    have a2 : log u ≤ 1 := by
      have := log_le_sub_one_of_pos (by linarith : (0 : ℝ) < u)
      linarith
    have b1 : 0 ≤ log v := log_nonneg hv
    have b2 : log v ≤ 1 := by
      have := log_le_sub_one_of_pos (by linarith : (0 : ℝ) < v)
      linarith
    have hsq : (log v - log u) ^ 2 ≤ 1 := by nlinarith
    have h1 : -1.03 ≤ -(log v - log u) ^ 2 / (2 * 0.7 ^ 2) := by
      rw [le_div_iff₀ (by norm_num)]
      nlinarith
    -- exp (-1.03) is more than 1/4
    have h2 : 1 - 0.515 ≤ exp (-0.515) := by
      have := add_one_le_exp (-0.515 : ℝ)
      linarith
    have h3 : exp (-1.03) = exp (-0.515) * exp (-0.515) := by rw [← exp_add]; norm_num
    have h4 := exp_le_exp.2 h1
    nlinarith [exp_pos (-0.515 : ℝ)]
  intro u hu
  refine ⟨1, by simp, 1.5, by simp, 2, by simp, by norm_num, by norm_num, by norm_num, ?_⟩
  have hu2 : 1 ≤ u ∧ u ≤ 2 := by
    simp only [List.mem_cons, List.not_mem_nil, or_false] at hu
    rcases hu with rfl | rfl | rfl <;> norm_num
  intro v hv
  have hv2 : 1 ≤ v ∧ v ≤ 2 := by
    simp only [List.mem_cons, List.not_mem_nil, or_false] at hv
    rcases hv with rfl | rfl | rfl <;> norm_num
  exact lb u v hu2.1 hu2.2 hv2.1 hv2.2

end Micro
end Py
end Colloids
