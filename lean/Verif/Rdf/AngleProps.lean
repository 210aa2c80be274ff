import Verif.Rdf.AngleModel
import Verif.Rdf.Props
import Mathlib.Data.Nat.Cast.Field
import Mathlib.Tactic.IntervalCases
import Mathlib.Tactic.FinCases
import Mathlib.Data.Fin.VecNotation

/-! # Properties of the distribution of angles -/

namespace Colloids
namespace Rdf
open Particles

/-- Length of a vector. -/
noncomputable def norm3 (v : Coord ℝ) : ℝ := √(dot3 v v)

/-- `θ`, between 0 and π, is the angle between the vectors from `o` to `x` and to `y`. -/
def IsAngle (o x y : Coord ℝ) (θ : ℝ) : Prop :=
  0 ≤ θ ∧ θ ≤ Real.pi ∧ dot3 (x - o) (y - o) = norm3 (x - o) * norm3 (y - o) * Real.cos θ

/-- Around `numPt` the neighbours `x` and `y` make an angle of `d` degrees, rounded down. -/
def AtDegree (ps : Particles ℝ) (numPt x y d : Nat) : Prop :=
  ∃ (o u v : Coord ℝ) (θ : ℝ), ps.pos[numPt]? = some o ∧ ps.pos[x]? = some u ∧ ps.pos[y]? = some v ∧ IsAngle o u v θ ∧
    d * Real.pi / 180 ≤ θ ∧ θ < (d + 1) * Real.pi / 180

theorem dot3_nonneg (v : Coord ℝ) : 0 ≤ dot3 v v := by
  unfold dot3
  nlinarith [mul_self_nonneg (v 0), mul_self_nonneg (v 1), mul_self_nonneg (v 2)]

theorem dot3_pos {v : Coord ℝ} (h : v ≠ 0) : 0 < dot3 v v := by
  rcases (dot3_nonneg v).lt_or_eq with h1 | h1
  · exact h1
  · exfalso
    apply h
    have h0 := mul_self_nonneg (v 0)
    have h2 := mul_self_nonneg (v 1)
    have h3 := mul_self_nonneg (v 2)
    unfold dot3 at h1
    funext i
    fin_cases i
    · exact mul_self_eq_zero.1 (by linarith : v 0 * v 0 = 0)
    · exact mul_self_eq_zero.1 (by linarith : v 1 * v 1 = 0)
    · exact mul_self_eq_zero.1 (by linarith : v 2 * v 2 = 0)

theorem dot3_sq_le (u v : Coord ℝ) : dot3 u v ^ 2 ≤ dot3 u u * dot3 v v := by
  unfold dot3
  nlinarith [mul_self_nonneg (u 0 * v 1 - u 1 * v 0), mul_self_nonneg (u 0 * v 2 - u 2 * v 0),
    mul_self_nonneg (u 1 * v 2 - u 2 * v 1)]

theorem quotient_mem {u v : Coord ℝ} (hu : u ≠ 0) (hv : v ≠ 0) :
    -1 ≤ dot3 u v / √(dot3 u u * dot3 v v) ∧ dot3 u v / √(dot3 u u * dot3 v v) ≤ 1 := by
  have hpos : 0 < √(dot3 u u * dot3 v v) := Real.sqrt_pos.2 (mul_pos (dot3_pos hu) (dot3_pos hv))
  have h := Real.abs_le_sqrt (dot3_sq_le u v)
  rw [abs_le] at h
  constructor
  · rw [le_div_iff₀ hpos]; linarith
  · rw [div_le_iff₀ hpos]; linarith

/-- `getAngle` gives the angle. -/
theorem angle_iff {o x y : Coord ℝ} (hx : x ≠ o) (hy : y ≠ o) (θ : ℝ) :
    IsAngle o x y θ ↔ θ = Real.arccos (dot3 (x - o) (y - o) / √(dot3 (x - o) (x - o) * dot3 (y - o) (y - o))) := by
  have hu : x - o ≠ 0 := sub_ne_zero.2 hx
  have hv : y - o ≠ 0 := sub_ne_zero.2 hy
  unfold IsAngle
  generalize x - o = u at *
  generalize y - o = v at *
  have hq := quotient_mem hu hv
  have hpos : 0 < √(dot3 u u * dot3 v v) := Real.sqrt_pos.2 (mul_pos (dot3_pos hu) (dot3_pos hv))
  have hn : norm3 u * norm3 v = √(dot3 u u * dot3 v v) := by
    unfold norm3; rw [Real.sqrt_mul (dot3_nonneg u)]
  rw [hn]
  constructor
  · rintro ⟨h1, h2, h3⟩
    rw [h3, mul_div_cancel_left₀ _ hpos.ne', Real.arccos_cos h1 h2]
  · rintro rfl
    refine ⟨Real.arccos_nonneg _, Real.arccos_le_pi _, ?_⟩
    rw [Real.cos_arccos hq.1 hq.2, mul_div_cancel₀ _ hpos.ne']

theorem getAngle_ok {ps : Particles ℝ} {numPt a b : Nat} {o x y : Coord ℝ} (ho : ps.pos[numPt]? = some o)
    (ha : ps.pos[a]? = some x) (hb : ps.pos[b]? = some y) (hx : x ≠ o) (hy : y ≠ o) :
    ∃ θ, getAngle ps numPt a b = .ok (some θ) ∧ IsAngle o x y θ := by
  have hu : x - o ≠ 0 := sub_ne_zero.2 hx
  have hv : y - o ≠ 0 := sub_ne_zero.2 hy
  have hpos : 0 < √(dot3 (x - o) (x - o) * dot3 (y - o) (y - o)) :=
    Real.sqrt_pos.2 (mul_pos (dot3_pos hu) (dot3_pos hv))
  refine ⟨_, ?_, (angle_iff hx hy _).2 rfl⟩
  unfold getAngle
  have e0 : ps.at_ numPt = .ok o := by unfold at_; rw [ho]
  have e1 : ps.at_ a = .ok x := by unfold at_; rw [ha]
  have e2 : ps.at_ b = .ok y := by unfold at_; rw [hb]
  rw [e1, ok_bind, e0, ok_bind, e2, ok_bind, pure_eq_ok]
  rw [if_neg hpos.ne']

theorem isAngle_unique {o x y : Coord ℝ} (hx : x ≠ o) (hy : y ≠ o) {θ θ' : ℝ} (h : IsAngle o x y θ)
    (h' : IsAngle o x y θ') : θ = θ' := by
  rw [(angle_iff hx hy _).1 h, (angle_iff hx hy _).1 h']

theorem degree_iff {θ : ℝ} (h : 0 ≤ θ) (d : Nat) :
    ⌊θ * 180 / Real.pi⌋₊ = d ↔ d * Real.pi / 180 ≤ θ ∧ θ < (d + 1) * Real.pi / 180 := by
  have hpi := Real.pi_pos
  rw [Nat.floor_eq_iff (by positivity), le_div_iff₀ hpi, div_lt_iff₀ hpi, div_le_iff₀ (by norm_num),
    lt_div_iff₀ (by norm_num)]

/-- The neighbours are particles different from the center, elsewhere, and no two of them are opposite. -/
structure Around (ps : Particles ℝ) (numPt : Nat) (ngbs : List Nat) : Prop where
  center : ∃ o, ps.pos[numPt]? = some o ∧ ∀ x ∈ ngbs, x ≠ numPt ∧ ∃ u, ps.pos[x]? = some u ∧ u ≠ o
  opposite : ∀ x ∈ ngbs, ∀ y ∈ ngbs, ∀ o u v, ps.pos[numPt]? = some o → ps.pos[x]? = some u → ps.pos[y]? = some v →
    ¬ IsAngle o u v Real.pi

variable {ps : Particles ℝ} {numPt : Nat} {ngbs : List Nat}

theorem setR_tab {n : Nat} {f : Nat → ℝ} {t : Nat} (c : ℝ) (h : t < n) :
    setR (tab n f) t c = .ok (tab n (fun x => if x = t then c else f x)) := by
  refine setR_ok.2 ⟨by rw [tab_length]; exact h, ?_⟩
  apply List.ext_getElem?
  intro i
  rw [List.getElem?_set]
  by_cases hi : i < n
  · by_cases e : t = i
    · subst e
      rw [if_pos rfl, if_pos (by rw [tab_length]; exact h)]
      simp [tab, h]
    · rw [if_neg e]
      simp [tab, hi, Ne.symm e]
  · have e : ¬ t = i := by omega
    rw [if_neg e]
    simp [tab, hi]

open Classical in
theorem setAngle_ok (h : Around ps numPt ngbs) {x y : Nat} (hx : x ∈ ngbs) (hy : y ∈ ngbs) (scale : ℝ)
    (f : Nat → ℝ) :
    setAngle ps scale numPt x y (tab 180 f) =
      .ok (tab 180 (fun d => if AtDegree ps numPt x y d then scale else f d)) := by
  obtain ⟨o, ho, hall⟩ := h.center
  obtain ⟨hxn, u, hu, huo⟩ := hall x hx
  obtain ⟨hyn, v, hv, hvo⟩ := hall y hy
  obtain ⟨θ, hθ, hang⟩ := getAngle_ok ho hu hv huo hvo
  have hne : θ ≠ Real.pi := fun e => h.opposite x hx y hy o u v ho hu hv (e ▸ hang)
  have hlt : θ < Real.pi := lt_of_le_of_ne hang.2.1 hne
  have hpi := Real.pi_pos
  have hd : ∀ d, ⌊θ * 180 / Real.pi⌋₊ = d ↔ AtDegree ps numPt x y d := by
    intro d
    rw [degree_iff hang.1]
    constructor
    · rintro ⟨h1, h2⟩
      exact ⟨o, u, v, θ, ho, hu, hv, hang, h1, h2⟩
    · rintro ⟨o', u', v', θ', ho', hu', hv', hang', h1, h2⟩
      rw [ho] at ho'; cases ho'
      rw [hu] at hu'; cases hu'
      rw [hv] at hv'; cases hv'
      rw [isAngle_unique huo hvo hang hang']
      exact ⟨h1, h2⟩
  have hbin : ⌊θ * 180 / Real.pi⌋₊ < 180 := by
    rw [Nat.floor_lt (by have := hang.1; positivity), div_lt_iff₀ hpi]
    push_cast
    linarith
  unfold setAngle
  rw [hθ, ok_bind]
  dsimp only
  rw [setR_tab _ hbin]
  congr 1
  apply tab_congr
  intro d _
  by_cases e : d = ⌊θ * 180 / Real.pi⌋₊
  · rw [if_pos e, if_pos ((hd d).1 e.symm)]
  · rw [if_neg e, if_neg (fun h => e ((hd d).2 h).symm)]

open Classical in
theorem foldSet {α : Type} {scale : ℝ} {n : Nat} {step : List ℝ → α → R (List ℝ)} {D : α → Nat → Prop} (L : List α)
    (hs : ∀ a ∈ L, ∀ f, step (tab n f) a = .ok (tab n fun d => if D a d then scale else f d)) (f : Nat → ℝ) :
    L.foldlM step (tab n f) = .ok (tab n fun d => if ∃ a ∈ L, D a d then scale else f d) := by
  induction L generalizing f with
  | nil => simp
  | cons a L ih =>
    rw [List.foldlM_cons, hs a (by simp), ok_bind, ih (fun a h => hs a (by simp [h]))]
    congr 1
    apply tab_congr
    intro d _
    by_cases h1 : ∃ a ∈ L, D a d
    · rw [if_pos h1, if_pos (by obtain ⟨a', h, h'⟩ := h1; exact ⟨a', by simp [h], h'⟩)]
    · rw [if_neg h1]
      by_cases h2 : D a d
      · rw [if_pos h2, if_pos ⟨a, by simp, h2⟩]
      · rw [if_neg h2, if_neg]
        rintro ⟨a', h, h'⟩
        rcases List.mem_cons.1 h with rfl | h
        · exact h2 h'
        · exact h1 ⟨a', h, h'⟩

/-- Two neighbours of the list (in this order) make an angle of `d` degrees. -/
def SomeAngle (ps : Particles ℝ) (numPt : Nat) (ngbs : List Nat) (d : Nat) : Prop :=
  ∃ i j x y : Nat, i < j ∧ ngbs[i]? = some x ∧ ngbs[j]? = some y ∧ AtDegree ps numPt x y d

open Classical in
theorem angular_eq (h : Around ps numPt ngbs) (h2 : 1 < ngbs.length) :
    getAngularDistribution ps numPt ngbs =
      .ok (tab 180 fun d => if SomeAngle ps numPt ngbs d then angleScale ngbs.length else 0) := by
  unfold getAngularDistribution
  rw [if_pos h2]
  have h0 : List.replicate 180 (0 : ℝ) = tab 180 (fun _ => 0) := by unfold tab; simp
  rw [h0, foldSet (scale := angleScale ngbs.length)
    (D := fun i d => ∃ j x y : Nat, i < j ∧ ngbs[i]? = some x ∧ ngbs[j]? = some y ∧ AtDegree ps numPt x y d)]
  · congr 1
    apply tab_congr
    intro d _
    have : (∃ a ∈ List.range ngbs.length, ∃ j x y : Nat, a < j ∧ ngbs[a]? = some x ∧ ngbs[j]? = some y ∧
        AtDegree ps numPt x y d) ↔ SomeAngle ps numPt ngbs d := by
      constructor
      · rintro ⟨i, _, j, x, y, hh⟩; exact ⟨i, j, x, y, hh⟩
      · rintro ⟨i, j, x, y, hh⟩
        exact ⟨i, by rw [List.mem_range]; exact (List.getElem?_eq_some_iff.1 hh.2.1).1, j, x, y, hh⟩
    simp only [this]
  · intro i hi f
    rw [List.mem_range] at hi
    have hxi : ngbs[i]? = some ngbs[i] := by simp [hi]
    generalize ngbs[i] = x at hxi
    have hxm := List.mem_of_getElem? hxi
    obtain ⟨o, ho, hall⟩ := h.center
    rw [getR_ok.2 hxi, ok_bind, if_pos (Ne.symm (hall x hxm).1)]
    unfold angleRow
    rw [foldSet (scale := angleScale ngbs.length) (D := fun j d => ∃ y : Nat, ngbs[j]? = some y ∧ AtDegree ps numPt x y d)]
    · congr 1
      apply tab_congr
      intro d _
      have : (∃ a ∈ List.range' (i + 1) (ngbs.length - (i + 1)), ∃ y, ngbs[a]? = some y ∧ AtDegree ps numPt x y d) ↔
          ∃ j x y : Nat, i < j ∧ ngbs[i]? = some x ∧ ngbs[j]? = some y ∧ AtDegree ps numPt x y d := by
        constructor
        · rintro ⟨j, hj, y, hy, hd⟩
          rw [List.mem_range'_1] at hj
          exact ⟨j, x, y, by omega, hxi, hy, hd⟩
        · rintro ⟨j, x', y, hij, hx', hy, hd⟩
          rw [hxi] at hx'; cases hx'
          have := (List.getElem?_eq_some_iff.1 hy).1
          exact ⟨j, by rw [List.mem_range'_1]; omega, y, hy, hd⟩
      simp only [this]
    · intro j hj f
      rw [List.mem_range'_1] at hj
      have hyj : ngbs[j]? = some ngbs[j] := by simp [show j < ngbs.length by omega]
      generalize ngbs[j] = y at hyj
      have hym := List.mem_of_getElem? hyj
      rw [getR_ok.2 hyj, ok_bind, if_pos (Ne.symm (hall y hym).1), setAngle_ok h hxm hym]
      congr 1
      apply tab_congr
      intro d _
      have : (∃ y, ngbs[j]? = some y ∧ AtDegree ps numPt x y d) ↔ AtDegree ps numPt x y d := by
        constructor
        · rintro ⟨y', h1, h2⟩; rw [hyj] at h1; cases h1; exact h2
        · intro h; exact ⟨y, hyj, h⟩
      simp only [this]

/-- **C115** (part: the value does not depend on the number of angles; no two neighbours are opposite) A degree of the
distribution is not null if and only if two neighbours make an angle of this degree; it is then
`2/((nb-1)(nb-2))`, 1 for two neighbours. -/
theorem C115_angles_partial (h : Around ps numPt ngbs) (h2 : 1 < ngbs.length) :
    ∃ angD, getAngularDistribution ps numPt ngbs = .ok angD ∧ angD.length = 180 ∧
      ∀ d, d < 180 → ∃ v, angD[d]? = some v ∧ (v ≠ 0 ↔ SomeAngle ps numPt ngbs d) ∧
        (v ≠ 0 → v = if ngbs.length = 2 then 1 else 2 / ((ngbs.length - 1 : ℝ) * (ngbs.length - 2))) := by
  classical
  refine ⟨_, angular_eq h h2, tab_length _ _, ?_⟩
  have hs : angleScale ngbs.length = if ngbs.length = 2 then 1 else 2 / ((ngbs.length - 1 : ℝ) * (ngbs.length - 2)) := by
    unfold angleScale
    by_cases h3 : 2 < ngbs.length
    · rw [if_pos h3, if_neg (by omega)]
      obtain ⟨m, hm⟩ : ∃ m, ngbs.length = m + 3 := ⟨ngbs.length - 3, by omega⟩
      rw [hm]
      have hdvd : 2 ∣ (m + 3 - 1) * (m + 3 - 2) := by
        show 2 ∣ (m + 2) * (m + 1)
        rw [Nat.mul_comm]
        exact (Nat.even_mul_succ_self (m + 1)).two_dvd
      rw [Nat.cast_div hdvd (by norm_num)]
      show 1 / ((((m + 2) * (m + 1) : Nat) : ℝ) / ((2 : Nat) : ℝ)) = _
      push_cast
      rw [one_div_div]
      congr 1
      ring
    · rw [if_neg h3, if_pos (by omega)]
  have hs0 : angleScale ngbs.length ≠ 0 := by
    rw [hs]
    split
    · exact one_ne_zero
    · have : (3 : ℝ) ≤ ngbs.length := by exact_mod_cast (by omega : 3 ≤ ngbs.length)
      have h1 : (0 : ℝ) < ngbs.length - 1 := by linarith
      have h2 : (0 : ℝ) < ngbs.length - 2 := by linarith
      positivity
  intro d hd
  refine ⟨if SomeAngle ps numPt ngbs d then angleScale ngbs.length else 0, by simp [tab, hd], ?_, ?_⟩
  · by_cases h3 : SomeAngle ps numPt ngbs d
    · simp [h3, hs0]
    · simp [h3]
  · by_cases h3 : SomeAngle ps numPt ngbs d
    · rw [if_pos h3]; exact fun _ => hs
    · simp [h3]

theorem sum_of_single : ∀ {L : List ℝ} {i : Nat} {a : ℝ}, L[i]? = some a →
    (∀ (j : Nat) (b : ℝ), L[j]? = some b → j ≠ i → b = 0) → L.sum = a
  | [], _, _, h, _ => by simp at h
  | x :: L, 0, a, h, ho => by
    simp only [List.getElem?_cons_zero, Option.some.injEq] at h
    subst h
    have : L.sum = 0 := by
      apply List.sum_eq_zero
      intro y hy
      obtain ⟨j, hj⟩ := List.mem_iff_getElem?.1 hy
      exact ho (j + 1) y (by simpa using hj) (by omega)
    rw [List.sum_cons, this, add_zero]
  | x :: L, i + 1, a, h, ho => by
    rw [List.sum_cons, ho 0 x (by simp) (by omega), zero_add]
    exact sum_of_single (by simpa using h) (fun j b hj hji => ho (j + 1) b (by simpa using hj) (by omega))

/-- **C115** is false: with four neighbours or more that make two by two the same angle, the whole distribution is
`2/((nb-1)(nb-2))` instead of 1. -/
theorem C115_fraction_counterexample (h : Around ps numPt ngbs) (h4 : 4 ≤ ngbs.length) (d : Nat) (hd : d < 180)
    (hsame : ∀ d', SomeAngle ps numPt ngbs d' ↔ d' = d) :
    ∃ angD, getAngularDistribution ps numPt ngbs = .ok angD ∧ angD.sum < 1 := by
  obtain ⟨angD, h1, h2, h3⟩ := C115_angles_partial h (by omega)
  refine ⟨angD, h1, ?_⟩
  obtain ⟨v, hv, hv0, hvs⟩ := h3 d hd
  have hne : v ≠ 0 := hv0.2 ((hsame d).2 rfl)
  rw [sum_of_single hv, hvs hne, if_neg (by omega)]
  swap
  · intro j b hb hj
    obtain ⟨w, hw, hw0, _⟩ := h3 j (by rw [← h2]; exact (List.getElem?_eq_some_iff.1 hb).1)
    rw [hw] at hb; cases hb
    by_contra hc
    exact hj ((hsame j).1 (hw0.1 hc))
  have : (4 : ℝ) ≤ ngbs.length := by exact_mod_cast h4
  rw [div_lt_one (by nlinarith)]
  nlinarith

/-- **C115** is false when two neighbours are exactly opposite, as in a crystal: the index 180 is out of the array. -/
theorem C115_opposite_counterexample {x y : Nat} {rest : List Nat} {o u v : Coord ℝ} (ho : ps.pos[numPt]? = some o)
    (hx : ps.pos[x]? = some u) (hy : ps.pos[y]? = some v) (hxn : x ≠ numPt) (hyn : y ≠ numPt) (hu : u ≠ o) (hv : v ≠ o)
    (hop : IsAngle o u v Real.pi) : getAngularDistribution ps numPt (x :: y :: rest) = .error .ub := by
  obtain ⟨θ, hθ, hang⟩ := getAngle_ok ho hx hy hu hv
  have e := isAngle_unique hu hv hang hop
  subst e
  have hpi := Real.pi_pos
  have h1 : ∀ scale angD, angD.length = 180 → setAngle ps scale numPt x y angD = .error .ub := by
    intro scale angD hl
    unfold setAngle
    rw [hθ, ok_bind]
    dsimp only
    rw [show Real.pi * 180 / Real.pi = (180 : Nat) by push_cast; field_simp, Nat.floor_natCast]
    unfold setR
    rw [if_neg (by omega)]
  unfold getAngularDistribution
  rw [if_pos (by simp), List.length_cons, List.range_succ_eq_map, List.foldlM_cons]
  have h2 : getR (x :: y :: rest) 0 = .ok x := getR_ok.2 rfl
  rw [h2, ok_bind, if_pos (Ne.symm hxn)]
  unfold angleRow
  rw [show (x :: y :: rest).length - (0 + 1) = rest.length + 1 by simp, List.range'_succ, List.foldlM_cons]
  have h3 : getR (x :: y :: rest) (0 + 1) = .ok y := getR_ok.2 rfl
  rw [h3, ok_bind, if_pos (Ne.symm hyn), h1 _ _ List.length_replicate, error_bind, error_bind]

/-! ### An example: a tetrahedron -/

/-- The center and the four corners of a tetrahedron. -/
def tetra : Particles ℝ :=
  ⟨[![0, 0, 0], ![1, 1, 1], ![1, -1, -1], ![-1, 1, -1], ![-1, -1, 1]], ⟨fun _ => 0, fun _ => 0⟩, 1, none⟩

theorem tetra_angle {x y : Nat} (hx : 1 ≤ x ∧ x ≤ 4) (hy : 1 ≤ y ∧ y ≤ 4) (hne : x ≠ y) {u v : Coord ℝ}
    (hu : tetra.pos[x]? = some u) (hv : tetra.pos[y]? = some v) (θ : ℝ) :
    u ≠ 0 ∧ v ≠ 0 ∧ (IsAngle ![0, 0, 0] u v θ ↔ θ = Real.arccos (-1 / 3)) := by
  have hc : ∀ (x : Nat) (u : Coord ℝ), 1 ≤ x ∧ x ≤ 4 → tetra.pos[x]? = some u →
      (x = 1 ∧ u = ![1, 1, 1]) ∨ (x = 2 ∧ u = ![1, -1, -1]) ∨ (x = 3 ∧ u = ![-1, 1, -1]) ∨ (x = 4 ∧ u = ![-1, -1, 1]) := by
    intro x u hx hu
    obtain ⟨h1, h2⟩ := hx
    interval_cases x <;> simp [tetra] at hu <;> simp [← hu]
  have hz : (![0, 0, 0] : Coord ℝ) = 0 := by funext i; fin_cases i <;> rfl
  have hne0 : ∀ (x : Nat) (u : Coord ℝ), 1 ≤ x ∧ x ≤ 4 → tetra.pos[x]? = some u → u ≠ 0 := by
    intro x u hx hu he
    rcases hc x u hx hu with ⟨_, rfl⟩ | ⟨_, rfl⟩ | ⟨_, rfl⟩ | ⟨_, rfl⟩ <;>
      · have := congrFun he 0
        norm_num at this
  have hu0 := hne0 x u hx hu
  have hv0 := hne0 y v hy hv
  refine ⟨hu0, hv0, ?_⟩
  rw [hz, angle_iff hu0 hv0, sub_zero, sub_zero]
  have hd : dot3 u v = -1 ∧ dot3 u u = 3 ∧ dot3 v v = 3 := by
    rcases hc x u hx hu with ⟨_, rfl⟩ | ⟨_, rfl⟩ | ⟨_, rfl⟩ | ⟨_, rfl⟩ <;>
      rcases hc y v hy hv with ⟨_, rfl⟩ | ⟨_, rfl⟩ | ⟨_, rfl⟩ | ⟨_, rfl⟩ <;>
      first
        | exact absurd (by omega) hne
        | (simp only [dot3, Matrix.cons_val_zero, Matrix.cons_val_one, Matrix.cons_val]; norm_num)
  rw [hd.1, hd.2.1, hd.2.2, Real.sqrt_mul_self (by norm_num)]

theorem tetra_pi : Real.arccos (-1 / 3) ≠ Real.pi := by
  rw [Ne, Real.arccos_eq_pi]
  norm_num

theorem tetra_around : Around tetra 0 [1, 2, 3, 4] := by
  have hz : (![0, 0, 0] : Coord ℝ) = 0 := by funext i; fin_cases i <;> rfl
  have hm : ∀ x ∈ [1, 2, 3, 4], 1 ≤ x ∧ x ≤ 4 := by decide
  have hex : ∀ x, 1 ≤ x ∧ x ≤ 4 → ∃ u, tetra.pos[x]? = some u := by
    rintro x ⟨h1, h2⟩
    interval_cases x <;> exact ⟨_, rfl⟩
  have h0 : ∀ x ∈ [1, 2, 3, 4], ∀ u, tetra.pos[x]? = some u → u ≠ 0 := by
    intro x hx u hu
    by_cases h : x = 1
    · obtain ⟨v, hv⟩ := hex 2 (by omega)
      exact (tetra_angle (hm x hx) (by omega : 1 ≤ 2 ∧ 2 ≤ 4) (by omega) hu hv 0).1
    · obtain ⟨v, hv⟩ := hex 1 (by omega)
      exact (tetra_angle (hm x hx) (by omega : 1 ≤ 1 ∧ 1 ≤ 4) h hu hv 0).1
  refine ⟨⟨![0, 0, 0], rfl, ?_⟩, ?_⟩
  · intro x hx
    obtain ⟨u, hu⟩ := hex x (hm x hx)
    exact ⟨by have := hm x hx; omega, u, hu, hz ▸ h0 x hx u hu⟩
  · intro x hx y hy o u v ho hu hv hpi
    have ho : o = ![0, 0, 0] := by simpa [tetra, eq_comm] using ho
    subst ho
    by_cases hxy : x = y
    · subst hxy
      rw [hu] at hv; cases hv
      have h1 := dot3_pos (h0 x hx u hu)
      have h2 := hpi.2.2
      have hn : norm3 (u - ![0, 0, 0]) * norm3 (u - ![0, 0, 0]) = dot3 (u - ![0, 0, 0]) (u - ![0, 0, 0]) := by
        unfold norm3; exact Real.mul_self_sqrt (dot3_nonneg _)
      rw [hn, Real.cos_pi, hz, sub_zero] at h2
      linarith
    · exact tetra_pi ((tetra_angle (hm x hx) (hm y hy) hxy hu hv _).2.2.1 hpi).symm

example : ∃ angD, getAngularDistribution tetra 0 [1, 2, 3, 4] = .ok angD ∧ angD.sum < 1 := by
  have hpi := Real.pi_pos
  have hlt : Real.arccos (-1 / 3) < Real.pi := lt_of_le_of_ne (Real.arccos_le_pi _) tetra_pi
  have hnn := Real.arccos_nonneg (-1 / 3)
  refine C115_fraction_counterexample tetra_around (by simp) ⌊Real.arccos (-1 / 3) * 180 / Real.pi⌋₊ ?_ ?_
  · rw [Nat.floor_lt (by positivity), div_lt_iff₀ hpi]
    push_cast
    linarith
  · have hm : ∀ (i x : Nat), [1, 2, 3, 4][i]? = some x → x = i + 1 ∧ 1 ≤ x ∧ x ≤ 4 := by
      intro i x h
      match i with
      | 0 | 1 | 2 | 3 => simp at h; omega
      | i + 4 => simp at h
    intro d
    constructor
    · rintro ⟨i, j, x, y, hij, hx, hy, o, u, v, θ, ho, hu, hv, hang, h1, h2⟩
      obtain ⟨ex, hx⟩ := hm i x hx
      obtain ⟨ey, hy⟩ := hm j y hy
      have ho : o = ![0, 0, 0] := by simpa [tetra, eq_comm] using ho
      subst ho
      have := (tetra_angle hx hy (by omega) hu hv θ).2.2.1 hang
      subst this
      exact ((degree_iff hnn d).2 ⟨h1, h2⟩).symm
    · intro hd
      have := (degree_iff hnn d).1 hd.symm
      exact ⟨0, 1, 1, 2, by omega, rfl, rfl, ![0, 0, 0], ![1, 1, 1], ![1, -1, -1], _, rfl, rfl, rfl,
        (tetra_angle (x := 1) (y := 2) (by omega) (by omega) (by omega) rfl rfl _).2.2.2 rfl, this.1, this.2⟩

end Rdf
end Colloids
