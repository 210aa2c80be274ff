import Verif.Py.BooCoarseProps
import Verif.Py.BooProductProps
import Verif.Py.BooWlProps

/-! # Agreement of the bond orientational order of python and of C++, bounds and invariance: C179 -/

namespace Colloids
namespace Py
namespace PyBoo
open ComplexConjugate
open Boo (len len_sq len_pos legendre sphericalHarmonic y0 cf st ofBond cartesian2spherical coef innerProduct sumNorm getQl getInvarients)
open Bonds (ends)
open Linker (get_mapRange)

/-- The C++ coefficients of degree `l`, as read by `operator()`, are those of python. -/
def SameAs (q : BooData) (l : Nat) (row : Row l) : Prop := ∀ m : Fin (l + 1), coef q l (m.1 : Int) = .ok (row m)

theorem same_cf {q : BooData} {l : Nat} {row : Row l} (hq : q.length = 36) (h2 : 2 ∣ l) (hl : l ≤ 10) (h : SameAs q l row) (m : Int)
    (hm : m.natAbs ≤ l) : cf q l m = co row m := by
  have hst : ∀ (k : Nat) (hk : k < l + 1), st q l k = row ⟨k, hk⟩ := by
    intro k hk
    have := h ⟨k, hk⟩
    rw [Boo.coef_eq hq h2 hl (by simp; omega)] at this
    have := Except.ok.inj this
    unfold cf at this
    rw [if_pos (by simp)] at this
    simpa using this
  unfold cf co
  rw [dif_pos (by omega)]
  split
  · rw [hst _ (by omega)]
    congr 2
    omega
  · have e : (-m).toNat = m.natAbs := by omega
    rw [e, hst _ (by omega)]

theorem ylm_zero (l : Nat) : vect2Ylm l 0 = vect2Ylm l ![0, 0, 1] := by
  have h0 : cart2sph 0 = (0, 0, 0) := by
    unfold cart2sph; simp
  have h1 : cart2sph ![0, 0, 1] = (1, 0, 0) := by
    unfold cart2sph
    have : (⟨0, 0⟩ : ℂ) = 0 := rfl
    simp [this]
  funext m
  unfold vect2Ylm
  rw [h0, h1]

theorem sq_one {e : ℝ} (he : e ^ 2 = 1) : e = 1 ∨ e = -1 := by
  have : (e - 1) * (e + 1) = 0 := by linear_combination he
  rcases mul_eq_zero.1 this with h | h
  · left; linarith
  · right; linarith

/-- C179: `vect2Ylm` and the C++ constructor from a bond give the same coefficients for the degrees of the C++ structure, also for vectors along `z`,
for which the C++ takes no angle, and for a null vector. -/
theorem C179_bond {v : Fin 3 → ℝ} {q : BooData} (h : ofBond v = .ok q) {l : Nat} (h2 : 2 ∣ l) (hl : l ≤ 10) : SameAs q l (vect2Ylm l v) := by
  obtain ⟨q', h', hq, hs⟩ := Boo.ofBond_ok v
  rw [h] at h'
  cases Except.ok.inj h'
  intro m
  rw [Boo.coef_eq hq h2 hl (by have := m.2; simp; omega)]
  refine congrArg Except.ok ?_
  unfold cf
  rw [if_pos (by simp), Int.toNat_natCast, hs l m h2 hl (by have := m.2; omega)]
  by_cases hv : v = 0
  · subst hv
    have h0 : cart2sph 0 = (0, 0, 0) := by
      unfold cart2sph; simp
    have h1 : cartesian2spherical 0 = (0, 0, 0) := by
      unfold cartesian2spherical; simp
    unfold vect2Ylm
    rw [h0, h1]
  · obtain ⟨k1, k2, e, he, -, k3, k4⟩ := Boo.c2s_dir hv
    rw [harmonic_poly l m k1 k2, k3, k4]
    rcases sq_one he with rfl | rfl
    · rw [C175_formula l hv]
      simp [norm]
    · rw [← ylm_even l h2 v, C175_formula l (neg_ne_zero.2 hv), len_neg]
      simp only [Pi.neg_apply, neg_div, neg_one_mul]
      unfold norm
      generalize √((2 * (l : ℝ) + 1) / (4 * Real.pi) * (((l - m).factorial : ℝ) / ((l + m).factorial : ℝ))) = K
      generalize Polynomial.eval (-(v 2 / len v)) _ = A
      have e : ((-1 : ℝ) : ℂ) * (((v 0 / len v : ℝ) : ℂ) + ((v 1 / len v : ℝ) : ℂ) * Complex.I)
          = ((-(v 0 / len v) : ℝ) : ℂ) + ((-(v 1 / len v) : ℝ) : ℂ) * Complex.I := by
        push_cast
        ring
      rw [e]

/-- C179: `ql` of python is `getQl` of C++. -/
theorem C179_ql {q : BooData} (hq : q.length = 36) {l : Nat} (h2 : 2 ∣ l) (hl : l ≤ 10) {row : Row l} (h : SameAs q l row) :
    getQl q l = .ok (ql row) := by
  unfold getQl
  rw [Boo.sumNorm_eq hq h2 hl]
  simp only [ok_bind, pure_eq_ok]
  rw [C177_ql row (fun m _ _ => getQlm_co row (by omega))]
  refine congrArg (fun x => Except.ok √x) ?_
  rw [Finset.sum_congr rfl fun m hm => by rw [same_cf hq h2 hl h m (by rw [Finset.mem_Icc] at hm; omega)]]
  ring

/-- C179: `boo_product` of python is the inner product of C++ times `4π/(2l+1)`, when the coefficient of order 0 of one of the two particles is real, which
is so for the coefficients of bonds (`C179_real`). -/
theorem C179_product {a b : BooData} (ha : a.length = 36) (hb : b.length = 36) {l : Nat} (h2 : 2 ∣ l) (hl : l ≤ 10) {ra rb : Row l}
    (h : SameAs a l ra) (h' : SameAs b l rb) (hr : (ra 0).im = 0 ∨ (rb 0).im = 0) :
    ∃ x, innerProduct a b l = .ok x ∧ booProduct ra rb = 4 * Real.pi / (2 * l + 1) * x := by
  refine ⟨_, Boo.innerProduct_eq ha hb h2 hl, ?_⟩
  rw [same_cf ha h2 hl h 0 (by simp), same_cf hb h2 hl h' 0 (by simp), co_zero, co_zero, booProduct_eq]
  have : 2 * (ra 0).im * (rb 0).im = 0 := by rcases hr with h | h <;> rw [h] <;> ring
  rw [this, sub_zero]
  congr 2
  refine Finset.sum_congr rfl fun m hm => ?_
  rw [Finset.mem_Icc] at hm
  rw [same_cf ha h2 hl h m (by omega), same_cf hb h2 hl h' m (by omega)]

/-- C179: `wl` of python is the real part of the C++ invariant before its normalisation by the power 3/2 of the sum of the norms. -/
theorem C179_wl {q : BooData} (hq : q.length = 36) {l : Nat} (h2 : 2 ∣ l) (hl : l ≤ 10) {row : Row l} (h : SameAs q l row) :
    ∃ w n W, wl row = .ok w ∧ sumNorm q l = .ok n ∧ getInvarients q l = .ok (ql row, W) ∧
      (n = 0 → W.re = w) ∧ (n ≠ 0 → W.re = w / √n ^ 3) := by
  obtain ⟨n, hn, hI⟩ := Boo.getInvarients_eq hq h2 hl
  have hQ := C179_ql hq h2 hl h
  unfold getQl at hQ
  rw [hn] at hQ
  have hQ := Except.ok.inj hQ
  have hW : (∑ m1 ∈ Finset.Icc (-(l : Int)) l, ∑ m2 ∈ Finset.Icc (-(l : Int)) l, Boo.wt q l m1 m2)
      = ∑ m1 ∈ Finset.Icc (-(l : Int)) l, ∑ m2 ∈ Finset.Icc (-(l : Int)) l, term row m1 m2 := by
    refine Finset.sum_congr rfl fun m1 h1 => Finset.sum_congr rfl fun m2 hm2 => ?_
    rw [Finset.mem_Icc] at h1 hm2
    unfold Boo.wt term
    split
    · rename_i h3
      obtain ⟨e, he, hv⟩ := Boo.C56_wigner (l := l) (m1 := m1) (m2 := m2) ⟨h2, hl, by omega, by omega, h3⟩
      rw [same_cf hq h2 hl h m1 (by omega), same_cf hq h2 hl h m2 (by omega), same_cf hq h2 hl h _ (by omega)]
      unfold Boo.w3
      rw [he]
      simp only [hv]
    · rfl
  rw [hW, hQ] at hI
  refine ⟨_, n, _, wl_eq row h2 hl, hn, hI, fun h0 => ?_, fun h0 => ?_⟩
  · unfold Boo.wNormalize
    rw [if_neg (by simpa using h0)]
  · unfold Boo.wNormalize
    rw [if_pos h0, Complex.div_ofReal_re]

/-- C179: the coefficient of order 0 of a bond is real, for any degree. -/
theorem C179_real (l : Nat) (v : Fin 3 → ℝ) : (vect2Ylm l v 0).im = 0 := by
  unfold vect2Ylm sphericalHarmonic
  simp

example : ∃ q, ofBond ![1, 2, -3] = .ok q ∧ q.length = 36 ∧ SameAs q 6 (vect2Ylm 6 ![1, 2, -3]) := by
  obtain ⟨q, h, hq, -⟩ := Boo.ofBond_ok ![1, 2, -3]
  exact ⟨q, h, hq, C179_bond h (by decide) (by decide)⟩

theorem addition {l : Nat} (h2 : 2 ∣ l) (hl : l ≤ 10) {v w : Fin 3 → ℝ} (hv : v ≠ 0) (hw : w ≠ 0) :
    booProduct (vect2Ylm l v) (vect2Ylm l w) = (legendre l).eval ((v 0 * w 0 + v 1 * w 1 + v 2 * w 2) / (len v * len w)) := by
  obtain ⟨q, h, hq, -⟩ := Boo.ofBond_ok v
  obtain ⟨p, h', hp, -⟩ := Boo.ofBond_ok w
  obtain ⟨x, hx, e⟩ := C179_product hq hp h2 hl (C179_bond h h2 hl) (C179_bond h' h2 hl) (Or.inl (C179_real l v))
  rw [Boo.C83_addition v w hv hw q p h h' l h2 hl] at hx
  rw [e, ← Except.ok.inj hx]
  have := Real.pi_pos
  field_simp

/-- C179: the product of the coefficients of two bonds depends only on their angle: it is the Legendre polynomial of its cosine. -/
theorem C179_addition {l : Nat} (h2 : 2 ∣ l) (hl : l ≤ 10) {v w : Fin 3 → ℝ} (hv : v ≠ 0) (hw : w ≠ 0) :
    booProduct (vect2Ylm l v) (vect2Ylm l w) = (legendre l).eval ((v 0 * w 0 + v 1 * w 1 + v 2 * w 2)
      / (√(v 0 ^ 2 + v 1 ^ 2 + v 2 ^ 2) * √(w 0 ^ 2 + w 1 ^ 2 + w 2 ^ 2))) := addition h2 hl hv hw

/-- C179: `ql` of a single bond is 1. -/
theorem C179_unit {l : Nat} (h2 : 2 ∣ l) (hl : l ≤ 10) (v : Fin 3 → ℝ) : ql (vect2Ylm l v) = 1 := by
  have key : ∀ w : Fin 3 → ℝ, w ≠ 0 → ql (vect2Ylm l w) = 1 := by
    intro w hw
    have hr := len_pos hw
    rw [ql_eq, addition h2 hl hw hw]
    have : (w 0 * w 0 + w 1 * w 1 + w 2 * w 2) / (len w * len w) = 1 := by
      rw [div_eq_one_iff_eq (by positivity)]
      have := len_sq w
      nlinarith
    rw [this, Boo.legendre_one, Real.sqrt_one]
  by_cases hv : v = 0
  · rw [hv, ylm_zero]
    exact key _ fun h => by have := congrFun h 2; simp at this
  · exact key v hv

theorem product_add {l : Nat} (a a' b : Row l) : booProduct (a + a') b = booProduct a b + booProduct a' b := by
  unfold booProduct
  rw [foldl_sum, foldl_sum, foldl_sum, sum_range_list, sum_range_list, sum_range_list]
  rw [← add_mul]
  congr 1
  simp only [Pi.add_apply, add_mul, Complex.add_re, mul_add, Finset.sum_add_distrib]
  ring

theorem product_smul {l : Nat} (t : ℝ) (a b : Row l) : booProduct (t • a) b = t * booProduct a b := by
  unfold booProduct
  rw [foldl_sum, foldl_sum, sum_range_list, sum_range_list, ← mul_assoc]
  congr 1
  simp only [Pi.smul_apply, smul_mul_assoc, Complex.smul_re, smul_eq_mul]
  rw [mul_add, Finset.mul_sum]
  congr 1
  refine Finset.sum_congr rfl fun k _ => ?_
  ring

theorem product_zero {l : Nat} (b : Row l) : booProduct 0 b = 0 := by
  have := product_smul 0 0 b
  simpa using this

theorem product_sum_left {κ : Type} {l : Nat} (y : κ → Row l) (b : Row l) (vs : List κ) :
    booProduct (vs.map y).sum b = (vs.map fun v => booProduct (y v) b).sum := by
  induction vs with
  | nil => exact product_zero b
  | cons v vs ih => rw [List.map_cons, List.sum_cons, product_add, ih, List.map_cons, List.sum_cons]

theorem product_sum_both {κ κ' : Type} {l : Nat} (y : κ → Row l) (y' : κ' → Row l) (vs : List κ) (ws : List κ') :
    booProduct (vs.map y).sum (ws.map y').sum = (vs.map fun v => (ws.map fun w => booProduct (y v) (y' w)).sum).sum := by
  rw [product_sum_left]
  congr 1
  apply List.map_congr_left
  intro v _
  rw [C177_symmetric, product_sum_left]
  congr 1
  apply List.map_congr_left
  intro w _
  rw [C177_symmetric]

theorem sum_le_length {κ : Type} (f : κ → ℝ) (c : ℝ) (vs : List κ) (h : ∀ v ∈ vs, f v ≤ c) : (vs.map f).sum ≤ vs.length * c := by
  induction vs with
  | nil => simp
  | cons v vs ih =>
    rw [List.map_cons, List.sum_cons, List.length_cons]
    have h1 := h v (by simp)
    have h2 := ih fun w hw => h w (by simp [hw])
    push_cast
    linarith

/-- The mean of coefficients of which the `ql` is at most 1. -/
theorem mean_le {κ : Type} {l : Nat} (y : κ → Row l) (vs : List κ) (h : ∀ v ∈ vs, ql (y v) ≤ 1) :
    ql ((1 / ((max 1 vs.length : Nat) : ℝ)) • (vs.map y).sum) ≤ 1 := by
  rw [ql_eq, product_smul, C177_symmetric, product_smul, product_sum_both]
  have hb : (vs.map fun v => (vs.map fun w => booProduct (y v) (y w)).sum).sum ≤ vs.length * vs.length := by
    have : ∀ v ∈ vs, (vs.map fun w => booProduct (y v) (y w)).sum ≤ vs.length := by
      intro v hv
      have := sum_le_length (fun w => booProduct (y v) (y w)) 1 vs fun w hw => by
        have h1 := (abs_le.1 (C177_bounded (y v) (y w))).2
        have h2 := (C177_norm (y v)).1
        have h3 := (C177_norm (y w)).1
        have h4 := mul_le_one₀ (h v hv) h3 (h w hw)
        linarith
      linarith
    exact sum_le_length _ _ vs this
  rw [show (1 : ℝ) = √1 by simp]
  apply Real.sqrt_le_sqrt
  simp only [Real.sqrt_one]
  have hm : (vs.length : ℝ) ≤ ((max 1 vs.length : Nat) : ℝ) := by exact_mod_cast le_max_right _ _
  have hp : (0 : ℝ) < ((max 1 vs.length : Nat) : ℝ) := by exact_mod_cast lt_of_lt_of_le Nat.one_pos (le_max_left _ _)
  have h0 : (0 : ℝ) ≤ vs.length := by positivity
  generalize ((max 1 vs.length : Nat) : ℝ) = M at hm hp ⊢
  rw [← mul_assoc, div_mul_div_comm, one_mul, div_mul_eq_mul_div, one_mul, div_le_one (by positivity)]
  nlinarith

theorem filter_length (i : Nat) (bonds : List (Nat × Nat)) :
    (bonds.filter (fun b => b.1 = i) ++ bonds.filter (fun b => b.2 = i)).length = (ends i bonds).length := by
  unfold ends
  induction bonds with
  | nil => rfl
  | cons b bonds ih =>
    simp only [List.length_append] at ih ⊢
    rw [List.flatMap_cons, List.length_append, ← ih, List.filter_cons, List.filter_cons]
    by_cases h1 : b.1 = i <;> by_cases h2 : b.2 = i <;> simp [h1, h2] <;> omega

theorem exists_items {pos : List (Fin 3 → ℝ)} : ∀ i < pos.length, pos[i]? = some (pos.getD i 0) := by
  intro i hi
  rw [List.getD_eq_getElem?_getD, List.getElem?_eq_getElem hi]
  rfl

/-- C179: whatever the positions, the bonds and the periods, `ql` of every particle is between 0 and 1. -/
theorem C179_bounded {l : Nat} (h2 : 2 ∣ l) (hl : l ≤ 10) {pos : List (Fin 3 → ℝ)} {bonds : List (Nat × Nat)} {periods : Fin 3 → ℝ}
    {out : List (Row l)} (h : bonds2qlm l pos bonds periods = .ok out) : ∀ row ∈ out, 0 ≤ ql row ∧ ql row ≤ 1 := by
  have hb : ∀ b ∈ bonds, b.1 < pos.length ∧ b.2 < pos.length := by
    intro b hb
    by_contra hc
    rw [C175_outside l hb (by omega) periods] at h
    cases h
  rw [C175_mean l exists_items hb] at h
  rw [← Except.ok.inj h]
  intro row hr
  obtain ⟨i, _, rfl⟩ := List.mem_map.1 hr
  refine ⟨(C177_norm _).1, ?_⟩
  have := mean_le (fun b : Nat × Nat => vect2Ylm l fun a => Periodic.periodify (pos.getD b.1 0 a) (pos.getD b.2 0 a) (periods a))
    (bonds.filter (fun b => b.1 = i) ++ bonds.filter (fun b => b.2 = i)) (fun b _ => (C179_unit h2 hl _).le)
  rwa [filter_length] at this

example : ∃ out, bonds2qlm 6 three [(0, 1), (2, 1)] (fun _ => -1) = .ok out :=
  ⟨_, C175_mean 6 three_get (by simp [three]) _⟩

/-- The square of the distance. -/
def dist2 (u v : Fin 3 → ℝ) : ℝ := (v 0 - u 0) ^ 2 + (v 1 - u 1) ^ 2 + (v 2 - u 2) ^ 2

theorem bond_product_iso {l : Nat} (h2 : 2 ∣ l) (hl : l ≤ 10) {f : (Fin 3 → ℝ) → Fin 3 → ℝ} (hf : ∀ u v, dist2 (f u) (f v) = dist2 u v)
    {a b c d : Fin 3 → ℝ} (h : a ≠ b) (h' : c ≠ d) :
    booProduct (vect2Ylm l (f b - f a)) (vect2Ylm l (f d - f c)) = booProduct (vect2Ylm l (b - a)) (vect2Ylm l (d - c)) := by
  have hlen : ∀ u v : Fin 3 → ℝ, len (f v - f u) = len (v - u) := by
    intro u v
    have := hf u v
    unfold dist2 at this
    unfold len
    simp only [Pi.sub_apply]
    rw [this]
  have hne : ∀ u v : Fin 3 → ℝ, u ≠ v → f v - f u ≠ 0 := by
    intro u v huv h0
    have h1 := hlen u v
    rw [h0] at h1
    have h2 := len_pos (sub_ne_zero.2 huv.symm)
    rw [← h1] at h2
    simp [len] at h2
  rw [addition h2 hl (hne a b h) (hne c d h'), addition h2 hl (sub_ne_zero.2 h.symm) (sub_ne_zero.2 h'.symm), hlen, hlen]
  congr 2
  have e1 := hf a d
  have e2 := hf b c
  have e3 := hf a c
  have e4 := hf b d
  unfold dist2 at e1 e2 e3 e4
  simp only [Pi.sub_apply]
  linear_combination (e1 + e2 - e3 - e4) / 2

theorem mean_iso {l : Nat} (h2 : 2 ∣ l) (hl : l ≤ 10) {f : (Fin 3 → ℝ) → Fin 3 → ℝ} (hf : ∀ u v, dist2 (f u) (f v) = dist2 u v)
    {p : Nat → Fin 3 → ℝ} {xs ys : List (Nat × Nat)} (hx : ∀ b ∈ xs, p b.1 ≠ p b.2) (hy : ∀ b ∈ ys, p b.1 ≠ p b.2) (s t : ℝ) :
    booProduct (s • (xs.map fun b => vect2Ylm l (f (p b.2) - f (p b.1))).sum) (t • (ys.map fun b => vect2Ylm l (f (p b.2) - f (p b.1))).sum)
      = booProduct (s • (xs.map fun b => vect2Ylm l (p b.2 - p b.1)).sum) (t • (ys.map fun b => vect2Ylm l (p b.2 - p b.1)).sum) := by
  rw [product_smul, product_smul, C177_symmetric _ (t • _), C177_symmetric _ (t • _), product_smul, product_smul, product_sum_both, product_sum_both]
  congr 3
  apply List.map_congr_left
  intro b hb
  congr 1
  apply List.map_congr_left
  intro c hc
  exact bond_product_iso h2 hl hf (hy b hb) (hx c hc)

/-- C179: moving all the particles by a map that preserves the distances (rotation, translation, mirror) changes neither the products between the
coefficients of two particles nor their `ql`. -/
theorem C179_isometry {l : Nat} (h2 : 2 ∣ l) (hl : l ≤ 10) {f : (Fin 3 → ℝ) → Fin 3 → ℝ}
    (hf : ∀ u v, (f v 0 - f u 0) ^ 2 + (f v 1 - f u 1) ^ 2 + (f v 2 - f u 2) ^ 2 = (v 0 - u 0) ^ 2 + (v 1 - u 1) ^ 2 + (v 2 - u 2) ^ 2)
    {pos : List (Fin 3 → ℝ)} {bonds : List (Nat × Nat)} (hb : ∀ b ∈ bonds, b.1 < pos.length ∧ b.2 < pos.length ∧ pos[b.1]? ≠ pos[b.2]?)
    {periods : Fin 3 → ℝ} (ht : ∀ a, periods a ≤ 0) :
    ∃ out out', bonds2qlm l pos bonds periods = .ok out ∧ bonds2qlm l (pos.map f) bonds periods = .ok out' ∧
      ∀ (i j : Nat) (a b a' b' : Row l), out[i]? = some a → out[j]? = some b → out'[i]? = some a' → out'[j]? = some b' →
        booProduct a' b' = booProduct a b ∧ ql a' = ql a := by
  have hb1 : ∀ b ∈ bonds, b.1 < pos.length ∧ b.2 < pos.length := fun b h => ⟨(hb b h).1, (hb b h).2.1⟩
  have hne : ∀ b ∈ bonds, pos.getD b.1 0 ≠ pos.getD b.2 0 := by
    intro b h e
    apply (hb b h).2.2
    rw [exists_items _ (hb1 b h).1, exists_items _ (hb1 b h).2, e]
  have hp' : ∀ i < (pos.map f).length, (pos.map f)[i]? = some (f (pos.getD i 0)) := by
    intro i hi
    rw [List.getElem?_map, exists_items i (by simpa using hi)]
    rfl
  have hd : ∀ u v : Fin 3 → ℝ, (fun a => Periodic.periodify (u a) (v a) (periods a)) = v - u := by
    intro u v
    funext a
    unfold Periodic.periodify
    simp [ht a]
  refine ⟨_, _, C175_mean l exists_items hb1 periods, C175_mean l hp' (by simpa using hb1) periods, ?_⟩
  simp only [hd, List.length_map]
  intro i j a b a' b' ea eb ea' eb'
  rw [get_mapRange] at ea eb ea' eb'
  have hi : i < pos.length := by by_contra h; rw [if_neg h] at ea; cases ea
  have hj : j < pos.length := by by_contra h; rw [if_neg h] at eb; cases eb
  rw [if_pos hi] at ea ea'
  rw [if_pos hj] at eb eb'
  cases Option.some.inj ea
  cases Option.some.inj eb
  cases Option.some.inj ea'
  cases Option.some.inj eb'
  have hx : ∀ i, ∀ b ∈ bonds.filter (fun b => b.1 = i) ++ bonds.filter (fun b => b.2 = i), pos.getD b.1 0 ≠ pos.getD b.2 0 := by
    intro i b h
    rw [List.mem_append, List.mem_filter, List.mem_filter] at h
    rcases h with h | h <;> exact hne b h.1
  refine ⟨mean_iso h2 hl hf (p := fun i => pos.getD i 0) (hx i) (hx j) _ _, ?_⟩
  rw [ql_eq, ql_eq]
  congr 1
  exact mean_iso h2 hl hf (p := fun i => pos.getD i 0) (hx i) (hx i) _ _

/-- A quarter of turn followed by a translation. -/
example : (∀ u v : Fin 3 → ℝ, let f : (Fin 3 → ℝ) → Fin 3 → ℝ := fun x => ![x 1 + 5, -x 0, x 2]
    (f v 0 - f u 0) ^ 2 + (f v 1 - f u 1) ^ 2 + (f v 2 - f u 2) ^ 2 = (v 0 - u 0) ^ 2 + (v 1 - u 1) ^ 2 + (v 2 - u 2) ^ 2) ∧
    ∀ b ∈ [(0, 1), (2, 1)], b.1 < three.length ∧ b.2 < three.length ∧ three[b.1]? ≠ three[b.2]? := by
  refine ⟨fun u v => by simp; ring, ?_⟩
  intro b hb
  simp only [List.mem_cons, List.not_mem_nil, or_false] at hb
  rcases hb with rfl | rfl
  · refine ⟨by simp [three], by simp [three], fun h => ?_⟩
    simp only [three, List.getElem?_cons_zero, List.getElem?_cons_succ, Option.some.injEq] at h
    have := congrFun h 2
    simp at this
  · refine ⟨by simp [three], by simp [three], fun h => ?_⟩
    simp only [three, List.getElem?_cons_zero, List.getElem?_cons_succ, Option.some.injEq] at h
    have := congrFun h 1
    simp at this

end PyBoo
end Py
end Colloids
