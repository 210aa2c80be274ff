import Verif.Boo.Wigner
import Verif.Boo.IoLemmas
import Mathlib.Analysis.Complex.Norm

/-! # Properties of the bond orientational order coefficients: C35-C38, C55, C56, C58 -/

namespace Colloids
namespace Boo
open ComplexConjugate

/-! ## C35 : binary format -/

/-- A tensor written in a buffer of at least 72 doubles and read back is unchanged. -/
theorem C35_binary (q : BooData) (hq : q.length = 36) (buffer : List ℝ) (hb : 72 ≤ buffer.length) :
    ∃ out, toBinary q buffer = .ok out ∧ out.length = buffer.length ∧ ofBuffer out 0 = .ok q := by
  refine ⟨_, toBinary_eq q buffer (by omega), ?_, ?_⟩
  · rw [List.length_append, doubles_length, List.length_drop]; omega
  · apply ofBuffer_eq _ _ q hq
    intro i hi
    have hl := doubles_length q
    obtain ⟨h1, h2⟩ := doubles_get q i hi
    rw [Nat.zero_add, List.getElem?_append_left (by omega), List.getElem?_append_left (by omega)]
    exact ⟨h1, h2⟩

/-- The file written for a set of particles has 72 doubles per particle, and reading back at the place of
any particle gives its tensor. Nothing of the uninitialised buffer gets in the file. -/
theorem C35_file (uninit : List ℝ) (hu : uninit.length = 72) (boos : List BooData)
    (hb : ∀ q ∈ boos, q.length = 36) :
    ∃ file, exportQlm uninit boos = .ok file ∧ file.length = 72 * boos.length ∧
      ∀ p q, boos[p]? = some q → ofBuffer file (72 * p) = .ok q := by
  refine ⟨_, exportQlm_eq uninit hu boos hb, flatMap_doubles_length boos hb, ?_⟩
  intro p q hp
  obtain ⟨hlt, rfl⟩ := List.getElem?_eq_some_iff.1 hp
  have h36 := hb boos[p] (by simp)
  apply ofBuffer_eq _ _ _ h36
  intro i hi
  obtain ⟨h1, h2⟩ := doubles_get boos[p] i hi
  rw [Nat.add_assoc, flatMap_doubles_get boos hb p hlt _ (by omega),
    flatMap_doubles_get boos hb p hlt _ (by omega)]
  exact ⟨h1, h2⟩

example : ∃ out, toBinary ((List.range 36).map (fun i => (⟨i, -i⟩ : ℂ))) (List.replicate 72 7) = .ok out ∧
    out.length = 72 ∧ ofBuffer out 0 = .ok ((List.range 36).map (fun i => (⟨i, -i⟩ : ℂ))) :=
  C35_binary _ (by simp) _ (by simp)

example : ∃ file, exportQlm (List.replicate 72 7) [blank, List.replicate 36 ⟨1, 2⟩] = .ok file ∧
    file.length = 144 ∧ ∀ p q, [blank, List.replicate 36 ⟨1, 2⟩][p]? = some q →
      ofBuffer file (72 * p) = .ok q :=
  C35_file _ (by simp) _ (by simp [blank])

/-! ## C36 : storage slots -/

/-- Writing the coefficient `(l,m)` changes what is read for `(l,m)` and for no other coefficient of
even degree at most 10. -/
theorem C36_own_slot (q : BooData) (hq : q.length = 36) (z : ℂ) (l m l' m' : Nat) (h2 : 2 ∣ l)
    (hl : l ≤ 10) (hm : m ≤ l) (h2' : 2 ∣ l') (hl' : l' ≤ 10) (hm' : m' ≤ l') :
    coef (q.set (slot l m) z) l' m' =
      if l' = l ∧ m' = m then .ok z else coef q l' m' := by
  have hlt := slot_lt h2 hl hm
  have e : ∀ q : BooData, coef q l' m' = getR q (slot l' m') := by
    intro q
    unfold coef
    rw [if_pos (by omega), Int.toNat_natCast]
  rw [e, e]
  by_cases h : l' = l ∧ m' = m
  · rw [if_pos h, h.1, h.2, getR_ok, List.getElem?_set_self (by omega)]
  · rw [if_neg h]
    unfold getR
    rw [List.getElem?_set_ne]
    intro e
    have := slot_inj h2 h2' hm hm' e
    omega

/-- The slots are exactly the 36 indices: each index is the slot of exactly one coefficient, which
is the one given by the tables `i2l` and `i2m`. -/
theorem C36_tables : i2l.length = 36 ∧ i2m.length = 36 ∧
    (∀ i, i < 36 → ∃ l m, i2l[i]? = some l ∧ i2m[i]? = some m ∧ 2 ∣ l ∧ l ≤ 10 ∧ m ≤ l ∧
      slot l m = i) ∧
    (∀ l m, 2 ∣ l → l ≤ 10 → m ≤ l → i2l[slot l m]? = some l ∧ i2m[slot l m]? = some m) := by
  have h : ∀ i, i < 36 → ∃ l m, i2l[i]? = some l ∧ i2m[i]? = some m ∧ 2 ∣ l ∧ l ≤ 10 ∧ m ≤ l ∧
      slot l m = i := by
    have : ∀ i, i < 36 → 2 ∣ (i2l[i]?.getD 0) ∧ (i2l[i]?.getD 0) ≤ 10 ∧
        (i2m[i]?.getD 0) ≤ (i2l[i]?.getD 0) ∧ slot (i2l[i]?.getD 0) (i2m[i]?.getD 0) = i := by
      decide +kernel
    intro i hi
    obtain ⟨h1, h2, h3, h4⟩ := this i hi
    refine ⟨_, _, ?_, ?_, h1, h2, h3, h4⟩
    · rw [List.getElem?_eq_getElem (by simp [i2l]; omega)]; rfl
    · rw [List.getElem?_eq_getElem (by simp [i2m]; omega)]; rfl
  refine ⟨rfl, rfl, h, ?_⟩
  intro l m h2 hl hm
  obtain ⟨l', m', e1, e2, h2', hl', hm', e⟩ := h (slot l m) (slot_lt h2 hl hm)
  obtain ⟨rfl, rfl⟩ := slot_inj h2' h2 hm' hm e
  exact ⟨e1, e2⟩

/-- Reading `(l,-m)` gives `(-1)^m` times the conjugate of `(l,m)`, for `m > 0`. -/
theorem C36_negative (q : BooData) (hq : q.length = 36) (l m : Nat) (h2 : 2 ∣ l) (hl : l ≤ 10)
    (hm : m ≤ l) (h0 : 0 < m) :
    ∃ z, coef q l m = .ok z ∧ coef q l (-m) = .ok ((-1) ^ m * conj z) := by
  refine ⟨st q l m, ?_, ?_⟩
  · rw [coef_eq hq h2 hl (by omega)]; simp [cf]
  · rw [coef_eq hq h2 hl (by omega)]
    unfold cf
    rw [if_neg (by omega), neg_neg, Int.toNat_natCast]

/-- Degrees above 10 are not stored: reading them is out of range whatever `m`. -/
theorem C36_degree_bound (q : BooData) (hq : q.length = 36) (l : Nat) (m : Int) (hl : 12 ≤ l) :
    coef q l m = .error .ub := by
  have : ∀ k, q.length ≤ slot l k := by
    intro k
    have : 12 * 12 ≤ l * l := Nat.mul_le_mul hl hl
    unfold slot
    omega
  unfold coef
  rw [getR_eq_ub (this _), getR_eq_ub (this _)]
  split
  · rfl
  · split <;> rfl

example : coef (blank.set (slot 6 3) ⟨1, 2⟩) 6 3 = .ok ⟨1, 2⟩ :=
  C36_own_slot blank (by simp [blank]) ⟨1, 2⟩ 6 3 6 3 (by decide) (by decide) (by decide) (by decide)
    (by decide) (by decide)
example : ∃ z, coef blank 4 (3 : Nat) = .ok z ∧ coef blank 4 (-(3 : Nat)) = .ok ((-1) ^ 3 * conj z) :=
  C36_negative blank (by simp [blank]) 4 3 (by decide) (by decide) (by decide) (by decide)

/-! ## C37 : scalar products -/

/-- All the coefficients of degree `l` can be read, and `A` is the reading. -/
def Reads (q : BooData) (l : Nat) (A : Int → ℂ) : Prop :=
  ∀ m : Int, -(l : Int) ≤ m → m ≤ l → coef q l m = .ok (A m)

theorem reads_cf {q : BooData} {l : Nat} (hq : q.length = 36) (h2 : 2 ∣ l) (hl : l ≤ 10)
    {A : Int → ℂ} (h : Reads q l A) (m : Int) (h1 : -(l : Int) ≤ m) (hm : m ≤ l) :
    cf q l m = A m := by
  have := h m h1 hm
  rw [coef_eq hq h2 hl (by omega)] at this
  exact Except.ok.inj this

theorem C37_reads (q : BooData) (hq : q.length = 36) (l : Nat) (h2 : 2 ∣ l) (hl : l ≤ 10) :
    ∃ A, Reads q l A :=
  ⟨cf q l, fun _ h1 h => coef_eq hq h2 hl (by omega)⟩

/-- `getSumNorm` is the sum of the squared moduli of the coefficients over all orders from `-l` to `l`. -/
theorem C37_sum_norm (q : BooData) (hq : q.length = 36) (l : Nat) (h2 : 2 ∣ l) (hl : l ≤ 10)
    (A : Int → ℂ) (hA : Reads q l A) :
    sumNorm q l = .ok (∑ m ∈ Finset.Icc (-(l : Int)) l, Complex.normSq (A m)) := by
  rw [sumNorm_eq hq h2 hl]
  congr 1
  apply Finset.sum_congr rfl
  intro m hm
  rw [Finset.mem_Icc] at hm
  rw [reads_cf hq h2 hl hA m hm.1 hm.2]

/-- The sum of norms is null only for a tensor whose coefficients of this degree are all null. -/
theorem C37_null (q : BooData) (hq : q.length = 36) (l : Nat) (h2 : 2 ∣ l) (hl : l ≤ 10)
    (A : Int → ℂ) (hA : Reads q l A) :
    sumNorm q l = .ok 0 ↔ ∀ m : Int, -(l : Int) ≤ m → m ≤ l → A m = 0 := by
  rw [C37_sum_norm q hq l h2 hl A hA, Except.ok.injEq,
    Finset.sum_eq_zero_iff_of_nonneg (fun _ _ => Complex.normSq_nonneg _)]
  simp only [Finset.mem_Icc, Complex.normSq_eq_zero, and_imp]

/-- The scalar product is the real part of the Hermitian product over all orders, when one of the
coefficients of order 0 is real. -/
theorem C37_hermitian_partial (a b : BooData) (ha : a.length = 36) (hb : b.length = 36) (l : Nat)
    (h2 : 2 ∣ l) (hl : l ≤ 10) (A B : Int → ℂ) (hA : Reads a l A) (hB : Reads b l B)
    (h0 : (A 0).im = 0 ∨ (B 0).im = 0) :
    innerProduct a b l
      = .ok (∑ m ∈ Finset.Icc (-(l : Int)) l, A m * conj (B m)).re := by
  rw [innerProduct_eq ha hb h2 hl, reads_cf ha h2 hl hA 0 (by omega) (by omega),
    reads_cf hb h2 hl hB 0 (by omega) (by omega)]
  congr 1
  have e : ∑ m ∈ Finset.Icc (-(l : Int)) l, cf a l m * conj (cf b l m)
      = ∑ m ∈ Finset.Icc (-(l : Int)) l, A m * conj (B m) := by
    apply Finset.sum_congr rfl
    intro m hm
    rw [Finset.mem_Icc] at hm
    rw [reads_cf ha h2 hl hA m hm.1 hm.2, reads_cf hb h2 hl hB m hm.1 hm.2]
  rw [e]
  rcases h0 with h | h <;> rw [h] <;> ring

/-- The scalar product is symmetric, whatever the coefficients. -/
theorem C37_symmetric (a b : BooData) (ha : a.length = 36) (hb : b.length = 36) (l : Nat)
    (h2 : 2 ∣ l) (hl : l ≤ 10) : innerProduct a b l = innerProduct b a l := by
  rw [innerProduct_eq ha hb h2 hl, innerProduct_eq hb ha h2 hl]
  congr 1
  have : (∑ m ∈ Finset.Icc (-(l : Int)) l, cf b l m * conj (cf a l m))
      = conj (∑ m ∈ Finset.Icc (-(l : Int)) l, cf a l m * conj (cf b l m)) := by
    rw [map_sum]
    apply Finset.sum_congr rfl
    intro m _
    rw [map_mul, Complex.conj_conj, mul_comm]
  rw [this, Complex.conj_re]; ring

/-- The scalar product of a tensor by itself is its sum of norms if and only if its coefficient of
order 0 is real. -/
theorem C37_self (a : BooData) (ha : a.length = 36) (l : Nat) (h2 : 2 ∣ l) (hl : l ≤ 10) (z : ℂ)
    (hz : coef a l 0 = .ok z) : innerProduct a a l = sumNorm a l ↔ z.im = 0 := by
  have ez : cf a l 0 = z := by
    rw [coef_eq ha h2 hl (by simp)] at hz
    exact Except.ok.inj hz
  rw [innerProduct_eq ha ha h2 hl, sumNorm_eq ha h2 hl, Except.ok.injEq, ez, Complex.re_sum]
  have : ∀ m ∈ Finset.Icc (-(l : Int)) l, (cf a l m * conj (cf a l m)).re
      = Complex.normSq (cf a l m) := by
    intro m _; rw [Complex.mul_conj, Complex.ofReal_re]
  rw [Finset.sum_congr rfl this]
  constructor
  · intro h
    have : z.im * z.im = 0 := by linarith
    simpa using this
  · intro h; rw [h]; ring

/-- The full claim fails: there is a tensor whose scalar product by itself is not its
sum of norms (it is even negative). -/
theorem C37_self_counterexample :
    ∃ a : BooData, a.length = 36 ∧ innerProduct a a 0 = .ok (-1) ∧ sumNorm a 0 = .ok 1 := by
  refine ⟨List.replicate 36 Complex.I, by simp, ?_, ?_⟩
  · rw [innerProduct_eq (by simp) (by simp) (by decide) (by decide)]
    simp [cf, st, slot]; norm_num
  · rw [sumNorm_eq (by simp) (by decide) (by decide)]
    simp [cf, st, slot]

theorem inner_bound (n : Nat) (x y : Nat → ℂ) (x0 y0 : ℂ) (s : ℝ)
    (hs : s = (∑ k ∈ Finset.range n, (x k * conj (y k)).re) * 2 + (x0 * y0).re) :
    s ^ 2 ≤ ((∑ k ∈ Finset.range n, Complex.normSq (x k)) * 2 + Complex.normSq x0)
      * ((∑ k ∈ Finset.range n, Complex.normSq (y k)) * 2 + Complex.normSq y0) := by
  -- all the terms as one sum of products of reals
  let u : Nat × Fin 2 → ℝ := fun p => if p.2 = 0 then (x p.1).re else (x p.1).im
  let v : Nat × Fin 2 → ℝ := fun p => if p.2 = 0 then (y p.1).re else (y p.1).im
  have cs1 : (∑ k ∈ Finset.range n, (x k * conj (y k)).re) ^ 2
      ≤ (∑ k ∈ Finset.range n, Complex.normSq (x k))
        * (∑ k ∈ Finset.range n, Complex.normSq (y k)) := by
    have := Finset.sum_mul_sq_le_sq_mul_sq (Finset.range n ×ˢ Finset.univ) u v
    simp only [Finset.sum_product, Fin.sum_univ_two, u, v] at this
    simp only [if_true, Fin.isValue, one_ne_zero, if_false] at this
    have e1 : ∀ k, (x k * conj (y k)).re = (x k).re * (y k).re + (x k).im * (y k).im := by
      intro k; simp [Complex.mul_re]
    have e2 : ∀ z : ℂ, Complex.normSq z = z.re ^ 2 + z.im ^ 2 := by
      intro z; rw [Complex.normSq_apply]; ring
    simp only [e1, e2]
    exact this
  have cs0 : (x0 * y0).re ^ 2 ≤ Complex.normSq x0 * Complex.normSq y0 := by
    rw [← Complex.normSq_mul, Complex.normSq_apply]
    nlinarith [sq_nonneg (x0 * y0).im]
  set A := ∑ k ∈ Finset.range n, Complex.normSq (x k)
  set B := ∑ k ∈ Finset.range n, Complex.normSq (y k)
  set S := ∑ k ∈ Finset.range n, (x k * conj (y k)).re
  set t := (x0 * y0).re
  set a := Complex.normSq x0
  set b := Complex.normSq y0
  have hA : 0 ≤ A := Finset.sum_nonneg (fun _ _ => Complex.normSq_nonneg _)
  have hB : 0 ≤ B := Finset.sum_nonneg (fun _ _ => Complex.normSq_nonneg _)
  have ha : 0 ≤ a := Complex.normSq_nonneg _
  have hb : 0 ≤ b := Complex.normSq_nonneg _
  have hmid : 2 * S * t ≤ A * b + a * B := by
    have h1 : (S * t) ^ 2 ≤ (A * b) * (a * B) := by
      calc (S * t) ^ 2 = S ^ 2 * t ^ 2 := by ring
        _ ≤ (A * B) * (a * b) := mul_le_mul cs1 cs0 (sq_nonneg _) (mul_nonneg hA hB)
        _ = _ := by ring
    have h2 : (2 * (S * t)) ^ 2 ≤ (A * b + a * B) ^ 2 := by
      nlinarith [sq_nonneg (A * b - a * B)]
    have h3 : 0 ≤ A * b + a * B := add_nonneg (mul_nonneg hA hb) (mul_nonneg ha hB)
    have := abs_le_of_sq_le_sq h2 h3
    linarith [le_abs_self (2 * (S * t))]
  rw [hs]
  nlinarith

/-- Scalar product and norm in the form of the loops. -/
theorem inner_norm_loops {a b : BooData} (ha : a.length = 36) (hb : b.length = 36) {l : Nat}
    (h2 : 2 ∣ l) (hl : l ≤ 10) {s na nb : ℝ} (hs : innerProduct a b l = .ok s)
    (hna : sumNorm a l = .ok na) (hnb : sumNorm b l = .ok nb) : s ^ 2 ≤ na * nb := by
  have nn : ∀ (q : BooData) (n : ℝ), q.length = 36 → sumNorm q l = .ok n →
      n = (∑ k ∈ Finset.range l, Complex.normSq (st q l (k + 1))) * 2 + Complex.normSq (st q l 0) := by
    intro q n hq h
    rw [sumNorm_eq hq h2 hl, sum_symm] at h
    have h' := (Except.ok.inj h).symm
    rw [h', add_comm]
    congr 1
    rw [Finset.sum_mul]
    apply Finset.sum_congr rfl
    intro k _
    unfold cf
    rw [if_pos (by omega), if_neg (by omega),
      show ((k : Int) + 1).toNat = k + 1 by omega, show (-(-((k : Int) + 1))).toNat = k + 1 by omega]
    rw [Complex.normSq_mul, Complex.normSq_conj, map_pow]
    simp; ring
  rw [nn a na ha hna, nn b nb hb hnb]
  apply inner_bound
  unfold innerProduct at hs
  rw [foldlM_add _ (fun m => (st a l m * conj (st b l m)).re) _ _ ?_] at hs
  · have ea := getR_slot (m := 0) ha h2 hl (by omega)
    have eb := getR_slot (m := 0) hb h2 hl (by omega)
    simp only [slot, Nat.zero_add] at ea eb
    rw [ea, eb, sum_range'] at hs
    simp only [ok_bind, pure_eq_ok, zero_add] at hs
    exact (Except.ok.inj hs).symm
  · intro s m hm
    rw [List.mem_range'_1] at hm
    rw [coef_eq ha h2 hl (by omega), coef_eq hb h2 hl (by omega)]
    simp [cf]

/-- `normedProduct` is between -1 and 1 for all tensors that are not null at this degree. -/
theorem C37_normed (a b : BooData) (ha : a.length = 36) (hb : b.length = 36) (l : Nat)
    (h2 : 2 ∣ l) (hl : l ≤ 10) (na : sumNorm a l ≠ .ok 0) (nb : sumNorm b l ≠ .ok 0) :
    ∃ x, normedProduct a b l = .ok x ∧ |x| ≤ 1 := by
  have ea := sumNorm_eq ha h2 hl
  have eb := sumNorm_eq hb h2 hl
  have ei := innerProduct_eq ha hb h2 hl
  have hbound := inner_norm_loops ha hb h2 hl ei ea eb
  unfold normedProduct
  rw [ei, ea, eb]
  refine ⟨_, rfl, ?_⟩
  rw [ea] at na
  rw [eb] at nb
  set s := (∑ m ∈ Finset.Icc (-(l : Int)) l, cf a l m * conj (cf b l m)).re
      - 2 * (cf a l 0).im * (cf b l 0).im
  set x := ∑ m ∈ Finset.Icc (-(l : Int)) l, Complex.normSq (cf a l m)
  set y := ∑ m ∈ Finset.Icc (-(l : Int)) l, Complex.normSq (cf b l m)
  have hx : 0 ≤ x := Finset.sum_nonneg (fun _ _ => Complex.normSq_nonneg _)
  have hy : 0 ≤ y := Finset.sum_nonneg (fun _ _ => Complex.normSq_nonneg _)
  have hx' : x ≠ 0 := fun h => na (by rw [h])
  have hy' : y ≠ 0 := fun h => nb (by rw [h])
  have hxy : 0 < x * y := mul_pos (lt_of_le_of_ne hx hx'.symm) (lt_of_le_of_ne hy hy'.symm)
  rw [abs_div, abs_of_nonneg (Real.sqrt_nonneg _), div_le_one (Real.sqrt_pos.2 hxy)]
  exact Real.abs_le_sqrt hbound

/-- The normed product of a tensor by itself is 1 when its coefficient of order 0 is real. -/
theorem C37_normed_self_partial (a : BooData) (ha : a.length = 36) (l : Nat) (h2 : 2 ∣ l)
    (hl : l ≤ 10) (na : sumNorm a l ≠ .ok 0) (z : ℂ) (hz : coef a l 0 = .ok z) (h0 : z.im = 0) :
    normedProduct a a l = .ok 1 := by
  have e := (C37_self a ha l h2 hl z hz).2 h0
  have ea := sumNorm_eq ha h2 hl
  unfold normedProduct
  rw [e, ea]
  rw [ea] at na
  set x := ∑ m ∈ Finset.Icc (-(l : Int)) l, Complex.normSq (cf a l m)
  have hx : 0 ≤ x := Finset.sum_nonneg (fun _ _ => Complex.normSq_nonneg _)
  have hx' : x ≠ 0 := fun h => na (by rw [h])
  simp only [ok_bind, pure_eq_ok]
  rw [Real.sqrt_mul_self hx, div_self hx']

/-- `getQl` is non negative, its square is `4π/(2l+1)` times the sum of norms, and it is null only
for a null tensor. -/
theorem C37_Ql (q : BooData) (hq : q.length = 36) (l : Nat) (h2 : 2 ∣ l) (hl : l ≤ 10) :
    ∃ Q N, getQl q l = .ok Q ∧ sumNorm q l = .ok N ∧ 0 ≤ Q ∧ (2 * l + 1) * Q ^ 2 = 4 * Real.pi * N ∧
      (Q = 0 ↔ N = 0) := by
  have e := sumNorm_eq hq h2 hl
  unfold getQl
  rw [e]
  refine ⟨_, _, rfl, rfl, Real.sqrt_nonneg _, ?_, ?_⟩
  · set N := ∑ m ∈ Finset.Icc (-(l : Int)) l, Complex.normSq (cf q l m)
    have hN : 0 ≤ N := Finset.sum_nonneg (fun _ _ => Complex.normSq_nonneg _)
    rw [Real.sq_sqrt]
    · have : (2 * (l : ℝ) + 1) ≠ 0 := by positivity
      field_simp
    · have := Real.pi_pos
      positivity
  · set N := ∑ m ∈ Finset.Icc (-(l : Int)) l, Complex.normSq (cf q l m)
    have hN : 0 ≤ N := Finset.sum_nonneg (fun _ _ => Complex.normSq_nonneg _)
    have hpi := Real.pi_pos
    have hl' : (0 : ℝ) < 2 * l + 1 := by positivity
    constructor
    · intro h
      rw [Real.sqrt_eq_zero (by positivity), div_eq_zero_iff] at h
      rcases h with h | h
      · rcases mul_eq_zero.1 h with h | h
        · exfalso; linarith
        · exact h
      · exfalso; linarith
    · intro h; rw [h]; simp

example : ∃ x, normedProduct (List.replicate 36 1) (List.replicate 36 Complex.I) 6 = .ok x ∧ |x| ≤ 1 := by
  have h : ∀ z : ℂ, z ≠ 0 → sumNorm (List.replicate 36 z) 6 ≠ .ok 0 := by
    intro z hz h
    rw [sumNorm_eq (by simp) (by decide) (by decide), Except.ok.injEq,
      Finset.sum_eq_zero_iff_of_nonneg (fun _ _ => Complex.normSq_nonneg _)] at h
    have := h 0 (by simp)
    rw [Complex.normSq_eq_zero] at this
    exact hz (by simpa [cf, st, slot] using this)
  exact C37_normed _ _ (by simp) (by simp) 6 (by decide) (by decide) (h _ one_ne_zero)
    (h _ Complex.I_ne_zero)

end Boo
end Colloids
