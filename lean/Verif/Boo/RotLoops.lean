import Verif.Boo.RotLemmas
import Verif.Recon.GrowLemmas
import Mathlib.Data.Nat.Choose.Cast

/-! # The loops of the rotations of `BooData` -/

namespace Colloids
namespace Boo
open ComplexConjugate Finset

theorem list_sum_range {M : Type} [AddCommMonoid M] (g : Nat → M) (n : Nat) :
    ((List.range n).map g).sum = ∑ k ∈ range n, g k := by
  rw [← List.sum_toFinset _ List.nodup_range, List.toFinset_range]

theorem sum_intRange {M : Type} [AddCommMonoid M] (g : Int → M) {N r p : Nat} (hr : r ≤ N) :
    ((intRange (max 0 ((p : Int) - r)) (min (p : Int) (N - r))).map g).sum
      = ∑ k ∈ (range (p + 1)).filter (fun k => p ≤ r + k ∧ r + k ≤ N), g (k : Int) := by
  unfold intRange
  rw [List.map_map, list_sum_range]
  apply sum_nbij' (fun i => p - r + i) (fun k => k - (p - r))
  · intro i hi
    rw [mem_range] at hi
    rw [mem_filter, mem_range]
    omega
  · intro k hk
    rw [mem_filter, mem_range] at hk
    rw [mem_range]
    omega
  · intro i hi; omega
  · intro k hk
    rw [mem_filter, mem_range] at hk
    omega
  · intro i hi
    simp only [Function.comp]
    congr 1
    omega

theorem getI_map {α : Type} (f : Nat → α) {n : Nat} {i : Int} (h0 : 0 ≤ i) (hn : i < n) :
    getI ((List.range n).map f) i = .ok (f i.toNat) := by
  unfold getI
  rw [if_pos h0]
  exact getR_tab (by omega)

theorem factorialI_ok {n : Int} (h : 0 ≤ n) : factorialI n = .ok n.toNat.factorial := if_pos h

theorem getPrefactor_ok {l : Nat} (h2 : 2 ∣ l) (hl : l ≤ 10) {m1 m2 : Int} (h1 : m1.natAbs ≤ l)
    (hm : m2.natAbs ≤ l) :
    getPrefactor l m1 m2 = .ok √(((l + m2).toNat.factorial * (l - m2).toNat.factorial
      * ((l + m1).toNat.factorial * (l - m1).toNat.factorial) : Nat) : ℝ) := by
  obtain ⟨h, rfl⟩ := h2
  unfold getPrefactor prefactor
  have e : 2 * h / 2 = h := by omega
  rw [e]
  have := getR_tab (n := 6 * 11 * 11) (i := h + 6 * m1.natAbs + 66 * m2.natAbs)
    (f := fun (i : Nat) =>
      if i / 6 % 11 ≤ 2 * (i % 6) ∧ i / 66 ≤ 2 * (i % 6) then
        some √(((2 * (i % 6) + i / 66).factorial * (2 * (i % 6) - i / 66).factorial
          * (2 * (i % 6) + i / 6 % 11).factorial * (2 * (i % 6) - i / 6 % 11).factorial : Nat) : ℝ)
      else none) (by omega)
  unfold tab at this
  rw [this, ok_bind]
  have e1 : (h + 6 * m1.natAbs + 66 * m2.natAbs) % 6 = h := by omega
  have e2 : (h + 6 * m1.natAbs + 66 * m2.natAbs) / 6 % 11 = m1.natAbs := by omega
  have e3 : (h + 6 * m1.natAbs + 66 * m2.natAbs) / 66 = m2.natAbs := by omega
  rw [e1, e2, e3, if_pos ⟨h1, hm⟩]
  have key : ∀ m : Int, m.natAbs ≤ 2 * h →
      (2 * h + m.natAbs).factorial * (2 * h - m.natAbs).factorial
        = (((2 * h : Nat) : Int) + m).toNat.factorial * (((2 * h : Nat) : Int) - m).toNat.factorial := by
    intro m hm
    rcases le_total 0 m with h0 | h0
    · rw [show (((2 * h : Nat) : Int) + m).toNat = 2 * h + m.natAbs by omega,
        show (((2 * h : Nat) : Int) - m).toNat = 2 * h - m.natAbs by omega]
    · rw [show (((2 * h : Nat) : Int) + m).toNat = 2 * h - m.natAbs by omega,
        show (((2 * h : Nat) : Int) - m).toNat = 2 * h + m.natAbs by omega, Nat.mul_comm]
  rw [Nat.mul_assoc, key m1 h1, key m2 hm]
  rfl

/-- The value of an element of the matrix. -/
theorem smallD_ok (a b g : ℝ) {l : Nat} (h2 : 2 ∣ l) (hl : l ≤ 10) {r p : Nat} (hr : r ≤ 2 * l)
    (hp : p ≤ 2 * l) :
    (WignerD.mk' a b g).smallD l ((r : Int) - l) ((p : Int) - l)
      = .ok (dMat (Real.cos (b / 2)) (Real.sin (b / 2)) (2 * l) r p) := by
  unfold WignerD.smallD
  have e1 : ((p : Int) - l) - ((r : Int) - l) = (p : Int) - r := by omega
  have e2 : (l : Int) + ((p : Int) - l) = p := by omega
  have e3 : (l : Int) - ((r : Int) - l) = ((2 * l : Nat) : Int) - r := by omega
  rw [e1, e2, e3]
  set c := Real.cos (b / 2) with hc
  set s := Real.sin (b / 2) with hs
  rw [foldlM_add (g := fun (k : Int) =>
    (if (((r : Int) - l) - ((p : Int) - l) + k).tmod 2 ≠ 0 then (-1 : ℝ) else 1)
      * c ^ (2 * (l : Int) + ((p : Int) - l) - ((r : Int) - l) - 2 * k).toNat
      * s ^ (((r : Int) - l) - ((p : Int) - l) + 2 * k).toNat
      / (((p : Int) - k).toNat.factorial * k.toNat.factorial
        * (((r : Int) - l) - ((p : Int) - l) + k).toNat.factorial
        * (((2 * l : Nat) : Int) - r - k).toNat.factorial))]
  · rw [ok_bind]
    have e4 : (l : Int).toNat = l := by omega
    rw [e4, getPrefactor_ok h2 hl (by omega) (by omega), ok_bind, zero_add, sum_intRange _ hr]
    simp only [pure_eq_ok]
    congr 1
    have e5 : ((l : Int) + ((r : Int) - l)).toNat = r := by omega
    have e6 : ((l : Int) - ((r : Int) - l)).toNat = 2 * l - r := by omega
    have e7 : ((l : Int) + ((p : Int) - l)).toNat = p := by omega
    have e8 : ((l : Int) - ((p : Int) - l)).toNat = 2 * l - p := by omega
    rw [e5, e6, e7, e8]
    unfold dMat
    have hw : √(((r.factorial * (2 * l - r).factorial * (p.factorial * (2 * l - p).factorial) : Nat)) : ℝ)
        = (gwt (2 * l) r)⁻¹ * (gwt (2 * l) p)⁻¹ := by
      unfold gwt
      rw [inv_inv, inv_inv, ← Real.sqrt_mul (Nat.cast_nonneg _)]
      push_cast
      rfl
    have hm : mCoef c s (2 * l) r p = ((p.factorial * (2 * l - p).factorial : Nat) : ℝ)
        * ∑ k ∈ (range (p + 1)).filter (fun k => p ≤ r + k ∧ r + k ≤ 2 * l),
        (if (((r : Int) - l) - ((p : Int) - l) + (k : Int)).tmod 2 ≠ 0 then (-1 : ℝ) else 1)
          * c ^ (2 * (l : Int) + ((p : Int) - l) - ((r : Int) - l) - 2 * (k : Int)).toNat
          * s ^ (((r : Int) - l) - ((p : Int) - l) + 2 * (k : Int)).toNat
          / (((p : Int) - (k : Int)).toNat.factorial * (k : Int).toNat.factorial
            * (((r : Int) - l) - ((p : Int) - l) + (k : Int)).toNat.factorial
            * (((2 * l : Nat) : Int) - r - (k : Int)).toNat.factorial) := by
      unfold mCoef
      rw [mul_sum]
      apply sum_congr rfl
      intro k hk
      rw [mem_filter, mem_range] at hk
      unfold mTerm
      have f1 : ((p : Int) - (k : Int)).toNat = p - k := by omega
      have f2 : (k : Int).toNat = k := by omega
      have f3 : (((r : Int) - l) - ((p : Int) - l) + (k : Int)).toNat = r + k - p := by omega
      have f4 : (((2 * l : Nat) : Int) - r - (k : Int)).toNat = 2 * l - p - (r + k - p) := by omega
      have f5 : c ^ (2 * (l : Int) + ((p : Int) - l) - ((r : Int) - l) - 2 * (k : Int)).toNat
          = c ^ (p - k) * c ^ (2 * l - p - (r + k - p)) := by rw [← pow_add]; congr 1; omega
      have f6 : s ^ (((r : Int) - l) - ((p : Int) - l) + 2 * (k : Int)).toNat
          = s ^ k * s ^ (r + k - p) := by rw [← pow_add]; congr 1; omega
      have f7 : (if (((r : Int) - l) - ((p : Int) - l) + (k : Int)).tmod 2 ≠ 0 then (-1 : ℝ) else 1)
          = (-1) ^ (r + k - p) := by
        have f8 : (((r : Int) - l) - ((p : Int) - l) + (k : Int)) = ((r + k - p : Nat) : Int) := by omega
        rw [f8]
        rcases Nat.even_or_odd (r + k - p) with h | h
        · rw [h.neg_one_pow, if_neg]
          obtain ⟨j, hj⟩ := h
          rw [hj, not_not, Int.tmod_eq_emod_of_nonneg (by omega)]; omega
        · rw [h.neg_one_pow, if_pos]
          obtain ⟨j, hj⟩ := h
          rw [hj, Int.tmod_eq_emod_of_nonneg (by omega)]; omega
      rw [f1, f2, f3, f4, f5, f6, f7, Nat.cast_choose ℝ (by omega : k ≤ p),
        Nat.cast_choose ℝ (by omega : r + k - p ≤ 2 * l - p), neg_pow s]
      have n1 : ((p - k).factorial : ℝ) ≠ 0 := by exact_mod_cast (p - k).factorial_ne_zero
      have n2 : ((k).factorial : ℝ) ≠ 0 := by exact_mod_cast (k).factorial_ne_zero
      have n3 : ((r + k - p).factorial : ℝ) ≠ 0 := by exact_mod_cast (r + k - p).factorial_ne_zero
      have n4 : ((2 * l - p - (r + k - p)).factorial : ℝ) ≠ 0 := by
        exact_mod_cast (2 * l - p - (r + k - p)).factorial_ne_zero
      push_cast
      field_simp
    rw [hw, hm]
    have w1 := (gwt_pos (2 * l) r).ne'
    have w2 := (gwt_pos (2 * l) p).ne'
    have w3 := gwt_sq (2 * l) p
    have n5 : ((p.factorial * (2 * l - p).factorial : Nat) : ℝ) ≠ 0 := by
      exact_mod_cast (Nat.mul_pos p.factorial_pos (2 * l - p).factorial_pos).ne'
    have w4 : ((p.factorial * (2 * l - p).factorial : Nat) : ℝ) * gwt (2 * l) p = (gwt (2 * l) p)⁻¹ := by
      have : ((p.factorial * (2 * l - p).factorial : Nat) : ℝ) * (gwt (2 * l) p * gwt (2 * l) p) = 1 := by
        rw [w3, mul_inv_cancel₀ n5]
      rw [← mul_assoc] at this
      exact eq_inv_of_mul_eq_one_left this
    rw [div_eq_mul_inv, mul_right_comm _ _ (gwt (2 * l) p), w4]
    ring
  · intro sum k hk
    unfold intRange at hk
    rw [List.mem_map] at hk
    obtain ⟨i, hi, rfl⟩ := hk
    rw [List.mem_range] at hi
    unfold WignerD.mk'
    simp only
    rw [getI_map _ (by omega) (by omega), ok_bind, getI_map _ (by omega) (by omega), ok_bind,
      factorialI_ok (by omega), ok_bind, factorialI_ok (by omega), ok_bind, factorialI_ok (by omega),
      ok_bind, factorialI_ok (by omega), ok_bind]
    rfl

theorem at_ok (a b g : ℝ) {l : Nat} (h2 : 2 ∣ l) (hl : l ≤ 10) {m2 : Nat} (hm : m2 ≤ l) {p : Nat}
    (hp : p ≤ 2 * l) :
    (WignerD.mk' a b g).at l m2 ((p : Int) - l)
      = .ok (Complex.exp (-a * Complex.I) ^ m2
        * (dMat (Real.cos (b / 2)) (Real.sin (b / 2)) (2 * l) (m2 + l) p : ℂ)
        * Complex.exp (-g * Complex.I) ^ ((p : Int) - l)) := by
  unfold WignerD.at
  have h1 := smallD_ok a b g h2 hl (r := m2 + l) (by omega) hp
  rw [show (((m2 + l : Nat) : Int) - l) = (m2 : Int) by omega] at h1
  have h3 : getR (WignerD.mk' a b g).ea m2 = .ok (Complex.exp (-a * Complex.I) ^ m2) :=
    getR_tab (n := 11) (f := fun (m : Nat) => Complex.exp (-a * Complex.I) ^ m) (by omega)
  have h4 : getI (WignerD.mk' a b g).eg (10 + ((p : Int) - l))
      = .ok (Complex.exp (-g * Complex.I) ^ ((p : Int) - l)) := by
    have := getI_map (fun (i : Nat) => Complex.exp (-g * Complex.I) ^ ((i : Int) - 10))
      (n := 21) (i := 10 + ((p : Int) - l)) (by omega) (by omega)
    rw [show (((10 + ((p : Int) - l)).toNat : Int)) - 10 = (p : Int) - l by omega] at this
    exact this
  rw [h3, ok_bind, h1, ok_bind, h4, ok_bind]
  rfl

/-- A loop whose steps add to the elements of a table. -/
theorem foldlM_addTo {β : Type} {M : Type} [AddCommMonoid M] {n : Nat} (F : List M → β → R (List M))
    (g : β → Nat → M) (xs : List β) (f : Nat → M)
    (h : ∀ f : Nat → M, ∀ x ∈ xs, F (tab n f) x = .ok (tab n (fun i => f i + g x i))) :
    xs.foldlM F (tab n f) = .ok (tab n (fun i => f i + (xs.map (fun x => g x i)).sum)) := by
  induction xs generalizing f with
  | nil => simp [pure_eq_ok]
  | cons x xs ih =>
    rw [List.foldlM_cons, h f x (by simp), ok_bind, ih _ (fun f y hy => h f y (by simp [hy]))]
    simp [add_assoc]

theorem st_tab {f : Nat → ℂ} {l m : Nat} (h : slot l m < 36) : st (tab 36 f) l m = f (slot l m) := by
  unfold st tab
  simp [h]

/-- What a loop of rotation computes. -/
theorem applyD_ok (sign : Nat → Nat → ℂ) (a b g : ℝ) {q : BooData} (hq : q.length = 36) :
    ∃ res, applyD sign (WignerD.mk' a b g) q = .ok res ∧ res.length = 36 ∧
      ∀ l m : Nat, 2 ∣ l → l ≤ 10 → m ≤ l →
        st res l m = sign l m * rotC a b g l (cf q l) m := by
  refine ⟨tab 36 (fun i => 0 + ((List.range 6).map (fun (h : Nat) => ∑ m2 ∈ range (2 * h + 1),
    if i = slot (2 * h) m2 then sign (2 * h) m2 * rotC a b g (2 * h) (cf q (2 * h)) m2 else 0)).sum),
    ?_, ?_, ?_⟩
  · unfold applyD
    have hb : blank = tab 36 (fun _ => (0 : ℂ)) := by
      unfold blank tab; simp [List.map_const']
    rw [hb]
    refine foldlM_addTo _ (fun h i => ∑ m2 ∈ range (2 * h + 1),
      if i = slot (2 * h) m2 then sign (2 * h) m2 * rotC a b g (2 * h) (cf q (2 * h)) m2 else 0) _ _ ?_
    intro f h hh
    rw [List.mem_range] at hh
    have := foldlM_addTo (n := 36) (M := ℂ) (fun (res : BooData) (m2 : Nat) =>
      (mRange (2 * h)).foldlM (fun (res : BooData) (m1 : Int) => do
        let d ← (WignerD.mk' a b g).at (2 * h) m2 m1
        let z ← coef q (2 * h) m1
        modifyR res (m2 + 2 * h * (2 * h) / 4) (· + sign (2 * h) m2 * d * z)) res)
      (fun m2 i => if i = slot (2 * h) m2 then
        sign (2 * h) m2 * rotC a b g (2 * h) (cf q (2 * h)) m2 else 0) (List.range (2 * h + 1)) f ?_
    · simp only [list_sum_range] at this
      exact this
    · intro f m2 hm2
      rw [List.mem_range] at hm2
      have h3 := foldlM_addTo (n := 36) (M := ℂ) (fun (res : BooData) (m1 : Int) => do
          let d ← (WignerD.mk' a b g).at (2 * h) m2 m1
          let z ← coef q (2 * h) m1
          modifyR res (m2 + 2 * h * (2 * h) / 4) (· + sign (2 * h) m2 * d * z))
        (fun m1 i => if i = slot (2 * h) m2 then
          sign (2 * h) m2 * (Complex.exp (-a * Complex.I) ^ m2
            * (dMat (Real.cos (b / 2)) (Real.sin (b / 2)) (2 * (2 * h)) (m2 + 2 * h)
              (m1 + (2 * h : Nat)).toNat : ℂ)
            * Complex.exp (-g * Complex.I) ^ m1) * cf q (2 * h) m1 else 0) (mRange (2 * h)) f ?_
      · rw [h3]
        congr 1
        apply tab_congr
        intro i _
        congr 1
        unfold mRange
        rw [List.map_map, list_sum_range]
        by_cases hi : i = slot (2 * h) m2
        · simp only [Function.comp, if_pos hi]
          unfold rotC
          rw [mul_sum, mul_sum]
          apply sum_congr rfl
          intro p _
          rw [show (((p : Int) - (2 * h : Nat)) + (2 * h : Nat)).toNat = p by omega,
            show (((m2 : Nat) : Int) + (2 * h : Nat)).toNat = m2 + 2 * h by omega, zpow_natCast]
          ring
        · simp [if_neg hi]
      · intro f m1 hm1
        unfold mRange at hm1
        rw [List.mem_map] at hm1
        obtain ⟨p, hp, rfl⟩ := hm1
        rw [List.mem_range] at hp
        rw [at_ok a b g ⟨h, rfl⟩ (by omega) (by omega) (by omega), ok_bind,
          coef_eq hq ⟨h, rfl⟩ (by omega) (by omega), ok_bind]
        have hs := slot_lt (l := 2 * h) (m := m2) ⟨h, rfl⟩ (by omega) (by omega)
        rw [Recon.modifyR_tab _ (show m2 + 2 * h * (2 * h) / 4 < 36 from hs)]
        congr 1
        apply tab_congr
        intro i _
        rw [show (((p : Int) - (2 * h : Nat)) + (2 * h : Nat)).toNat = p by omega]
        show (if i = slot (2 * h) m2 then _ else _) = _
        split <;> simp
  · exact tab_length _ _
  · intro l m h2 hl hm
    rw [st_tab (slot_lt h2 hl hm), zero_add, list_sum_range]
    obtain ⟨h, rfl⟩ := h2
    rw [sum_eq_single h]
    · rw [sum_eq_single m]
      · rw [if_pos rfl]
      · intro m' hm' hne
        rw [mem_range] at hm'
        rw [if_neg]
        intro e
        exact hne (slot_inj ⟨h, rfl⟩ ⟨h, rfl⟩ hm (by omega) e).2.symm
      · intro hn
        rw [mem_range] at hn
        omega
    · intro h' _ hne
      apply sum_eq_zero
      intro m' hm'
      rw [mem_range] at hm'
      rw [if_neg]
      intro e
      have := (slot_inj ⟨h, rfl⟩ ⟨h', rfl⟩ hm (by omega) e).1
      omega
    · intro hn
      rw [mem_range] at hn
      omega

end Boo
end Colloids
