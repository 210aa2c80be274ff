import Mathlib.Tactic.FieldSimp
import Mathlib.NumberTheory.LegendreSymbol.AddCharacter
import Mathlib.Analysis.Normed.Ring.Finite
import Mathlib.Analysis.RCLike.Basic
import Verif.CommonLemmas
import Verif.Py.PhaseCorModel
import Verif.Py.TrackClusterProps

/-!
# Displacements of `python/colloids/phaseCorrelation.py`
-/

namespace Colloids
namespace Py
namespace PhaseCor

open Colloids.Py.Track ComplexConjugate

section Complex

variable {m n : Nat} [NeZero m] [NeZero n]

/-- the spectrum of an image that has moved -/
theorem fft2_shift (a : ZMod m → ZMod n → ℂ) (s : ZMod m) (t : ZMod n) (k : ZMod m) (l : ZMod n) :
    fft2 (fun x y => a (x + s) (y + t)) k l =
      ZMod.stdAddChar (s * k) * ZMod.stdAddChar (t * l) * fft2 a k l := by
  unfold fft2
  rw [Finset.mul_sum]
  refine Fintype.sum_equiv (Equiv.addRight s) _ _ fun x => ?_
  rw [Finset.mul_sum]
  refine Fintype.sum_equiv (Equiv.addRight t) _ _ fun y => ?_
  simp only [Equiv.coe_addRight]
  have e1 : (ZMod.stdAddChar (-(x * k)) : ℂ) = ZMod.stdAddChar (s * k) * ZMod.stdAddChar (-((x + s) * k)) := by
    rw [← AddChar.map_add_eq_mul]
    congr 1
    ring
  have e2 : (ZMod.stdAddChar (-(y * l)) : ℂ) = ZMod.stdAddChar (t * l) * ZMod.stdAddChar (-((y + t) * l)) := by
    rw [← AddChar.map_add_eq_mul]
    congr 1
    ring
  rw [e1, e2]
  ring

theorem sum_char (N : Nat) [NeZero N] (b : ZMod N) :
    ∑ k : ZMod N, (ZMod.stdAddChar (k * b) : ℂ) = if b = 0 then (N : ℂ) else 0 := by
  rw [AddChar.sum_mulShift b (ZMod.isPrimitive_stdAddChar N), ZMod.card]
  split <;> simp

/-- **C198** If no coefficient of the spectrum is zero, the phase correlation of an image and of the same image moved on a
torus is 1 at the displacement and 0 elsewhere. -/
theorem C198_peak (a b : ZMod m → ZMod n → ℂ) (s : ZMod m) (t : ZMod n) (hb : ∀ x y, b x y = a (x + s) (y + t))
    (h0 : ∀ k l, fft2 a k l ≠ 0) :
    phaseCorrel a b = some fun x y => if x = s ∧ y = t then 1 else 0 := by
  have hb : b = fun x y => a (x + s) (y + t) := funext fun x => funext fun y => hb x y
  have nrm : ∀ (N : Nat) [NeZero N] (x : ZMod N), ‖(ZMod.stdAddChar x : ℂ)‖ = 1 := fun N _ x => AddChar.norm_apply _ _
  have hne : ∀ (N : Nat) [NeZero N] (x : ZMod N), (ZMod.stdAddChar x : ℂ) ≠ 0 := fun N _ x e => by
    have := nrm N x
    rw [e, norm_zero] at this
    norm_num at this
  have hR : ∀ k l, fft2 a k l * conj (fft2 b k l) =
      ZMod.stdAddChar (-(s * k)) * ZMod.stdAddChar (-(t * l)) * ((‖fft2 a k l‖ ^ 2 : ℝ) : ℂ) := by
    intro k l
    rw [hb, fft2_shift, map_mul, map_mul, AddChar.map_neg_eq_conj, AddChar.map_neg_eq_conj]
    have : fft2 a k l * conj (fft2 a k l) = ((‖fft2 a k l‖ ^ 2 : ℝ) : ℂ) := by
      rw [Complex.mul_conj, Complex.normSq_eq_norm_sq]
    rw [← this]
    ring
  unfold phaseCorrel
  dsimp only
  rw [if_neg]
  · congr 1
    funext x y
    have hval : ∀ k l, fft2 a k l * conj (fft2 b k l) / ((‖fft2 a k l * conj (fft2 b k l)‖ : ℝ) : ℂ) =
        ZMod.stdAddChar (-(s * k)) * ZMod.stdAddChar (-(t * l)) := by
      intro k l
      rw [hR, norm_mul, norm_mul, nrm, nrm, one_mul, one_mul]
      have hp : ‖fft2 a k l‖ ^ 2 ≠ 0 := pow_ne_zero 2 (norm_ne_zero_iff.2 (h0 k l))
      rw [Complex.norm_real, Real.norm_of_nonneg (by positivity)]
      have hp' : ((‖fft2 a k l‖ ^ 2 : ℝ) : ℂ) ≠ 0 := by exact_mod_cast hp
      rw [mul_div_assoc, div_self hp', mul_one]
    unfold ifft2
    have hsum : (∑ k : ZMod m, ∑ l : ZMod n, (ZMod.stdAddChar (k * x) : ℂ) * ZMod.stdAddChar (l * y) *
        (fft2 a k l * conj (fft2 b k l) / ((‖fft2 a k l * conj (fft2 b k l)‖ : ℝ) : ℂ))) =
        (∑ k : ZMod m, (ZMod.stdAddChar (k * (x - s)) : ℂ)) * ∑ l : ZMod n, (ZMod.stdAddChar (l * (y - t)) : ℂ) := by
      rw [Finset.sum_mul]
      refine Finset.sum_congr rfl fun k _ => ?_
      rw [Finset.mul_sum]
      refine Finset.sum_congr rfl fun l _ => ?_
      rw [hval]
      have e1 : (ZMod.stdAddChar (k * (x - s)) : ℂ) = ZMod.stdAddChar (k * x) * ZMod.stdAddChar (-(s * k)) := by
        rw [← AddChar.map_add_eq_mul]
        congr 1
        ring
      have e2 : (ZMod.stdAddChar (l * (y - t)) : ℂ) = ZMod.stdAddChar (l * y) * ZMod.stdAddChar (-(t * l)) := by
        rw [← AddChar.map_add_eq_mul]
        congr 1
        ring
      rw [e1, e2]
      ring
    rw [hsum, sum_char, sum_char]
    have hm : (m : ℂ) ≠ 0 := by exact_mod_cast NeZero.ne m
    have hn : (n : ℂ) ≠ 0 := by exact_mod_cast NeZero.ne n
    simp only [sub_eq_zero]
    by_cases hx : x = s
    · by_cases hy : y = t
      · rw [if_pos hx, if_pos hy, if_pos ⟨hx, hy⟩]
        field_simp
      · have hxy : ¬ (x = s ∧ y = t) := fun h => hy h.2
        rw [if_neg hy, if_neg hxy]
        simp
    · have hxy : ¬ (x = s ∧ y = t) := fun h => hx h.1
      rw [if_neg hx, if_neg hxy]
      simp
  · rintro ⟨k, l, h⟩
    rw [hR] at h
    have hp : ((‖fft2 a k l‖ ^ 2 : ℝ) : ℂ) ≠ 0 := by
      exact_mod_cast pow_ne_zero 2 (norm_ne_zero_iff.2 (h0 k l))
    exact mul_ne_zero (mul_ne_zero (hne m _) (hne n _)) hp h

/-- **C198** Counterexample: stripes.  If the lines of an image are all the same, the phase correlation with any other one is not
a number anywhere, and the displacement found is zero. -/
theorem C198_stripes_counterexample (hm : 2 ≤ m) (f : ZMod n → ℂ) (b : ZMod m → ZMod n → ℂ) :
    phaseCorrel (fun _ y => f y) b = none ∧
      getDispl (F := ℝ) m n ((phaseCorrel (fun _ y => f y) b).map fun r i j => ‖r i j‖) = (0, 0) := by
  have h1 : (1 : ZMod m) ≠ 0 := by
    haveI : Fact (1 < m) := ⟨by omega⟩
    exact one_ne_zero
  have h : phaseCorrel (fun _ y => f y) b = none := by
    unfold phaseCorrel
    dsimp only
    rw [if_pos]
    refine ⟨1, 0, ?_⟩
    have : fft2 (fun (_ : ZMod m) y => f y) 1 0 = 0 := by
      unfold fft2
      have hs := sum_char m (-1)
      rw [if_neg (neg_ne_zero.2 h1)] at hs
      have : ∀ x : ZMod m, (∑ y : ZMod n, (ZMod.stdAddChar (-(x * 1)) : ℂ) * ZMod.stdAddChar (-(y * 0)) * f y) =
          ZMod.stdAddChar (x * -1) * ∑ y : ZMod n, (ZMod.stdAddChar (-(y * 0)) : ℂ) * f y := by
        intro x
        rw [Finset.mul_sum]
        refine Finset.sum_congr rfl fun y _ => ?_
        rw [mul_neg]
        ring
      simp only [this]
      rw [← Finset.sum_mul, hs, zero_mul]
    rw [this, zero_mul]
  refine ⟨h, ?_⟩
  rw [h]
  simp [getDispl, wrap]

end Complex

section Displ

variable {F : Type} [Field F] [LinearOrder F]

theorem mem_pixels (m n : Nat) (p : Nat × Nat) : p ∈ pixels m n ↔ p.1 < m ∧ p.2 < n := by
  unfold pixels
  simp only [List.mem_flatMap, List.mem_range, List.mem_map]
  constructor
  · rintro ⟨i, hi, j, hj, rfl⟩
    exact ⟨hi, hj⟩
  · rintro ⟨h1, h2⟩
    exact ⟨p.1, h1, p.2, h2, rfl⟩

/-- where the only maximum is -/
theorem argmax2_unique [IsStrictOrderedRing F] {m n : Nat} (c : Nat → Nat → F) (i j : Nat) (hi : i < m) (hj : j < n)
    (h : ∀ u v, u < m → v < n → (u, v) ≠ (i, j) → c u v < c i j) : argmax2 m n c = (i, j) := by
  obtain ⟨h1, h2⟩ := argmaxBy_spec (fun p : Nat × Nat => c p.1 p.2) (0, 0) (pixels m n)
  have hin : argmax2 m n c ∈ pixels m n := by
    rcases List.mem_cons.1 h1 with e | h1
    · unfold argmax2
      rw [e]
      exact (mem_pixels m n _).2 ⟨by dsimp; omega, by dsimp; omega⟩
    · exact h1
  have hin := (mem_pixels m n _).1 hin
  by_contra hne
  have h3 := h _ _ hin.1 hin.2 hne
  have h4 := h2 (i, j) (List.mem_cons_of_mem _ ((mem_pixels m n _).2 ⟨hi, hj⟩))
  exact absurd h3 (not_lt.2 h4)

theorem unshift_lt (n i : Nat) (hn : 0 < n) : unshift n i < n := Nat.mod_lt _ hn

/-- the index that comes from `i` -/
def shiftIdx (n i : Nat) : Nat := (i + n / 2) % n

theorem unshift_shift (n i : Nat) (hi : i < n) : unshift n (shiftIdx n i) = i := by
  unfold unshift shiftIdx
  rw [Nat.mod_add_mod]
  have : i + n / 2 + (n - n / 2) = i + n := by omega
  rw [this, Nat.add_mod_right, Nat.mod_eq_of_lt hi]

theorem shift_unshift (n i : Nat) (hi : i < n) : shiftIdx n (unshift n i) = i := by
  unfold unshift shiftIdx
  rw [Nat.mod_add_mod]
  have : i + (n - n / 2) + n / 2 = i + n := by omega
  rw [this, Nat.add_mod_right, Nat.mod_eq_of_lt hi]

/-- the coordinate that `getDisplConfidence` gives of index `i` -/
theorem shift_displ (n i : Nat) (hi : i < n) :
    ((shiftIdx n i : Nat) : Int) - (n / 2 : Nat) = if n ≤ i + n / 2 then (i : Int) - n else i := by
  unfold shiftIdx
  split
  · rename_i h
    have : (i + n / 2) % n = i + n / 2 - n := by
      rw [Nat.mod_eq_sub_mod h, Nat.mod_eq_of_lt (by omega)]
    rw [this]
    omega
  · rename_i h
    rw [Nat.mod_eq_of_lt (by omega)]
    omega

/-- **C198** The two functions of an array that has a single maximum: both return the displacement of the maximum
with respect to the first pixel on the torus, in each direction.  They only differ when it is exactly half of an even size, that `getDispl` returns
positive and `getDisplConfidence` negative. -/
theorem C198_both [IsStrictOrderedRing F] (m n : Nat) (c : Nat → Nat → F) (i j : Nat) (hi : i < m) (hj : j < n)
    (h : ∀ u v, u < m → v < n → (u, v) ≠ (i, j) → c u v < c i j) :
    let d := getDispl m n (some c)
    let e := (getDisplConfidence m n c).1
    (-(m : Int) < 2 * d.1 ∧ 2 * d.1 ≤ m ∧ (m : Int) ∣ d.1 - i) ∧ (-(n : Int) < 2 * d.2 ∧ 2 * d.2 ≤ n ∧ (n : Int) ∣ d.2 - j) ∧
    (e.1 = d.1 ∨ (2 * d.1 = m ∧ e.1 = -d.1)) ∧ (e.2 = d.2 ∨ (2 * d.2 = n ∧ e.2 = -d.2)) := by
  have h1 : argmax2 m n c = (i, j) := argmax2_unique c i j hi hj h
  have h2 : argmax2 m n (fun u v => c (unshift m u) (unshift n v)) = (shiftIdx m i, shiftIdx n j) := by
    refine argmax2_unique _ _ _ (Nat.mod_lt _ (by omega)) (Nat.mod_lt _ (by omega)) ?_
    intro u v hu hv hne
    rw [unshift_shift m i hi, unshift_shift n j hj]
    refine h _ _ (unshift_lt m u (by omega)) (unshift_lt n v (by omega)) ?_
    intro e
    obtain ⟨e1, e2⟩ := Prod.mk.injEq _ _ _ _ ▸ e
    refine hne (Prod.ext ?_ ?_)
    · rw [← e1]
      exact (shift_unshift m u hu).symm
    · rw [← e2]
      exact (shift_unshift n v hv).symm
  have dvd : ∀ (N k : Nat), (N : Int) ∣ wrap N k - k := by
    intro N k
    unfold wrap
    split
    · exact ⟨-1, by ring⟩
    · simp
  intro d e
  have hd : d = (wrap m i, wrap n j) := by
    show getDispl m n (some c) = _
    unfold getDispl
    dsimp only
    rw [h1]
  have he : e = (((shiftIdx m i : Nat) : Int) - (m / 2 : Nat), ((shiftIdx n j : Nat) : Int) - (n / 2 : Nat)) := by
    show (getDisplConfidence m n c).1 = _
    unfold getDisplConfidence
    dsimp only
    rw [h2]
  rw [hd, he]
  dsimp only
  rw [shift_displ m i hi, shift_displ n j hj]
  have d1 := dvd m i
  have d2 := dvd n j
  refine ⟨⟨?_, ?_, d1⟩, ⟨?_, ?_, d2⟩, ?_, ?_⟩
  · unfold wrap; split <;> omega
  · unfold wrap; split <;> omega
  · unfold wrap; split <;> omega
  · unfold wrap; split <;> omega
  · unfold wrap
    split <;> split <;> omega
  · unfold wrap
    split <;> split <;> omega

/-- **C198** The confidence of an array of positive numbers is at least 1, and exactly 1 if the same maximum is
reached out of the window of 5 pixels around it. -/
theorem C198_confidence [IsStrictOrderedRing F] (m n : Nat) (hm : 0 < m) (hn : 0 < n) (c : Nat → Nat → F)
    (hc : ∀ u v, 0 < c u v) (x : F) (h : (getDisplConfidence m n c).2 = some x) :
    1 ≤ x ∧ ((∃ u v, u < m ∧ v < n ∧ (∀ p q, p < m → q < n → c p q ≤ c u v) ∧
      (let b := fun i j => c (unshift m i) (unshift n j)
       let l := argmax2 m n b
       ¬ (l.1 ≤ shiftIdx m u + 2 ∧ shiftIdx m u ≤ l.1 + 2 ∧ l.2 ≤ shiftIdx n v + 2 ∧ shiftIdx n v ≤ l.2 + 2))) →
        x = 1) := by
  unfold getDisplConfidence at h
  dsimp only at h
  generalize hl : argmax2 m n (fun i j => c (unshift m i) (unshift n j)) = l at h
  obtain ⟨g1, g2⟩ := argmaxBy_spec (fun p : Nat × Nat => c p.1 p.2) (0, 0) (pixels m n)
  have gmax : ∀ p q, p < m → q < n → c p q ≤ c (argmax2 m n c).1 (argmax2 m n c).2 := fun p q hp hq =>
    g2 (p, q) (List.mem_cons_of_mem _ ((mem_pixels m n _).2 ⟨hp, hq⟩))
  have gin : (argmax2 m n c).1 < m ∧ (argmax2 m n c).2 < n := by
    rcases List.mem_cons.1 g1 with e | g1
    · unfold argmax2
      rw [e]
      exact ⟨hm, hn⟩
    · exact (mem_pixels m n _).1 g1
  generalize ho : ((pixels m n).filter fun p =>
    !(decide (l.1 - 2 ≤ p.1 ∧ p.1 < min (l.1 + 3) m) && decide (l.2 - 2 ≤ p.2 ∧ p.2 < min (l.2 + 3) n))) = others at h
  cases others with
  | nil => cases h
  | cons o rest =>
    dsimp only at h
    obtain ⟨q1, q2⟩ := argmaxBy_spec (fun p : Nat × Nat => c (unshift m p.1) (unshift n p.2)) o rest
    generalize argmaxBy (fun p : Nat × Nat => c (unshift m p.1) (unshift n p.2)) o rest = q at h q1 q2
    split at h
    · cases h
    · rw [Option.some.injEq] at h
      have hq : q.1 < m ∧ q.2 < n := by
        rw [← ho] at q1
        exact (mem_pixels m n _).1 (List.mem_filter.1 q1).1
      have hle := gmax _ _ (unshift_lt m q.1 hm) (unshift_lt n q.2 hn)
      have hpos := hc (unshift m q.1) (unshift n q.2)
      refine ⟨by rw [← h, le_div_iff₀ hpos, one_mul]; exact hle, ?_⟩
      rintro ⟨u, v, hu, hv, hmax, hout⟩
      dsimp only at hout
      rw [hl] at hout
      have hmem : (shiftIdx m u, shiftIdx n v) ∈ o :: rest := by
        rw [← ho]
        refine List.mem_filter.2 ⟨(mem_pixels m n _).2 ⟨Nat.mod_lt _ hm, Nat.mod_lt _ hn⟩, ?_⟩
        rw [← Bool.decide_and, ← decide_not]
        refine decide_eq_true ?_
        intro hh
        exact hout ⟨by have := hh.1.1; dsimp only at this; omega, by have := hh.1.2; dsimp only at this; omega,
          by have := hh.2.1; dsimp only at this; omega, by have := hh.2.2; dsimp only at this; omega⟩
      have hge := q2 _ hmem
      dsimp only at hge
      rw [unshift_shift m u hu, unshift_shift n v hv] at hge
      have h3 := hmax _ _ gin.1 gin.2
      have h4 := gmax u v hu hv
      have h5 := hmax _ _ (unshift_lt m q.1 hm) (unshift_lt n q.2 hn)
      rw [← h, div_eq_one_iff_eq hpos.ne']
      linarith

end Displ

/-- **C198** If no coefficient of its spectrum is zero and it moves on a torus by `s` lines and `t` columns, at most half its size, the
displacement found is `(s, t)`. -/
theorem C198_displacement {m n : Nat} [NeZero m] [NeZero n] (a b : ZMod m → ZMod n → ℂ) (s t : Int)
    (hs : -(m : Int) < 2 * s) (hs' : 2 * s ≤ m) (ht : -(n : Int) < 2 * t) (ht' : 2 * t ≤ n)
    (hb : ∀ x y, b x y = a (x + s) (y + t)) (h0 : ∀ k l, fft2 a k l ≠ 0) :
    getDispl (F := ℝ) m n ((phaseCorrel a b).map fun r i j => ‖r i j‖) = (s, t) := by
  rw [C198_peak a b s t hb h0]
  have key : ∀ (N : Nat) [NeZero N] (k : Int), -(N : Int) < 2 * k → 2 * k ≤ N →
      ∃ i : Nat, i < N ∧ ((i : ZMod N) = (k : ZMod N)) ∧ wrap N i = k := by
    intro N _ k h1 h2
    by_cases hk : 0 ≤ k
    · refine ⟨k.toNat, by omega, ?_, ?_⟩
      · have : ((k.toNat : Int) : ZMod N) = (k : ZMod N) := by rw [Int.toNat_of_nonneg hk]
        push_cast at this
        exact this
      · unfold wrap
        rw [if_neg (by omega)]
        omega
    · refine ⟨(k + N).toNat, by omega, ?_, ?_⟩
      · have : (((k + N).toNat : Int) : ZMod N) = ((k + N : Int) : ZMod N) := by rw [Int.toNat_of_nonneg (by omega)]
        push_cast at this
        rw [this]
        simp
      · unfold wrap
        rw [if_pos (by omega)]
        omega
  obtain ⟨i, hi, ei, wi⟩ := key m s hs hs'
  obtain ⟨j, hj, ej, wj⟩ := key n t ht ht'
  have inj : ∀ (N : Nat) [NeZero N] (u v : Nat), u < N → v < N → (u : ZMod N) = (v : ZMod N) → u = v := by
    intro N _ u v hu hv e
    rw [ZMod.natCast_eq_natCast_iff'] at e
    rwa [Nat.mod_eq_of_lt hu, Nat.mod_eq_of_lt hv] at e
  have hmax : argmax2 m n (fun u v => ‖(if (u : ZMod m) = (s : ZMod m) ∧ (v : ZMod n) = (t : ZMod n) then (1 : ℂ) else 0)‖) = (i, j) := by
    refine argmax2_unique _ i j hi hj ?_
    intro u v hu hv hne
    have hno : ¬ ((u : ZMod m) = (s : ZMod m) ∧ (v : ZMod n) = (t : ZMod n)) := by
      rintro ⟨e1, e2⟩
      exact hne (Prod.ext (inj m u i hu hi (e1.trans ei.symm)) (inj n v j hv hj (e2.trans ej.symm)))
    have hyes : (i : ZMod m) = (s : ZMod m) ∧ (j : ZMod n) = (t : ZMod n) := ⟨ei, ej⟩
    rw [if_neg hno, if_pos hyes, norm_zero, norm_one]
    norm_num
  unfold getDispl
  simp only [Option.map_some]
  rw [hmax]
  exact Prod.ext wi wj

/-- a single bright pixel has a spectrum without zero -/
example (k : ZMod 3) (l : ZMod 5) : fft2 (fun (x : ZMod 3) (y : ZMod 5) => if x = 0 ∧ y = 0 then 1 else 0) k l ≠ 0 := by
  have : fft2 (fun (x : ZMod 3) (y : ZMod 5) => if x = 0 ∧ y = 0 then (1 : ℂ) else 0) k l = 1 := by
    unfold fft2
    rw [Finset.sum_eq_single 0, Finset.sum_eq_single 0]
    · simp
    · intro y _ hy
      simp [hy]
    · simp
    · intro x _ hx
      refine Finset.sum_eq_zero fun y _ => ?_
      simp [hx]
    · simp
  rw [this]
  exact one_ne_zero

end PhaseCor
end Py
end Colloids
