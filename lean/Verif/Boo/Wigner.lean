import Verif.Boo.WLemmas

/-! # The Wigner 3j symbols by Racah's formula, and the table of lib/boo_data.cpp -/

namespace Colloids
namespace Boo

/-- `n!` for a non negative integer. -/
def factI (n : Int) : ℚ := (n.toNat.factorial : ℚ)

/-- The sum of Racah's formula: over all the `k` for which no factorial has a negative argument. -/
def racahSum (j1 j2 j3 m1 m2 : Int) : ℚ :=
  ((List.range (j1 + j2 - j3 + 1).toNat).map (fun k : Nat =>
    if k ≤ j1 - m1 ∧ k ≤ j2 + m2 ∧ 0 ≤ j3 - j2 + m1 + k ∧ 0 ≤ j3 - j1 - m2 + k then
      (if k % 2 = 0 then 1 else -1) / (factI k * factI (j1 + j2 - j3 - k) * factI (j1 - m1 - k)
        * factI (j2 + m2 - k) * factI (j3 - j2 + m1 + k) * factI (j3 - j1 - m2 + k))
    else 0)).sum

/-- What is under the square root in Racah's formula, with `m3 = -(m1+m2)`. -/
def racahRoot (j1 j2 j3 m1 m2 : Int) : ℚ :=
  factI (j1 + j2 - j3) * factI (j1 - j2 + j3) * factI (-j1 + j2 + j3) / factI (j1 + j2 + j3 + 1)
    * (factI (j1 + m1) * factI (j1 - m1)) * (factI (j2 + m2) * factI (j2 - m2))
    * (factI (j3 - (m1 + m2)) * factI (j3 + (m1 + m2)))

/-- The sign `(-1)^(j1-j2-m3)` of Racah's formula. -/
def racahSign (j1 j2 m1 m2 : Int) : ℚ := if (j1 - j2 + (m1 + m2)) % 2 = 0 then 1 else -1

/-- Wigner's symbol `((j1,j2,j3),(m1,m2,-(m1+m2)))` for integer arguments satisfying the selection rules
(Racah's formula, for instance Landau and Lifshitz, Quantum mechanics, (106.14)). -/
noncomputable def wigner3j (j1 j2 j3 m1 m2 : Int) : ℝ :=
  (racahSign j1 j2 m1 m2 * racahSum j1 j2 j3 m1 m2 : ℚ) * √(racahRoot j1 j2 j3 m1 m2 : ℚ)

theorem mul_sqrt_eq {c d p r : ℝ} (hp : 0 ≤ p) (hr : 0 ≤ r) (hcd : 0 ≤ c * d)
    (h : c ^ 2 * p = d ^ 2 * r) : c * √p = d * √r := by
  have hc : (c * √p) ^ 2 = (d * √r) ^ 2 := by
    rw [mul_pow, mul_pow, Real.sq_sqrt hp, Real.sq_sqrt hr, h]
  rcases sq_eq_sq_iff_eq_or_eq_neg.1 hc with e | e
  · exact e
  · have h1 : (c * √p) * (d * √r) = -(d * √r) ^ 2 := by rw [e]; ring
    have h2 : 0 ≤ (c * √p) * (d * √r) := by
      have := mul_nonneg hcd (mul_nonneg (Real.sqrt_nonneg p) (Real.sqrt_nonneg r))
      calc (0 : ℝ) ≤ c * d * (√p * √r) := this
        _ = _ := by ring
    have h3 : (d * √r) ^ 2 = 0 := le_antisymm (by linarith) (sq_nonneg _)
    have h4 : d * √r = 0 := by simpa using h3
    rw [e, h4]; simp

/-- Comparison of a table entry to Racah's formula, in rational arithmetic. -/
def entryIs (e : W3Entry) (l : Nat) (m1 m2 : Int) : Bool :=
  let d := racahSign l l m1 m2 * racahSum l l l m1 m2
  let r := racahRoot l l l m1 m2
  decide (0 ≤ e.p) && decide (0 ≤ r) && decide (0 ≤ e.c * d) && decide (e.c ^ 2 * e.p = d ^ 2 * r)

theorem table_check : ∀ l ∈ [0, 2, 4, 6, 8, 10], ∀ m1 ∈ mRange l, ∀ m2 ∈ mRange l,
    (m1 + m2).natAbs ≤ l →
    (match getW3j l m1 m2 with
    | .ok e => entryIs e l m1 m2
    | .error _ => false) = true := by
  decide +kernel

/-- The squares of the coefficients of degree `l` sum up to 1. -/
theorem table_norm : ∀ l ∈ [0, 2, 4, 6, 8, 10], ∀ m1 ∈ mRange l,
    ((mRange l).map (fun m2 => if (m1 + m2).natAbs ≤ l then
      (match getW3j l m1 m2 with
      | .ok e => e.c ^ 2 * e.p
      | .error _ => (0 : ℚ)) else (0 : ℚ))).sum = 1 / (2 * (l : ℚ) + 1) := by
  decide +kernel

theorem entries_nonneg : ∀ e ∈ w3j, 0 ≤ e.p := by decide +kernel

/-- The three numbers sorted by absolute value: the smallest and the middle one. -/
def canon (x : Int × Int) : Int × Int :=
  let a := min x.1.natAbs (min x.2.natAbs (x.1 + x.2).natAbs)
  let c := max x.1.natAbs (max x.2.natAbs (x.1 + x.2).natAbs)
  ((a : Int), (c : Int) - a)

/-- The pairs `(m1,m2)` of the sum of `getInvarients`. -/
def hex (l : Nat) : List (Int × Int) :=
  ((mRange l).flatMap (fun m1 => (mRange l).map (fun m2 => (m1, m2)))).filter
    (fun x => decide ((x.1 + x.2).natAbs ≤ l))

/-- The pairs `(m1,m2)` of the sum of `getWl`. -/
def wedge (l : Nat) : List (Int × Int) :=
  (List.range (l / 2 + 1)).flatMap (fun m1 : Nat =>
    (List.range' m1 (l - m1 + 1 - m1)).map (fun m2 : Nat => ((m1 : Int), (m2 : Int))))

/-- Number of pairs of `hex` equivalent to one of `wedge`. -/
def mult (x : Int × Int) : Nat :=
  if x.1 = 0 ∧ x.2 = 0 then 1 else if x.1 = 0 ∨ x.1 = x.2 then 6 else 12

theorem hex_wedge : ∀ l ∈ [0, 2, 4, 6, 8, 10], ((hex l).map canon).Perm
    ((wedge l).flatMap (fun x => List.replicate (mult x) x)) := by
  decide +kernel

theorem hex_orbit : ∀ l ∈ [0, 2, 4, 6, 8, 10], ∀ x ∈ hex l,
    x ∈ [((canon x).1, (canon x).2), ((canon x).2, (canon x).1),
      ((canon x).1, -((canon x).1 + (canon x).2)), (-((canon x).1 + (canon x).2), (canon x).1),
      ((canon x).2, -((canon x).1 + (canon x).2)), (-((canon x).1 + (canon x).2), (canon x).2),
      (-(canon x).1, -(canon x).2), (-(canon x).2, -(canon x).1),
      (-(canon x).1, ((canon x).1 + (canon x).2)), (((canon x).1 + (canon x).2), -(canon x).1),
      (-(canon x).2, ((canon x).1 + (canon x).2)), (((canon x).1 + (canon x).2), -(canon x).2)] := by
  decide +kernel

/-- A function of `(m1,m2)` that does not depend on the order of the three numbers nor on their
global sign sums up over all the pairs as over the non equivalent ones with multiplicities. -/
theorem sum_hex {M : Type} [AddCommMonoid M] (F : Int → Int → M) (hs : ∀ a b, F b a = F a b)
    (hr : ∀ a b, F a (-(a + b)) = F a b) (hn : ∀ a b, F (-a) (-b) = F a b) {l : Nat}
    (hl : l ∈ [0, 2, 4, 6, 8, 10]) :
    ((hex l).map (fun x => F x.1 x.2)).sum = ((wedge l).map (fun x => mult x • F x.1 x.2)).sum := by
  have hr2 : ∀ a b, F b (-(a + b)) = F a b := by
    intro a b; rw [add_comm, hr, hs]
  have hn2 : ∀ a b, F (-a) (a + b) = F a b := by
    intro a b; rw [← hr a b, ← hn a (-(a + b)), neg_neg]
  have hn3 : ∀ a b, F (-b) (a + b) = F a b := by
    intro a b; rw [add_comm, hn2, hs]
  have e : ∀ x ∈ hex l, F x.1 x.2 = (fun y : Int × Int => F y.1 y.2) (canon x) := by
    intro x hx
    have := hex_orbit l hl x hx
    generalize canon x = y at *
    simp only [List.mem_cons, List.not_mem_nil, or_false] at this
    rcases this with h | h | h | h | h | h | h | h | h | h | h | h <;> rw [h] <;> dsimp only
    · rw [hs]
    · rw [hr]
    · rw [hs, hr]
    · rw [hr2]
    · rw [hs, hr2]
    · rw [hn]
    · rw [hn, hs]
    · rw [hn2]
    · rw [hs, hn2]
    · rw [hn3]
    · rw [hs, hn3]
  have e2 : (hex l).map (fun x => (fun y : Int × Int => F y.1 y.2) (canon x))
      = ((hex l).map canon).map (fun y : Int × Int => F y.1 y.2) := by
    rw [List.map_map]; rfl
  rw [List.map_congr_left e, e2, ((hex_wedge l hl).map _).sum_eq]
  generalize wedge l = w
  induction w with
  | nil => simp
  | cons a w ih => simp [ih]

theorem sum_hex_eq {M : Type} [AddCommMonoid M] (F : Int → Int → M) (l : Nat)
    (h0 : ∀ m1 m2, ¬ (m1 + m2).natAbs ≤ l → F m1 m2 = 0) :
    ∑ m1 ∈ Finset.Icc (-(l : Int)) l, ∑ m2 ∈ Finset.Icc (-(l : Int)) l, F m1 m2
      = ((hex l).map (fun x => F x.1 x.2)).sum := by
  have e : ∀ L : List (Int × Int), (L.map (fun x => F x.1 x.2)).sum
      = ((L.filter (fun x => decide ((x.1 + x.2).natAbs ≤ l))).map (fun x => F x.1 x.2)).sum := by
    intro L
    induction L with
    | nil => simp
    | cons a L ih =>
      rw [List.map_cons, List.sum_cons, ih, List.filter_cons]
      split
      · simp
      · rename_i h
        rw [h0 _ _ (by simpa using h), zero_add]
  unfold hex
  rw [← e, ← sum_mRange]
  have e2 : ∀ L : List Int,
      (L.map (fun m1 => ∑ m2 ∈ Finset.Icc (-(l : Int)) l, F m1 m2)).sum
      = ((L.flatMap (fun m1 => (mRange l).map (fun m2 => (m1, m2)))).map
          (fun x => F x.1 x.2)).sum := by
    intro L
    induction L with
    | nil => simp
    | cons a L ih =>
      rw [List.map_cons, List.sum_cons, ih, List.flatMap_cons, List.map_append, List.sum_append,
        List.map_map, ← sum_mRange]
      rfl
  exact e2 _

theorem getWl_eq {q : BooData} {l : Nat} (hq : q.length = 36) (h2 : 2 ∣ l) (hl : l ≤ 10) :
    ∃ n, sumNorm q l = .ok n ∧
    getWl q l = .ok (wNormalize n (((wedge l).map (fun x => wt q l x.1 x.2)).sum * 12)) := by
  refine ⟨_, sumNorm_eq hq h2 hl, ?_⟩
  unfold getWl
  rw [sumNorm_eq hq h2 hl, ok_bind]
  rw [foldlM_add _ (fun m1 : Nat => ((List.range' m1 (l - m1 + 1 - m1)).map (fun m2 : Nat =>
    wt q l m1 m2)).sum) _ _ ?_]
  · rw [ok_bind, pure_eq_ok, zero_add]
    congr 3
    unfold wedge
    generalize List.range (l / 2 + 1) = L
    induction L with
    | nil => simp
    | cons a L ih =>
      rw [List.map_cons, List.sum_cons, ih, List.flatMap_cons, List.map_append, List.sum_append,
        List.map_map]
      rfl
  · intro s m1 h1
    rw [List.mem_range] at h1
    rw [foldlM_add _ (fun m2 : Nat => wt q l m1 m2) _ _ ?_]
    intro s m2 hm2
    rw [List.mem_range'_1] at hm2
    rw [wTerm_eq hq h2 hl (by omega) (by omega) (by omega)]
    unfold wt
    rw [if_pos (by omega)]
    rfl

theorem wt_swap (q : BooData) (l : Nat) (a b : Int) : wt q l b a = wt q l a b := by
  unfold wt w3
  rw [add_comm b a, getW3j_swap]
  split
  · ring
  · rfl

end Boo
end Colloids
