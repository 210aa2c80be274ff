import Verif.Dyn.MsdProps

/-! # C62: non Gaussian parameter -/

namespace Colloids
namespace Dyn

variable {G : Type} [Field G] [LinearOrder G]

/-- Sum over the selection of the fourth power of the displacement between two times. -/
def sumQuartic (sel : List Nat) (x : Nat → Nat → Coord G) (s e : Nat) : G :=
  (sel.map (fun tr => sqDist (x tr e) (x tr s) ^ 2)).sum

theorem sum_pair {M N : Type} [AddMonoid M] [AddMonoid N] (f : Nat → M) (g : Nat → N) (l : List Nat) :
    (l.map (fun i => (f i, g i))).sum = ((l.map f).sum, (l.map g).sum) := by
  induction l with
  | nil => rfl
  | cons a l ih => simp only [List.map_cons, List.sum_cons, ih, Prod.mk_add_mk]

omit [LinearOrder G] in
theorem squareQuartic_eq [LinearOrder G] {D : DynParts G} {sel : List Nat} {s e : Nat} {x : Nat → Nat → Coord G}
    (hx : ∀ tr ∈ sel, at_ D tr s = .ok (x tr s) ∧ at_ D tr e = .ok (x tr e)) :
    squareQuartic D sel s e = .ok (sumSq sel x s e, sumQuartic sel x s e) := by
  unfold squareQuartic
  have : sel.foldlM (fun (a : G × G) tr => do
      let diff ← getDiff D tr s tr e
      let sd := dot3 diff diff
      pure (a.1 + sd, a.2 + sd * sd)) (0, 0)
      = .ok ((0, 0) + (sel.map (fun tr => (sqDist (x tr e) (x tr s), sqDist (x tr e) (x tr s) ^ 2))).sum) := by
    apply Boo.foldlM_add
    intro acc tr htr
    unfold getDiff
    rw [(hx tr htr).2, ok_bind, (hx tr htr).1, ok_bind]
    simp only [pure_eq_ok, ok_bind, dot3_eq_sqDist]
    congr 1
    ext <;> simp [sq]
  rw [this]
  congr 1
  show (0 : G × G) + _ = _
  rw [zero_add]
  exact sum_pair _ _ sel

variable [IsStrictOrderedRing G]

theorem lagSum_const {V : Type} [AddCommGroup V] [Module G V] (v : V) (t0 m d : Nat) :
    lagSum (fun _ _ => v) t0 m d = (m : G) • v := by
  unfold lagSum
  simp [Nat.cast_smul_eq_nsmul]

/-- What `get_MSD_NGP` computes with `t3` null: the same values for all the lags, those of the largest
one, and an undefined non Gaussian parameter at lag 0. -/
theorem getMsdNgp_eq {D : DynParts G} {sel : List Nat} (hne : sel ≠ []) {t0 t1 : Nat}
    (hr : D.radius ≠ 0) {x : Nat → Nat → Coord G}
    (hx : ∀ tr ∈ sel, at_ D tr t0 = .ok (x tr t0) ∧ at_ D tr t1 = .ok (x tr t1)) :
    getMsdNgp D sel t0 t1 0 = .ok (tab (t1 - t0 + 1) (fun d => if d = 0 then (some 0, none) else
      (some (sumSq sel x t0 t1 / ((2 * D.radius) ^ 2 * sel.length)),
       (quot (sel.length : G) (3 * sumSq sel x t0 t1 * sumSq sel x t0 t1)).map
        (sumQuartic sel x t0 t1 * ·)))) := by
  have hlen : (sel.length : G) ≠ 0 := by
    have : sel.length ≠ 0 := by simpa using hne
    exact_mod_cast this
  have hE : sel.isEmpty = false := by cases sel <;> simp_all
  unfold getMsdNgp
  simp only [hE, Bool.false_eq_true, if_false, if_true]
  rw [nbStart_eq _ (by omega), ok_bind, replicate_eq_tab,
    lagSums_eq (fun _ _ => squareQuartic D sel t0 t1)
      (fun _ _ => (sumSq sel x t0 t1, sumQuartic sel x t0 t1)) t0 t1 (t1 - t0 + 1) (by omega)
      (fun s e h1 h2 h3 => squareQuartic_eq hx), ok_bind, zipWith_tab]
  simp only [pure_eq_ok]
  congr 1
  apply tab_congr
  intro d hd
  have h2r : (2 * D.radius) ^ 2 ≠ 0 := by simp [hr]
  by_cases hd0 : d = 0
  · subst hd0
    simp only [if_true, show ¬ (1 ≤ 0 ∧ 0 ≤ t1 - t0) by omega, if_false]
    have h1 : ((1 : Nat) : G) * (2 * D.radius) ^ 2 * (sel.length : G) ≠ 0 :=
      mul_ne_zero (mul_ne_zero (by simp) h2r) hlen
    ext1
    · simp only [quot, if_neg h1, Prod.fst_zero, zero_div]
    · simp [quot]
  · have hk : ((t1 - t0 + 1 - d : Nat) : G) ≠ 0 := by
      have : t1 - t0 + 1 - d ≠ 0 := by omega
      exact_mod_cast this
    simp only [if_neg hd0, show 1 ≤ d ∧ d ≤ t1 - t0 by omega, and_self, if_true, zero_add,
      lagSum_const (G := G)]
    generalize ((t1 - t0 + 1 - d : Nat) : G) = k at hk
    simp only [Prod.smul_mk, smul_eq_mul]
    ext1
    · have h1 : k * (2 * D.radius) ^ 2 * (sel.length : G) ≠ 0 := mul_ne_zero (mul_ne_zero hk h2r) hlen
      simp only [quot, if_neg h1]
      congr 1
      rw [div_eq_div_iff h1 (mul_ne_zero h2r hlen)]
      ring
    · simp only [quot]
      by_cases hS : sumSq sel x t0 t1 = 0
      · simp [hS]
      · have h1 : 3 * (k * sumSq sel x t0 t1) * (k * sumSq sel x t0 t1) ≠ 0 := by
          have := mul_ne_zero hk hS
          exact mul_ne_zero (mul_ne_zero (by norm_num) this) this
        have h2 : 3 * sumSq sel x t0 t1 * sumSq sel x t0 t1 ≠ 0 :=
          mul_ne_zero (mul_ne_zero (by norm_num) hS) hS
        rw [if_neg h1, if_neg h2]
        simp only [Option.map_some]
        congr 1
        field_simp

/-- C62. With a single lag (`t1 = t0 + 1`), `get_MSD_NGP` gives at lag 1 the mean squared displacement
divided by the squared diameter and the ratio `⟨r⁴⟩ / (3 ⟨r²⟩²)`, if something has moved. Missing: longer
intervals, see `C62_lag_counterexample`, and the lag 0. -/
theorem C62_one_lag_partial {D : DynParts G} {sel : List Nat} (hne : sel ≠ []) {t0 : Nat}
    (hr : D.radius ≠ 0) {x : Nat → Nat → Coord G} (hx : Places D sel t0 (t0 + 1) x)
    (hm : sumSq sel x t0 (t0 + 1) ≠ 0) :
    ∃ l, getMsdNgp D sel t0 (t0 + 1) 0 = .ok l ∧ l.length = 2 ∧ l[1]? = some
      (some (sumSq sel x t0 (t0 + 1) / sel.length / (2 * D.radius) ^ 2),
       some ((sumQuartic sel x t0 (t0 + 1) / sel.length) / (3 * (sumSq sel x t0 (t0 + 1) / sel.length) ^ 2))) := by
  have hlen : (sel.length : G) ≠ 0 := by
    have : sel.length ≠ 0 := by simpa using hne
    exact_mod_cast this
  refine ⟨_, getMsdNgp_eq hne hr
    (fun tr htr => ⟨hx tr htr t0 (le_refl _) (by omega), hx tr htr (t0 + 1) (by omega) (le_refl _)⟩), ?_, ?_⟩
  · rw [tab_length]; omega
  · rw [← getR_ok, getR_tab (by omega)]
    congr 1
    simp only [Nat.one_ne_zero, if_false]
    have h3 : 3 * sumSq sel x t0 (t0 + 1) * sumSq sel x t0 (t0 + 1) ≠ 0 :=
      mul_ne_zero (mul_ne_zero (by norm_num) hm) hm
    have h2r : (2 * D.radius) ^ 2 ≠ 0 := by simp [hr]
    ext1
    · simp only
      congr 1
      rw [div_div, mul_comm (sel.length : G)]
    · simp only [quot, if_neg h3, Option.map_some]
      congr 1
      field_simp

/-- C62. On longer intervals the values do not depend on the lag: all of them are those of the largest
lag. -/
theorem C62_lag_counterexample {D : DynParts G} {sel : List Nat} (hne : sel ≠ []) {t0 t1 : Nat}
    (h01 : t0 < t1) (hr : D.radius ≠ 0) {x : Nat → Nat → Coord G} (hx : Places D sel t0 t1 x) :
    ∃ l y, getMsdNgp D sel t0 t1 0 = .ok l ∧ l.length = t1 - t0 + 1 ∧
      (∀ d, 1 ≤ d → d ≤ t1 - t0 → l[d]? = some y) ∧
      y.1 = some (sumSq sel x t0 t1 / ((2 * D.radius) ^ 2 * sel.length)) ∧ l[0]? = some (some 0, none) := by
  refine ⟨_, (some (sumSq sel x t0 t1 / ((2 * D.radius) ^ 2 * sel.length)),
       (quot (sel.length : G) (3 * sumSq sel x t0 t1 * sumSq sel x t0 t1)).map
        (sumQuartic sel x t0 t1 * ·)), getMsdNgp_eq hne hr
    (fun tr htr => ⟨hx tr htr t0 (le_refl _) (by omega), hx tr htr t1 (by omega) (le_refl _)⟩), tab_length _ _,
    ?_, ?_, ?_⟩
  · intro d h1 h2
    rw [← getR_ok, getR_tab (by omega), if_neg (by omega)]
  · rfl
  · rw [← getR_ok, getR_tab (by omega), if_pos rfl]

/-- C62. So the mean squared displacement of `get_MSD_NGP` and that of `getMSD` differ: at lag 1, for
`exTwo`, in units of the diameter, one is `41/8` and the other is `123/16`. -/
theorem C62_differ_counterexample :
    ∃ l m, getMsdNgp exTwo [0, 1] 0 2 0 = .ok l ∧ getMSDOf exTwo [0, 1] 0 2 0 = .ok m ∧
      (l[1]?).map Prod.fst ≠ (m[1]?).map (fun y => some (y / (2 * exTwo.radius) ^ 2)) := by
  have h : ∀ tr ∈ [0, 1], ∀ t ≤ 2, at_ exTwo tr t = .ok (([[![0, 0, 0], ![3, 5, 0], ![5, 0, 0]],
      [![0, 5, 0], ![1, 0, 0], ![4, 5, 0]]][tr]?.getD [])[t]?.getD 0) := by decide +kernel
  have hx : Places exTwo [0, 1] 0 2 (fun tr t => ([[![0, 0, 0], ![3, 5, 0], ![5, 0, 0]],
      [![0, 5, 0], ![1, 0, 0], ![4, 5, 0]]][tr]?.getD [])[t]?.getD 0) := fun tr htr t _ ht => h tr htr t ht
  obtain ⟨l, y, h1, -, h2, h3, -⟩ := C62_lag_counterexample (D := exTwo) (sel := [0, 1]) (by simp)
    (show 0 < 2 by omega) (by decide +kernel) hx
  obtain ⟨m, g1, -, -, -, g5⟩ := C42_msd (D := exTwo) (sel := [0, 1]) (by simp) (show 0 ≤ 2 by omega) hx
  refine ⟨l, m, h1, g1, ?_⟩
  rw [h2 1 (le_refl _) (by omega), g5 1 (by omega), Option.map_some, Option.map_some, h3]
  decide +kernel

/-- C62. `getNonGaussian` has the same defects: at every lag larger than 0 it is the ratio of the largest
lag, and it is undefined at lag 0. -/
theorem C62_nonGaussian_counterexample {D : DynParts G} {sel : List Nat} (hne : sel ≠ []) {t0 t1 : Nat}
    {x : Nat → Nat → Coord G}
    (hx : ∀ tr ∈ sel, at_ D tr t0 = .ok (x tr t0) ∧ at_ D tr t1 = .ok (x tr t1)) :
    getNonGaussian D sel t0 t1 = .ok (tab (t1 - t0 + 1) (fun d => if d = 0 then none else
      quot (sumQuartic sel x t0 t1 * sel.length) (3 * sumSq sel x t0 t1 ^ 2))) := by
  have hE : sel.isEmpty = false := by cases sel <;> simp_all
  unfold getNonGaussian
  simp only [hE, Bool.false_eq_true, if_false]
  rw [nbStart_eq _ (by omega), ok_bind, replicate_eq_tab,
    lagSums_eq (fun _ _ => squareQuartic D sel t0 t1)
      (fun _ _ => (sumSq sel x t0 t1, sumQuartic sel x t0 t1)) t0 t1 (t1 - t0 + 1) (by omega)
      (fun s e h1 h2 h3 => squareQuartic_eq hx), ok_bind, zipWith_tab]
  simp only [pure_eq_ok]
  congr 1
  apply tab_congr
  intro d hd
  by_cases hd0 : d = 0
  · subst hd0
    simp [quot]
  · have hk : ((t1 - t0 + 1 - d : Nat) : G) ≠ 0 := by
      have : t1 - t0 + 1 - d ≠ 0 := by omega
      exact_mod_cast this
    simp only [if_neg hd0, show 1 ≤ d ∧ d ≤ t1 - t0 by omega, and_self, if_true, zero_add,
      lagSum_const (G := G)]
    generalize ((t1 - t0 + 1 - d : Nat) : G) = k at hk
    simp only [Prod.smul_mk, smul_eq_mul]
    by_cases hS : sumSq sel x t0 t1 = 0
    · simp [quot, hS]
    · have h1 := mul_ne_zero hk hS
      have h2 : 3 * sumSq sel x t0 t1 ^ 2 ≠ 0 := mul_ne_zero (by norm_num) (pow_ne_zero 2 hS)
      simp only [quot, if_neg h1, if_neg h2, Option.bind_some]
      congr 1
      field_simp

/-- C62. With `t3` not null, the mean squared displacement is moreover divided twice by the number of
trajectories. -/
theorem C62_twice_counterexample {D : DynParts G} {sel : List Nat} (hne : sel ≠ []) {t0 t3 : Nat}
    (h3 : 0 < t3) (hr : D.radius ≠ 0) {x : Nat → Nat → Coord G} (hx : Places D sel t0 (t0 + 1) x) :
    ∃ l, getMsdNgp D sel t0 (t0 + 1) t3 = .ok l ∧ (l[1]?).map Prod.fst = some
      (some (sumSq sel x t0 (t0 + 1) / sel.length / (2 * D.radius) ^ 2 / sel.length)) := by
  have hlen : (sel.length : G) ≠ 0 := by
    have : sel.length ≠ 0 := by simpa using hne
    exact_mod_cast this
  have h3' : (t3 : G) ≠ 0 := by
    have : t3 ≠ 0 := by omega
    exact_mod_cast this
  have hE : sel.isEmpty = false := by cases sel <;> simp_all
  have hsum : (List.range t3).foldlM (fun (y : G × G) _ => do
      let s ← squareQuartic D sel t0 (t0 + 1)
      pure (y + s)) 0
      = .ok (0 + ((List.range t3).map (fun _ => (sumSq sel x t0 (t0 + 1), sumQuartic sel x t0 (t0 + 1)))).sum) := by
    apply Boo.foldlM_add
    intro acc s _
    rw [squareQuartic_eq (x := x)
      (fun tr htr => ⟨hx tr htr t0 (le_refl _) (by omega), hx tr htr (t0 + 1) (by omega) (le_refl _)⟩), ok_bind]
    rfl
  have hfst : (0 + ((List.range t3).map (fun _ => (sumSq sel x t0 (t0 + 1), sumQuartic sel x t0 (t0 + 1)))).sum).1
      = (t3 : G) * sumSq sel x t0 (t0 + 1) := by
    simp
  generalize hy : 0 + ((List.range t3).map (fun _ => (sumSq sel x t0 (t0 + 1), sumQuartic sel x t0 (t0 + 1)))).sum
    = y at hsum hfst
  refine ⟨tab 2 (fun d => if d = 1 then (quot y.1 (t3 * sel.length * (2 * D.radius) ^ 2 * sel.length),
          (quot ((t3 : G) * sel.length) (3 * y.1 * y.1)).map (y.2 * ·)) else (some 0, some 0)), ?_, ?_⟩
  · unfold getMsdNgp
    simp only [hE, Bool.false_eq_true, if_false]
    rw [nbStart_eq _ (by omega), ok_bind, if_neg (by omega), replicate_eq_tab,
      show t0 + 1 - t0 + 1 = 2 by omega]
    simp only [show 2 - 1 = 1 from rfl, List.range'_one, List.foldlM_cons, List.foldlM_nil]
    rw [hsum, ok_bind, setR_tab _ (by omega)]
    rfl
  · have hget : ∀ f : Nat → Option G × Option G, (tab 2 f)[1]? = some (f 1) := fun f => rfl
    rw [hget, if_pos rfl, Option.map_some, hfst]
    congr 1
    have h2r : (2 * D.radius) ^ 2 ≠ 0 := by simp [hr]
    simp only [quot]
    rw [if_neg (mul_ne_zero (mul_ne_zero (mul_ne_zero h3' hlen) h2r) hlen)]
    congr 1
    field_simp

end Dyn
end Colloids
