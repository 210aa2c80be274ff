import Verif.Py.PhaseMuProps
import Mathlib.Topology.Order.IntermediateValue

/-!
# Critical point, spinodal and binodal (C185)
-/

namespace Colloids
namespace Py
namespace Phase

open Real

/-- the equation of state is differentiable twice around `f`, and the class knows its derivatives -/
structure Smooth (E : EOS) (f : ℝ) : Prop where
  d1 : ∀ᶠ x in nhds f, HasDerivAt E.pv0 (E.pv01 x) x
  d2 : HasDerivAt E.pv01 (E.pv02 f) f
  ne : E.pv01 f ≠ 0
  ratio : E.ratio f = E.pv02 f / E.pv01 f

/-- the classes that know the derivatives of their pressure, and where -/
def Analytic (lg : ℝ → ℝ) (E : EOS) (f : ℝ) : Prop :=
  E = carnahanStarling lg ∨ E = kolafa lg ∨ (E = leFevre lg ∧ f < 1.7515 ∧ E.pv01 f ≠ 0)
    ∨ (E = liu lg ∧ f < E.maxf ∧ E.pv01 f ≠ 0)

theorem Analytic.smooth {lg : ℝ → ℝ} {E : EOS} {f : ℝ} (hf : 0 < f) (h : Analytic lg E f) :
    Smooth E f := by
  have h1 : 1 + f ≠ 0 := by linarith
  have hn : ∀ᶠ x in nhds f, 1 + x ≠ 0 := by
    filter_upwards [lt_mem_nhds hf] with x hx
    linarith
  rcases h with rfl | rfl | ⟨rfl, hc, hne⟩ | ⟨rfl, hc, hne⟩
  · exact ⟨hn.mono fun x hx => cs_hasDeriv hx, cs_hasDeriv2 h1,
      ((C183_increasing lg _ (Or.inl rfl)).1 f hf.le).ne', rfl⟩
  · exact ⟨hn.mono fun x hx => kolafa_hasDeriv hx, kolafa_hasDeriv2 h1,
      ((C183_increasing lg _ (Or.inr rfl)).1 f hf.le).ne', rfl⟩
  · refine ⟨?_, lf_hasDeriv2 (lf_defined hf.le hc.le).ne, hne, rfl⟩
    filter_upwards [Ioo_mem_nhds hf hc] with x hx
    exact lf_hasDeriv (lf_defined hx.1.le hx.2.le).ne
  · have hc' : f < vf2f 0.635584 := hc
    obtain ⟨hq, ha⟩ := liu_defined hf.le hc'
    refine ⟨?_, liu_hasDeriv2 h1 hq ha, hne, (C183_liu lg hf hc).2.2 hne⟩
    filter_upwards [Ioo_mem_nhds hf hc'] with x hx
    obtain ⟨hq, ha⟩ := liu_defined hx.1.le hx.2
    exact liu_hasDeriv (by linarith [hx.1]) hq ha

theorem Smooth.pv_deriv {E : EOS} {f : ℝ} (s : Smooth E f) (p q : ℝ) :
    deriv (fun x => E.pv x p q) f = E.pv01 f - p * (f * beta2 f q)
    ∧ deriv (deriv (fun x => E.pv x p q)) f = E.pv02 f - p * (beta2 f q + f * beta3 f q) := by
  have e : ∀ x, HasDerivAt E.pv0 (E.pv01 x) x →
      HasDerivAt (fun x => E.pv x p q) (E.pv01 x - p * (x * beta2 x q)) x := by
    intro x hx
    refine (hx.add ((h_deriv x q).const_mul p)).congr_deriv ?_
    ring
  have ev : deriv (fun x => E.pv x p q) =ᶠ[nhds f] fun x => E.pv01 x - p * (x * beta2 x q) := by
    filter_upwards [s.d1] with x hx using (e x hx).deriv
  refine ⟨ev.eq_of_nhds, ?_⟩
  rw [ev.deriv_eq]
  refine (s.d2.sub (((hasDerivAt_id f).mul (beta2_deriv f q)).const_mul p)).deriv.trans ?_
  simp only [id]
  ring

/-- C185: the equations of `critical_point` characterise the critical point: they hold at a packing and
an osmotic pressure if and only if the pressure has there an inflection with horizontal tangent. -/
theorem C185_critical {lg : ℝ → ℝ} {E : EOS} {f : ℝ} (hf : 0 < f) (hE : Analytic lg E f) (p q : ℝ) :
    (beta2 f q ≠ 0 ∧ critEq E q f = 0 ∧ p = E.pv01 f / f / beta2 f q)
      ↔ (deriv (fun x => E.pv x p q) f = 0 ∧ deriv (deriv (fun x => E.pv x p q)) f = 0) := by
  have s := hE.smooth hf
  obtain ⟨e1, e2⟩ := s.pv_deriv p q
  have hne := s.ne
  rw [e1, e2]
  unfold critEq
  rw [s.ratio]
  have hf' := hf.ne'
  generalize E.pv01 f = a at *
  generalize E.pv02 f = b at *
  generalize beta2 f q = c
  generalize beta3 f q = d
  constructor
  · rintro ⟨hc, h1, rfl⟩
    refine ⟨by field_simp; ring, ?_⟩
    have hb : b = (1 / f + d / c) * a := by
      have : 1 / f + d / c = b / a := by linarith
      rw [this]
      field_simp
    rw [hb]
    field_simp
    ring
  · rintro ⟨h1, h2⟩
    have hc : c ≠ 0 := by
      rintro rfl
      apply hne
      linarith
    have hp : p = a / f / c := by
      have : a = p * (f * c) := by linarith
      rw [this]
      field_simp
    have hp0 : p ≠ 0 := by
      rintro rfl
      apply hne
      linarith
    refine ⟨hc, ?_, hp⟩
    have hb : b = p * (c + f * d) := by linarith
    have ha : a = p * (f * c) := by linarith
    rw [hb, ha]
    field_simp
    ring

/-- C185: what `critical_point` returns when the solver has found a root. -/
theorem C185_critical_point (S : Solvers) {lg : ℝ → ℝ} {E : EOS} (q : ℝ)
    (hf : 0 < (criticalPoint S E q).1) (hE : Analytic lg E (criticalPoint S E q).1)
    (hb : beta2 (criticalPoint S E q).1 q ≠ 0) (hroot : critEq E q (criticalPoint S E q).1 = 0) :
    deriv (fun x => E.pv x (criticalPoint S E q).2 q) (criticalPoint S E q).1 = 0
    ∧ deriv (deriv (fun x => E.pv x (criticalPoint S E q).2 q)) (criticalPoint S E q).1 = 0 :=
  (C185_critical hf hE _ q).1 ⟨hb, hroot, rfl⟩

/-- the equation of the critical point has no exponential -/
theorem critEq_rational (E : EOS) (q f : ℝ) :
    critEq E q f = 1 / f + (-Q3 f q + 3 * Q1 f q * Q2 f q - Q1 f q ^ 3) / (Q1 f q ^ 2 - Q2 f q)
      - E.ratio f := by
  have hb : beta f q ≠ 0 := (exp_pos _).ne'
  have e2 : beta2 f q = beta f q * (Q1 f q ^ 2 - Q2 f q) := by unfold beta2 beta1; ring
  have e3 : beta3 f q = beta f q * (-Q3 f q + 3 * Q1 f q * Q2 f q - Q1 f q ^ 3) := by
    unfold beta3; rw [e2]; unfold beta1; ring
  unfold critEq
  rw [e2, e3, mul_div_mul_left _ _ hb]

/-- C185: there is a critical point: for polymers as large as the colloids the equation of the fluid of
Carnahan and Starling has a root between 0.1 and 0.2, at a positive osmotic pressure. -/
theorem C185_exists (lg : ℝ → ℝ) : ∃ f, 0.1 < f ∧ f < 0.2 ∧ critEq (carnahanStarling lg) 1 f = 0
    ∧ 0 < beta2 f 1 ∧ 0 < (carnahanStarling lg).pv01 f / f / beta2 f 1 := by
  have eA : ∀ f : ℝ, Q1 f 1 = 7 + 15 * f + 3 * f ^ 2 := fun f => by unfold Q1 A B C; norm_num
  have eB : ∀ f : ℝ, Q2 f 1 = 15 + 6 * f := fun f => by unfold Q2 B C; norm_num
  have eC : ∀ f : ℝ, Q3 f 1 = 6 := fun f => by unfold Q3 C; norm_num
  have hden : ∀ f : ℝ, 0 ≤ f → 0 < (7 + 15 * f + 3 * f ^ 2) ^ 2 - (15 + 6 * f) := by
    intro f hf; nlinarith [sq_nonneg f, mul_nonneg hf hf, mul_nonneg hf (sq_nonneg f)]
  have e : ∀ f, critEq (carnahanStarling lg) 1 f = 1 / f
      + (-6 + 3 * (7 + 15 * f + 3 * f ^ 2) * (15 + 6 * f) - (7 + 15 * f + 3 * f ^ 2) ^ 3)
        / ((7 + 15 * f + 3 * f ^ 2) ^ 2 - (15 + 6 * f)) - csPv02 f / csPv01 f := by
    intro f
    rw [critEq_rational, eA, eB, eC]
    rfl
  have pos : ∀ f, 0 ≤ f → 0 < csPv01 f :=
    fun f hf => (C183_increasing lg (carnahanStarling lg) (Or.inl rfl)).1 f hf
  have cont : ContinuousOn (critEq (carnahanStarling lg) 1) (Set.Icc 0.1 0.2) := by
    have h0 : ∀ x ∈ Set.Icc (0.1 : ℝ) 0.2, 0 < x := fun x hx => lt_of_lt_of_le (by norm_num) hx.1
    rw [funext e]
    apply ContinuousOn.sub
    · apply ContinuousOn.add
      · exact ContinuousOn.div continuousOn_const continuousOn_id fun x hx => (h0 x hx).ne'
      · exact ContinuousOn.div (by fun_prop) (by fun_prop) fun x hx => (hden x (h0 x hx).le).ne'
    · apply ContinuousOn.div
      · intro x hx
        have h1 : 1 + x ≠ 0 := by linarith [h0 x hx]
        have : ContinuousAt csPv02 x :=
          (((inv1_deriv h1 (-3)).const_mul (-2)).continuousAt.add continuousAt_const).add
            (continuousAt_const.mul continuousAt_id)
        exact this.continuousWithinAt
      · intro x hx
        exact (cs_hasDeriv2 (by linarith [h0 x hx])).continuousAt.continuousWithinAt
      · exact fun x hx => (pos x (h0 x hx).le).ne'
  have ha : 0 < critEq (carnahanStarling lg) 1 0.1 := by
    rw [e]; unfold csPv01 csPv02; norm_num
  have hb : critEq (carnahanStarling lg) 1 0.2 < 0 := by
    rw [e]; unfold csPv01 csPv02; norm_num
  obtain ⟨f, ⟨h1, h2⟩, h3⟩ := intermediate_value_Ioo' (by norm_num : (0.1 : ℝ) ≤ 0.2) cont
    (show (0 : ℝ) ∈ Set.Ioo (critEq (carnahanStarling lg) 1 0.2) (critEq (carnahanStarling lg) 1 0.1)
      from ⟨hb, ha⟩)
  have hf : 0 < f := lt_trans (by norm_num) h1
  have hb2 : 0 < beta2 f 1 := by
    have e2 : beta2 f 1 = beta f 1 * (Q1 f 1 ^ 2 - Q2 f 1) := by unfold beta2 beta1; ring
    rw [e2, eA, eB]
    exact mul_pos (exp_pos _) (hden f hf.le)
  exact ⟨f, h1, h2, h3, hb2, div_pos (div_pos (pos f hf.le) hf) hb2⟩

/-- the hypotheses of the theorem on the critical point can be met -/
example (lg : ℝ → ℝ) : ∃ S : Solvers, 0 < (criticalPoint S (carnahanStarling lg) 1).1
    ∧ Analytic lg (carnahanStarling lg) (criticalPoint S (carnahanStarling lg) 1).1
    ∧ beta2 (criticalPoint S (carnahanStarling lg) 1).1 1 ≠ 0
    ∧ critEq (carnahanStarling lg) 1 (criticalPoint S (carnahanStarling lg) 1).1 = 0 := by
  obtain ⟨f, h1, -, h3, h4, -⟩ := C185_exists lg
  exact ⟨⟨fun _ _ _ => f, fun _ x => x, fun _ x => x, fun _ x => x, fun _ a _ => a⟩,
    lt_trans (by norm_num) h1, Or.inl rfl, h4.ne', h3⟩

/-- C185: the spinodal: one line per osmotic pressure asked for (from the critical one to eight times it
by default), and where the minimiser has found a minimum inside its bounds the pressure has a
horizontal tangent. -/
theorem C185_spinodal (S : Solvers) (E : EOS) (q : ℝ) (pivs : List ℝ) :
    (spinodalGL S E q (some pivs)).map (fun r => r.1) = pivs
    ∧ ∀ r ∈ spinodalGL S E q (some pivs),
      (IsLocalMin (fun f => -E.pv f r.1 q) r.2.1 → deriv (fun f => E.pv f r.1 q) r.2.1 = 0)
      ∧ (IsLocalMin (fun f => E.pv f r.1 q) r.2.2 → deriv (fun f => E.pv f r.1 q) r.2.2 = 0)
      ∧ (0 < E.pv01 r.2.1 → Smooth E r.2.1 → IsLocalMin (fun f => -E.pv f r.1 q) r.2.1 →
          r.1 * (r.2.1 * beta2 r.2.1 q) = E.pv01 r.2.1) := by
  constructor
  · simp only [spinodalGL, Option.getD_some, List.map_map]
    have : (fun r : ℝ × ℝ × ℝ => r.1) ∘ spinodalRow S E q (criticalPoint S E q).1 = id := rfl
    rw [this, List.map_id]
  · intro r _
    refine ⟨fun h => ?_, fun h => h.deriv_eq_zero, fun _ s h => ?_⟩
    · have := h.deriv_eq_zero
      rw [deriv.fun_neg] at this
      linarith
    · have h0 := h.deriv_eq_zero
      rw [deriv.fun_neg] at h0
      have h1 := (s.pv_deriv r.1 q).1
      linarith

/-- a minimiser that finds a minimum between its bounds when there is one -/
def FindsMin (m : Fminbound) : Prop :=
  ∀ (g : ℝ → ℝ) (a b : ℝ), (∃ x ∈ Set.Icc a b, IsMinOn g (Set.Icc a b) x) →
    m g a b ∈ Set.Icc a b ∧ IsMinOn g (Set.Icc a b) (m g a b)

theorem findsMin_exists : ∃ m : Fminbound, FindsMin m := by
  classical
  refine ⟨fun g a b => if h : ∃ x ∈ Set.Icc a b, IsMinOn g (Set.Icc a b) x then h.choose else a,
    fun g a b h => ?_⟩
  simp only [dif_pos h]
  exact h.choose_spec

/-- C185: with such a minimiser, where the pressure is continuous the gas side of the spinodal is its
largest value below the critical packing and the liquid side its smallest one above. -/
theorem C185_spinodal_sides (S : Solvers) (hS : FindsMin S.minb) (E : EOS) (q : ℝ) (pivs : List ℝ)
    (r : ℝ × ℝ × ℝ) (hr : r ∈ spinodalGL S E q (some pivs)) (fc : ℝ) (hfc : fc = (criticalPoint S E q).1)
    (h0 : 0 ≤ fc) (h1 : fc ≤ E.maxf)
    (hc : ContinuousOn (fun f => E.pv f r.1 q) (Set.Icc 0 E.maxf)) :
    (0 ≤ r.2.1 ∧ r.2.1 ≤ fc ∧ ∀ f, 0 ≤ f → f ≤ fc → E.pv f r.1 q ≤ E.pv r.2.1 r.1 q)
    ∧ (fc ≤ r.2.2 ∧ r.2.2 ≤ E.maxf ∧ ∀ f, fc ≤ f → f ≤ E.maxf → E.pv r.2.2 r.1 q ≤ E.pv f r.1 q) := by
  simp only [spinodalGL, Option.getD_some, List.mem_map] at hr
  obtain ⟨piv, -, rfl⟩ := hr
  rw [← hfc]
  simp only [spinodalRow] at hc ⊢
  have c1 := hc.mono (Set.Icc_subset_Icc_right h1)
  have c2 := hc.mono (Set.Icc_subset_Icc_left h0)
  obtain ⟨m1, m2⟩ := hS (fun f => -E.pv f piv q) 0 fc
    (isCompact_Icc.exists_isMinOn (Set.nonempty_Icc.2 h0) c1.neg)
  obtain ⟨m3, m4⟩ := hS (fun f => E.pv f piv q) fc E.maxf
    (isCompact_Icc.exists_isMinOn (Set.nonempty_Icc.2 h1) c2)
  refine ⟨⟨m1.1, m1.2, fun f a b => ?_⟩, m3.1, m3.2, fun f a b => ?_⟩
  · have := isMinOn_iff.1 m2 f ⟨a, b⟩
    linarith
  · exact isMinOn_iff.1 m4 f ⟨a, b⟩

/-- such a minimiser, and a class with a continuous pressure -/
example (lg : ℝ → ℝ) : ∃ S : Solvers, FindsMin S.minb
    ∧ (∃ r, r ∈ spinodalGL S (carnahanStarling lg) 1 (some [0])
      ∧ ContinuousOn (fun f => (carnahanStarling lg).pv f r.1 1) (Set.Icc 0 (carnahanStarling lg).maxf))
    ∧ 0 ≤ (criticalPoint S (carnahanStarling lg) 1).1
    ∧ (criticalPoint S (carnahanStarling lg) 1).1 ≤ (carnahanStarling lg).maxf := by
  obtain ⟨m, hm⟩ := findsMin_exists
  refine ⟨⟨fun _ _ _ => 1, fun _ x => x, fun _ x => x, fun _ x => x, m⟩, hm,
    ⟨_, List.mem_singleton_self _, fun x hx => ?_⟩, zero_le_one, ?_⟩
  · have h1 : 1 + x ≠ 0 := by linarith [hx.1]
    have e : (fun f => (carnahanStarling lg).pv f 0 1) = csPv0 := by
      funext f
      show csPv0 f + 0 * h f 1 = csPv0 f
      ring
    exact e ▸ (cs_hasDeriv h1).continuousAt.continuousWithinAt
  · show (1 : ℝ) ≤ baseMaxf
    unfold baseMaxf vf2f
    norm_num

/-- a solver that finds a root when there is one -/
def Finds {n : Nat} (s : Fsolve n) : Prop :=
  ∀ (G : (Fin n → ℝ) → Fin n → ℝ) (x : Fin n → ℝ), (∃ y, G y = 0) → G (s G x) = 0

theorem finds_exists (n : Nat) : ∃ s : Fsolve n, Finds s := by
  classical
  refine ⟨fun G x => if h : ∃ y, G y = 0 then h.choose else x, fun G x h => ?_⟩
  simp only [dif_pos h]
  exact h.choose_spec

theorem binEq_iff {lg : ℝ → ℝ} {E : EOS} (hE : IsEos lg E) (piv q : ℝ) (F : Fin 2 → ℝ) :
    binEq E piv q F = 0 ↔ E.pv (exp (F 0)) piv q = E.pv (exp (F 1)) piv q
      ∧ E.mu (exp (F 0)) piv q = E.mu (exp (F 1)) piv q := by
  unfold binEq
  rw [(C184_variables lg E hE (F 0) piv q).1, (C184_variables lg E hE (F 1) piv q).1,
    (C184_variables lg E hE (F 0) piv q).2.1, (C184_variables lg E hE (F 1) piv q).2.1]
  constructor
  · intro h
    have h0 := congrFun h 0
    have h1 := congrFun h 1
    simp at h0 h1
    exact ⟨by linarith, by linarith⟩
  · rintro ⟨h0, h1⟩
    funext i
    fin_cases i <;> simp [h0, h1]

theorem binEq_trivial (E : EOS) (piv q x : ℝ) : binEq E piv q (fun _ => x) = 0 := by
  funext i
  unfold binEq
  fin_cases i <;> simp

/-- C185: with a solver that finds a root, the two packings of `binodalGL` have the same pressure and
the same chemical potential, for every class, size ratio, osmotic pressure and guess. -/
theorem C185_binodal (S : Solvers) (hS : Finds S.s2) {lg : ℝ → ℝ} {E : EOS} (hE : IsEos lg E)
    (piv q : ℝ) (guess : Option (Fin 2 → ℝ)) :
    E.pv (exp (binodalGL S E piv q guess 0)) piv q = E.pv (exp (binodalGL S E piv q guess 1)) piv q
    ∧ E.mu (exp (binodalGL S E piv q guess 0)) piv q
      = E.mu (exp (binodalGL S E piv q guess 1)) piv q := by
  refine (binEq_iff hE piv q _).1 ?_
  unfold binodalGL
  exact hS _ _ ⟨fun _ => 0, binEq_trivial E piv q 0⟩

example : ∃ S : Solvers, Finds S.s2 ∧ IsEos logOnePlusX (carnahanStarling logOnePlusX) := by
  obtain ⟨s, hs⟩ := finds_exists 2
  exact ⟨⟨fun _ x => x, s, fun _ x => x, fun _ x => x, fun _ a _ => a⟩, hs, Or.inl rfl⟩

/-- C185: but two equal packings are a root at every osmotic pressure, below the critical one too: the
equations do not ensure that there are two phases.  Without polymers it is the only kind of root. -/
theorem C185_trivial_counterexample (E : EOS) (piv q x : ℝ) :
    binEq E piv q (fun _ => x) = 0
    ∧ ∀ lg, (E = carnahanStarling lg ∨ E = kolafa lg) → ∀ F, binEq E 0 q F = 0 → F 0 = F 1 := by
  constructor
  · exact binEq_trivial E piv q x
  · intro lg hE F h
    have h0 := congrFun h 0
    have e : ∀ y, E.pvOfLog y 0 q = E.pv0 (exp y) := by
      intro y; unfold Core.pvOfLog Core.pv; ring
    simp only [binEq, Matrix.cons_val_zero, Pi.zero_apply, e] at h0
    have m := (C183_increasing lg E hE).2
    have := m.injOn (show exp (F 0) ∈ Set.Ici (0 : ℝ) from (exp_pos _).le)
      (show exp (F 1) ∈ Set.Ici (0 : ℝ) from (exp_pos _).le) (by linarith)
    exact exp_injective this

end Phase
end Py
end Colloids
