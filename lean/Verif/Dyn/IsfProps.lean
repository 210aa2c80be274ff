import Verif.Dyn.MsdProps
import Mathlib.Algebra.Order.BigOperators.Ring.Finset

/-! # C63: scattering functions -/

namespace Colloids
namespace Dyn

/-- A loop in which each step succeeds or is undefined, and one step is always undefined, is undefined. -/
theorem foldlM_ub {σ β : Type} (F : σ → β → R σ) (P : σ → Prop) (l : List β) (s : σ) (hs : P s)
    (hF : ∀ s x, x ∈ l → P s → F s x = .error .ub ∨ ∃ s', F s x = .ok s' ∧ P s')
    (hub : ∃ x ∈ l, ∀ s, P s → F s x = .error .ub) : l.foldlM F s = .error .ub := by
  induction l generalizing s with
  | nil => obtain ⟨x, hx, -⟩ := hub; simp at hx
  | cons a l ih =>
    rw [List.foldlM_cons]
    rcases hF s a (by simp) hs with h | ⟨s', h, hs'⟩
    · rw [h]; rfl
    · rw [h, ok_bind]
      apply ih s' hs' (fun s x hx => hF s x (by simp [hx]))
      obtain ⟨x, hx, hx'⟩ := hub
      rcases List.mem_cons.1 hx with rfl | hx
      · rw [hx' s hs] at h; cases h
      · exact ⟨x, hx, hx'⟩

noncomputable section

/-- The cosines and sines of the places. -/
def cs (q : Coord ℝ) (x : Nat → Nat → Coord ℝ) (tr t : Nat) : ℝ × ℝ :=
  (Real.cos (dot3 (x tr t) q), Real.sin (dot3 (x tr t) q))

theorem isfTables_eq {D : DynParts ℝ} {sel : List Nat} {q : Coord ℝ} {t0 rows : Nat}
    {x : Nat → Nat → Coord ℝ} (hx : ∀ tr ∈ sel, ∀ t, t0 ≤ t → t < t0 + rows → at_ D tr t = .ok (x tr t)) :
    isfTables D sel q t0 rows = .ok (tab rows (fun t => sel.map (fun tr => cs q x tr (t + t0)))) := by
  unfold isfTables
  apply mapM_tab
  intro t ht
  apply TreeIndex.mapM_ok_of
  intro tr htr
  rw [hx tr htr (t + t0) (by omega) (by omega), ok_bind]
  rfl

theorem isfProduct_eq {sel : List Nat} {q : Coord ℝ} {t0 rows : Nat} {x : Nat → Nat → Coord ℝ} {i j : Nat}
    (hi : i < rows) (hj : j < rows) :
    isfProduct (tab rows (fun t => sel.map (fun tr => cs q x tr (t + t0)))) i j =
      .ok ((sel.map (fun tr => Real.cos (dot3 (x tr (i + t0) - x tr (j + t0)) q))).sum) := by
  unfold isfProduct
  rw [getR_tab hi, ok_bind, getR_tab hj, ok_bind, pure_eq_ok]
  congr 1
  induction sel with
  | nil => rfl
  | cons a l ih =>
    simp only [List.map_cons, List.zipWith_cons_cons, List.sum_cons, ih]
    congr 1
    have : dot3 (x a (i + t0) - x a (j + t0)) q = dot3 (x a (i + t0)) q - dot3 (x a (j + t0)) q := by
      unfold dot3
      simp only [Pi.sub_apply]
      ring
    rw [this, Real.cos_sub]
    rfl

theorem isfProduct_ub {sel : List Nat} {q : Coord ℝ} {t0 rows : Nat} {x : Nat → Nat → Coord ℝ} {i j : Nat}
    (hi : rows ≤ i) :
    isfProduct (tab rows (fun t => sel.map (fun tr => cs q x tr (t + t0)))) i j = .error .ub := by
  unfold isfProduct
  rw [getR_eq_ub (by rw [tab_length]; exact hi)]
  rfl

/-- C63. The self part of the intermediate scattering function averaged over `t3` starts: at lag `d` it is
the mean over the trajectories and the starts of the cosine of the displacement along `q`. All values are
between -1 and 1, and the first one is 1. Missing: `t3 = 0`, see `C63_greedy_counterexample`, and the
documented last lag. -/
theorem C63_self_partial {D : DynParts ℝ} {sel : List Nat} (hne : sel ≠ []) {q : Coord ℝ} {t0 t1 t3 : Nat}
    (h01 : t0 < t1) (h3 : 0 < t3) {x : Nat → Nat → Coord ℝ} (hx : Places D sel t0 (t1 + t3 - 1) x) :
    ∃ l, getSelfISF D sel q t0 t1 t3 = .ok l ∧ l.length = t1 - t0 ∧ l[0]? = some 1 ∧
      (∀ y ∈ l, |y| ≤ 1) ∧
      ∀ d, d < t1 - t0 → l[d]? = some ((∑ s ∈ Finset.range t3,
        (sel.map (fun tr => Real.cos (dot3 (x tr (t0 + s + d) - x tr (t0 + s)) q))).sum) /
        (t3 * sel.length)) := by
  have hlen0 : 0 < sel.length := List.length_pos_iff.2 hne
  have hlen : (0 : ℝ) < sel.length := by exact_mod_cast hlen0
  have h3' : (0 : ℝ) < t3 := by exact_mod_cast h3
  let F : Nat → ℝ := fun d => (∑ s ∈ Finset.range t3,
        (sel.map (fun tr => Real.cos (dot3 (x tr (t0 + s + d) - x tr (t0 + s)) q))).sum) /
        (t3 * sel.length)
  have h0 : F 0 = 1 := by
    simp only [F, Nat.add_zero, sub_self]
    have : dot3 (0 : Coord ℝ) q = 0 := by simp [dot3]
    simp only [this, Real.cos_zero, List.map_const', List.sum_replicate, nsmul_eq_mul, mul_one,
      Finset.sum_const, Finset.card_range]
    exact div_self (by positivity)
  have hrow : ∀ s, s < t3 → ∀ d, d < t1 - t0 →
      isfProduct (tab (t1 + t3 - t0) (fun t => sel.map (fun tr => cs q x tr (t + t0)))) (s + d) s
      = .ok ((sel.map (fun tr => Real.cos (dot3 (x tr (t0 + s + d) - x tr (t0 + s)) q))).sum) := by
    intro s hs d hd
    rw [isfProduct_eq (by omega) (by omega), show s + d + t0 = t0 + s + d by omega, show s + t0 = t0 + s by omega]
  have key : ∀ m, m < t1 - t0 → (List.range' 1 m).foldlM (fun (sum : List ℝ) Dt => do
      let x ← (List.range t3).foldlM (fun (y : ℝ) start => do
        let z ← isfProduct (tab (t1 + t3 - t0) (fun t => sel.map (fun tr => cs q x tr (t + t0)))) (start + Dt) start
        pure (y + z)) 0
      setR sum Dt (x / (t3 * sel.length))) (tab (t1 - t0) (fun _ => 0))
      = .ok (tab (t1 - t0) (fun d => if 1 ≤ d ∧ d ≤ m then F d else 0)) := by
    intro m
    induction m with
    | zero =>
      intro _
      simp only [List.range'_zero, List.foldlM_nil, pure_eq_ok]
      congr 1
      apply tab_congr
      intro d _
      rw [if_neg (by omega)]
    | succ m ih =>
      intro hm
      rw [List.range'_concat, List.foldlM_append, ih (by omega), ok_bind]
      simp only [List.foldlM_cons, List.foldlM_nil]
      have : (List.range t3).foldlM (fun (y : ℝ) start => do
          let z ← isfProduct (tab (t1 + t3 - t0) (fun t => sel.map (fun tr => cs q x tr (t + t0))))
            (start + (1 + 1 * m)) start
          pure (y + z)) 0 = .ok (0 + ((List.range t3).map (fun s =>
            (sel.map (fun tr => Real.cos (dot3 (x tr (t0 + s + (m + 1)) - x tr (t0 + s)) q))).sum)).sum) := by
        apply Boo.foldlM_add
        intro acc s hs
        rw [show 1 + 1 * m = m + 1 by omega, hrow s (List.mem_range.1 hs) _ (by omega), ok_bind]
        rfl
      rw [this, ok_bind, zero_add, show 1 + 1 * m = m + 1 by omega, setR_tab _ (by omega)]
      simp only [pure_eq_ok, ok_bind]
      congr 1
      apply tab_congr
      intro d hd
      by_cases hdm : d = m + 1
      · subst hdm
        rw [if_pos rfl, if_pos (by omega)]
        simp only [F]
        rw [← List.sum_toFinset _ List.nodup_range, List.toFinset_range]
      · by_cases hd' : 1 ≤ d ∧ d ≤ m
        · rw [if_neg hdm, if_pos hd', if_pos (by omega)]
        · rw [if_neg hdm, if_neg hd', if_neg (by omega)]
  have hres : getSelfISF D sel q t0 t1 t3 = .ok (tab (t1 - t0) F) := by
    unfold getSelfISF
    rw [isfTables_eq (fun tr htr t h1 h2 => hx tr htr t h1 (by omega)), ok_bind]
    simp only
    rw [if_neg (by omega), replicate_eq_tab, key _ (by omega), ok_bind, setR_tab _ (by omega)]
    congr 1
    apply tab_congr
    intro d hd
    by_cases hd0 : d = 0
    · subst hd0; rw [if_pos rfl, h0]
    · rw [if_neg hd0, if_pos (by omega)]
  refine ⟨_, hres, tab_length _ _, ?_, ?_, ?_⟩
  · rw [← getR_ok, getR_tab (by omega), h0]
  · intro y hy
    obtain ⟨d, -, rfl⟩ := List.mem_map.1 hy
    have hpos : (0 : ℝ) < t3 * sel.length := by positivity
    simp only [F]
    rw [abs_div, abs_of_pos hpos, div_le_one hpos]
    refine le_trans (Finset.abs_sum_le_sum_abs _ _) ?_
    have hb : ∀ s ∈ Finset.range t3,
        |(sel.map (fun tr => Real.cos (dot3 (x tr (t0 + s + d) - x tr (t0 + s)) q))).sum| ≤ sel.length := by
      intro s _
      clear hne hlen hlen0 hx hrow key hres hpos hy h0 F
      induction sel with
      | nil => simp
      | cons a l ih =>
        simp only [List.map_cons, List.sum_cons, List.length_cons]
        refine le_trans (abs_add_le _ _) ?_
        push_cast
        have := Real.abs_cos_le_one (dot3 (x a (t0 + s + d) - x a (t0 + s)) q)
        linarith
    refine le_trans (Finset.sum_le_sum hb) ?_
    simp
  · intro d hd
    rw [← getR_ok, getR_tab hd]

/-- C63. With the default `t3 = 0`, documented as the greedy average, `getSelfISF` is always undefined: it
reads the tables and writes its result one element after their ends. -/
theorem C63_greedy_counterexample {D : DynParts ℝ} {sel : List Nat} {q : Coord ℝ} {t0 t1 : Nat}
    (h01 : t0 ≤ t1) {x : Nat → Nat → Coord ℝ} (hx : Places D sel t0 t1 x) :
    getSelfISF D sel q t0 t1 0 = .error .ub := by
  unfold getSelfISF
  rw [isfTables_eq (x := x) (fun tr htr t h1 h2 => hx tr htr t h1 (by omega)), ok_bind]
  simp only [if_true, Nat.add_zero]
  by_cases h : t0 = t1
  · subst h
    simp only [Nat.sub_self, nbStart, List.replicate_zero]
    rfl
  · rw [nbStart_eq _ (by omega), ok_bind, replicate_eq_tab]
    have hub : lagSums t0 t1 (fun start stop => isfProduct
        (tab (t1 - t0) (fun t => sel.map (fun tr => cs q x tr (t + t0)))) (stop - t0) (start - t0))
        (tab (t1 - t0) (fun _ => 0), tab (t1 - t0) (fun d => if d = 0 then 1 else 0)) = .error .ub := by
      obtain ⟨k, rfl⟩ : ∃ k, t1 = t0 + (k + 1) := ⟨t1 - t0 - 1, by omega⟩
      apply lagSums_error _ (fun s e =>
        (sel.map (fun tr => Real.cos (dot3 (x tr (e - t0 + t0) - x tr (s - t0 + t0)) q))).sum) t0 k _ (by omega)
      · intro d h1 h2
        exact isfProduct_eq (by omega) (by omega)
      · exact isfProduct_ub (by omega)
    rw [hub]
    rfl

/-! ## The collective function -/

/-- The sums over the trajectories. -/
def rho (q : Coord ℝ) (sel : List Nat) (x : Nat → Nat → Coord ℝ) (t : Nat) : ℝ × ℝ :=
  (sel.map (fun tr => cs q x tr t)).sum

theorem isfRow {D : DynParts ℝ} {sel : List Nat} {q : Coord ℝ} {x : Nat → Nat → Coord ℝ} {n t : Nat}
    (ht : t < n) (hx : ∀ tr ∈ sel, at_ D tr t = .ok (x tr t)) (f g : Nat → ℝ) :
    sel.foldlM (fun (ab : List ℝ × List ℝ) tr => do
        let x ← at_ D tr t
        let a ← modifyR ab.1 t (· + Real.cos (dot3 x q))
        let b ← modifyR ab.2 t (· + Real.sin (dot3 x q))
        pure (a, b)) (tab n f, tab n g)
      = .ok (tab n (fun u => if u = t then f u + (rho q sel x t).1 else f u),
          tab n (fun u => if u = t then g u + (rho q sel x t).2 else g u)) := by
  induction sel generalizing f g with
  | nil =>
    simp only [List.foldlM_nil, pure_eq_ok, rho, List.map_nil, List.sum_nil]
    congr 2
    · apply tab_congr; intro u _; simp
    · apply tab_congr; intro u _; simp
  | cons a l ih =>
    rw [List.foldlM_cons, hx a (by simp), ok_bind]
    simp only
    rw [Boo.modifyR_tab _ ht, ok_bind, Boo.modifyR_tab _ ht, ok_bind, pure_eq_ok, ok_bind,
      ih (fun tr htr => hx tr (by simp [htr]))]
    congr 2
    · apply tab_congr; intro u _
      by_cases h : u = t
      · simp [h, rho, cs, add_assoc]
      · simp [h]
    · apply tab_congr; intro u _
      by_cases h : u = t
      · simp [h, rho, cs, add_assoc]
      · simp [h]

/-- C63. The collective `getISF` is undefined unless `t0` is null: its tables, of `t1-t0+1` elements, are
accessed at the times themselves. -/
theorem C63_offset_counterexample {D : DynParts ℝ} {sel : List Nat} (hne : sel ≠ []) {q : Coord ℝ}
    {t0 t1 : Nat} (h0 : 0 < t0) (h01 : t0 ≤ t1) {x : Nat → Nat → Coord ℝ} (hx : Places D sel t0 t1 x) :
    getISF D sel q t0 t1 = .error .ub := by
  have hE : sel.isEmpty = false := by cases sel <;> simp_all
  unfold getISF
  simp only [hE, Bool.false_eq_true, if_false]
  have hout : ∀ (s : List ℝ × List ℝ), s.1.length = t1 - t0 + 1 → ∀ t, t1 - t0 + 1 ≤ t → t0 ≤ t → t ≤ t1 →
      sel.foldlM (fun (ab : List ℝ × List ℝ) tr => do
        let x ← at_ D tr t
        let a ← modifyR ab.1 t (· + Real.cos (dot3 x q))
        let b ← modifyR ab.2 t (· + Real.sin (dot3 x q))
        pure (a, b)) s = .error .ub := by
    intro s hs t ht h1 h2
    match sel, hne, hx with
    | a :: l, _, hx =>
      rw [List.foldlM_cons, hx a (by simp) t h1 h2, ok_bind]
      have : modifyR s.1 t (· + Real.cos (dot3 (x a t) q)) = .error .ub := by
        unfold modifyR
        rw [if_neg (by omega)]
      rw [this]
      rfl
  rw [replicate_eq_tab, foldlM_ub _ (fun s => ∃ f g, s = (tab (t1 - t0 + 1) f, tab (t1 - t0 + 1) g)) _ _
    ⟨_, _, rfl⟩ ?_ ⟨t1, ?_, ?_⟩]
  · rfl
  · rintro s t ht ⟨f, g, rfl⟩
    have ht := List.mem_range'_1.1 ht
    by_cases hlt : t < t1 - t0 + 1
    · right
      rw [isfRow hlt (fun tr htr => hx tr htr t (by omega) (by omega))]
      exact ⟨_, rfl, _, _, rfl⟩
    · left
      exact hout _ (tab_length _ _) t (by omega) (by omega) (by omega)
  · rw [List.mem_range'_1]; omega
  · rintro s ⟨f, g, rfl⟩
    exact hout _ (tab_length _ _) t1 (by omega) (by omega) (by omega)

/-- C63. From time 0, `getISF` at lag `d ≥ 1` is the mean over the starts of the product of the density
waves at both times. It is not divided by its value at lag 0, nor by the number of particles, although its
first value is set to 1. -/
theorem C63_collective_partial {D : DynParts ℝ} {sel : List Nat} (hne : sel ≠ []) {q : Coord ℝ}
    {t1 : Nat} {x : Nat → Nat → Coord ℝ} (hx : Places D sel 0 t1 x) :
    ∃ l, getISF D sel q 0 t1 = .ok l ∧ l.length = t1 + 1 ∧ l[0]? = some 1 ∧
      ∀ d, 1 ≤ d → d ≤ t1 → l[d]? = some ((∑ s ∈ Finset.Icc 0 (t1 - d),
        ((rho q sel x (s + d)).1 * (rho q sel x s).1 + (rho q sel x (s + d)).2 * (rho q sel x s).2)) /
        (Finset.Icc 0 (t1 - d)).card) := by
  have hlen : (sel.length : ℝ) ≠ 0 := by
    have : sel.length ≠ 0 := by simpa using hne
    exact_mod_cast this
  have hE : sel.isEmpty = false := by cases sel <;> simp_all
  have key : ∀ m, m ≤ t1 + 1 → (List.range' 0 m).foldlM (fun (ab : List ℝ × List ℝ) t =>
      sel.foldlM (fun (ab : List ℝ × List ℝ) tr => do
        let x ← at_ D tr t
        let a ← modifyR ab.1 t (· + Real.cos (dot3 x q))
        let b ← modifyR ab.2 t (· + Real.sin (dot3 x q))
        pure (a, b)) ab) (tab (t1 + 1) (fun _ => 0), tab (t1 + 1) (fun _ => 0))
      = .ok (tab (t1 + 1) (fun u => if u < m then (rho q sel x u).1 else 0),
          tab (t1 + 1) (fun u => if u < m then (rho q sel x u).2 else 0)) := by
    intro m
    induction m with
    | zero => intro _; simp [pure_eq_ok]
    | succ m ih =>
      intro hm
      rw [List.range'_concat, List.foldlM_append, ih (by omega), ok_bind]
      simp only [List.foldlM_cons, List.foldlM_nil, one_mul, Nat.zero_add]
      rw [isfRow (by omega) (fun tr htr => hx tr htr m (by omega) (by omega))]
      simp only [pure_eq_ok, ok_bind]
      congr 2
      · apply tab_congr; intro u _
        by_cases h : u = m
        · subst h; simp
        · simp only [if_neg h, show (u < m + 1) ↔ u < m by omega]
      · apply tab_congr; intro u _
        by_cases h : u = m
        · subst h; simp
        · simp only [if_neg h, show (u < m + 1) ↔ u < m by omega]
  let W : Nat → Nat → ℝ := fun s e =>
    (rho q sel x e).1 * (rho q sel x s).1 + (rho q sel x e).2 * (rho q sel x s).2
  let F : Nat → ℝ := fun d => (∑ s ∈ Finset.Icc 0 (t1 - d), W s (s + d)) / (Finset.Icc 0 (t1 - d)).card
  have hres : getISF D sel q 0 t1 = .ok (tab (t1 + 1) (fun d => if d = 0 then 1 else F d)) := by
    unfold getISF
    simp only [hE, Bool.false_eq_true, if_false, Nat.sub_zero]
    rw [replicate_eq_tab, key _ (le_refl _), ok_bind, nbStart_eq _ (by omega), ok_bind,
      lagSums_eq _ (fun s e => (sel.length : ℝ) * W s e) 0 t1 (t1 + 1) (by omega) ?_, ok_bind, zipWith_tab,
      setR_tab _ (by omega)]
    · congr 1
      apply tab_congr
      intro d hd
      by_cases hd0 : d = 0
      · rw [if_pos hd0, if_pos hd0]
      · rw [if_neg hd0, if_neg hd0, if_neg hd0, if_pos (by omega), if_pos (by omega), zero_add, zero_add]
        have hI : Finset.Icc 0 (t1 - d) = Finset.Ico 0 (0 + (t1 - 0 + 1 - d)) := by
          ext s; simp only [Finset.mem_Icc, Finset.mem_Ico]; omega
        have hc : (Finset.Icc 0 (t1 - d)).card = t1 - 0 + 1 - d := by rw [Nat.card_Icc]; omega
        simp only [F]
        rw [hc, hI]
        unfold lagSum
        rw [sum_range'_Ico (fun s => (sel.length : ℝ) * W s (s + d)), ← Finset.mul_sum]
        have hk : ((t1 - 0 + 1 - d : Nat) : ℝ) ≠ 0 := by
          have : t1 - 0 + 1 - d ≠ 0 := by omega
          exact_mod_cast this
        field_simp
    · intro s e h1 h2 h3
      rw [getR_tab (by omega), ok_bind, getR_tab (by omega), ok_bind, getR_tab (by omega), ok_bind,
        getR_tab (by omega), ok_bind]
      simp only [show s < t1 + 1 by omega, show e < t1 + 1 by omega, if_true]
      rfl
  refine ⟨_, hres, tab_length _ _, ?_, ?_⟩
  · rw [← getR_ok, getR_tab (by omega), if_pos rfl]
  · intro d h1 h2
    rw [← getR_ok, getR_tab (by omega), if_neg (by omega)]

/-- C63. So the function of particles that do not move is not constant: two particles at the same place
give 1 then 4. -/
theorem C63_static_counterexample {D : DynParts ℝ} {q y : Coord ℝ}
    (hx : Places D [0, 1] 0 1 (fun _ _ => y)) :
    ∃ l, getISF D [0, 1] q 0 1 = .ok l ∧ l = [1, 4] := by
  obtain ⟨l, h1, h2, h3, h4⟩ := C63_collective_partial (sel := [0, 1]) (by simp) (q := q) hx
  refine ⟨l, h1, ?_⟩
  have := h4 1 (le_refl _) (le_refl _)
  match l, h2, h3, this with
  | [a, b], _, h3, h =>
    simp only [List.getElem?_cons_zero, Option.some.injEq] at h3
    simp only [List.getElem?_cons_succ, List.getElem?_cons_zero, Option.some.injEq] at h
    rw [h3, h]
    congr 2
    simp only [Nat.sub_self, Finset.Icc_self, Finset.sum_singleton, Finset.card_singleton, rho, cs,
      List.map_cons, List.map_nil, List.sum_cons, List.sum_nil, Prod.mk_add_mk, add_zero]
    have := Real.sin_sq_add_cos_sq (dot3 y q)
    push_cast
    linear_combination 4 * this

/-- Two particles at the same place in two frames. -/
def exStill : DynParts ℝ :=
  ⟨[⟨[![0, 0, 0], ![0, 0, 0]], ⟨fun _ => 0, fun _ => 10⟩, 1, none⟩,
    ⟨[![0, 0, 0], ![0, 0, 0]], ⟨fun _ => 0, fun _ => 10⟩, 1, none⟩],
   ⟨[⟨0, [0, 0]⟩, ⟨0, [1, 1]⟩], [[0, 1], [0, 1]]⟩, 1, none, []⟩

example : Places exStill [0, 1] 0 1 (fun _ _ => ![0, 0, 0]) := by
  intro tr htr t _ ht
  have h1 : ∀ t ≤ 1, Traj.at_ ⟨0, [0, 0]⟩ t = .ok 0 := by decide +kernel
  have h2 : ∀ t ≤ 1, Traj.at_ ⟨0, [1, 1]⟩ t = .ok 1 := by decide +kernel
  simp only [List.mem_cons, List.not_mem_nil, or_false] at htr
  rcases htr with rfl | rfl
  · unfold at_
    rw [getR_ok.2 (show exStill.trajectories.trajs[0]? = some ⟨0, [0, 0]⟩ from rfl), ok_bind, h1 t ht]
    match t, ht with
    | 0, _ => rfl
    | 1, _ => rfl
  · unfold at_
    rw [getR_ok.2 (show exStill.trajectories.trajs[1]? = some ⟨0, [1, 1]⟩ from rfl), ok_bind, h2 t ht]
    match t, ht with
    | 0, _ => rfl
    | 1, _ => rfl

end

end Dyn
end Colloids
