import Verif.Dyn.IsfWrapModel
import Verif.Dyn.IsfProps
import Verif.Dyn.NgpProps

/-! # C124, C125: scattering functions of intervals -/

namespace Colloids
namespace Dyn

noncomputable section

/-- Sum over the trajectories of the cosine of the displacement along `q` between the times `s` and `e`. -/
def sumCos (sel : List Nat) (x : Nat → Nat → Coord ℝ) (q : Coord ℝ) (s e : Nat) : ℝ :=
  (sel.map fun tr => Real.cos (dot3 (x tr e - x tr s) q)).sum

theorem sumCos_self (sel : List Nat) (x : Nat → Nat → Coord ℝ) (q : Coord ℝ) (s : Nat) :
    sumCos sel x q s s = sel.length := by
  have : dot3 (0 : Coord ℝ) q = 0 := by simp [dot3]
  simp [sumCos, this]

theorem abs_sumCos_le (sel : List Nat) (x : Nat → Nat → Coord ℝ) (q : Coord ℝ) (s e : Nat) :
    |sumCos sel x q s e| ≤ sel.length := by
  unfold sumCos
  induction sel with
  | nil => simp
  | cons a l ih =>
    simp only [List.map_cons, List.sum_cons, List.length_cons]
    refine le_trans (abs_add_le _ _) ?_
    push_cast
    have := Real.abs_cos_le_one (dot3 (x a e - x a s) q)
    linarith

theorem selfSingle_eq {D : DynParts ℝ} {sel : List Nat} (hne : sel ≠ []) {q : Coord ℝ} {s n : Nat} (hn : 0 < n)
    {x : Nat → Nat → Coord ℝ} (hx : Places D sel s (s + n) x) :
    selfSingle D sel q s (s + n) = .ok (tab n fun d => some (sumCos sel x q s (s + d) / sel.length)) := by
  have hE : sel.isEmpty = false := by cases sel <;> simp_all
  obtain ⟨l, h1, h2, -, -, h5⟩ := C63_self_partial (D := D) (q := q) (t0 := s) (t1 := s + n) (t3 := 1) hne (by omega)
    (by omega) (x := x) (by simpa using hx)
  unfold selfSingle
  rw [hE]
  simp only [Bool.false_eq_true, if_false]
  rw [h1, ok_bind, pure_eq_ok]
  congr 1
  apply List.ext_getElem?
  intro d
  by_cases hd : d < n
  · have : (tab n fun d => some (sumCos sel x q s (s + d) / (sel.length : ℝ)))[d]? =
        some (some (sumCos sel x q s (s + d) / (sel.length : ℝ))) := by rw [← getR_ok, getR_tab hd]
    rw [this, List.getElem?_map, h5 d (by omega)]
    simp [sumCos]
  · rw [List.getElem?_eq_none (by rw [List.length_map]; omega), List.getElem?_eq_none (by rw [tab_length]; omega)]

theorem isfAdd_eq {D : DynParts ℝ} {sel : List Nat} (hne : sel ≠ []) {q : Coord ℝ} {s n : Nat} (hn : 0 < n)
    {x : Nat → Nat → Coord ℝ} (hx : Places D sel s (s + n) x) (f : Nat → ℝ) :
    isfAdd D sel s (s + n) (tab n fun d => some (f d)) q = .ok (tab n fun d => some (f d + sumCos sel x q s (s + d))) := by
  have hlen : (sel.length : ℝ) ≠ 0 := by
    have : sel.length ≠ 0 := by simpa using hne
    exact_mod_cast this
  unfold isfAdd
  rw [selfSingle_eq hne hn hx, ok_bind, zipWith_tab, pure_eq_ok]
  congr 1
  apply tab_congr
  intro d _
  simp only [Option.bind_some, Option.map_some]
  congr 2
  field_simp

theorem isfAdds_eq {D : DynParts ℝ} {sel : List Nat} (hne : sel ≠ []) (qs : List (Coord ℝ)) {s n : Nat} (hn : 0 < n)
    {x : Nat → Nat → Coord ℝ} (hx : Places D sel s (s + n) x) (f : Nat → ℝ) :
    qs.foldlM (isfAdd D sel s (s + n)) (tab n fun d => some (f d)) =
      .ok (tab n fun d => some (f d + (qs.map fun q => sumCos sel x q s (s + d)).sum)) := by
  induction qs generalizing f with
  | nil => simp [pure_eq_ok]
  | cons q qs ih =>
    rw [List.foldlM_cons, isfAdd_eq hne hn hx, ok_bind, ih]
    simp [add_assoc]

theorem pooledISF_eq {D : DynParts ℝ} (hw : Wf D) (hi : D.index = none) {t0 t1 t2 : Nat} (h01 : t0 < t1)
    (h1 : ∀ s, t0 ≤ s → s < t2 → s + (t1 - t0) < D.positions.length) (sel : Nat → List Nat)
    (hsel : ∀ s, t0 ≤ s → s < t2 → IsSpanning D s (s + (t1 - t0)) (sel s) ∧ sel s ≠ []) (x : Nat → Nat → Coord ℝ)
    (hx : ∀ tr t, Exists D tr t → at_ D tr t = .ok (x tr t)) (qs : List (Coord ℝ)) :
    pooledISF D qs t0 t1 t2 = .ok (tab (t1 - t0) (fun d => some (∑ s ∈ Finset.Ico t0 t2,
      (qs.map fun q => sumCos (sel s) x q s (s + d)).sum)), ∑ s ∈ Finset.Ico t0 t2, (sel s).length) := by
  have key : ∀ m, t0 + m ≤ t2 ∨ m = 0 →
      (List.range' t0 m).foldlM (fun (s : List (Option ℝ) × Nat) start => do
        let sel ← selectSpanning D start (start + t1 - t0)
        let acc ← qs.foldlM (isfAdd D sel start (start + t1 - t0)) s.1
        pure (acc, s.2 + sel.length)) (tab (t1 - t0) (fun _ => some 0), 0)
      = .ok (tab (t1 - t0) (fun d => some (∑ s ∈ Finset.Ico t0 (t0 + m),
          (qs.map fun q => sumCos (sel s) x q s (s + d)).sum)), ∑ s ∈ Finset.Ico t0 (t0 + m), (sel s).length) := by
    intro m
    induction m with
    | zero => intro _; simp [pure_eq_ok]
    | succ m ih =>
      intro hm
      rw [List.range'_concat, List.foldlM_append, ih (by omega), ok_bind]
      simp only [List.foldlM_cons, List.foldlM_nil, one_mul]
      have hse : t0 + m + t1 - t0 = t0 + m + (t1 - t0) := by omega
      obtain ⟨hs, hne⟩ := hsel (t0 + m) (by omega) (by omega)
      rw [hse, selectSpanning_of hw hi (by omega) (h1 _ (by omega) (by omega)) hs, ok_bind,
        isfAdds_eq hne qs (by omega) (x := x) (by
          intro tr htr t ht ht'
          exact hx tr t ((hs.mem tr).1 htr t ht ht')), ok_bind]
      simp only [pure_eq_ok, ok_bind]
      congr 2
      · apply tab_congr
        intro d _
        rw [← Nat.add_assoc, Finset.sum_Ico_succ_top (by omega)]
      · rw [← Nat.add_assoc, Finset.sum_Ico_succ_top (by omega)]
  have hI : Finset.Ico t0 (t0 + (t2 - t0)) = Finset.Ico t0 t2 := by
    ext s; simp only [Finset.mem_Ico]; omega
  unfold pooledISF
  rw [replicate_eq_tab, key (t2 - t0) (by omega), hI]

theorem abs_div_le_one {a b : ℝ} (hb : 0 < b) (h : |a| ≤ b) : |a / b| ≤ 1 := by
  rw [abs_div, abs_of_pos hb, div_le_one hb]; exact h

/-- C124. `getSelfISF(q, t0, t1, t2)` with `t0 < t2`: at lag `d` it is the mean of the cosine of the displacement along
`q` from `s` to `s+d`, over the starts `s` from `t0` to `t2-1` and the trajectories that span the interval from `s` to
`s+t1-t0`; it starts at 1 and is between -1 and 1. The last lag, `t1-t0`, is missing. Missing: starts without
trajectory (`C124_empty_start_counterexample`), `t2 ≤ t0` (`C124_window_counterexample`), `t2 = 0`
(`C124_greedy_counterexample`). -/
theorem C124_along_partial {D : DynParts ℝ} (hw : Wf D) (hi : D.index = none) {t0 t1 t2 L : Nat} (h01 : t0 < t1)
    (h02 : t0 < t2) (h1 : ∀ s, t0 ≤ s → s < t2 → s + (t1 - t0) < D.positions.length)
    (hL : D.trajectories.longestSpan = .ok L) (hle : t1 - t0 + 1 ≤ L) (sel : Nat → List Nat)
    (hsel : ∀ s, t0 ≤ s → s < t2 → IsSpanning D s (s + (t1 - t0)) (sel s) ∧ sel s ≠ []) (x : Nat → Nat → Coord ℝ)
    (hx : ∀ tr t, Exists D tr t → at_ D tr t = .ok (x tr t)) (q : Coord ℝ) :
    ∃ l : List ℝ, getSelfISFAlong D q t0 t1 t2 = .ok (l.map some) ∧ l.length = t1 - t0 ∧ l[0]? = some 1 ∧
      (∀ y ∈ l, |y| ≤ 1) ∧ ∀ d, d < t1 - t0 →
        l[d]? = some ((∑ s ∈ Finset.Ico t0 t2, sumCos (sel s) x q s (s + d)) /
          ((∑ s ∈ Finset.Ico t0 t2, (sel s).length : Nat) : ℝ)) := by
  have hN : 0 < ∑ s ∈ Finset.Ico t0 t2, (sel s).length :=
    Finset.sum_pos (fun s hs => by
      have := Finset.mem_Ico.1 hs
      exact List.length_pos_iff.2 (hsel s this.1 this.2).2) ⟨t0, Finset.mem_Ico.2 ⟨le_refl _, h02⟩⟩
  have hN' : (0 : ℝ) < ((∑ s ∈ Finset.Ico t0 t2, (sel s).length : Nat) : ℝ) := by exact_mod_cast hN
  refine ⟨tab (t1 - t0) (fun d => (∑ s ∈ Finset.Ico t0 t2, sumCos (sel s) x q s (s + d)) /
          ((∑ s ∈ Finset.Ico t0 t2, (sel s).length : Nat) : ℝ)), ?_, tab_length _ _, ?_, ?_, ?_⟩
  · unfold getSelfISFAlong
    rw [hL, ok_bind, if_neg (by omega), if_neg (by omega), pooledISF_eq hw hi h01 h1 sel hsel x hx, ok_bind, pure_eq_ok]
    congr 1
    unfold tab
    rw [List.map_map, List.map_map]
    apply List.map_congr_left
    intro d _
    simp only [Function.comp, Option.bind_some, quot]
    rw [if_neg hN'.ne']
    simp
  · rw [← getR_ok, getR_tab (by omega)]
    simp only [Nat.add_zero, sumCos_self]
    rw [← Nat.cast_sum, div_self hN'.ne']
  · intro y hy
    obtain ⟨d, -, rfl⟩ := List.mem_map.1 hy
    refine abs_div_le_one hN' (le_trans (Finset.abs_sum_le_sum_abs _ _) ?_)
    rw [Nat.cast_sum]
    exact Finset.sum_le_sum fun s _ => abs_sumCos_le _ _ _ _ _
  · intro d hd
    rw [← getR_ok, getR_tab hd]

theorem dot3_wave (r : ℝ) (v : Coord ℝ) (k : Fin 3) :
    dot3 v (fun i => if i = k then Real.pi / r else 0) = v k * (Real.pi / r) := by
  fin_cases k <;> simp [dot3]

/-- C124. `getSelfISF(t0, t1, t2)`, as the program `ISF` calls it: the mean also over the three axes, with a wave length
of a diameter. -/
theorem C124_mean_partial {D : DynParts ℝ} (hw : Wf D) (hi : D.index = none) {t0 t1 t2 L : Nat} (h01 : t0 < t1)
    (h02 : t0 < t2) (h1 : t1 + t2 + 1 ≤ D.positions.length)
    (hL : D.trajectories.longestSpan = .ok L) (hle : t1 - t0 + 1 ≤ L) (sel : Nat → List Nat)
    (hsel : ∀ s, t0 ≤ s → s < t2 → IsSpanning D s (s + (t1 - t0)) (sel s) ∧ sel s ≠ []) (x : Nat → Nat → Coord ℝ)
    (hx : ∀ tr t, Exists D tr t → at_ D tr t = .ok (x tr t)) :
    ∃ l : List ℝ, getSelfISFMean D t0 t1 t2 = .ok (l.map some) ∧ l.length = t1 - t0 ∧ l[0]? = some 1 ∧
      (∀ y ∈ l, |y| ≤ 1) ∧ ∀ d, d < t1 - t0 →
        l[d]? = some ((∑ s ∈ Finset.Ico t0 t2, ∑ k : Fin 3, ((sel s).map fun tr =>
            Real.cos (2 * Real.pi * (x tr (s + d) k - x tr s k) / (2 * D.radius))).sum) /
          (((∑ s ∈ Finset.Ico t0 t2, (sel s).length : Nat) : ℝ) * 3)) := by
  have hN : 0 < ∑ s ∈ Finset.Ico t0 t2, (sel s).length :=
    Finset.sum_pos (fun s hs => by
      have := Finset.mem_Ico.1 hs
      exact List.length_pos_iff.2 (hsel s this.1 this.2).2) ⟨t0, Finset.mem_Ico.2 ⟨le_refl _, h02⟩⟩
  have hN' : (0 : ℝ) < ((∑ s ∈ Finset.Ico t0 t2, (sel s).length : Nat) : ℝ) * 3 := by
    have : (0 : ℝ) < ((∑ s ∈ Finset.Ico t0 t2, (sel s).length : Nat) : ℝ) := by exact_mod_cast hN
    linarith
  refine ⟨tab (t1 - t0) (fun d => (∑ s ∈ Finset.Ico t0 t2,
      ((waveVectors D.radius).map fun q => sumCos (sel s) x q s (s + d)).sum) /
          (((∑ s ∈ Finset.Ico t0 t2, (sel s).length : Nat) : ℝ) * 3)), ?_, tab_length _ _, ?_, ?_, ?_⟩
  · unfold getSelfISFMean
    rw [hL, ok_bind, if_neg (by omega), if_neg (by omega),
      pooledISF_eq hw hi h01 (fun s _ _ => by omega) sel hsel x hx, ok_bind, pure_eq_ok]
    congr 1
    unfold tab
    rw [List.map_map, List.map_map]
    apply List.map_congr_left
    intro d _
    simp only [Function.comp, Option.bind_some, quot]
    rw [if_neg hN'.ne']
  · rw [← getR_ok, getR_tab (by omega)]
    simp only [Nat.add_zero, sumCos_self, waveVectors, List.map_cons, List.map_nil, List.sum_cons, List.sum_nil]
    congr 1
    rw [div_eq_one_iff_eq hN'.ne']
    push_cast
    rw [Finset.sum_mul]
    apply Finset.sum_congr rfl
    intro s _
    ring
  · intro y hy
    obtain ⟨d, -, rfl⟩ := List.mem_map.1 hy
    refine abs_div_le_one hN' (le_trans (Finset.abs_sum_le_sum_abs _ _) ?_)
    rw [Nat.cast_sum, Finset.sum_mul]
    apply Finset.sum_le_sum
    intro s _
    simp only [waveVectors, List.map_cons, List.map_nil, List.sum_cons, List.sum_nil, add_zero]
    have := fun q => abs_sumCos_le (sel s) x q s (s + d)
    refine le_trans (abs_add_le _ _) ?_
    have h2 := fun a b : ℝ => abs_add_le a b
    have := h2 (sumCos (sel s) x (fun i => if i = 1 then Real.pi / D.radius else 0) s (s + d))
      (sumCos (sel s) x (fun i => if i = 2 then Real.pi / D.radius else 0) s (s + d))
    have a0 := abs_sumCos_le (sel s) x (fun i => if i = 0 then Real.pi / D.radius else 0) s (s + d)
    have a1 := abs_sumCos_le (sel s) x (fun i => if i = 1 then Real.pi / D.radius else 0) s (s + d)
    have a2 := abs_sumCos_le (sel s) x (fun i => if i = 2 then Real.pi / D.radius else 0) s (s + d)
    linarith
  · intro d hd
    rw [← getR_ok, getR_tab hd]
    congr 2
    apply Finset.sum_congr rfl
    intro s _
    have e : ∀ k : Fin 3, sumCos (sel s) x (fun i => if i = k then Real.pi / D.radius else 0) s (s + d) =
        ((sel s).map fun tr => Real.cos (2 * Real.pi * (x tr (s + d) k - x tr s k) / (2 * D.radius))).sum := by
      intro k
      unfold sumCos
      congr 1
      apply List.map_congr_left
      intro tr _
      rw [dot3_wave]
      congr 1
      simp only [Pi.sub_apply]
      rw [mul_assoc 2, mul_div_mul_left _ _ (two_ne_zero), mul_comm Real.pi, mul_div_assoc]
    rw [Fin.sum_univ_three]
    simp only [waveVectors, List.map_cons, List.map_nil, List.sum_cons, List.sum_nil, add_zero, e, add_assoc]

/-! ## Where it fails -/

theorem selfSingle_ok {D : DynParts ℝ} {sel : List Nat} {q : Coord ℝ} {s n : Nat} (hn : 0 < n)
    {x : Nat → Nat → Coord ℝ} (hx : Places D sel s (s + n) x) :
    ∃ l, selfSingle D sel q s (s + n) = .ok l ∧ l.length = n ∧ (sel = [] → ∀ d, 1 ≤ d → d < n → l[d]? = some none) := by
  by_cases hne : sel = []
  · subst hne
    refine ⟨(List.replicate n none).set 0 (some 1), ?_, by simp, ?_⟩
    · unfold selfSingle
      rw [Nat.add_sub_cancel_left]
      simp [setR, hn]
    · intro _ d h1 h2
      rw [List.getElem?_set_ne (by omega), List.getElem?_replicate, if_pos h2]
  · exact ⟨_, selfSingle_eq hne hn hx, tab_length _ _, fun h => absurd h hne⟩

/-- Invariant of the sums: `n` values, undefined at the lags `d ≥ 1` if `b`. -/
def Spoilt (n : Nat) (b : Prop) (l : List (Option ℝ)) : Prop :=
  l.length = n ∧ (b → ∀ d, 1 ≤ d → d < n → l[d]? = some none)

theorem isfAdd_spoilt {D : DynParts ℝ} {sel : List Nat} {q : Coord ℝ} {s n : Nat} (hn : 0 < n)
    {x : Nat → Nat → Coord ℝ} (hx : Places D sel s (s + n) x) {b : Prop} {acc : List (Option ℝ)} (h : Spoilt n b acc) :
    ∃ l, isfAdd D sel s (s + n) acc q = .ok l ∧ Spoilt n (b ∨ sel = []) l := by
  obtain ⟨l, h1, h2, h3⟩ := selfSingle_ok (q := q) hn hx
  refine ⟨List.zipWith (fun x y => x.bind fun x => y.map fun y => x + sel.length * y) acc l, ?_, ?_, ?_⟩
  · unfold isfAdd
    rw [h1, ok_bind, pure_eq_ok]
  · simp [h.1, h2]
  · intro hb d hd1 hd2
    rw [List.getElem?_zipWith]
    have hl : d < l.length := by omega
    have ha : d < acc.length := by rw [h.1]; omega
    rcases hb with hb | hb
    · rw [h.2 hb d hd1 hd2, List.getElem?_eq_getElem hl]
      simp
    · rw [h3 hb d hd1 hd2, List.getElem?_eq_getElem ha]
      cases acc[d] <;> simp

theorem isfAdds_spoilt {D : DynParts ℝ} {sel : List Nat} {qs : List (Coord ℝ)} (hq : qs ≠ []) {s n : Nat} (hn : 0 < n)
    {x : Nat → Nat → Coord ℝ} (hx : Places D sel s (s + n) x) {b : Prop} {acc : List (Option ℝ)} (h : Spoilt n b acc) :
    ∃ l, qs.foldlM (isfAdd D sel s (s + n)) acc = .ok l ∧ Spoilt n (b ∨ sel = []) l := by
  induction qs generalizing acc b with
  | nil => exact absurd rfl hq
  | cons q qs ih =>
    obtain ⟨l, h1, h2⟩ := isfAdd_spoilt (q := q) hn hx h
    rw [List.foldlM_cons, h1, ok_bind]
    by_cases hqs : qs = []
    · subst hqs
      exact ⟨l, rfl, h2⟩
    · obtain ⟨l', h3, h4⟩ := ih hqs h2
      exact ⟨l', h3, h4.1, fun hb => h4.2 (Or.inl hb)⟩

theorem pooledISF_spoilt {D : DynParts ℝ} (hw : Wf D) (hi : D.index = none) {t0 t1 t2 : Nat} (h01 : t0 < t1)
    (h1 : ∀ s, t0 ≤ s → s < t2 → s + (t1 - t0) < D.positions.length) (sel : Nat → List Nat)
    (hsel : ∀ s, t0 ≤ s → s < t2 → IsSpanning D s (s + (t1 - t0)) (sel s)) (x : Nat → Nat → Coord ℝ)
    (hx : ∀ tr t, Exists D tr t → at_ D tr t = .ok (x tr t)) {qs : List (Coord ℝ)} (hq : qs ≠ []) :
    ∃ l N, pooledISF D qs t0 t1 t2 = .ok (l, N) ∧ Spoilt (t1 - t0) (∃ s, t0 ≤ s ∧ s < t2 ∧ sel s = []) l := by
  have key : ∀ m, t0 + m ≤ t2 ∨ m = 0 → ∃ l N,
      (List.range' t0 m).foldlM (fun (s : List (Option ℝ) × Nat) start => do
        let sel ← selectSpanning D start (start + t1 - t0)
        let acc ← qs.foldlM (isfAdd D sel start (start + t1 - t0)) s.1
        pure (acc, s.2 + sel.length)) (List.replicate (t1 - t0) (some 0), 0)
      = .ok (l, N) ∧ Spoilt (t1 - t0) (∃ s, t0 ≤ s ∧ s < t0 + m ∧ sel s = []) l := by
    intro m
    induction m with
    | zero =>
      intro _
      refine ⟨_, _, rfl, by simp, ?_⟩
      rintro ⟨s, h1, h2, -⟩
      omega
    | succ m ih =>
      intro hm
      obtain ⟨l, N, k1, k2⟩ := ih (by omega)
      have hse : t0 + m + t1 - t0 = t0 + m + (t1 - t0) := by omega
      have hs := hsel (t0 + m) (by omega) (by omega)
      obtain ⟨l', k3, k4⟩ := isfAdds_spoilt (D := D) (sel := sel (t0 + m)) (s := t0 + m) hq (n := t1 - t0) (by omega) (x := x)
        (fun tr htr t ht ht' => hx tr t ((hs.mem tr).1 htr t ht ht')) k2
      refine ⟨l', N + (sel (t0 + m)).length, ?_, k4.1, ?_⟩
      · rw [List.range'_concat, List.foldlM_append, k1, ok_bind]
        simp only [List.foldlM_cons, List.foldlM_nil, one_mul]
        rw [hse, selectSpanning_of hw hi (by omega) (h1 _ (by omega) (by omega)) hs, ok_bind, k3, ok_bind]
        simp only [pure_eq_ok, ok_bind]
      · rintro ⟨s, h1, h2, h3⟩
        apply k4.2
        by_cases hsm : s = t0 + m
        · subst hsm; exact Or.inr h3
        · exact Or.inl ⟨s, h1, by omega, h3⟩
  obtain ⟨l, N, k1, k2⟩ := key (t2 - t0) (by omega)
  refine ⟨l, N, k1, k2.1, ?_⟩
  rintro ⟨s, h1, h2, h3⟩
  exact k2.2 ⟨s, h1, by omega, h3⟩

/-- C124. One start without trajectory that spans its interval makes all the values undefined after the first one,
whatever the other starts. -/
theorem C124_empty_start_counterexample {D : DynParts ℝ} (hw : Wf D) (hi : D.index = none) {t0 t1 t2 L : Nat}
    (h01 : t0 < t1) (h1 : t1 + t2 + 1 ≤ D.positions.length)
    (hL : D.trajectories.longestSpan = .ok L) (hle : t1 - t0 + 1 ≤ L) (sel : Nat → List Nat)
    (hsel : ∀ s, t0 ≤ s → s < t2 → IsSpanning D s (s + (t1 - t0)) (sel s)) (x : Nat → Nat → Coord ℝ)
    (hx : ∀ tr t, Exists D tr t → at_ D tr t = .ok (x tr t))
    {s : Nat} (hs : t0 ≤ s) (hs2 : s < t2) (he : sel s = []) :
    ∃ l, getSelfISFMean D t0 t1 t2 = .ok l ∧ l.length = t1 - t0 ∧ ∀ d, 1 ≤ d → d < t1 - t0 → l[d]? = some none := by
  obtain ⟨l, N, k1, k2, k3⟩ := pooledISF_spoilt hw hi h01 (fun s _ _ => by omega) sel hsel x hx
    (qs := waveVectors D.radius) (by simp [waveVectors])
  refine ⟨l.map fun x => x.bind fun x => quot x (N * 3), ?_, by simp [k2], ?_⟩
  · unfold getSelfISFMean
    rw [hL, ok_bind, if_neg (by omega), if_neg (by omega), k1, ok_bind, pure_eq_ok]
  · intro d hd1 hd2
    rw [List.getElem?_map, k3 ⟨s, hs, hs2, he⟩ d hd1 hd2]
    rfl

/-- C124. If `t2` is not larger than `t0` no start is used: all the values are undefined. -/
theorem C124_window_counterexample {D : DynParts ℝ} {t0 t1 t2 L : Nat} (h2 : 0 < t2) (h20 : t2 ≤ t0)
    (hL : D.trajectories.longestSpan = .ok L) (hle : t1 - t0 + 1 ≤ L) :
    getSelfISFMean D t0 t1 t2 = .ok (List.replicate (t1 - t0) none) := by
  unfold getSelfISFMean pooledISF
  rw [hL, ok_bind, if_neg (by omega), if_neg (by omega), show t2 - t0 = 0 by omega]
  simp [pure_eq_ok, quot]

/-- C124. With `t2 = 0`, documented as the greedy average, the call is always undefined. -/
theorem C124_greedy_counterexample {D : DynParts ℝ} (hw : Wf D) (hi : D.index = none) {t0 t1 L : Nat} (h01 : t0 ≤ t1)
    (h1 : t1 < D.positions.length) (hL : D.trajectories.longestSpan = .ok L) (hle : t1 - t0 + 1 ≤ L)
    {sel : List Nat} (hsel : IsSpanning D t0 t1 sel) {x : Nat → Nat → Coord ℝ} (hx : Places D sel t0 t1 x)
    (q : Coord ℝ) :
    getSelfISFAlong D q t0 t1 0 = .error .ub ∧ getSelfISFMean D t0 t1 0 = .error .ub := by
  have hs : selectSpanning D t0 (t1 + 0) = .ok sel := selectSpanning_of hw hi h01 h1 hsel
  constructor
  · unfold getSelfISFAlong
    rw [hL, ok_bind, if_neg (by omega), if_pos rfl, hs, ok_bind, C63_greedy_counterexample h01 hx]
    rfl
  · unfold getSelfISFMean
    rw [hL, ok_bind, if_neg (by omega), if_pos rfl, hs, ok_bind]
    simp only [waveVectors, List.map_cons, List.foldlM_cons]
    rw [C63_greedy_counterexample h01 hx]
    rfl

/-! ## `makeDynamics` -/

/-- C125. Whatever the sets of trajectories (at least one set, of trajectories that span the film), `makeDynamics`
writes and reads after the ends of its arrays. -/
theorem C125_makeDynamics_counterexample {D : DynParts ℝ} (hr : D.radius ≠ 0) {sets : List (List Nat)} (hs : sets ≠ [])
    {x : Nat → Nat → Coord ℝ} (hx : ∀ sel ∈ sets, Places D sel 0 (D.positions.length - 1) x) :
    makeDynamics D sets = .error .ub := by
  cases sets with
  | nil => exact absurd rfl hs
  | cons sel sets =>
    have h0 := hx sel (by simp)
    have hmsd : ∃ l, getMsdNgp D sel 0 (D.positions.length - 1) 0 = .ok l := by
      by_cases hne : sel = []
      · subst hne; exact ⟨_, rfl⟩
      · exact ⟨_, getMsdNgp_eq hne hr (x := x) fun tr htr =>
          ⟨h0 tr htr 0 le_rfl (Nat.zero_le _), h0 tr htr _ (Nat.zero_le _) le_rfl⟩⟩
    obtain ⟨l, hl⟩ := hmsd
    have : setDynamics D sel = .error .ub := by
      unfold setDynamics
      simp only
      rw [hl, ok_bind]
      simp only [waveVectors, List.map_cons, List.mapM_cons]
      rw [C63_greedy_counterexample (Nat.zero_le _) h0]
      rfl
    unfold makeDynamics
    rw [List.mapM_cons, this]
    rfl

/-- C125. The same for all the trajectories of a film. -/
theorem C125_export_counterexample {D : DynParts ℝ} (hw : Wf D) (hi : D.index = none) (hr : D.radius ≠ 0)
    (h : 0 < D.positions.length) {sel : List Nat} (hsel : IsSpanning D 0 (D.positions.length - 1) sel)
    {x : Nat → Nat → Coord ℝ} (hx : Places D sel 0 (D.positions.length - 1) x) :
    makeDynamicsAll D = .error .ub := by
  unfold makeDynamicsAll
  rw [selectSpanning_of hw hi (Nat.zero_le _) (by omega) hsel, ok_bind]
  exact C125_makeDynamics_counterexample hr (by simp) (x := x) (by simpa using hx)

/-! ## Films that meet the hypotheses -/

/-- A particle that moves in four frames. -/
def exMove : DynParts ℝ :=
  ⟨[⟨[fun _ => 0], ⟨fun _ => 0, fun _ => 10⟩, 1, none⟩, ⟨[fun _ => 1], ⟨fun _ => 0, fun _ => 10⟩, 1, none⟩,
    ⟨[fun _ => 2], ⟨fun _ => 0, fun _ => 10⟩, 1, none⟩, ⟨[fun _ => 3], ⟨fun _ => 0, fun _ => 10⟩, 1, none⟩],
   ⟨[⟨0, [0, 0, 0, 0]⟩], [[0], [0], [0], [0]]⟩, 1, none, []⟩

/-- The same, not seen in the first frame. -/
def exLate : DynParts ℝ :=
  ⟨[⟨[], ⟨fun _ => 0, fun _ => 10⟩, 1, none⟩, ⟨[fun _ => 1], ⟨fun _ => 0, fun _ => 10⟩, 1, none⟩,
    ⟨[fun _ => 2], ⟨fun _ => 0, fun _ => 10⟩, 1, none⟩, ⟨[fun _ => 3], ⟨fun _ => 0, fun _ => 10⟩, 1, none⟩],
   ⟨[⟨1, [0, 0, 0]⟩], [[], [0], [0], [0]]⟩, 1, none, []⟩

theorem exMove_wf : Wf exMove := by
  refine ⟨by decide, by decide, by decide, by decide, ?_⟩
  intro t p tr
  rw [invert_ok]
  unfold TrajIndex.convert
  rw [bind_ok]
  simp only [getR_ok]
  match tr with
  | 0 =>
    simp only [exMove, List.getElem?_cons_zero, Option.some.injEq, exists_eq_left']
    rw [at_eq (by simp) (by simp [szMod])]
    match t with
    | 0 | 1 | 2 | 3 | _ + 4 =>
      match p with
      | 0 | _ + 1 => simp
  | tr + 1 =>
    match t with
    | 0 | 1 | 2 | 3 | _ + 4 =>
      match p with
      | 0 | _ + 1 => simp [exMove]

theorem exLate_wf : Wf exLate := by
  refine ⟨by decide, by decide, by decide, by decide, ?_⟩
  intro t p tr
  rw [invert_ok]
  unfold TrajIndex.convert
  rw [bind_ok]
  simp only [getR_ok]
  match tr with
  | 0 =>
    simp only [exLate, List.getElem?_cons_zero, Option.some.injEq, exists_eq_left']
    rw [at_eq (by simp) (by simp [szMod])]
    match t with
    | 0 | 1 | 2 | 3 | _ + 4 =>
      match p with
      | 0 | _ + 1 => simp
  | tr + 1 =>
    match t with
    | 0 | 1 | 2 | 3 | _ + 4 =>
      match p with
      | 0 | _ + 1 => simp [exLate]

theorem exMove_spanning (b : Nat) (hb : b ≤ 3) (a : Nat) (hab : a ≤ b) : IsSpanning exMove a b [0] := by
  refine ⟨by simp, ?_⟩
  intro tr
  match tr with
  | 0 => simp [Exists, exMove]; omega
  | tr + 1 =>
    simp only [Exists, exMove, List.getElem?_cons_succ, List.getElem?_nil]
    simp
    exact ⟨a, by omega⟩

theorem exMove_at (tr t : Nat) (h : Exists exMove tr t) : at_ exMove tr t = .ok (fun _ => (t : ℝ)) := by
  match tr with
  | 0 =>
    have ht : t < 4 := by simpa [Exists, exMove] using h
    have h1 : ∀ t < 4, Traj.at_ ⟨0, [0, 0, 0, 0]⟩ t = .ok 0 := by decide +kernel
    unfold at_
    rw [getR_ok.2 (show exMove.trajectories.trajs[0]? = some ⟨0, [0, 0, 0, 0]⟩ from rfl), ok_bind, h1 t ht]
    match t, ht with
    | 0, _ => simp [exMove, getR]
    | 1, _ => simp [exMove, getR]
    | 2, _ => simp [exMove, getR]
    | 3, _ => simp [exMove, getR]
  | tr + 1 => simp [Exists, exMove] at h

/-- The hypotheses of `C124_mean_partial` (and of `C124_along_partial`), for the lags 0 and 1. -/
example : ∃ l : List ℝ, getSelfISFMean exMove 0 2 1 = .ok (l.map some) ∧ l.length = 2 ∧ l[0]? = some 1 := by
  obtain ⟨l, h1, h2, h3, -⟩ := C124_mean_partial (t0 := 0) (t1 := 2) (t2 := 1) (L := 4) exMove_wf rfl (by omega) (by omega)
    (by simp [exMove]) (by decide) (by omega) (fun _ => [0])
    (fun s _ hs => ⟨exMove_spanning _ (by omega) _ (by omega), by simp⟩) (fun _ t _ => t) exMove_at
  exact ⟨l, h1, h2, h3⟩

/-- The hypotheses of the counterexamples of C125. -/
example : makeDynamicsAll exMove = .error .ub :=
  C125_export_counterexample exMove_wf rfl (by simp [exMove]) (by simp [exMove]) (exMove_spanning 3 (by omega) 0 (by omega))
    (x := fun _ t _ => t) fun tr htr t _ ht => exMove_at tr t ((exMove_spanning 3 (by omega) 0 (by omega)).mem tr |>.1 htr t (by omega) ht)

/-- The hypotheses of `C124_greedy_counterexample`. -/
example : getSelfISFMean exMove 0 2 0 = .error .ub :=
  (C124_greedy_counterexample exMove_wf rfl (t0 := 0) (t1 := 2) (L := 4) (by omega) (by simp [exMove]) (by decide) (by omega)
    (exMove_spanning 2 (by omega) 0 (by omega)) (x := fun _ t _ => t)
    (fun tr htr t _ ht => exMove_at tr t ((exMove_spanning 2 (by omega) 0 (by omega)).mem tr |>.1 htr t (by omega) ht))
    (fun _ => 1)).2

/-- The hypotheses of `C124_window_counterexample`. -/
example : getSelfISFMean exMove 1 2 1 = .ok [none] :=
  C124_window_counterexample (D := exMove) (t0 := 1) (t1 := 2) (L := 4) (by omega) (by omega) (by decide) (by omega)

/-- The hypotheses of `C124_empty_start_counterexample`. -/
example : ∃ l, getSelfISFMean exLate 0 2 1 = .ok l ∧ l.length = 2 ∧ ∀ d, 1 ≤ d → d < 2 → l[d]? = some none := by
  refine C124_empty_start_counterexample (t0 := 0) (t1 := 2) (t2 := 1) (L := 3) exLate_wf rfl (by omega) (by simp [exLate])
    (by decide) (by omega) (fun _ => []) ?_ (fun _ t _ => t) ?_ (le_refl 0) (by omega) rfl
  · intro s _ hs
    refine ⟨by simp, fun tr => ?_⟩
    simp only [List.not_mem_nil, false_iff]
    intro h
    have := h 0 (by omega) (by omega)
    match tr with
    | 0 => simp [Exists, exLate] at this
    | tr + 1 => simp [Exists, exLate] at this
  · intro tr t h
    match tr with
    | 0 =>
      have ht : 1 ≤ t ∧ t < 4 := by simpa [Exists, exLate] using h
      have h1 : ∀ t, 1 ≤ t → t < 4 → Traj.at_ ⟨1, [0, 0, 0]⟩ t = .ok 0 := by
        have : ∀ t < 4, 1 ≤ t → Traj.at_ ⟨1, [0, 0, 0]⟩ t = .ok 0 := by decide +kernel
        exact fun t a b => this t b a
      unfold at_
      rw [getR_ok.2 (show exLate.trajectories.trajs[0]? = some ⟨1, [0, 0, 0]⟩ from rfl), ok_bind, h1 t ht.1 ht.2]
      match t, ht with
      | 1, _ => simp [exLate, getR]
      | 2, _ => simp [exLate, getR]
      | 3, _ => simp [exLate, getR]
    | tr + 1 => simp [Exists, exLate] at h

end

end Dyn
end Colloids
