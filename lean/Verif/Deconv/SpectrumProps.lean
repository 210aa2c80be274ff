import Verif.Deconv.Props

/-!
# Properties of the spectra and of the deconvolution kernel (C79)
-/

namespace Colloids.Deconv

open Octave (fold_closed div_addr mod_addr)

/-! ## Lemmas -/

theorem linesOf_tab {α : Type} (sizes : List Nat) (axis n : Nat) (hax : sizes[axis]? = some n)
    (hpos : 0 < (sizes.take axis).prod) (f : Nat → α) :
    linesOf sizes (tab sizes.prod f) axis
      = .ok (tab ((sizes.take axis).prod * (sizes.drop (axis + 1)).prod) (fun q =>
          tab n (fun k => f ((q / (sizes.drop (axis + 1)).prod * n + k)
              * (sizes.drop (axis + 1)).prod + q % (sizes.drop (axis + 1)).prod)))) := by
  have hlt : axis < sizes.length := by
    by_contra hc
    rw [List.getElem?_eq_none (by omega)] at hax
    cases hax
  have hsp := prod_split sizes axis n hax
  unfold linesOf
  rw [if_neg (by omega), getR_ok.2 hax, ok_bind]
  simp only
  rw [if_neg (by omega)]
  generalize hs : (sizes.drop (axis + 1)).prod = step at *
  generalize hP : (sizes.take axis).prod = P at *
  have hps : sizes.prod / P = n * step := by
    rw [hsp, Nat.mul_assoc, Nat.mul_div_cancel_left _ hpos]
  rw [hps, hsp]
  let L : Nat → List α := fun q => tab n (fun k => f ((q / step * n + k) * step + q % step))
  have hin : ∀ i, i < P → (List.range step).foldlM (fun acc j => do
          let line ← readLine (tab (P * n * step) f) (i * (n * step) + j) step n
          pure (acc ++ [line])) (tab (i * step) L) = .ok (tab (i * step + step) L) := by
    intro i hi
    refine fold_closed _ (fun j => tab (i * step + j) L) step (fun j hj => ?_)
    rw [readLine_tab n step P i j _ hi hj, ok_bind, pure_eq_ok]
    congr 1
    have : i * step + (j + 1) = (i * step + j) + 1 := by omega
    rw [this]
    simp only [tab, List.range_succ, List.map_append, List.map_cons, List.map_nil]
    simp only [L, div_addr _ _ hj, mod_addr _ _ hj, tab]
  have hfold := fold_closed (fun acc i => (List.range step).foldlM (fun acc j => do
          let line ← readLine (tab (P * n * step) f) (i * (n * step) + j) step n
          pure (acc ++ [line])) acc) (fun i => tab (i * step) L) P
    (fun i hi => by
      rw [hin i hi]
      congr 2
      ring)
  have h0 : tab (0 * step) L = [] := by simp [tab]
  rw [h0] at hfold
  exact hfold

theorem sum_sub_normSq (fs : List ℂ) (c : ℂ) :
    (fs.map (fun z => Complex.normSq (z - c))).sum
      = (fs.map Complex.normSq).sum - 2 * (fs.sum * (starRingEnd ℂ) c).re
        + fs.length * Complex.normSq c := by
  induction fs with
  | nil => simp
  | cons a fs ih =>
    rw [List.map_cons, List.sum_cons, ih, List.map_cons, List.sum_cons, List.sum_cons,
      List.length_cons, Complex.normSq_sub, add_mul, Complex.add_re]
    push_cast
    ring

/-- The spectrum is the mean of the squared distances to the mean. -/
theorem spectrumOf_eq (fs : List ℂ) (h : fs ≠ []) :
    spectrumOf fs = (fs.map (fun z => Complex.normSq (z - fs.sum / fs.length))).sum / fs.length := by
  have hl : (fs.length : ℝ) ≠ 0 := by
    simpa using h
  rw [sum_sub_normSq]
  unfold spectrumOf
  simp only
  have h1 : fs.sum * (((1 / (fs.length : ℝ) : ℝ)) : ℂ) = fs.sum / fs.length := by
    push_cast
    rw [mul_one_div]
  have h2 : (fs.sum * (starRingEnd ℂ) (fs.sum / fs.length)).re
      = fs.length * Complex.normSq (fs.sum / fs.length) := by
    have : fs.sum = fs.length * (fs.sum / fs.length) := by
      rw [mul_div_cancel₀]
      simpa using h
    conv_lhs => rw [this]
    rw [mul_div_cancel_left₀ _ (by simpa using h), mul_assoc, Complex.mul_conj]
    rw [← Complex.ofReal_natCast, ← Complex.ofReal_mul, Complex.ofReal_re]
  rw [h1, h2]
  field_simp
  ring

theorem spectrumOf_mul (c : ℝ) (fs : List ℂ) :
    spectrumOf (fs.map (fun z => (c : ℂ) * z)) = c ^ 2 * spectrumOf fs := by
  have h : (fs.map (fun z => (c : ℂ) * z)).sum = (c : ℂ) * fs.sum := by
    induction fs with
    | nil => simp
    | cons a fs ih => rw [List.map_cons, List.sum_cons, ih, List.sum_cons, mul_add]
  unfold spectrumOf
  simp only [h, List.length_map, List.map_map, List.sum_map_mul_left, Function.comp_def,
    Complex.normSq_mul, Complex.normSq_ofReal]
  ring

/-! ## C79: the spectra -/

/-- C79. The spectrum of an image along any of its axes exists, has `n/2+1` coefficients and none
of them is negative. -/
theorem C79_spectrum (sizes : List Nat) (data : List ℝ) (hd : data.length = sizes.prod)
    (hpos : ∀ s ∈ sizes, 0 < s) (axis n : Nat) (hn : sizes[axis]? = some n) :
    ∃ sp, spectrum1d sizes data axis = .ok sp ∧ sp.length = n / 2 + 1 ∧ ∀ v ∈ sp, 0 ≤ v := by
  have hdata : data = tab sizes.prod (fun i => data[i]?.getD 0) := by
    rw [← hd]; exact eq_tab data
  have hP : ∀ l : List Nat, (∀ x ∈ l, 0 < x) → 0 < l.prod := by
    intro l
    induction l with
    | nil => simp
    | cons a l ih =>
      intro h
      rw [List.prod_cons]
      exact Nat.mul_pos (h a (by simp)) (ih (fun x hx => h x (by simp [hx])))
  have hlines := linesOf_tab sizes axis n hn
    (hP _ (fun x hx => hpos x (List.mem_of_mem_take hx))) (fun i => data[i]?.getD 0)
  rw [← hdata] at hlines
  unfold spectrum1d
  rw [hlines, ok_bind, getR_ok.2 hn, ok_bind, pure_eq_ok]
  refine ⟨_, rfl, by simp, ?_⟩
  intro v hv
  obtain ⟨u, -, rfl⟩ := List.mem_map.1 hv
  rw [spectrumOf_eq]
  · refine div_nonneg (List.sum_nonneg ?_) (by positivity)
    intro w hw
    obtain ⟨z, -, rfl⟩ := List.mem_map.1 hw
    exact Complex.normSq_nonneg _
  · have hq : 0 < (sizes.take axis).prod * (sizes.drop (axis + 1)).prod :=
      Nat.mul_pos (hP _ (fun x hx => hpos x (List.mem_of_mem_take hx)))
        (hP _ (fun x hx => hpos x (List.mem_of_mem_drop hx)))
    intro h
    have := congrArg List.length h
    rw [List.length_map, tab_length, List.length_nil] at this
    omega

/-- C79. A coefficient of the spectrum is zero exactly when all the lines have the same Fourier
coefficient: what is common to all the lines does not count. -/
theorem C79_common (fs : List ℂ) (h : fs ≠ []) :
    spectrumOf fs = 0 ↔ ∀ z ∈ fs, ∀ w ∈ fs, z = w := by
  have hl : (fs.length : ℝ) ≠ 0 := by simpa using h
  rw [spectrumOf_eq fs h, div_eq_zero_iff, or_iff_left hl]
  have key : ∀ (gs : List ℂ) (c : ℂ), (gs.map (fun z => Complex.normSq (z - c))).sum = 0
      ↔ ∀ z ∈ gs, z = c := by
    intro gs c
    induction gs with
    | nil => simp
    | cons a gs ih =>
      simp only [List.map_cons, List.sum_cons, List.mem_cons, forall_eq_or_imp]
      have h1 := Complex.normSq_nonneg (a - c)
      have h2 : 0 ≤ (gs.map (fun z => Complex.normSq (z - c))).sum := by
        refine List.sum_nonneg ?_
        intro w hw
        obtain ⟨z, -, rfl⟩ := List.mem_map.1 hw
        exact Complex.normSq_nonneg _
      rw [add_eq_zero_iff_of_nonneg h1 h2, ih, Complex.normSq_eq_zero, sub_eq_zero]
  rw [key]
  constructor
  · intro hz z hz' w hw
    rw [hz z hz', hz w hw]
  · intro hz z hz'
    have : fs.sum = fs.length * z := by
      have : ∀ gs : List ℂ, (∀ w ∈ gs, w = z) → gs.sum = gs.length * z := by
        intro gs
        induction gs with
        | nil => simp
        | cons a gs ih =>
          intro hg
          rw [List.sum_cons, ih (fun w hw => hg w (by simp [hw])), hg a (by simp)]
          push_cast [List.length_cons]
          ring
      exact this fs (fun w hw => hz w hw z hz')
    rw [this, mul_div_cancel_left₀]
    simpa using h

/-- C79. Convolving along an axis multiplies the spectrum along this axis by the square of the
kernel. -/
theorem C79_convolved (kernel : List ℝ) (sizes : List Nat) (data : List ℝ)
    (hd : data.length = sizes.prod) (hpos : ∀ s ∈ sizes, 0 < s) (axis n : Nat)
    (hn : sizes[axis]? = some n) (hk : kernel.length = n / 2 + 1) :
    ∃ sp d', spectrum1d sizes data axis = .ok sp
      ∧ convolve (convolver kernel) sizes data axis = .ok d'
      ∧ spectrum1d sizes d' axis = .ok (List.zipWith (fun k s => k ^ 2 * s) kernel sp) := by
  have hn0 : 0 < n := hpos n (List.mem_of_getElem? hn)
  have hdata : data = tab sizes.prod (fun i => data[i]?.getD 0) := by
    rw [← hd]; exact eq_tab data
  have hP : ∀ l : List Nat, (∀ x ∈ l, 0 < x) → 0 < l.prod := by
    intro l
    induction l with
    | nil => simp
    | cons a l ih =>
      intro h
      rw [List.prod_cons]
      exact Nat.mul_pos (h a (by simp)) (ih (fun x hx => h x (by simp [hx])))
  have hP1 := hP (sizes.take axis) (fun x hx => hpos x (List.mem_of_mem_take hx))
  let F : List ℝ → Nat → ℝ := fun l k =>
    match convolver kernel l with
    | .ok out => out[k]?.getD 0
    | .error _ => 0
  have hF : ∀ l, l.length = n → convolver kernel l = .ok (tab n (F l)) := by
    intro l hl
    obtain ⟨out, ho, hlen, -⟩ := C78_filter kernel l
      (fun h => by rw [h] at hl; simp at hl; omega) (by omega)
    have : tab n (F l) = out := by
      conv_rhs => rw [eq_tab out, hlen, hl]
      refine tab_congr (fun i _ => ?_)
      simp only [F, ho]
      rfl
    rw [this, ho]
  have hfor : ∀ l u, l.length = n → ∀ (hu : u < kernel.length),
      forward (tab n (F l)) u = (kernel[u] : ℂ) * forward l u := by
    intro l u hl hu
    obtain ⟨out, ho, hlen, hf⟩ := C78_filter kernel l
      (fun h => by rw [h] at hl; simp at hl; omega) (by omega)
    rw [hF l hl] at ho
    rw [Except.ok.inj ho]
    exact hf u hu (by omega)
  have hmain := convolve_tab (convolver kernel) F sizes axis n hn hP1 hF (fun i => data[i]?.getD 0)
  have hl1 := linesOf_tab sizes axis n hn hP1 (fun i => data[i]?.getD 0)
  rw [← hdata] at hmain hl1
  refine ⟨_, _, by
    unfold spectrum1d
    rw [hl1, ok_bind, getR_ok.2 hn, ok_bind, pure_eq_ok], hmain, ?_⟩
  unfold spectrum1d
  rw [linesOf_tab sizes axis n hn hP1, ok_bind, getR_ok.2 hn, ok_bind, pure_eq_ok]
  congr 1
  apply List.ext_getElem
  · simp [hk]
  intro u h1 h2
  have hu : u < kernel.length := by
    simp at h1; omega
  rw [List.getElem_zipWith, List.getElem_map, List.getElem_range, List.getElem_map,
    List.getElem_range, ← spectrumOf_mul]
  congr 1
  simp only [tab, List.map_map]
  refine List.map_congr_left (fun q hq => ?_)
  simp only [Function.comp]
  have hq' := List.mem_range.1 hq
  generalize hst : (sizes.drop (axis + 1)).prod = step at *
  have hst0 : 0 < step := by
    rcases Nat.eq_zero_or_pos step with h | h
    · rw [h] at hq'; simp at hq'
    · exact h
  have hmod := Nat.mod_lt q hst0
  rw [← hfor _ u (by simp) hu]
  congr 1
  refine tab_congr (fun k hk' => ?_)
  obtain ⟨a1, a2, a3⟩ := (addr_iff n step (q / step) k (q % step) _ hk' hmod).1 rfl
  rw [a1, a2, a3]

/-! ## C79: the kernel -/

/-- C79. The kernel computed from two spectra without negative values, for a positive ratio of
sizes, reads nothing out of range. It has the length of the spectrum along the bad axis.
Where the good spectrum is known and the bad one is not zero, its square takes the bad spectrum to
the good one interpolated linearly at the same physical frequency; elsewhere it is 1. -/
theorem C79_kernel (bad good : List ℝ) (ratio : ℝ) (hr : 0 < ratio) (hb0 : bad ≠ [])
    (hg0 : good ≠ []) (hb : ∀ v ∈ bad, 0 ≤ v) (hg : ∀ v ∈ good, 0 ≤ v) :
    ∃ K, deconvKernel bad good ratio = .ok K ∧ K.length = bad.length
      ∧ ∀ i (hi : i < bad.length), ∃ v : ℝ, K[i]? = some (some v) ∧ 0 ≤ v
        ∧ (((i : ℝ) + 1 ≤ ((good.length : ℝ) - 1) * (bad.length * ratio / good.length)
              ∧ bad[i] ≠ 0 ∧
            ∃ (q : Nat) (d : ℝ) (hq : q + 1 < good.length), 0 ≤ d ∧ d < 1
              ∧ (q + d) * (bad.length * ratio / good.length) = i
              ∧ v ^ 2 * bad[i] = (1 - d) * good[q] + d * good[q + 1])
          ∨ ((((good.length : ℝ) - 1) * (bad.length * ratio / good.length) < i + 1 ∨ bad[i] = 0)
              ∧ v = 1)) := by
  have hbl : 0 < bad.length := List.length_pos_iff.2 hb0
  have hgl : 0 < good.length := List.length_pos_iff.2 hg0
  have hbl' : (0 : ℝ) < bad.length := by exact_mod_cast hbl
  have hgl' : (0 : ℝ) < good.length := by exact_mod_cast hgl
  have hgl1 : (1 : ℝ) ≤ good.length := by exact_mod_cast hgl
  have hqr : 0 < (bad.length : ℝ) * ratio / good.length := by positivity
  unfold deconvKernel
  generalize (bad.length : ℝ) * ratio / good.length = qr at *
  have hm : 0 ≤ ((good.length : ℝ) - 1) * qr := mul_nonneg (by linarith) hqr.le
  simp only
  rw [if_neg (by linarith)]
  have hsafe : ∀ i : Nat, i < min bad.length ⌊((good.length : ℝ) - 1) * qr⌋₊ →
      ⌊(i : ℝ) / qr⌋₊ + 1 < good.length := by
    intro i hi
    have h1 : i + 1 ≤ ⌊((good.length : ℝ) - 1) * qr⌋₊ := by omega
    rw [Nat.le_floor_iff hm] at h1
    push_cast at h1
    have h2 : (i : ℝ) / qr < (good.length : ℝ) - 1 := by
      rw [div_lt_iff₀ hqr]; linarith
    have h3 : (⌊(i : ℝ) / qr⌋₊ : ℝ) ≤ (i : ℝ) / qr := Nat.floor_le (by positivity)
    have h4 : ((⌊(i : ℝ) / qr⌋₊ + 1 : Nat) : ℝ) < good.length := by push_cast; linarith
    exact_mod_cast h4
  let sc : Nat → ℝ := fun i =>
    (1 - ((i : ℝ) / qr - ⌊(i : ℝ) / qr⌋₊)) * good[⌊(i : ℝ) / qr⌋₊]?.getD 0
      + ((i : ℝ) / qr - ⌊(i : ℝ) / qr⌋₊) * good[⌊(i : ℝ) / qr⌋₊ + 1]?.getD 0
  rw [mapM_tab _ sc _ (fun i hi => by
    have hs := hsafe i hi
    rw [getR_of_lt (by omega), ok_bind, getR_of_lt hs, ok_bind, pure_eq_ok]
    simp only [sc]
    rw [List.getElem?_eq_getElem (by omega), List.getElem?_eq_getElem hs]
    rfl), ok_bind]
  have hsc0 : ∀ i, i < min bad.length ⌊((good.length : ℝ) - 1) * qr⌋₊ → 0 ≤ sc i := by
    intro i hi
    have hs := hsafe i hi
    simp only [sc]
    rw [List.getElem?_eq_getElem (by omega), List.getElem?_eq_getElem hs]
    have h3 : (⌊(i : ℝ) / qr⌋₊ : ℝ) ≤ (i : ℝ) / qr := Nat.floor_le (by positivity)
    have h4 : (i : ℝ) / qr < ⌊(i : ℝ) / qr⌋₊ + 1 := Nat.lt_floor_add_one _
    have g1 := hg _ (List.getElem_mem (l := good) (n := ⌊(i : ℝ) / qr⌋₊) (by omega))
    have g2 := hg _ (List.getElem_mem (l := good) (n := ⌊(i : ℝ) / qr⌋₊ + 1) hs)
    exact add_nonneg (mul_nonneg (by linarith) g1) (mul_nonneg (by linarith) g2)
  let kv : Nat → ℝ := fun i =>
    if i < min bad.length ⌊((good.length : ℝ) - 1) * qr⌋₊ ∧ bad[i]?.getD 0 ≠ 0 then
      Real.sqrt (sc i / bad[i]?.getD 0) else 1
  rw [mapM_tab _ (fun i => some (kv i)) _ (fun i hi => by
    rw [getR_of_lt hi, ok_bind, tab_length]
    have hbi := hb _ (List.getElem_mem hi)
    have hget : bad[i]?.getD 0 = bad[i] := by rw [List.getElem?_eq_getElem hi]; rfl
    by_cases hc : i < min bad.length ⌊((good.length : ℝ) - 1) * qr⌋₊
    · rw [if_pos hc, getR_tab hc, ok_bind]
      by_cases hz : bad[i] = 0
      · rw [if_neg (by simpa using hz), pure_eq_ok]
        simp only [kv]
        rw [if_neg (by rw [hget]; tauto)]
      · rw [if_pos hz, if_neg (by
          have := div_nonneg (hsc0 i hc) hbi
          linarith), pure_eq_ok]
        simp only [kv]
        rw [if_pos (by rw [hget]; exact ⟨hc, hz⟩), hget]
    · rw [if_neg hc, pure_eq_ok]
      simp only [kv]
      rw [if_neg (fun h => hc h.1)])]
  refine ⟨_, rfl, tab_length _ _, ?_⟩
  intro i hi
  have hget : bad[i]?.getD 0 = bad[i] := by rw [List.getElem?_eq_getElem hi]; rfl
  refine ⟨kv i, by simp [tab, hi], ?_, ?_⟩
  · simp only [kv]
    split
    · exact Real.sqrt_nonneg _
    · norm_num
  by_cases hc : i < min bad.length ⌊((good.length : ℝ) - 1) * qr⌋₊ ∧ bad[i] ≠ 0
  · left
    have hs := hsafe i hc.1
    have h1 : i + 1 ≤ ⌊((good.length : ℝ) - 1) * qr⌋₊ := by omega
    rw [Nat.le_floor_iff hm] at h1
    push_cast at h1
    have h3 : (⌊(i : ℝ) / qr⌋₊ : ℝ) ≤ (i : ℝ) / qr := Nat.floor_le (by positivity)
    have h4 : (i : ℝ) / qr < ⌊(i : ℝ) / qr⌋₊ + 1 := Nat.lt_floor_add_one _
    refine ⟨h1, hc.2, ⌊(i : ℝ) / qr⌋₊, (i : ℝ) / qr - ⌊(i : ℝ) / qr⌋₊, hs, by linarith,
      by linarith, ?_, ?_⟩
    · field_simp
      ring
    · have hk : kv i = Real.sqrt (sc i / bad[i]) := by
        simp only [kv]
        rw [hget, if_pos hc]
      have hbi : 0 < bad[i] := lt_of_le_of_ne (hb _ (List.getElem_mem hi)) (Ne.symm hc.2)
      rw [hk, Real.sq_sqrt (div_nonneg (hsc0 i hc.1) hbi.le), div_mul_cancel₀ _ hc.2]
      simp only [sc]
      rw [List.getElem?_eq_getElem (by omega), List.getElem?_eq_getElem hs]
      rfl
  · right
    refine ⟨?_, ?_⟩
    · by_contra hcon
      push Not at hcon
      refine hc ⟨lt_min hi ?_, hcon.2⟩
      have : i + 1 ≤ ⌊((good.length : ℝ) - 1) * qr⌋₊ := by
        rw [Nat.le_floor_iff hm]
        push_cast
        exact hcon.1
      omega
    · simp only [kv]
      rw [hget, if_neg hc]

/-- C79. The deconvolution as a whole (`get_deconv_kernel` then `convolve`): afterwards the
spectrum along the bad axis is, where it was not zero and the good spectrum is known, the spectrum
along the good axis interpolated linearly at the same physical frequency. -/
theorem C79_deconvolved (sizes : List Nat) (data : List ℝ) (hd : data.length = sizes.prod)
    (hpos : ∀ s ∈ sizes, 0 < s) (badAxis goodAxis n m : Nat) (hn : sizes[badAxis]? = some n)
    (hm : sizes[goodAxis]? = some m) (ratio : ℝ) (hr : 0 < ratio) :
    ∃ bad good kernel d' after, spectrum1d sizes data badAxis = .ok bad
      ∧ spectrum1d sizes data goodAxis = .ok good
      ∧ deconvKernel bad good ratio = .ok (kernel.map some)
      ∧ convolve (convolver kernel) sizes data badAxis = .ok d'
      ∧ spectrum1d sizes d' badAxis = .ok after
      ∧ bad.length = n / 2 + 1 ∧ good.length = m / 2 + 1 ∧ after.length = n / 2 + 1
      ∧ ∀ i (hi : i < bad.length),
        (i : ℝ) + 1 ≤ ((good.length : ℝ) - 1) * (bad.length * ratio / good.length) →
        bad[i] ≠ 0 →
        ∃ (q : Nat) (d : ℝ) (hq : q + 1 < good.length), 0 ≤ d ∧ d < 1
          ∧ (q + d) * (bad.length * ratio / good.length) = i
          ∧ after[i]? = some ((1 - d) * good[q] + d * good[q + 1]) := by
  obtain ⟨bad, hb1, hb2, hb3⟩ := C79_spectrum sizes data hd hpos badAxis n hn
  obtain ⟨good, hg1, hg2, hg3⟩ := C79_spectrum sizes data hd hpos goodAxis m hm
  obtain ⟨K, hK, hKl, hKs⟩ := C79_kernel bad good ratio hr
    (List.length_pos_iff.1 (by omega)) (List.length_pos_iff.1 (by omega)) hb3 hg3
  let kernel : List ℝ := tab bad.length (fun i => (K[i]?.getD none).getD 0)
  have hKk : K = kernel.map some := by
    apply List.ext_getElem?
    intro i
    by_cases hi : i < bad.length
    · obtain ⟨v, hv, -⟩ := hKs i hi
      rw [hv]
      simp [kernel, tab, hi, hv]
    · rw [List.getElem?_eq_none (by omega),
        List.getElem?_eq_none (by rw [List.length_map, tab_length]; omega)]
  have hkl : kernel.length = n / 2 + 1 := by rw [tab_length, hb2]
  obtain ⟨sp, d', h1, h2, h3⟩ := C79_convolved kernel sizes data hd hpos badAxis n hn hkl
  have hsp : sp = bad := by
    rw [hb1] at h1
    exact (Except.ok.inj h1).symm
  subst sp
  refine ⟨bad, good, kernel, d', _, hb1, hg1, by rw [hK, hKk], h2, h3, hb2, hg2, ?_, ?_⟩
  · rw [List.length_zipWith]
    omega
  intro i hi hin hbi
  obtain ⟨v, hv, -, hcase⟩ := hKs i hi
  rcases hcase with ⟨-, -, q, d, hq, e1, e2, e3, e4⟩ | ⟨hc, -⟩
  · refine ⟨q, d, hq, e1, e2, e3, ?_⟩
    have hki : kernel[i]? = some v := by simp [kernel, tab, hi, hv]
    rw [List.getElem?_zipWith, hki, List.getElem?_eq_getElem hi]
    simp only [Option.some.injEq]
    exact e4
  · exfalso
    rcases hc with hc | hc
    · linarith
    · exact hbi hc

/-! ## C79: the window -/

/-- C79. With two points or more the window is between 0 and 1, zero at both ends and
symmetric. -/
theorem C79_hanning (n : Nat) (h : 2 ≤ n) :
    ∃ w : List ℝ, hanning n = w.map some ∧ w.length = n ∧ (∀ v ∈ w, 0 ≤ v ∧ v ≤ 1)
      ∧ w[0]? = some 0 ∧ w[n - 1]? = some 0 ∧ ∀ i, i < n → w[i]? = w[n - 1 - i]? := by
  have hn1 : ((n - 1 : Nat) : ℝ) ≠ 0 := by
    have : n - 1 ≠ 0 := by omega
    exact_mod_cast this
  have hsym : ∀ i, i < n → (1 / 2 * (1 - Real.cos (2 * Real.pi * i / ((n - 1 : Nat) : ℝ))) : ℝ)
      = 1 / 2 * (1 - Real.cos (2 * Real.pi * ((n - 1 - i : Nat) : ℝ) / ((n - 1 : Nat) : ℝ))) := by
    intro i hi
    have : 2 * Real.pi * ((n - 1 - i : Nat) : ℝ) / ((n - 1 : Nat) : ℝ)
        = 2 * Real.pi - 2 * Real.pi * i / ((n - 1 : Nat) : ℝ) := by
      rw [Nat.cast_sub (by omega : i ≤ n - 1)]
      field_simp
    rw [this, Real.cos_two_pi_sub]
  refine ⟨(List.range n).map (fun (i : Nat) =>
    (1 / 2 * (1 - Real.cos (2 * Real.pi * i / ((n - 1 : Nat) : ℝ))) : ℝ)), ?_, by simp, ?_, ?_, ?_, ?_⟩
  · unfold hanning
    rw [List.map_map]
    refine List.map_congr_left (fun i _ => ?_)
    rw [if_neg (by omega)]
    rfl
  · intro v hv
    obtain ⟨i, -, rfl⟩ := List.mem_map.1 hv
    have h1 := Real.neg_one_le_cos (2 * Real.pi * i / ((n - 1 : Nat) : ℝ))
    have h2 := Real.cos_le_one (2 * Real.pi * i / ((n - 1 : Nat) : ℝ))
    constructor <;> linarith
  · rw [List.getElem?_map, List.getElem?_range (by omega)]
    simp
  · rw [List.getElem?_map, List.getElem?_range (by omega)]
    simp only [Option.map_some]
    rw [mul_div_assoc, div_self hn1]
    simp
  · intro i hi
    rw [List.getElem?_map, List.getElem?_range hi, List.getElem?_map,
      List.getElem?_range (by omega)]
    simp only [Option.map_some]
    rw [hsym i hi]

/-- C79. With a single point the window is not a number and the windowed line neither. -/
theorem C79_hanning_counterexample (x : ℝ) :
    hanning 1 = [none] ∧ applyWindow (hanning 1) [x] = [none] := by
  have : hanning 1 = [none] := by simp [hanning]
  exact ⟨this, by rw [this]; rfl⟩

/-- The hypotheses of `C79_convolved` on an image of 2×3 pixels. -/
example : ∃ sp d', spectrum1d [2, 3] [1, 2, 4, 0, 5, 7] 1 = .ok sp
      ∧ convolve (convolver [1, 2]) [2, 3] [1, 2, 4, 0, 5, 7] 1 = .ok d'
      ∧ spectrum1d [2, 3] d' 1 = .ok (List.zipWith (fun k s => k ^ 2 * s) [1, 2] sp) :=
  C79_convolved [1, 2] [2, 3] _ rfl (by simp) 1 3 rfl rfl

/-- The hypotheses of `C79_kernel`. -/
example : ∃ K, deconvKernel [4, 1, 0] [1, 2, 3] 1 = .ok K ∧ K.length = 3 := by
  obtain ⟨K, h1, h2, -⟩ := C79_kernel [4, 1, 0] [1, 2, 3] 1 (by norm_num) (by simp) (by simp)
    (by intro v hv; fin_cases hv <;> norm_num) (by intro v hv; fin_cases hv <;> norm_num)
  exact ⟨K, h1, h2⟩

end Colloids.Deconv
