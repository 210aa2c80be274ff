import Mathlib.Tactic.Linarith
import Verif.CommonLemmas
import Verif.Index.Lemmas
import Verif.Py.PhaseCorProps

/-!
# Interrogation windows of `python/colloids/phaseCorrelation.py`
-/

namespace Colloids
namespace Py
namespace PhaseCor

theorem pixels_getElem? (m n i j : Nat) (hi : i < m) (hj : j < n) : (pixels m n)[i * n + j]? = some (i, j) := by
  induction m with
  | zero => omega
  | succ m ih =>
    have hlen : ∀ k, (pixels k n).length = k * n := by
      intro k
      induction k with
      | zero => simp [pixels]
      | succ k ihk =>
        unfold pixels at ihk ⊢
        rw [List.range_succ, List.flatMap_append, List.length_append, ihk]
        simp [Nat.succ_mul]
    have hs : pixels (m + 1) n = pixels m n ++ (List.range n).map fun j => (m, j) := by
      unfold pixels
      rw [List.range_succ, List.flatMap_append]
      simp
    rw [hs]
    by_cases him : i < m
    · rw [List.getElem?_append_left]
      · exact ih him
      · rw [hlen]
        calc i * n + j < i * n + n := by omega
          _ = (i + 1) * n := by ring
          _ ≤ m * n := Nat.mul_le_mul_right n him
    · have : i = m := by omega
      subst this
      rw [List.getElem?_append_right (by rw [hlen]; omega), hlen]
      simp [hj]

theorem pixels_length (m n : Nat) : (pixels m n).length = m * n := by
  unfold pixels
  simp [List.length_flatMap]

/-- memory of an image, line by line -/
def rows {α : Type} (H W : Nat) (img : Nat → Nat → α) : List α := (pixels H W).map fun p => img p.1 p.2

/-- what `as_strided` reads at one place, in general -/
theorem fieldShape_fits (size window overlap r : Nat) (ho : overlap < window)
    (hr : r < (fieldShape size window overlap).toNat) : r * (window - overlap) + window ≤ size := by
  unfold fieldShape at hr
  have hd : (0 : Int) < (window : Int) - overlap := by omega
  have h1 : (r : Int) ≤ ((size : Int) - window) / ((window : Int) - overlap) := by omega
  have h2 := (Int.le_ediv_iff_mul_le hd).1 h1
  zify [ho.le]
  linarith

theorem fieldShape_most (size window overlap : Nat) (ho : overlap < window) (hw : window ≤ size) :
    size < (fieldShape size window overlap).toNat * (window - overlap) + window := by
  unfold fieldShape
  have hd : (0 : Int) < (window : Int) - overlap := by omega
  have h2 := Int.lt_ediv_add_one_mul_self ((size : Int) - window) hd
  have h0 : 0 ≤ ((size : Int) - window) / ((window : Int) - overlap) := Int.ediv_nonneg (by omega) hd.le
  zify [ho.le]
  rw [Int.toNat_of_nonneg (by omega)]
  linarith

/-- **C199** Windows of an image that is stored line by line: window `(r, c)` is the square of side `window` whose first pixel is
`r` and `c` times the step; no pixel is read out of the image, and there are as many windows as can fit. -/
theorem C199_windows {α : Type} (img : Nat → Nat → α) (H W window overlap : Nat) (ho : overlap < window)
    (hH : window ≤ H) (hW : window ≤ W) :
    ∃ R C, R * (window - overlap) < H + (window - overlap) - window + 1 ∧ H < R * (window - overlap) + window ∧
      C * (window - overlap) < W + (window - overlap) - window + 1 ∧ W < C * (window - overlap) + window ∧
      ∃ out, subWindows (rows H W img) H W window overlap = .ok out ∧ out.length = R * C ∧
        ∀ r c, r < R → c < C → ∃ win, out[r * C + c]? = some win ∧ win.length = window ∧
          ∀ u < window, ∃ ln, win[u]? = some ln ∧ ln.length = window ∧
            ∀ v < window, ln[v]? = some (img (r * (window - overlap) + u) (c * (window - overlap) + v)) := by
  obtain ⟨R, hR⟩ : ∃ R, R = (fieldShape H window overlap).toNat := ⟨_, rfl⟩
  obtain ⟨C, hC⟩ : ∃ C, C = (fieldShape W window overlap).toNat := ⟨_, rfl⟩
  have hsmall : ∀ size, window ≤ size → (fieldShape size window overlap).toNat * (window - overlap) < size + (window - overlap) - window + 1 := by
    intro size hs
    obtain ⟨k, hk⟩ : ∃ k, k = (fieldShape size window overlap).toNat := ⟨_, rfl⟩
    rw [← hk]
    cases k with
    | zero => omega
    | succ k =>
      have := fieldShape_fits size window overlap k ho (by omega)
      rw [Nat.succ_mul]
      omega
  refine ⟨R, C, hR ▸ hsmall H hH, hR ▸ fieldShape_most H window overlap ho hH, hC ▸ hsmall W hW,
    hC ▸ fieldShape_most W window overlap ho hW, ?_⟩
  have hread : ∀ (rc : Nat × Nat), rc ∈ pixels R C → ∀ u ∈ List.range window, ∀ v ∈ List.range window,
      (match (rows H W img)[rc.1 * (W * (window - overlap)) + rc.2 * (window - overlap) + u * W + v]? with
        | some x => (.ok x : Colloids.R α)
        | none => .error .ub) = .ok (img (rc.1 * (window - overlap) + u) (rc.2 * (window - overlap) + v)) := by
    intro rc hrc u hu v hv
    obtain ⟨h1, h2⟩ := (mem_pixels R C rc).1 hrc
    have hu := List.mem_range.1 hu
    have hv := List.mem_range.1 hv
    have f1 := fieldShape_fits H window overlap rc.1 ho (hR ▸ h1)
    have f2 := fieldShape_fits W window overlap rc.2 ho (hC ▸ h2)
    have e : rc.1 * (W * (window - overlap)) + rc.2 * (window - overlap) + u * W + v =
        (rc.1 * (window - overlap) + u) * W + (rc.2 * (window - overlap) + v) := by ring
    unfold rows
    rw [e, List.getElem?_map, pixels_getElem? H W _ _ (by omega) (by omega)]
    rfl
  have hres : subWindows (rows H W img) H W window overlap = .ok ((pixels R C).map fun rc =>
      (List.range window).map fun u => (List.range window).map fun v =>
        img (rc.1 * (window - overlap) + u) (rc.2 * (window - overlap) + v)) := by
    unfold subWindows
    rw [if_neg (by omega)]
    dsimp only
    have hR0 : 0 ≤ fieldShape H window overlap := by
      unfold fieldShape
      have := Int.ediv_nonneg (a := (H : Int) - window) (b := (window : Int) - overlap) (by omega) (by omega)
      omega
    have hC0 : 0 ≤ fieldShape W window overlap := by
      unfold fieldShape
      have := Int.ediv_nonneg (a := (W : Int) - window) (b := (window : Int) - overlap) (by omega) (by omega)
      omega
    rw [if_neg (by omega), ← hR, ← hC]
    refine TreeIndex.mapM_ok_of _ _ _ fun rc hrc => ?_
    refine TreeIndex.mapM_ok_of _ _ _ fun u hu => ?_
    exact TreeIndex.mapM_ok_of _ _ _ fun v hv => hread rc hrc u hu v hv
  refine ⟨_, hres, by rw [List.length_map, pixels_length], ?_⟩
  intro r c hr hc
  refine ⟨_, by rw [List.getElem?_map, pixels_getElem? R C r c hr hc]; rfl, by simp, ?_⟩
  intro u hu
  refine ⟨_, by rw [List.getElem?_map, List.getElem?_range hu]; rfl, by simp, ?_⟩
  intro v hv
  rw [List.getElem?_map, List.getElem?_range hv]
  rfl

/-- **C199** An image smaller than the window, by the step at most, has no window; smaller by more it is an error. -/
theorem C199_small {α : Type} (mem : List α) (H W window overlap : Nat) (ho : overlap < window) (hH : H < window)
    (hW : window ≤ W) :
    (window ≤ H + (window - overlap) → subWindows mem H W window overlap = .ok []) ∧
    (H + (window - overlap) < window → subWindows mem H W window overlap = .error .invalidArgument) := by
  have hd : (0 : Int) < (window : Int) - overlap := by omega
  have hC0 : 0 ≤ fieldShape W window overlap := by
    unfold fieldShape
    have := Int.ediv_nonneg (a := (W : Int) - window) (b := (window : Int) - overlap) (by omega) (by omega)
    omega
  constructor
  · intro h
    have h0 : fieldShape H window overlap = 0 := by
      unfold fieldShape
      have h1 : ((H : Int) - window) / ((window : Int) - overlap) < 0 := Int.ediv_neg_of_neg_of_pos (by omega) hd
      have h2 : -1 ≤ ((H : Int) - window) / ((window : Int) - overlap) :=
        (Int.le_ediv_iff_mul_le hd).2 (by omega)
      omega
    unfold subWindows
    rw [if_neg (by omega)]
    dsimp only
    rw [h0, if_neg (by omega)]
    rfl
  · intro h
    have h0 : fieldShape H window overlap < 0 := by
      unfold fieldShape
      have h1 : ((H : Int) - window) / ((window : Int) - overlap) < -1 := by
        rw [Int.ediv_lt_iff_lt_mul hd]
        omega
      omega
    unfold subWindows
    rw [if_neg (by omega)]
    dsimp only
    rw [if_pos (Or.inl h0)]

/-- **C199** Counterexample: a transposed image has the memory of the image it comes from; its first window is not its own corner. -/
theorem C199_transposed_counterexample {α : Type} (img : Nat → Nat → α) (H W window overlap : Nat) (ho : overlap < window)
    (hH : window ≤ H) (hW : window ≤ W) (h2 : 2 ≤ window)
    (hinj : ∀ i j i' j', i < H → j < W → i' < H → j' < W → img i j = img i' j' → i = i' ∧ j = j') :
    ∃ out win ln x, subWindows (rows H W img) W H window overlap = .ok out ∧ out[0]? = some win ∧ win[1]? = some ln ∧
      ln[0]? = some x ∧ x ≠ (fun i j => img j i) 1 0 := by
  let b : Nat → Nat → α := fun i j => img ((i * H + j) / W) ((i * H + j) % W)
  have hmem : rows H W img = rows W H b := by
    refine List.ext_getElem? fun k => ?_
    have hl : (rows H W img).length = H * W := by unfold rows; rw [List.length_map, pixels_length]
    have hl' : (rows W H b).length = W * H := by unfold rows; rw [List.length_map, pixels_length]
    by_cases hk : k < H * W
    · have hW0 : 0 < W := by omega
      have hH0 : 0 < H := by omega
      have q1 : k / W < H := Nat.div_lt_of_lt_mul (by rw [Nat.mul_comm]; exact hk)
      have q2 : k / H < W := Nat.div_lt_of_lt_mul hk
      have e1 : k / W * W + k % W = k := by rw [Nat.mul_comm]; exact Nat.div_add_mod k W
      have e2 : k / H * H + k % H = k := by rw [Nat.mul_comm]; exact Nat.div_add_mod k H
      have a1 : (rows H W img)[k]? = some (img (k / W) (k % W)) := by
        unfold rows
        rw [List.getElem?_map]
        have := pixels_getElem? H W (k / W) (k % W) q1 (Nat.mod_lt _ hW0)
        rw [e1] at this
        rw [this]
        rfl
      have a2 : (rows W H b)[k]? = some (img (k / W) (k % W)) := by
        unfold rows
        rw [List.getElem?_map]
        have := pixels_getElem? W H (k / H) (k % H) q2 (Nat.mod_lt _ hH0)
        rw [e2] at this
        rw [this]
        show some (b (k / H) (k % H)) = _
        show some (img ((k / H * H + k % H) / W) ((k / H * H + k % H) % W)) = _
        rw [e2]
      rw [a1, a2]
    · rw [List.getElem?_eq_none (by omega), List.getElem?_eq_none (by rw [hl', Nat.mul_comm]; omega)]
  obtain ⟨R, C, hR1, hR2, hC1, hC2, out, hout, hlen, hw⟩ := C199_windows b W H window overlap ho hW hH
  have hR : 0 < R := by
    rcases Nat.eq_zero_or_pos R with e | h
    · subst e; omega
    · exact h
  have hC : 0 < C := by
    rcases Nat.eq_zero_or_pos C with e | h
    · subst e; omega
    · exact h
  obtain ⟨win, w1, w2, w3⟩ := hw 0 0 hR hC
  obtain ⟨ln, l1, l2, l3⟩ := w3 1 (by omega)
  refine ⟨out, win, ln, _, by rw [hmem]; exact hout, by simpa using w1, l1, l3 0 (by omega), ?_⟩
  intro e
  simp only [Nat.zero_mul, Nat.zero_add, Nat.add_zero, b, Nat.one_mul] at e
  have hlt : H / W < H := Nat.div_lt_self (by omega) (by omega)
  obtain ⟨e1, e2⟩ := hinj _ _ _ _ hlt (Nat.mod_lt _ (by omega)) (by omega) (by omega) e
  have := Nat.div_add_mod H W
  rw [e1, e2] at this
  omega

section Coord

variable {F : Type} [Field F] [LinearOrder F] [IsStrictOrderedRing F]

/-- **C199** The coordinates have the shape of the field of windows; at line `r` and column `c`, `x` is the center of the windows of
column `c`, and `y` the center of the windows of line `R - 1 - r`: the lines go from the last to the first. -/
theorem C199_coordinates (H W window overlap : Nat) (ho : overlap < window) :
    ∃ out : List (List (F × F)), getCoordinates H W window overlap = .ok out ∧
      out.length = (fieldShape H window overlap).toNat ∧
      ∀ r < out.length, ∃ ln, out[r]? = some ln ∧ ln.length = (fieldShape W window overlap).toNat ∧
        ∀ c < ln.length, ln[c]? = some
          (((List.range window).map fun (v : Nat) => ((c * (window - overlap) + v : Nat) : F)).sum / window,
           ((List.range window).map fun (u : Nat) => (((out.length - 1 - r) * (window - overlap) + u : Nat) : F)).sum / window) := by
  have hc : ∀ k : Nat, ((List.range window).map fun (v : Nat) => ((k + v : Nat) : F)).sum / window = (k : F) + ((window : F) - 1) / 2 := by
    intro k
    have hs : ∀ w : Nat, ((List.range w).map fun (v : Nat) => ((k + v : Nat) : F)).sum = w * ((k : F) + ((w : F) - 1) / 2) := by
      intro w
      induction w with
      | zero => simp
      | succ w ih =>
        rw [List.range_succ, List.map_append, List.sum_append, ih]
        simp
        ring
    rw [hs]
    have : (window : F) ≠ 0 := by
      have : 0 < window := by omega
      exact_mod_cast this.ne'
    field_simp
  unfold getCoordinates
  rw [if_neg (by omega)]
  refine ⟨_, rfl, by simp, ?_⟩
  intro r hr
  simp only [List.length_map, List.length_reverse, List.length_range] at hr
  refine ⟨_, by
    rw [List.getElem?_map, List.getElem?_reverse (by simpa using hr)]
    rw [List.getElem?_map, List.getElem?_range (by simp; omega)]
    rfl, by simp, ?_⟩
  intro c hc'
  simp only [List.length_map, List.length_range] at hc'
  rw [List.getElem?_map, List.getElem?_map, List.getElem?_range hc', hc, hc]
  simp

/-- **C199** Counterexample: the `y` given for the first line of windows is that of the last line. -/
theorem C199_reversed_counterexample (H W window overlap : Nat) (ho : overlap < window)
    (hH : window + (window - overlap) ≤ H) (hW : window ≤ W) :
    ∃ (out : List (List (F × F))) (ln : List (F × F)) (p : F × F), getCoordinates H W window overlap = .ok out ∧ out[0]? = some ln ∧
      ln[0]? = some p ∧ p.2 ≠ ((List.range window).map fun (u : Nat) => ((u : Nat) : F)).sum / window := by
  obtain ⟨out, h1, h2, h3⟩ := C199_coordinates (F := F) H W window overlap ho
  have hd : (0 : Int) < (window : Int) - overlap := by omega
  have hR : 1 ≤ ((H : Int) - window) / ((window : Int) - overlap) := (Int.le_ediv_iff_mul_le hd).2 (by omega)
  have hC : 0 ≤ ((W : Int) - window) / ((window : Int) - overlap) := Int.ediv_nonneg (by omega) (by omega)
  have hR' : 2 ≤ out.length := by rw [h2]; unfold fieldShape; omega
  obtain ⟨ln, l1, l2, l3⟩ := h3 0 (by omega)
  have hC' : 0 < ln.length := by rw [l2]; unfold fieldShape; omega
  refine ⟨out, ln, _, h1, l1, l3 0 hC', ?_⟩
  dsimp only
  have hw : (0 : F) < window := by
    have : 0 < window := by omega
    exact_mod_cast this
  intro e
  rw [div_left_inj' hw.ne'] at e
  have hpos : 0 < (out.length - 1 - 0) * (window - overlap) := Nat.mul_pos (by omega) (by omega)
  generalize (out.length - 1 - 0) * (window - overlap) = k at e hpos
  have hs : ∀ w : Nat, ((List.range w).map fun (u : Nat) => ((k + u : Nat) : F)).sum = w * (k : F) + ((List.range w).map fun (u : Nat) => ((u : Nat) : F)).sum := by
    intro w
    induction w with
    | zero => simp
    | succ w ih =>
      rw [List.range_succ, List.map_append, List.sum_append, ih, List.map_append, List.sum_append]
      simp
      ring
  rw [hs] at e
  have hk : (0 : F) < k := by exact_mod_cast hpos
  have := mul_pos hw hk
  linarith

end Coord

/-- an image whose pixels are all different, and windows that fit -/
example : ∃ img : Nat → Nat → Nat, (∀ i j i' j', i < 6 → j < 8 → i' < 6 → j' < 8 → img i j = img i' j' → i = i' ∧ j = j') ∧
    (2 : Nat) < 4 ∧ 4 + (4 - 2) ≤ 6 := ⟨fun i j => i * 8 + j, by intros; simp only at *; omega, by norm_num, by norm_num⟩

end PhaseCor
end Py
end Colloids
