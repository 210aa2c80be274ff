import Mathlib.Tactic.Linarith
import Mathlib.Tactic.NormNum
import Verif.CommonLemmas
import Verif.Py.RadiusModel

/-! # C252: neighbourhood and intensity profile of a particle -/

namespace Colloids
namespace Py
namespace Radius

/-- C252. For a point of the image (one dimension), the neighbourhood is made of consecutive pixels of the image, all those at a distance of at most `r` and
none at `r + 1` or more; and the coordinate of the center in the neighbourhood designates the same place as the point in the image. -/
theorem C252_neighbourhood {A : Type} (image : List A) (p r : ℝ) (h0 : 0 ≤ p) (hr : 0 ≤ r) (hn : p ≤ image.length) :
    ∃ lo : Nat, (neighbourhood image p r).2 = p - lo ∧
      (∀ (k : Nat) a, (neighbourhood image p r).1[k]? = some a → image[lo + k]? = some a ∧ |((lo + k : Nat) : ℝ) - p| < r + 1) ∧
      ∀ (i : Nat) a, image[i]? = some a → |(i : ℝ) - p| ≤ r → lo ≤ i ∧ (neighbourhood image p r).1[i - lo]? = some a := by
  have hlo : 0 ≤ ⌊max 0 (p - r)⌋ := Int.floor_nonneg.2 (le_max_left _ _)
  have hcast : ((⌊max 0 (p - r)⌋.toNat : Nat) : ℝ) = (⌊max 0 (p - r)⌋ : ℝ) := by
    rw [← Int.cast_natCast, Int.toNat_of_nonneg hlo]
  have hfl := Int.floor_le (max 0 (p - r))
  have hfl' := Int.lt_floor_add_one (max 0 (p - r))
  have hle : ⌊max 0 (p - r)⌋ ≤ ⌊min (image.length : ℝ) (p + r + 1)⌋ := by
    refine Int.floor_le_floor (max_le (le_min ?_ ?_) (le_min ?_ ?_))
    · exact Nat.cast_nonneg _
    · linarith
    · linarith
    · linarith
  have hup := Int.floor_le (min (image.length : ℝ) (p + r + 1))
  have hupn := hup.trans (min_le_left _ _)
  have hupp := hup.trans (min_le_right _ _)
  refine ⟨⌊max 0 (p - r)⌋.toNat, ?_, ?_, ?_⟩
  · rw [hcast]
    rfl
  · intro k a hk
    have hk' : ((image.drop ⌊max 0 (p - r)⌋.toNat).take (⌊min (image.length : ℝ) (p + r + 1)⌋ - ⌊max 0 (p - r)⌋).toNat)[k]? = some a := hk
    have hkt : k < (⌊min (image.length : ℝ) (p + r + 1)⌋ - ⌊max 0 (p - r)⌋).toNat := by
      by_contra hge
      rw [List.getElem?_take, if_neg hge] at hk'
      exact absurd hk' (by simp)
    rw [List.getElem?_take, if_pos hkt, List.getElem?_drop] at hk'
    refine ⟨hk', ?_⟩
    have h1 : ((k : Int) + 1 : Int) ≤ ⌊min (image.length : ℝ) (p + r + 1)⌋ - ⌊max 0 (p - r)⌋ := by omega
    have h2 : (k : ℝ) + 1 ≤ (⌊min (image.length : ℝ) (p + r + 1)⌋ : ℝ) - (⌊max 0 (p - r)⌋ : ℝ) := by exact_mod_cast h1
    have h3 := le_max_right 0 (p - r)
    have h4 : (0 : ℝ) ≤ k := Nat.cast_nonneg k
    rw [Nat.cast_add, hcast, abs_lt]
    constructor <;> linarith
  · intro i a hi hd
    obtain ⟨d1, d2⟩ := abs_le.1 hd
    have hin : i < image.length := by
      by_contra hge
      rw [List.getElem?_eq_none (by omega)] at hi
      exact absurd hi (by simp)
    have h1 : ⌊max 0 (p - r)⌋ ≤ (i : Int) := by
      have : (⌊max 0 (p - r)⌋ : ℝ) ≤ i := hfl.trans (max_le (Nat.cast_nonneg i) (by linarith))
      exact_mod_cast this
    have h2 : (i : Int) + 1 ≤ ⌊min (image.length : ℝ) (p + r + 1)⌋ := by
      rw [Int.le_floor]
      push_cast
      refine le_min ?_ (by linarith)
      exact_mod_cast hin
    refine ⟨by omega, ?_⟩
    show ((image.drop ⌊max 0 (p - r)⌋.toNat).take (⌊min (image.length : ℝ) (p + r + 1)⌋ - ⌊max 0 (p - r)⌋).toNat)[i - ⌊max 0 (p - r)⌋.toNat]? = some a
    rw [List.getElem?_take, if_pos (by omega), List.getElem?_drop]
    rw [show ⌊max 0 (p - r)⌋.toNat + (i - ⌊max 0 (p - r)⌋.toNat) = i by omega]
    exact hi

/-- A point between two pixels near the border of an image of 5 pixels. -/
example : (0 : ℝ) ≤ 1.5 ∧ (0 : ℝ) ≤ 2 ∧ (1.5 : ℝ) ≤ ([10, 20, 30, 40, 50] : List Nat).length := by
  norm_num

/-- C252. The square distance of a pixel of the neighbourhood is the one between its place in the image and the point, the third coordinate in units of the others. -/
theorem C252_distance (zratio : ℝ) (p lo center : Fin 3 → ℝ) (hc : ∀ d, center d = p d - lo d) (i j k : Nat) :
    sqDist zratio center i j k = (lo 0 + i - p 0) ^ 2 + (lo 1 + j - p 1) ^ 2 + (zratio * (lo 2 + k) - zratio * p 2) ^ 2 := by
  rw [sqDist, hc, hc, hc]
  ring

/-- The center that `getNeighbourhood` gives for a point away from the borders. -/
example : ∀ d : Fin 3, (fun _ => 10.5 : Fin 3 → ℝ) d = (fun _ => 30.5 : Fin 3 → ℝ) d - (fun _ => 20 : Fin 3 → ℝ) d := by
  intro d
  norm_num

/-! ## Profile -/

theorem take_set_sum (l : List ℝ) (i n : Nat) (x y : ℝ) (h : l[i]? = some y) :
    ((l.set i (y + x)).take n).sum = (l.take n).sum + if i < n then x else 0 := by
  induction l generalizing i n with
  | nil => exact absurd h (by simp)
  | cons a l ih =>
    cases n with
    | zero => simp
    | succ n =>
      cases i with
      | zero =>
        rw [List.getElem?_cons_zero, Option.some.injEq] at h
        rw [List.set_cons_zero, List.take_succ_cons, List.take_succ_cons, List.sum_cons, List.sum_cons, if_pos (by omega), h]
        ring
      | succ i =>
        rw [List.getElem?_cons_succ] at h
        rw [List.set_cons_succ, List.take_succ_cons, List.take_succ_cons, List.sum_cons, List.sum_cons, ih i n h, ← add_assoc]
        congr 1
        by_cases hin : i < n
        · rw [if_pos hin, if_pos (by omega)]
        · rw [if_neg hin, if_neg (by omega)]

theorem addAt_eq (l : List ℝ) (i : Nat) (x : ℝ) (h : i < l.length) :
    ∃ l', addAt l i x = .ok l' ∧ l'.length = l.length ∧ ∀ n, (l'.take n).sum = (l.take n).sum + if i < n then x else 0 := by
  refine ⟨l.set i (l[i] + x), ?_, List.length_set, fun n => take_set_sum l i n x l[i] (List.getElem?_eq_getElem h)⟩
  rw [addAt, List.getElem?_eq_getElem h]

/-- Square distances that a byte holds. -/
def Byte (d : ℝ) : Prop := ∃ n : Nat, n < 256 ∧ d = n

theorem stored_byte {d : ℝ} (h : Byte d) : (stored d : ℝ) = d := by
  obtain ⟨n, hn, rfl⟩ := h
  rw [stored, Nat.floor_natCast, Nat.mod_eq_of_lt hn]

open Classical in
/-- C252. If the square distances are integers below 256 and the range is a number of bins, item `k` of the profile is the mean of the values of the pixels nearer
than `k + 1` bins. -/
theorem C252_profile_partial (N : Nat) (precision : ℝ) (hp : 0 < precision) (pixels : List (ℝ × ℝ)) (hb : ∀ x ∈ pixels, Byte x.2) :
    ∃ st, histograms (N * precision) precision pixels = .ok st ∧ ∀ k < N,
      intensity st k = ((pixels.filter fun x => Real.sqrt x.2 < (k + 1) * precision).map Prod.fst).sum /
        (pixels.filter fun x => Real.sqrt x.2 < (k + 1) * precision).length := by
  have hN : ⌊(N * precision) / precision⌋₊ = N := by
    rw [mul_div_cancel_right₀ _ hp.ne', Nat.floor_natCast]
  suffices h : ∀ (l : List (ℝ × ℝ)) (st : List ℝ × List ℝ), (∀ x ∈ l, Byte x.2) → st.1.length = N → st.2.length = N →
      ∃ st', l.foldlM (addPixel (N * precision) precision) st = .ok st' ∧ ∀ k < N,
        (st'.1.take (k + 1)).sum = (st.1.take (k + 1)).sum + (l.filter fun x => Real.sqrt x.2 < (k + 1) * precision).length ∧
        (st'.2.take (k + 1)).sum = (st.2.take (k + 1)).sum + ((l.filter fun x => Real.sqrt x.2 < (k + 1) * precision).map Prod.fst).sum by
    obtain ⟨st', h1, h2⟩ := h pixels (List.replicate N 0, List.replicate N 0) hb List.length_replicate List.length_replicate
    refine ⟨st', ?_, fun k hk => ?_⟩
    · rw [histograms, hN]
      exact h1
    · obtain ⟨h3, h4⟩ := h2 k hk
      have h0 : ((List.replicate N (0 : ℝ)).take (k + 1)).sum = 0 := by
        rw [List.take_replicate]
        simp
      rw [intensity, h3, h4]
      simp only
      rw [h0, zero_add, zero_add]
  intro l
  induction l with
  | nil =>
    intro st _ _ _
    exact ⟨st, rfl, fun k _ => by simp⟩
  | cons x l ih =>
    intro st hl hs1 hs2
    have hx := stored_byte (hl x List.mem_cons_self)
    have hd0 : 0 ≤ x.2 := by rw [← hx]; exact Nat.cast_nonneg _
    have hl' : ∀ x ∈ l, Byte x.2 := fun y hy => hl y (List.mem_cons_of_mem _ hy)
    have hNp : 0 ≤ (N : ℝ) * precision := mul_nonneg (Nat.cast_nonneg _) hp.le
    rw [List.foldlM_cons]
    by_cases hc : x.2 < (N * precision) ^ 2
    · have hsq : Real.sqrt x.2 < N * precision := by
        rw [Real.sqrt_lt' (lt_of_le_of_ne hNp ?_)]
        · exact hc
        · intro e
          rw [← e] at hc
          norm_num at hc
          linarith
      have hq : 0 ≤ Real.sqrt x.2 / precision := div_nonneg (Real.sqrt_nonneg _) hp.le
      have hi : ∀ n : Nat, ⌊Real.sqrt x.2 / precision⌋₊ < n ↔ Real.sqrt x.2 < n * precision := by
        intro n
        rw [Nat.floor_lt hq, div_lt_iff₀ hp]
      have hiN : ⌊Real.sqrt x.2 / precision⌋₊ < N := (hi N).2 hsq
      obtain ⟨n', e1, l1, s1⟩ := addAt_eq st.1 ⌊Real.sqrt x.2 / precision⌋₊ 1 (by omega)
      obtain ⟨v', e2, l2, s2⟩ := addAt_eq st.2 ⌊Real.sqrt x.2 / precision⌋₊ x.1 (by omega)
      have hstep : addPixel (N * precision) precision st x = .ok (n', v') := by
        rw [addPixel, hx, if_pos hc]
        simp only
        rw [e1, ok_bind, e2, ok_bind]
        rfl
      obtain ⟨st', h1, h2⟩ := ih (n', v') hl' (by simp only; omega) (by simp only; omega)
      refine ⟨st', ?_, fun k hk => ?_⟩
      · rw [hstep, ok_bind]
        exact h1
      · obtain ⟨h3, h4⟩ := h2 k hk
        have hik := hi (k + 1)
        push_cast at hik
        rw [h3, h4]
        simp only
        rw [s1, s2]
        by_cases hin : Real.sqrt x.2 < (k + 1) * precision
        · rw [if_pos (hik.2 hin), if_pos (hik.2 hin), List.filter_cons_of_pos (by simpa using hin), List.length_cons, List.map_cons, List.sum_cons]
          push_cast
          constructor <;> ring
        · rw [if_neg (fun h => hin (hik.1 h)), if_neg (fun h => hin (hik.1 h)), List.filter_cons_of_neg (by simpa using hin)]
          constructor <;> ring
    · have hstep : addPixel (N * precision) precision st x = .ok st := by
        rw [addPixel, hx, if_neg hc]
        rfl
      obtain ⟨st', h1, h2⟩ := ih st hl' hs1 hs2
      refine ⟨st', ?_, fun k hk => ?_⟩
      · rw [hstep, ok_bind]
        exact h1
      · have hout : ¬ Real.sqrt x.2 < (k + 1) * precision := by
          intro hlt
          have hk1 : ((k : ℝ) + 1) ≤ N := by exact_mod_cast hk
          have h5 : Real.sqrt x.2 < N * precision := lt_of_lt_of_le hlt (mul_le_mul_of_nonneg_right hk1 hp.le)
          have h6 := Real.sqrt_nonneg x.2
          have h7 := Real.sq_sqrt hd0
          apply hc
          rw [← h7]
          exact pow_lt_pow_left₀ h5 h6 (by norm_num)
        obtain ⟨h3, h4⟩ := h2 k hk
        rw [List.filter_cons_of_neg (by simpa using hout)]
        exact ⟨h3, h4⟩

/-- C252, the part that is false. A square distance counts modulo 256 and without its decimals: 256 more, or decimals, change nothing. In the neighbourhood of 10 pixels
around a pixel, the corner, at the square distance 300, counts as if it were at 44, within the range. -/
theorem C252_byte_counterexample (rmax precision : ℝ) (st : List ℝ × List ℝ) (v : ℝ) (n : Nat) (f : ℝ) (h0 : 0 ≤ f) (h1 : f < 1) :
    addPixel rmax precision st (v, n + 256) = addPixel rmax precision st (v, n) ∧
    addPixel rmax precision st (v, n + f) = addPixel rmax precision st (v, n) ∧
    sqDist 1 (fun _ => 10) 0 0 0 = 300 ∧ stored (sqDist 1 (fun _ => 10) 0 0 0) = 44 := by
  have e1 : stored ((n : ℝ) + 256) = stored n := by
    have : ((n : ℝ) + 256) = ((n + 256 : Nat) : ℝ) := by push_cast; ring
    rw [stored, stored, this, Nat.floor_natCast, Nat.floor_natCast, Nat.add_mod_right]
  have e2 : stored ((n : ℝ) + f) = stored n := by
    have : ⌊(n : ℝ) + f⌋₊ = n := by
      rw [Nat.floor_eq_iff (by have : (0 : ℝ) ≤ n := Nat.cast_nonneg n; linarith)]
      exact ⟨by linarith, by linarith⟩
    rw [stored, stored, this, Nat.floor_natCast]
  have e3 : sqDist 1 (fun _ => 10) 0 0 0 = 300 := by
    rw [sqDist]
    norm_num
  refine ⟨?_, ?_, e3, ?_⟩
  · rw [addPixel, addPixel]
    simp only
    rw [e1]
  · rw [addPixel, addPixel]
    simp only
    rw [e2]
  · rw [e3, stored]
    have : ⌊(300 : ℝ)⌋₊ = 300 := by exact_mod_cast Nat.floor_natCast 300
    rw [this]

example : ∀ x ∈ [((7 : ℝ), (0 : ℝ)), (5, 4), (3, 255)], Byte x.2 := by
  intro x hx
  rcases List.mem_cons.1 hx with rfl | hx
  · exact ⟨0, by norm_num, by norm_num⟩
  rcases List.mem_cons.1 hx with rfl | hx
  · exact ⟨4, by norm_num, by norm_num⟩
  · rw [List.mem_singleton.1 hx]
    exact ⟨255, by norm_num, by norm_num⟩

example : (0 : ℝ) ≤ 0.25 ∧ (0.25 : ℝ) < 1 := by norm_num

end Radius
end Py
end Colloids
