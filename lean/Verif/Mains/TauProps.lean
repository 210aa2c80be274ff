import Verif.Mains.TauModel
import Verif.Mains.LostProps
import Mathlib.Tactic.NormNum
import Mathlib.Tactic.FieldSimp
import Mathlib.Algebra.Order.Ring.Rat
import Mathlib.Algebra.Field.Rat

/-! # The relaxation time, the jump frequency, the volume fraction -/

namespace Colloids
namespace Mains

variable {G : Type} [Field G] [LinearOrder G]

/-! ### Relaxation time -/

theorem upperBoundAux_spec {e : G} {l : List G} {k : Nat} (hk : ∀ (i : Nat) (x : G), l[i]? = some x → (e < x ↔ k ≤ i)) :
    ∀ (fuel first len : Nat), len ≤ fuel → first ≤ k → k ≤ first + len → first + len ≤ l.length →
      upperBoundAux e l fuel first len = k := by
  intro fuel
  induction fuel with
  | zero => intro first len h1 h2 h3 _; unfold upperBoundAux; omega
  | succ fuel ih =>
    intro first len h1 h2 h3 h4
    unfold upperBoundAux
    by_cases h0 : len = 0
    · rw [if_pos h0]; omega
    · rw [if_neg h0]
      dsimp only
      have hlt : first + len / 2 < l.length := by omega
      have hg : l[first + len / 2]? = some l[first + len / 2] := by simp [hlt]
      have := hk _ _ hg
      rw [List.getD_eq_getElem?_getD, hg, Option.getD_some]
      split
      · rename_i he
        exact ih _ _ (by omega) h2 (this.1 he) (by omega)
      · rename_i he
        have : ¬ k ≤ first + len / 2 := fun h => he (this.2 h)
        exact ih _ _ (by omega) (by omega) (by omega) (by omega)

theorem loadTau_cross {e : G} {isf : List G} {k : Nat} (hn : isf ≠ []) (hs : isf.length < szMod) (hkn : k ≤ isf.length)
    (hk : ∀ (t : Nat) (x : G), isf[t]? = some x → (e < x ↔ t < k)) :
    loadTau e isf = .ok (if k = 0 then szMod - 1 else k - 1) := by
  have hpos : 0 < isf.length := List.length_pos_iff.2 hn
  have hub : upperBound e isf.reverse = isf.length - k := by
    unfold upperBound
    refine upperBoundAux_spec (k := isf.length - k) ?_ _ _ _ le_rfl (by omega) (by simp) (by simp)
    intro i x hx
    have hi : i < isf.length := by simpa using (List.getElem?_eq_some_iff.1 hx).1
    rw [List.getElem?_reverse hi] at hx
    rw [hk _ _ hx]
    omega
  have hlast : isf.getLast? = some isf[isf.length - 1] := by
    rw [List.getLast?_eq_getElem?]
    simp [hpos]
  have := hk (isf.length - 1) isf[isf.length - 1] (by simp [hpos])
  unfold loadTau
  rw [hlast]
  dsimp only
  by_cases hl : isf.length - 1 < k
  · rw [if_pos (this.2 hl), if_neg (by omega)]
    congr 1; omega
  · rw [if_neg (fun h => hl (this.1 h)), hub]
    by_cases h0 : k = 0
    · rw [if_pos h0, Nat.mod_eq_of_lt (by omega)]
      congr 1; omega
    · rw [if_neg h0]
      have e1 : isf.length - 1 + (szMod - (isf.length - k)) = k - 1 + szMod := by omega
      rw [e1, Nat.add_mod_right, Nat.mod_eq_of_lt (by omega)]

/-- **C112** (part: the correlation decreases, and is above 1/e at first) The relaxation time is the last time step
at which the correlation is above 1/e. -/
theorem C112_relaxation_partial {e x0 : G} {isf : List G} (hs : isf.length < szMod)
    (hdec : isf.Pairwise (fun x y => y ≤ x)) (h0 : isf[0]? = some x0) (he : e < x0) :
    ∃ tau x, loadTau e isf = .ok tau ∧ isf[tau]? = some x ∧ e < x ∧
      ∀ (t : Nat) (y : G), tau < t → isf[t]? = some y → y ≤ e := by
  have hpos := (List.getElem?_eq_some_iff.1 h0).1
  have hmono : ∀ (i j : Nat) (x y : G), i ≤ j → isf[i]? = some x → isf[j]? = some y → y ≤ x := by
    intro i j x y hij hi hj
    rcases Nat.lt_or_ge i j with h | h
    · obtain ⟨h1, rfl⟩ := List.getElem?_eq_some_iff.1 hi
      obtain ⟨h2, rfl⟩ := List.getElem?_eq_some_iff.1 hj
      exact List.pairwise_iff_getElem.1 hdec i j h1 h2 h
    · have : i = j := by omega
      subst this
      rw [hi] at hj; cases hj; exact le_rfl
  have hex : ∃ k, k ≤ isf.length ∧ ∀ (t : Nat) (x : G), isf[t]? = some x → (e < x ↔ t < k) := by
    classical
    by_cases hall : ∀ (t : Nat) (x : G), isf[t]? = some x → e < x
    · exact ⟨isf.length, le_rfl, fun t x hx => ⟨fun _ => (List.getElem?_eq_some_iff.1 hx).1, fun _ => hall t x hx⟩⟩
    · have hex : ∃ t : Nat, ∃ x : G, isf[t]? = some x ∧ ¬ e < x := by
        by_contra hc
        exact hall (fun t x hx => by
          by_contra h
          exact hc ⟨t, x, hx, h⟩)
      obtain ⟨z, hz, hzl⟩ := Nat.find_spec hex
      refine ⟨Nat.find hex, (List.getElem?_eq_some_iff.1 hz).1.le, ?_⟩
      intro t x hx
      constructor
      · intro h
        by_contra hc
        exact hzl (lt_of_lt_of_le h (hmono _ _ _ _ (by omega) hz hx))
      · intro h
        by_contra hc
        exact Nat.find_min hex h ⟨x, hx, hc⟩
  obtain ⟨k, hk1, hk2⟩ := hex
  have hk0 : 0 < k := (hk2 0 x0 h0).1 he
  refine ⟨k - 1, isf[k - 1], ?_, by simp [show k - 1 < isf.length by omega], ?_, ?_⟩
  · rw [loadTau_cross (by intro e; rw [e] at hpos; simp at hpos) hs hk1 hk2, if_neg (by omega)]
  · exact (hk2 (k - 1) _ (by simp [show k - 1 < isf.length by omega])).2 (by omega)
  · intro t y ht hy
    exact not_lt.1 (fun h => by have := (hk2 t y hy).1 h; omega)

/-- **C112** is false when the correlation is never above 1/e (an empty file for instance): the time found is the
largest `size_t`. -/
theorem C112_never_counterexample {e : G} {isf : List G} (hn : isf ≠ []) (hs : isf.length < szMod)
    (h : ∀ x ∈ isf, x ≤ e) : loadTau e isf = .ok (szMod - 1) := by
  rw [loadTau_cross (k := 0) hn hs (by omega), if_pos rfl]
  intro t x hx
  have := h x (List.mem_of_getElem? hx)
  simp [this]

/-- **C112** is false with noise: after the correlation has gone below 1/e (here 3/8 instead) once and for the first
time at step 1, a last value above it makes the time found be the length of the film. -/
theorem C112_noise_counterexample : loadTau (3 / 8 : ℚ) [1, 1 / 4, 1 / 4, 1 / 4, 1 / 2] = .ok 4 := by
  unfold loadTau
  norm_num

example : loadTau (3 / 8 : ℚ) [1, 3 / 4, 1 / 2, 1 / 4, 0] = .ok 2 := by
  obtain ⟨tau, x, h1, h2, h3, h4⟩ := C112_relaxation_partial (e := (3 / 8 : ℚ)) (isf := [1, 3 / 4, 1 / 2, 1 / 4, 0])
    (x0 := 1) (by simp [szMod]) (by norm_num) rfl (by norm_num)
  rw [h1]
  congr 1
  match tau, h2 with
  | 0, h2 => have := h4 1 (3 / 4) (by omega) rfl; norm_num at this
  | 1, h2 => have := h4 2 (1 / 2) (by omega) rfl; norm_num at this
  | 2, h2 => rfl
  | 3, h2 => simp at h2; subst h2; norm_num at h3
  | 4, h2 => simp at h2; subst h2; norm_num at h3
  | n + 5, h2 => simp at h2

/-! ### Volume fraction -/

/-- **C114** (part) What is written is 3/4 of the fraction of the cell that the particle fills, 0 when the volume of
the cell is not known (0). -/
theorem C114_phi_partial [CharZero G] (pi radius : G) (vol : List G) (p : Nat) (v : G) (hv : vol[p]? = some v) :
    (phiOf pi radius vol)[p]? = some (if v = 0 then 0 else 3 / 4 * (4 / 3 * pi * radius ^ 3 / v)) := by
  unfold phiOf
  rw [List.getElem?_map, hv, Option.map_some]
  split
  · rename_i h; rw [h]
  · congr 1
    unfold unitVolume
    have : ((4 / 3 : Nat) : G) = 1 := by norm_num
    rw [this]
    ring

/-- **C114** is false: a particle that fills its whole cell gets a volume fraction of 3/4. -/
theorem C114_phi_counterexample [CharZero G] (pi radius : G) (h : 4 / 3 * pi * radius ^ 3 ≠ 0) :
    phiOf pi radius [4 / 3 * pi * radius ^ 3] = [3 / 4] := by
  have := C114_phi_partial pi radius [4 / 3 * pi * radius ^ 3] 0 _ rfl
  rw [if_neg h, div_self h, mul_one] at this
  have hl : (phiOf pi radius [4 / 3 * pi * radius ^ 3]).length = 1 := by simp [phiOf]
  match hp : phiOf pi radius [4 / 3 * pi * radius ^ 3], hl with
  | [x], _ =>
    rw [hp] at this
    simpa using this

end Mains
end Colloids
