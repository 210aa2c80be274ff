import Mathlib.Tactic.Linarith
import Mathlib.Tactic.Ring
import Mathlib.Tactic.Positivity
import Mathlib.Tactic.NormNum
import Mathlib.Tactic.FieldSimp
import Mathlib.Algebra.Order.Archimedean.Basic
import Mathlib.Algebra.Order.Round
import Verif.CommonLemmas
import Verif.Py.PeriodicModel

/-! # Shortest vectors in a periodic box, in python (C149) -/

namespace Colloids
namespace Py
namespace Periodic

variable {G : Type} [Field G] [LinearOrder G] [IsStrictOrderedRing G]

/-- A number in a period around 0 is the shortest among those that differ by periods. -/
theorem shortest {d p : G} (hp : 0 < p) (h1 : -(p / 2) ≤ d) (h2 : d ≤ p / 2) (j : ℤ) : |d| ≤ |d - j * p| := by
  have hd : |d| ≤ p / 2 := abs_le.2 ⟨h1, h2⟩
  rcases lt_trichotomy j 0 with hj | hj | hj
  · have : (j : G) ≤ -1 := by exact_mod_cast (by omega : j ≤ -1)
    have h3 : p ≤ -(j : G) * p := by nlinarith
    rw [abs_of_nonneg (by linarith : 0 ≤ d - j * p)]
    linarith
  · subst hj; simp
  · have : (1 : G) ≤ (j : G) := by exact_mod_cast (by omega : 1 ≤ j)
    have h3 : p ≤ (j : G) * p := by nlinarith
    rw [abs_of_nonpos (by linarith : d - j * p ≤ 0)]
    linarith

variable [FloorRing G]

theorem periodify_range {u v p : G} (hp : 0 < p) :
    -(p / 2) ≤ periodify u v p ∧ periodify u v p < p / 2 ∧ ∃ k : ℤ, periodify u v p = v - u - k * p := by
  have hdef : periodify u v p = v - u - p * ((⌊(v - u) / p + 1 / 2⌋ : ℤ) : G) := by
    unfold periodify
    rw [if_neg (not_le.2 hp)]
  have h1 := Int.floor_le ((v - u) / p + 1 / 2)
  have h2 := Int.lt_floor_add_one ((v - u) / p + 1 / 2)
  have hm : p * ((v - u) / p) = v - u := by field_simp
  have h3 := mul_le_mul_of_nonneg_left h1 hp.le
  have h4 := mul_lt_mul_of_pos_left h2 hp
  rw [mul_add, hm] at h3
  rw [mul_add, hm, mul_add] at h4
  refine ⟨?_, ?_, ⌊(v - u) / p + 1 / 2⌋, ?_⟩
  · rw [hdef]; linarith
  · rw [hdef]; linarith
  · rw [hdef]; ring

/-- C149. `periodify` gives the vector from `u` to an image of `v`, and no image is nearer; it is in the half-open period around 0. Without
period it is the difference. -/
theorem C149_periodify (u v p : G) :
    (0 < p → (∃ k : ℤ, periodify u v p = v + k * p - u) ∧ (∀ j : ℤ, |periodify u v p| ≤ |v + j * p - u|) ∧
      -(p / 2) ≤ periodify u v p ∧ periodify u v p < p / 2) ∧
    (p ≤ 0 → periodify u v p = v - u) := by
  refine ⟨fun hp => ?_, fun hp => by unfold periodify; rw [if_pos hp]⟩
  obtain ⟨h1, h2, k, hk⟩ := periodify_range (u := u) (v := v) hp
  refine ⟨⟨-k, by rw [hk]; push_cast; ring⟩, ?_, h1, h2⟩
  intro j
  have := shortest hp h1 h2.le (-j - k)
  rw [show periodify u v p - ((-j - k : ℤ) : G) * p = v + j * p - u by rw [hk]; push_cast; ring] at this
  exact this

example : (0 : ℚ) < 10 ∧ periodify (1 : ℚ) 9 10 = -2 := by
  refine ⟨by norm_num, ?_⟩
  unfold periodify
  norm_num

/-- C149. The distance does not depend on the order of the points nor on the image that is given. -/
theorem C149_symmetric (u v p : G) (hp : 0 < p) (m : ℤ) :
    |periodify u v p| = |periodify v u p| ∧ periodify u (v + m * p) p = periodify u v p := by
  constructor
  · obtain ⟨⟨k, hk⟩, h1, _⟩ := (C149_periodify u v p).1 hp
    obtain ⟨⟨k', hk'⟩, h2, _⟩ := (C149_periodify v u p).1 hp
    apply le_antisymm
    · have := h1 (-k')
      rwa [show v + ((-k' : ℤ) : G) * p - u = -(periodify v u p) by rw [hk']; push_cast; ring, abs_neg] at this
    · have := h2 (-k)
      rwa [show u + ((-k : ℤ) : G) * p - v = -(periodify u v p) by rw [hk]; push_cast; ring, abs_neg] at this
  · unfold periodify
    rw [if_neg (not_le.2 hp), if_neg (not_le.2 hp)]
    have : (v + m * p - u) / p + 1 / 2 = ((v - u) / p + 1 / 2) + (m : G) := by field_simp; ring
    rw [this, Int.floor_add_intCast]
    push_cast
    ring

example : (0 : ℚ) < 3 := by norm_num

omit [FloorRing G] in
/-- The first loop. -/
theorem downLoop_ok [Archimedean G] {p : G} (hp : 0 < p) (d : G) : ∃ n, ∀ fuel, n ≤ fuel →
    ∃ k : Nat, downLoop (p * (1 / 2)) p fuel d = .ok (d - k * p) ∧ d - k * p ≤ p / 2 ∧ (k ≠ 0 → -(p / 2) < d - k * p) := by
  obtain ⟨n, hn⟩ := Archimedean.arch d hp
  have key : ∀ (n : Nat) (d : G), d ≤ n • p → ∀ fuel, n ≤ fuel →
      ∃ k : Nat, downLoop (p * (1 / 2)) p fuel d = .ok (d - k * p) ∧ d - k * p ≤ p / 2 ∧ (k ≠ 0 → -(p / 2) < d - k * p) := by
    intro n
    induction n with
    | zero =>
      intro d hd fuel _
      have hd' : d ≤ 0 := by simpa using hd
      have : ¬ p * (1 / 2) < d := by linarith
      refine ⟨0, ?_, by push_cast; linarith, fun h => absurd rfl h⟩
      cases fuel <;> simp only [downLoop, if_neg this] <;> simp
    | succ n ih =>
      intro d hd fuel hf
      by_cases hlt : p * (1 / 2) < d
      · obtain ⟨fuel, rfl⟩ : ∃ m, fuel = m + 1 := ⟨fuel - 1, by omega⟩
        have hd2 : d - p ≤ n • p := by rw [succ_nsmul] at hd; linarith
        obtain ⟨k, h1, h2, h3⟩ := ih (d - p) hd2 fuel (by omega)
        refine ⟨k + 1, ?_, ?_, fun _ => ?_⟩
        · rw [downLoop, if_pos hlt, h1]
          congr 1
          push_cast; ring
        · push_cast; linarith
        · by_cases hk : k = 0
          · subst hk; push_cast; linarith
          · have := h3 hk; push_cast; linarith
      · refine ⟨0, ?_, by push_cast; linarith, fun h => absurd rfl h⟩
        cases fuel <;> simp only [downLoop, if_neg hlt] <;> simp
  exact ⟨n, fun fuel hf => key n d hn fuel hf⟩

omit [FloorRing G] in
/-- C149. `periodic_dist` gives the shortest difference when the difference is not below minus half a period. -/
theorem C149_dist_partial [Archimedean G] (x y p : G) (hp : 0 < p) (hd : -(p / 2) ≤ x - y) :
    ∃ n, ∀ fuel, n ≤ fuel → ∃ r, periodicDist fuel x y p = .ok r ∧ (∃ k : ℤ, r = x - (y + k * p)) ∧ ∀ j : ℤ, |r| ≤ |x - (y + j * p)| := by
  obtain ⟨n, hn⟩ := downLoop_ok hp (x - y)
  refine ⟨n, fun fuel hf => ?_⟩
  obtain ⟨k, h1, h2, h3⟩ := hn fuel hf
  have h4 : -(p / 2) ≤ x - y - k * p := by
    by_cases hk : k = 0
    · subst hk; simpa using hd
    · exact (h3 hk).le
  have hup : upLoop (p * (1 / 2)) p fuel (x - y - k * p) = .ok (x - y - k * p) := by
    have : ¬ (x - y - k * p < -(p * (1 / 2))) := by linarith
    cases fuel <;> simp only [upLoop, if_neg this]
  refine ⟨x - y - k * p, by simp only [periodicDist, h1, ok_bind, hup], ⟨k, by push_cast; ring⟩, ?_⟩
  intro j
  have := shortest hp h4 h2 (j - k)
  rwa [show x - y - k * p - ((j - k : ℤ) : G) * p = x - (y + j * p) by push_cast; ring] at this

example : (0 : ℚ) < 10 ∧ -((10 : ℚ) / 2) ≤ 9 - 1 := by norm_num

omit [FloorRing G] in
/-- C149, the part that is false. `d =+ period` is an assignment: for any difference below minus half a period, `periodic_dist` gives the period
itself, which is always longer than the difference with the nearest image. -/
theorem C149_assign_counterexample (x y p : G) (hp : 0 < p) (hd : x - y < -(p / 2)) (fuel : Nat) :
    periodicDist (fuel + 1) x y p = .ok p ∧ (∀ r : G, |r| ≤ p / 2 → |r| < |p|) := by
  constructor
  · have h1 : ¬ p * (1 / 2) < x - y := by linarith
    have h2 : x - y < -(p * (1 / 2)) := by linarith
    have h3 : ¬ p < -(p * (1 / 2)) := by linarith
    simp only [periodicDist, downLoop, if_neg h1, ok_bind, upLoop, if_pos h2]
    cases fuel <;> simp only [upLoop, if_neg h3]
  · intro r hr
    rw [abs_of_pos hp]
    linarith

/-- For instance 1 and 9 in a period of 10 are at a distance 2, not 10. -/
example : periodicDist 1 (1 : ℚ) 9 10 = .ok 10 ∧ periodify (9 : ℚ) 1 10 = 2 := by
  refine ⟨(C149_assign_counterexample (1 : ℚ) 9 10 (by norm_num) (by norm_num) 0).1, ?_⟩
  unfold periodify
  norm_num

omit [FloorRing G] in
/-- C149, the part that is false. Unlike with `periodify` a period that is not positive does not mean "no period": `periodic_dist` never ends
for a positive difference. -/
theorem C149_no_period_counterexample (x y p : G) (hp : p ≤ 0) (hd : 0 < x - y) (fuel : Nat) :
    periodicDist fuel x y p = .error .diverge := by
  have key : ∀ (fuel : Nat) (d : G), 0 < d → downLoop (p * (1 / 2)) p fuel d = .error .diverge := by
    intro fuel
    induction fuel with
    | zero =>
      intro d hd
      rw [downLoop, if_pos (by linarith)]
    | succ fuel ih =>
      intro d hd
      rw [downLoop, if_pos (by linarith)]
      exact ih _ (by linarith)
  simp only [periodicDist, key fuel _ hd]
  rfl

example : (-1 : ℚ) ≤ 0 ∧ (0 : ℚ) < 3 - 1 := by norm_num

omit [FloorRing G] [Field G] [LinearOrder G] [IsStrictOrderedRing G] in
theorem eventually_mapM {α β : Type} (f : Nat → α → R β) (Q : α → β → Prop) (l : List α)
    (h : ∀ x ∈ l, ∃ n, ∀ fuel, n ≤ fuel → ∃ r, f fuel x = .ok r ∧ Q x r) :
    ∃ n, ∀ fuel, n ≤ fuel → ∃ ys, l.mapM (f fuel) = .ok ys ∧ List.Forall₂ Q l ys := by
  induction l with
  | nil => exact ⟨0, fun _ _ => ⟨[], rfl, .nil⟩⟩
  | cons x l ih =>
    obtain ⟨n, hn⟩ := ih fun y hy => h y (by simp [hy])
    obtain ⟨m, hm⟩ := h x (by simp)
    refine ⟨max n m, fun fuel hf => ?_⟩
    obtain ⟨ys, h1, h2⟩ := hn fuel (le_trans (le_max_left _ _) hf)
    obtain ⟨r, h3, h4⟩ := hm fuel (le_trans (le_max_right _ _) hf)
    exact ⟨r :: ys, by rw [List.mapM_cons, h3, h1]; rfl, .cons h4 h2⟩

/-- C149. The squared displacement between two configurations is the sum over the particles and the directions of the squared shortest
differences, when no coordinate decreases by more than half the box. -/
theorem C149_displ_partial [Archimedean G] (L : G) (hL : 0 < L) (a b : List (List G)) (hs : a.map List.length = b.map List.length)
    (hd : ∀ r ∈ a.zip b, ∀ x ∈ r.1.zip r.2, -(L / 2) ≤ x.2 - x.1) :
    ∃ n, ∀ fuel, n ≤ fuel → displSq fuel L a b =
      .ok (((a.zip b).map fun r => ((r.1.zip r.2).map fun x => periodify x.1 x.2 L ^ 2).sum).sum) := by
  -- one coordinate
  have one : ∀ x y : G, -(L / 2) ≤ y - x → ∃ n, ∀ fuel, n ≤ fuel → ∃ r, periodicDist fuel y x L = .ok r ∧ r ^ 2 = periodify x y L ^ 2 := by
    intro x y h
    obtain ⟨n, hn⟩ := C149_dist_partial y x L hL h
    refine ⟨n, fun fuel hf => ?_⟩
    obtain ⟨r, h1, ⟨k, hk⟩, h3⟩ := hn fuel hf
    obtain ⟨⟨k', hk'⟩, h4, _⟩ := (C149_periodify x y L).1 hL
    refine ⟨r, h1, ?_⟩
    rw [sq_eq_sq_iff_abs_eq_abs]
    apply le_antisymm
    · have := h3 (-k')
      rwa [show y - (x + ((-k' : ℤ) : G) * L) = periodify x y L by rw [hk']; push_cast; ring] at this
    · have := h4 (-k)
      rwa [show y + ((-k : ℤ) : G) * L - x = r by rw [hk]; push_cast; ring] at this
  have rows := eventually_mapM (fun fuel (r : List G × List G) => (r.1.zip r.2).mapM fun x => periodicDist fuel x.2 x.1 L)
    (fun r d => (d.map fun x => x ^ 2) = (r.1.zip r.2).map fun x => periodify x.1 x.2 L ^ 2) (a.zip b) (by
      intro r hr
      obtain ⟨n, hn⟩ := eventually_mapM (fun fuel (x : G × G) => periodicDist fuel x.2 x.1 L)
        (fun x d => d ^ 2 = periodify x.1 x.2 L ^ 2) (r.1.zip r.2) fun x hx => one x.1 x.2 (hd r hr x hx)
      refine ⟨n, fun fuel hf => ?_⟩
      obtain ⟨ds, h1, h2⟩ := hn fuel hf
      refine ⟨ds, h1, ?_⟩
      clear h1 hn
      generalize r.1.zip r.2 = z at h2 ⊢
      induction h2 with
      | nil => rfl
      | cons h _ ih => simp [h, ih])
  obtain ⟨n, hn⟩ := rows
  refine ⟨n, fun fuel hf => ?_⟩
  obtain ⟨ds, h1, h2⟩ := hn fuel hf
  unfold displSq getDispl
  rw [if_neg (by simpa using hs), h1]
  simp only [ok_bind, pure_eq_ok]
  congr 2
  clear h1 hn
  generalize a.zip b = z at h2 ⊢
  induction h2 with
  | nil => rfl
  | cons h _ ih => simp only [List.map_cons, h, ih]

example : (0 : ℚ) < 10 ∧ [[(9 : ℚ), 1]].map List.length = [[(9 : ℚ), 8]].map List.length ∧
    ∀ r ∈ [[(9 : ℚ), 1]].zip [[(9 : ℚ), 8]], ∀ x ∈ r.1.zip r.2, -((10 : ℚ) / 2) ≤ x.2 - x.1 := by
  refine ⟨by norm_num, rfl, ?_⟩
  intro r hr x hx
  simp only [List.zip_cons_cons, List.zip_nil_right, List.mem_singleton] at hr
  subst hr
  simp only [List.zip_cons_cons, List.zip_nil_right, List.mem_cons, List.not_mem_nil, or_false] at hx
  rcases hx with rfl | rfl <;> norm_num

omit [FloorRing G] [IsStrictOrderedRing G] in
/-- C149, the part that is false. `remove_drift` does not bring the positions back into the box: the last line only names a new array. With one
configuration nothing changes, whatever the positions. -/
theorem C149_box_counterexample (fuel : Nat) (L : G) (dims : Nat) (a : List (List G)) : removeDrift fuel L dims [a] = .ok [a] := by
  simp [removeDrift]

end Periodic
end Py
end Colloids
