import Verif.CommonLemmas
import Verif.DynField.Lemmas
import Verif.Octave.PyramidLemmas
import Verif.Deconv.Model

/-!
# Lemmas on the lines of an image
-/

namespace Colloids.Deconv

open Octave (fold_closed div_addr mod_addr)

variable {α : Type}

/-- Line number, place in the line and column of an address. -/
theorem addr_iff (n step a k j p : Nat) (hk : k < n) (hj : j < step) :
    p = (a * n + k) * step + j ↔ p / step / n = a ∧ p % step = j ∧ p / step % n = k := by
  constructor
  · rintro rfl
    rw [div_addr _ _ hj, mod_addr _ _ hj, div_addr _ _ hk, mod_addr _ _ hk]
    exact ⟨rfl, rfl, rfl⟩
  · rintro ⟨h1, h2, h3⟩
    have e1 := Nat.div_add_mod p step
    have e2 := Nat.div_add_mod (p / step) n
    rw [h1, h3] at e2
    rw [← e2, h2] at e1
    rw [← e1]
    ring

theorem addr_lt (n step P a k j : Nat) (ha : a < P) (hk : k < n) (hj : j < step) :
    (a * n + k) * step + j < P * n * step := by
  have h1 : (a + 1) * n ≤ P * n := Nat.mul_le_mul_right _ (by omega)
  rw [Nat.succ_mul] at h1
  have h2 : (a * n + k + 1) * step ≤ P * n * step := Nat.mul_le_mul_right _ (by omega)
  rw [Nat.succ_mul] at h2
  omega

theorem readLine_tab (n step P a j : Nat) (f : Nat → α) (ha : a < P) (hj : j < step) :
    readLine (tab (P * n * step) f) (a * (n * step) + j) step n
      = .ok (tab n (fun k => f ((a * n + k) * step + j))) := by
  unfold readLine
  refine mapM_tab _ _ n (fun k hk => ?_)
  have : a * (n * step) + j + k * step = (a * n + k) * step + j := by ring
  rw [this, getR_tab (addr_lt n step P a k j ha hk hj)]

theorem writeLine_tab (n step P a j : Nat) (f : Nat → α) (v : Nat → α) (ha : a < P)
    (hj : j < step) :
    writeLine (tab (P * n * step) f) (a * (n * step) + j) step n (tab n v)
      = .ok (tab (P * n * step) (fun p =>
          if p / step / n = a ∧ p % step = j then v (p / step % n) else f p)) := by
  unfold writeLine
  have h := fold_closed (fun d k => do
      let v ← getR (tab n v) k
      setR d (a * (n * step) + j + k * step) v)
    (fun k => tab (P * n * step) (fun p =>
      if p / step / n = a ∧ p % step = j ∧ p / step % n < k then v (p / step % n) else f p)) n
    (fun k hk => by
      have : a * (n * step) + j + k * step = (a * n + k) * step + j := by ring
      simp only [this]
      rw [getR_tab hk, ok_bind, setR_tab _ (addr_lt n step P a k j ha hk hj)]
      congr 1
      refine tab_congr (fun p _ => ?_)
      by_cases hp : p = (a * n + k) * step + j
      · rw [if_pos hp]
        obtain ⟨h1, h2, h3⟩ := (addr_iff n step a k j p hk hj).1 hp
        rw [if_pos ⟨h1, h2, by omega⟩, h3]
      · rw [if_neg hp]
        by_cases hc : p / step / n = a ∧ p % step = j ∧ p / step % n < k
        · rw [if_pos hc, if_pos ⟨hc.1, hc.2.1, by omega⟩]
        · rw [if_neg hc, if_neg]
          rintro ⟨h1, h2, h3⟩
          have : p / step % n ≠ k := fun h => hp ((addr_iff n step a k j p hk hj).2 ⟨h1, h2, h⟩)
          exact hc ⟨h1, h2, by omega⟩)
  simp only [Nat.not_lt_zero, and_false, if_false] at h
  rw [h]
  congr 1
  refine tab_congr (fun p hp => ?_)
  have hn : 0 < n := by
    rcases Nat.eq_zero_or_pos n with h0 | h0
    · simp [h0] at hp
    · exact h0
  have := Nat.mod_lt (p / step) hn
  by_cases hc : p / step / n = a ∧ p % step = j
  · rw [if_pos hc, if_pos ⟨hc.1, hc.2, this⟩]
  · rw [if_neg hc, if_neg (fun h => hc ⟨h.1, h.2.1⟩)]

theorem prod_split (sizes : List Nat) (axis n : Nat) (h : sizes[axis]? = some n) :
    sizes.prod = (sizes.take axis).prod * n * (sizes.drop (axis + 1)).prod := by
  have hlt : axis < sizes.length := by
    by_contra hc
    rw [List.getElem?_eq_none (by omega)] at h
    cases h
  have h1 : sizes = sizes.take axis ++ sizes.drop axis := (List.take_append_drop _ _).symm
  have h2 : sizes.drop axis = n :: sizes.drop (axis + 1) := by
    rw [List.drop_eq_getElem_cons hlt]
    rw [List.getElem?_eq_getElem hlt] at h
    cases h
    rfl
  conv_lhs => rw [h1, List.prod_append, h2, List.prod_cons]
  ring

/-- What `convolve` does, in terms of addresses. -/
theorem convolve_tab (op : List α → R (List α)) (F : List α → Nat → α) (sizes : List Nat)
    (axis n : Nat) (hax : sizes[axis]? = some n) (hpos : 0 < (sizes.take axis).prod)
    (hop : ∀ l, l.length = n → op l = .ok (tab n (F l))) (f : Nat → α) :
    convolve op sizes (tab sizes.prod f) axis
      = .ok (tab sizes.prod (fun p =>
          F (tab n (fun k => f ((p / (sizes.drop (axis + 1)).prod / n * n + k)
              * (sizes.drop (axis + 1)).prod + p % (sizes.drop (axis + 1)).prod)))
            (p / (sizes.drop (axis + 1)).prod % n))) := by
  have hlt : axis < sizes.length := by
    by_contra hc
    rw [List.getElem?_eq_none (by omega)] at hax
    cases hax
  have hsp := prod_split sizes axis n hax
  unfold convolve
  rw [if_neg (by omega), getR_ok.2 hax, ok_bind]
  simp only
  rw [if_neg (by omega)]
  generalize hs : (sizes.drop (axis + 1)).prod = step at *
  generalize hP : (sizes.take axis).prod = P at *
  have hps : sizes.prod / P = n * step := by
    rw [hsp, Nat.mul_assoc, Nat.mul_div_cancel_left _ hpos]
  rw [hps, hsp]
  let out : Nat → Nat → Nat → α := fun a j k =>
    F (tab n (fun k => f ((a * n + k) * step + j))) k
  let S : Nat → Nat → List α := fun i j => tab (P * n * step) (fun p =>
    if p / step / n < i ∨ (p / step / n = i ∧ p % step < j) then
      out (p / step / n) (p % step) (p / step % n) else f p)
  have hS : ∀ i, i < P → (List.range step).foldlM (fun d j => do
          let line ← readLine d (i * (n * step) + j) step n
          let out ← op line
          writeLine d (i * (n * step) + j) step n out) (S i 0) = .ok (S i step) := by
    intro i hi
    refine fold_closed _ (S i) step (fun j hj => ?_)
    simp only [S]
    rw [readLine_tab n step P i j _ hi hj, ok_bind]
    have hline : tab n (fun k => if ((i * n + k) * step + j) / step / n < i ∨
          (((i * n + k) * step + j) / step / n = i ∧ ((i * n + k) * step + j) % step < j) then
          out (((i * n + k) * step + j) / step / n) (((i * n + k) * step + j) % step)
            (((i * n + k) * step + j) / step % n) else f ((i * n + k) * step + j))
        = tab n (fun k => f ((i * n + k) * step + j)) := by
      refine tab_congr (fun k hk => ?_)
      obtain ⟨h1, h2, h3⟩ := (addr_iff n step i k j _ hk hj).1 rfl
      rw [h1, h2, if_neg (by omega)]
    rw [hline, hop _ (tab_length _ _), ok_bind, writeLine_tab n step P i j _ _ hi hj]
    congr 1
    refine tab_congr (fun p _ => ?_)
    by_cases hc : p / step / n = i ∧ p % step = j
    · rw [if_pos hc, if_pos (by omega), hc.1, hc.2]
    · rw [if_neg hc]
      by_cases hd : p / step / n < i ∨ (p / step / n = i ∧ p % step < j)
      · rw [if_pos hd, if_pos (by omega)]
      · rw [if_neg hd, if_neg (by omega)]
  have hfold := fold_closed (fun d i => (List.range step).foldlM (fun d j => do
          let line ← readLine d (i * (n * step) + j) step n
          let out ← op line
          writeLine d (i * (n * step) + j) step n out) d) (fun i => S i 0) P
    (fun i hi => by
      rw [hS i hi]
      congr 1
      refine tab_congr (fun p hp => ?_)
      have hst : 0 < step := by
        rcases Nat.eq_zero_or_pos step with h0 | h0
        · simp [h0] at hp
        · exact h0
      have := Nat.mod_lt p hst
      by_cases hd : p / step / n < i + 1 ∨ (p / step / n = i + 1 ∧ p % step < 0)
      · rw [if_pos hd, if_pos (by omega)]
      · rw [if_neg hd, if_neg (by omega)])
  have h0 : S 0 0 = tab (P * n * step) f := by
    refine tab_congr (fun p _ => ?_)
    rw [if_neg (by simp)]
  rw [← h0]
  refine hfold.trans ?_
  congr 1
  refine tab_congr (fun p hp => ?_)
  rw [if_pos]
  left
  have : p / (step * n) < P := Nat.div_lt_of_lt_mul (by
    have : step * n * P = P * n * step := by ring
    rw [this]; exact hp)
  rw [Nat.div_div_eq_div_mul]
  exact this

end Colloids.Deconv
