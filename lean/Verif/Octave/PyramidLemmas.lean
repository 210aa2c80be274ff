import Verif.Octave.PyramidModel
import Verif.Octave.SubLemmas
import Mathlib.Tactic.Ring
import Mathlib.Tactic.Linarith

/-! # Helper lemmas for the pyramid of octaves -/

namespace Colloids
namespace Octave

variable {G : Type} [Field G] [LinearOrder G]

theorem fold_closed {σ : Type} (F : σ → Nat → R σ) (S : Nat → σ) (n : Nat)
    (h : ∀ i, i < n → F (S i) i = .ok (S (i + 1))) : (List.range n).foldlM F (S 0) = .ok (S n) := by
  induction n with
  | zero => rfl
  | succ n ih =>
    rw [List.range_succ, List.foldlM_append, ih (fun i hi => h i (by omega)), ok_bind,
      List.foldlM_cons, h n (by omega), ok_bind]
    rfl

omit [Field G] [LinearOrder G] in
theorem Mem.wr_ok (m : Mem G) (u : Nat) (x : G) (h : u < m.size) :
    m.wr u x = .ok { m with val := fun p => if p = u then x else m.val p } := by
  unfold Mem.wr; rw [if_pos h]

omit [Field G] [LinearOrder G] in
theorem Mem.rd_ok (m : Mem G) (u : Nat) (h : u < m.size) : m.rd u = .ok (m.val u) := by
  unfold Mem.rd; rw [if_pos h]

omit [Field G] [LinearOrder G] in
theorem copyEven_ok (row : Nat → G) (n u : Nat) (m : Mem G) (h : u + 2 * n ≤ m.size) :
    copyEven row n u m = .ok { m with
      val := fun p => if u ≤ p ∧ p < u + 2 * n ∧ (p - u) % 2 = 0 then row ((p - u) / 2)
        else m.val p } := by
  have := fold_closed (fun (m : Mem G) i => m.wr (u + 2 * i) (row i)) (fun n => { m with
      val := fun p => if u ≤ p ∧ p < u + 2 * n ∧ (p - u) % 2 = 0 then row ((p - u) / 2)
        else m.val p }) n (by
    intro i hi
    rw [Mem.wr_ok _ _ _ (by simp only []; omega)]
    congr 2
    funext p
    simp only []
    by_cases hp : p = u + 2 * i
    · subst p
      rw [if_pos rfl, if_pos (by omega)]
      congr 1; omega
    · rw [if_neg hp]
      by_cases hc : u ≤ p ∧ p < u + 2 * i ∧ (p - u) % 2 = 0
      · rw [if_pos hc, if_pos (by omega)]
      · rw [if_neg hc, if_neg (by omega)])
  unfold copyEven
  refine Eq.trans ?_ this
  congr 1
  cases m
  simp only [Mem.mk.injEq, true_and]
  funext p
  rw [if_neg (by omega)]

omit [LinearOrder G] in
theorem interpolateOdd_ok (n u : Nat) (m : Mem G) (hu : 1 ≤ u) (h : u + 2 * n ≤ m.size) :
    interpolateOdd n u m = .ok { m with
      val := fun p => if u ≤ p ∧ p < u + 2 * n ∧ (p - u) % 2 = 0 then
        1 / 2 * (m.val (p - 1) + m.val (p + 1)) else m.val p } := by
  have := fold_closed (fun (m : Mem G) i => do
      let a ← m.rd (u + 2 * i - 1)
      let b ← m.rd (u + 2 * i + 1)
      m.wr (u + 2 * i) (1 / 2 * (a + b))) (fun n => { m with
      val := fun p => if u ≤ p ∧ p < u + 2 * n ∧ (p - u) % 2 = 0 then
        1 / 2 * (m.val (p - 1) + m.val (p + 1)) else m.val p }) n (by
    intro i hi
    rw [Mem.rd_ok _ _ (by simp only []; omega), ok_bind, Mem.rd_ok _ _ (by simp only []; omega),
      ok_bind, Mem.wr_ok _ _ _ (by simp only []; omega)]
    congr 2
    funext p
    simp only []
    by_cases hp : p = u + 2 * i
    · subst p
      rw [if_pos rfl, if_neg (by omega), if_neg (by omega), if_pos (by omega)]
    · rw [if_neg hp]
      by_cases hc : u ≤ p ∧ p < u + 2 * i ∧ (p - u) % 2 = 0
      · rw [if_pos hc, if_pos (by omega)]
      · rw [if_neg hc, if_neg (by omega)])
  unfold interpolateOdd
  refine Eq.trans ?_ this
  congr 1
  cases m
  simp only [Mem.mk.injEq, true_and]
  funext p
  rw [if_neg (by omega)]

omit [LinearOrder G] in
theorem meanLines_ok (n u v w : Nat) (m : Mem G) (huv : u + n ≤ v) (hvw : v + n ≤ w)
    (h : w + n ≤ m.size) :
    meanLines n u v w m = .ok { m with
      val := fun p => if v ≤ p ∧ p < v + n then
        1 / 2 * (m.val (u + (p - v)) + m.val (w + (p - v))) else m.val p } := by
  have := fold_closed (fun (m : Mem G) i => do
      let a ← m.rd (u + i)
      let b ← m.rd (w + i)
      m.wr (v + i) (1 / 2 * (a + b))) (fun n => { m with
      val := fun p => if v ≤ p ∧ p < v + n then
        1 / 2 * (m.val (u + (p - v)) + m.val (w + (p - v))) else m.val p }) n (by
    intro i hi
    rw [Mem.rd_ok _ _ (by simp only []; omega), ok_bind, Mem.rd_ok _ _ (by simp only []; omega),
      ok_bind, Mem.wr_ok _ _ _ (by simp only []; omega)]
    congr 2
    funext p
    simp only []
    by_cases hp : p = v + i
    · subst p
      rw [if_pos rfl, if_neg (by omega), if_neg (by omega), if_pos (by omega)]
      rw [show v + i - v = i by omega]
    · rw [if_neg hp]
      by_cases hc : v ≤ p ∧ p < v + i
      · rw [if_pos hc, if_pos (by omega)]
      · rw [if_neg hc, if_neg (by omega)])
  unfold meanLines
  refine Eq.trans ?_ this
  congr 1
  cases m
  simp only [Mem.mk.injEq, true_and]
  funext p
  rw [if_neg (by omega)]

omit [LinearOrder G] in
/-- Interpolating between zeros changes nothing. -/
theorem interpolateNext_zero (n u : Nat) (m : Mem G) (hu : 1 ≤ u) (h : u + n < m.size)
    (h0 : ∀ p, u ≤ p + 1 → p ≤ u + n → m.val p = 0) : interpolateNext n u m = .ok m := by
  unfold interpolateNext
  refine fold_closed _ (fun _ => m) n ?_
  intro i hi
  rw [Mem.rd_ok _ _ (by omega), ok_bind, Mem.rd_ok _ _ (by omega), ok_bind,
    Mem.wr_ok _ _ _ (by omega), h0 (u + i - 1) (by omega) (by omega),
    h0 (u + i + 1) (by omega) (by omega)]
  cases m
  congr 2
  funext p
  split
  · rename_i hp
    subst p
    have := h0 (u + i) (by omega) (by omega)
    simp only at this
    rw [this]; ring
  · rfl

theorem row_iff {w : Nat} (hw : 0 < w) (p q : Nat) : (q * w ≤ p ∧ p < q * w + w) ↔ p / w = q := by
  constructor
  · rintro ⟨h1, h2⟩
    rw [Nat.div_eq_iff hw]
    constructor
    · exact h1
    · omega
  · intro h
    subst h
    have := Nat.div_add_mod p w
    have hlt := Nat.mod_lt p hw
    rw [Nat.mul_comm] at this
    omega

theorem row_eq (w p : Nat) : p = p / w * w + p % w := by
  have := Nat.div_add_mod p w
  rw [Nat.mul_comm] at this
  exact this.symm

theorem div_addr {w : Nat} (r c : Nat) (hc : c < w) : (r * w + c) / w = r := by
  rw [Nat.div_eq_iff (by omega)]
  omega

theorem mod_addr {w : Nat} (r c : Nat) (hc : c < w) : (r * w + c) % w = c := by
  rw [Nat.add_comm, Nat.add_mul_mod_self_right, Nat.mod_eq_of_lt hc]

/-- The even rows after the horizontal interpolation. -/
def evenRow (a : Img G) (j c : Nat) : G :=
  if c % 2 = 0 then a.px j (c / 2)
  else if c + 1 < 2 * a.cols then 1 / 2 * (a.px j (c / 2) + a.px j (c / 2 + 1)) else 0

/-- The memory when the first `j` even rows are done. -/
def evenRows (a : Img G) (j : Nat) : Mem G where
  size := 2 * a.rows * (2 * a.cols)
  val := fun p => if p / (2 * a.cols) < 2 * j ∧ p / (2 * a.cols) % 2 = 0 then
    evenRow a (p / (2 * a.cols) / 2) (p % (2 * a.cols)) else 0

omit [LinearOrder G] in
theorem evenRows_step (a : Img G) (hc : 0 < a.cols) (j : Nat) (hj : j < a.rows) :
    (do
      let m ← copyEven (a.px j) a.cols (2 * j * (2 * a.cols)) (evenRows a j)
      interpolateOdd (a.cols - 1) (2 * j * (2 * a.cols) + 1) m) = .ok (evenRows a (j + 1)) := by
  have hw : 0 < 2 * a.cols := by omega
  have hsize : 2 * j * (2 * a.cols) + 2 * a.cols ≤ 2 * a.rows * (2 * a.cols) := by
    have : (2 * j + 1) * (2 * a.cols) ≤ 2 * a.rows * (2 * a.cols) :=
      Nat.mul_le_mul_right _ (by omega)
    rw [Nat.add_mul] at this; omega
  rw [copyEven_ok _ _ _ _ (by simp only [evenRows]; omega), ok_bind,
    interpolateOdd_ok _ _ _ (by omega) (by simp only [evenRows]; omega)]
  simp only [evenRows]
  congr 2
  funext p
  have hp := row_eq (2 * a.cols) p
  have hm := Nat.mod_lt p hw
  have hrow := row_iff hw p (2 * j)
  generalize hcc : p % (2 * a.cols) = c at *
  generalize hb : 2 * j * (2 * a.cols) = b at *
  by_cases h : p / (2 * a.cols) = 2 * j
  · rw [h, hb] at hp
    rw [h]
    have hS : ∀ q, (q / (2 * a.cols) < 2 * j ∧ q / (2 * a.cols) % 2 = 0) → ¬ (b ≤ q) := by
      intro q hq hle
      have : q / (2 * a.cols) ≥ 2 * j := by
        rw [ge_iff_le, Nat.le_div_iff_mul_le hw]; omega
      omega
    rw [if_pos (show 2 * j < 2 * (j + 1) ∧ 2 * j % 2 = 0 by omega), show 2 * j / 2 = j by omega]
    unfold evenRow
    by_cases hpar : c % 2 = 0
    · rw [if_neg (by omega), if_pos (by omega), if_pos hpar, show p - b = c by omega]
    · rw [if_neg hpar]
      by_cases hlast : c + 1 < 2 * a.cols
      · rw [if_pos (by omega), if_pos hlast, if_pos (by omega), if_pos (by omega)]
        rw [show (p - 1 - b) / 2 = c / 2 by omega, show (p + 1 - b) / 2 = c / 2 + 1 by omega]
      · rw [if_neg hlast, if_neg (by omega), if_neg (by omega), if_neg (by omega)]
  · have : ¬ (b ≤ p ∧ p < b + 2 * a.cols) := fun hh => h (hrow.1 hh)
    rw [if_neg (by omega), if_neg (by omega)]
    by_cases hc1 : p / (2 * a.cols) < 2 * j ∧ p / (2 * a.cols) % 2 = 0
    · rw [if_pos hc1, if_pos (by omega)]
    · rw [if_neg hc1, if_neg (by omega)]

/-- The memory when the first `j` odd rows are done. -/
def oddRows (a : Img G) (j : Nat) : Mem G where
  size := 2 * a.rows * (2 * a.cols)
  val := fun p => if p / (2 * a.cols) < 2 * j ∧ p / (2 * a.cols) % 2 = 1 then
      1 / 2 * (evenRow a (p / (2 * a.cols) / 2) (p % (2 * a.cols)) +
        evenRow a (p / (2 * a.cols) / 2 + 1) (p % (2 * a.cols)))
    else (evenRows a a.rows).val p

omit [LinearOrder G] in
theorem oddRows_step (a : Img G) (hc : 0 < a.cols) (j : Nat) (hj : j + 1 < a.rows) :
    meanLines (2 * a.cols) (2 * j * (2 * a.cols)) ((2 * j + 1) * (2 * a.cols))
      ((2 * j + 2) * (2 * a.cols)) (oddRows a j) = .ok (oddRows a (j + 1)) := by
  have hw : 0 < 2 * a.cols := by omega
  have e1 : (2 * j + 1) * (2 * a.cols) = 2 * j * (2 * a.cols) + 2 * a.cols := by ring
  have e2 : (2 * j + 2) * (2 * a.cols) = 2 * j * (2 * a.cols) + 2 * (2 * a.cols) := by ring
  have hsize : (2 * j + 2) * (2 * a.cols) + 2 * a.cols ≤ 2 * a.rows * (2 * a.cols) := by
    have : (2 * j + 3) * (2 * a.cols) ≤ 2 * a.rows * (2 * a.cols) :=
      Nat.mul_le_mul_right _ (by omega)
    have e3 : (2 * j + 3) * (2 * a.cols) = (2 * j + 2) * (2 * a.cols) + 2 * a.cols := by ring
    omega
  rw [meanLines_ok _ _ _ _ _ (by omega) (by omega) (by simp only [oddRows]; omega)]
  simp only [oddRows]
  congr 2
  funext p
  have hp := row_eq (2 * a.cols) p
  have hm := Nat.mod_lt p hw
  have hrow := row_iff hw p (2 * j + 1)
  by_cases h : p / (2 * a.cols) = 2 * j + 1
  · rw [if_pos (hrow.2 h), h]
    rw [h] at hp
    generalize hcc : p % (2 * a.cols) = c at *
    rw [show 2 * j * (2 * a.cols) + (p - (2 * j + 1) * (2 * a.cols)) = 2 * j * (2 * a.cols) + c by omega,
      show (2 * j + 2) * (2 * a.cols) + (p - (2 * j + 1) * (2 * a.cols)) =
        (2 * j + 2) * (2 * a.cols) + c by omega]
    simp only [div_addr _ _ hm, mod_addr _ _ hm, evenRows]
    rw [if_neg (by omega), if_pos (by omega), if_neg (by omega), if_pos (by omega), if_pos (by omega)]
    rw [show 2 * j / 2 = j by omega, show (2 * j + 2) / 2 = j + 1 by omega,
      show (2 * j + 1) / 2 = j by omega]
  · rw [if_neg (fun hh => h (hrow.1 hh))]
    by_cases hc1 : p / (2 * a.cols) < 2 * j ∧ p / (2 * a.cols) % 2 = 1
    · rw [if_pos hc1, if_pos (by omega)]
    · rw [if_neg hc1, if_neg (by omega)]

omit [LinearOrder G] in
theorem upscale2_ok (a : Img G) (hc : 0 < a.cols) (hr : 0 < a.rows) :
    upscale2 a = .ok (oddRows a (a.rows - 1)) := by
  unfold upscale2
  simp only []
  have h1 := fold_closed (fun (m : Mem G) j => do
      let m ← copyEven (a.px j) a.cols (2 * j * (2 * a.cols)) m
      interpolateOdd (a.cols - 1) (2 * j * (2 * a.cols) + 1) m) (evenRows a) a.rows
    (fun j hj => evenRows_step a hc j hj)
  have e0 : ({ size := 2 * a.rows * (2 * a.cols), val := fun _ => 0 } : Mem G) = evenRows a 0 := by
    unfold evenRows
    simp
  rw [e0, h1, ok_bind]
  have h2 := fold_closed (fun (m : Mem G) j =>
      meanLines (2 * a.cols) (2 * j * (2 * a.cols)) ((2 * j + 1) * (2 * a.cols))
        ((2 * j + 2) * (2 * a.cols)) m) (oddRows a) (a.rows - 1)
    (fun j hj => oddRows_step a hc j (by omega))
  have e1 : evenRows a a.rows = oddRows a 0 := by
    unfold oddRows
    simp [evenRows]
  rw [e1, h2]

end Octave
end Colloids
