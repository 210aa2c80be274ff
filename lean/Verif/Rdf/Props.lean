import Verif.Rdf.Model
import Verif.Boo.FieldLemmas
import Verif.Particles.Props
import Mathlib.Data.Real.Archimedean

/-! # Properties of the radial distribution function -/

namespace Colloids
namespace Rdf
open Particles

/-- Euclidean distance. -/
noncomputable def dist (x y : Coord ℝ) : ℝ := √(sqDist x y)

theorem dist_nonneg (x y : Coord ℝ) : 0 ≤ dist x y := Real.sqrt_nonneg _

theorem dist_lt {x y : Coord ℝ} {r : ℝ} : NearerThan x y r ↔ dist x y < r := by
  unfold NearerThan dist
  constructor
  · rintro ⟨h1, h2⟩
    rw [Real.sqrt_lt' h1]
    exact h2
  · intro h
    have h1 : 0 < r := lt_of_le_of_lt (Real.sqrt_nonneg _) h
    exact ⟨h1, (Real.sqrt_lt' h1).1 h⟩

/-- Whether the ordered pair `(p,q)` of distinct particles is at a distance within `[lo, hi)` and below
the cutoff. -/
def InShell (ps : Particles ℝ) (cutoff lo hi : ℝ) (p q : Nat) : Prop :=
  q ≠ p ∧ ∃ x y, ps.pos[p]? = some x ∧ ps.pos[q]? = some y ∧ dist x y < cutoff ∧ lo ≤ dist x y
    ∧ dist x y < hi

open Classical in
/-- Number of pairs of a particle of the selection and another particle in the shell. -/
noncomputable def pairsInShell (ps : Particles ℝ) (selection : List Nat) (cutoff lo hi : ℝ) : Nat :=
  (selection.map (fun p => ((List.range ps.pos.length).filter
    (fun q => decide (InShell ps cutoff lo hi p q))).length)).sum

theorem fill_row {ps : Particles ℝ} {p n : Nat} {scale : ℝ} (b : Nat → Nat) (around : List Nat)
    (hb : ∀ q ∈ around, b q < n ∧ ∀ s, bin ps scale s p q = (do
      let g ← modifyR s.1 (b q) (· + 1)
      pure (g, s.2 + 1))) (f : Nat → Nat) (c : Nat) :
    around.foldlM (fun s q => bin ps scale s p q) (tab n f, c)
      = .ok (tab n (fun i => f i + (around.filter (fun q => decide (b q = i))).length),
          c + around.length) := by
  induction around generalizing f c with
  | nil => simp
  | cons q around ih =>
    have hq := hb q (by simp)
    rw [List.foldlM_cons, hq.2]
    simp only
    rw [Boo.modifyR_tab _ hq.1, ok_bind, pure_eq_ok, ok_bind, ih (fun q h => hb q (by simp [h]))]
    congr 2
    · apply tab_congr
      intro i _
      by_cases e : b q = i
      · subst e; simp; omega
      · simp [e, Ne.symm e]
    · simp; omega

theorem fill_eq {P : RParams ℝ} {H : Heur 3 ℝ} (hP : P.Valid) (hH : H.Valid P) {ps : Particles ℝ}
    (hps : Indexed P H ps) (cutoff : ℝ) (n : Nat) (hn : 0 < n) (selection : List Nat)
    (hsel : ∀ p ∈ selection, p < ps.pos.length) (f : Nat → Nat) (c : Nat) :
    ∃ c', fill ps cutoff (n / cutoff) selection (tab n f, c)
      = .ok (tab n (fun b => f b + pairsInShell ps selection cutoff (b * cutoff / n)
          ((b + 1) * cutoff / n)), c') := by
  induction selection generalizing f c with
  | nil => exact ⟨c, by simp [fill, pairsInShell]⟩
  | cons p selection ih =>
    obtain ⟨N, hN, hsort, hmem⟩ := C19_particle hP hH hps p (ps.pos[p]'(hsel p (by simp)))
      (by simp [hsel p (by simp)]) cutoff
    have hp : ps.pos[p]? = some (ps.pos[p]'(hsel p (by simp))) := by simp [hsel p (by simp)]
    generalize hx : ps.pos[p]'(hsel p (by simp)) = x at hmem hp
    let b : Nat → Nat := fun q => ⌊dist x (ps.pos[q]?.getD x) * (n / cutoff)⌋₊
    have hb : ∀ q ∈ N, b q < n ∧ ∀ s, bin ps (n / cutoff) s p q = (do
        let g ← modifyR s.1 (b q) (· + 1)
        pure (g, s.2 + 1)) := by
      intro q hq
      obtain ⟨hne, y, hy, hnear⟩ := (hmem q).1 hq
      have hyd : dist x y < cutoff := dist_lt.1 hnear.symm
      have hc : 0 < cutoff := hnear.1
      have hbq : b q = ⌊dist x y * (n / cutoff)⌋₊ := by show ⌊_⌋₊ = _; rw [hy]; rfl
      constructor
      · rw [hbq, Nat.floor_lt (mul_nonneg (dist_nonneg _ _) (by positivity))]
        have : dist x y * (n / cutoff) < cutoff * (n / cutoff) :=
          mul_lt_mul_of_pos_right hyd (by positivity)
        rwa [mul_div_cancel₀ _ (ne_of_gt hc)] at this
      · intro s
        unfold bin
        have h1 : ps.at_ q = .ok y := by unfold at_; rw [hy]
        have h2 : ps.at_ p = .ok x := by unfold at_; rw [hp]
        rw [h1, ok_bind, h2, ok_bind, hbq, dot3_eq_sqDist, sqDist_comm]
        rfl
    have hrow := fill_row (ps := ps) (p := p) (n := n) (scale := n / cutoff) b N hb f c
    obtain ⟨c', hc'⟩ := ih (fun p h => hsel p (by simp [h]))
      (fun i => f i + (N.filter (fun q => decide (b q = i))).length) (c + N.length)
    refine ⟨c', ?_⟩
    unfold fill at hc' ⊢
    rw [List.foldlM_cons, hN, ok_bind, hrow, ok_bind, hc']
    congr 2
    apply tab_congr
    intro i hi
    have hcount : (N.filter (fun q => decide (b q = i))).length
        = ((List.range ps.pos.length).filter (fun q => @decide (InShell ps cutoff (i * cutoff / n)
          ((i + 1) * cutoff / n) p q) (Classical.propDecidable _))).length := by
      apply List.Perm.length_eq
      rw [List.perm_ext_iff_of_nodup]
      · intro q
        simp only [List.mem_filter, decide_eq_true_eq, List.mem_range]
        have hkey : ∀ y, ps.pos[q]? = some y → dist x y < cutoff →
            (b q = i ↔ i * cutoff / n ≤ dist x y ∧ dist x y < (i + 1) * cutoff / n) := by
          intro y hy hyd
          have hbq : b q = ⌊dist x y * (n / cutoff)⌋₊ := by show ⌊_⌋₊ = _; rw [hy]; rfl
          have hc : 0 < cutoff := lt_of_le_of_lt (Real.sqrt_nonneg _) hyd
          have hn' : (0 : ℝ) < n := by exact_mod_cast hn
          rw [hbq, Nat.floor_eq_iff (mul_nonneg (dist_nonneg _ _) (by positivity)),
            div_le_iff₀ hn', lt_div_iff₀ hn', ← mul_div_assoc, le_div_iff₀ hc, div_lt_iff₀ hc]
        rw [hmem]
        constructor
        · rintro ⟨⟨hne, y, hy, hnear⟩, hbi⟩
          have hyd : dist x y < cutoff := dist_lt.1 hnear.symm
          have := (hkey y hy hyd).1 hbi
          exact ⟨(List.getElem?_eq_some_iff.1 hy).1, hne, x, y, hp, hy, hyd, this.1, this.2⟩
        · rintro ⟨-, hne, x', y, hx', hy, hyd, h1, h2⟩
          rw [hp] at hx'
          cases hx'
          exact ⟨⟨hne, y, hy, (dist_lt.2 hyd).symm⟩, (hkey y hy hyd).2 ⟨h1, h2⟩⟩
      · exact (hsort.imp (fun h => Nat.ne_of_lt h)).filter _
      · exact List.nodup_range.filter _
    rw [hcount]
    simp [pairsInShell, Nat.add_assoc]

theorem replicate_eq_tab (n : Nat) : List.replicate n 0 = tab n (fun _ => 0) := by
  unfold tab
  simp

/-- **C50** (bins): with at least one bin, filling the histogram never writes out of range; bin `b` counts
the ordered pairs of a particle of the selection and another particle, at a distance in
`[b*cutoff/n, (b+1)*cutoff/n)` below the cutoff. -/
theorem C50_bins {P : RParams ℝ} {H : Heur 3 ℝ} (hP : P.Valid) (hH : H.Valid P) {ps : Particles ℝ}
    (hps : Indexed P H ps) (cutoff : ℝ) (n : Nat) (hn : 0 < n) (selection : List Nat)
    (hsel : ∀ p ∈ selection, p < ps.pos.length) :
    ∃ g c, fill ps cutoff (n / cutoff) selection (List.replicate n 0, 0) = .ok (g, c)
      ∧ g.length = n ∧ ∀ b, b < n → g[b]? = some (pairsInShell ps selection cutoff (b * cutoff / n)
          ((b + 1) * cutoff / n)) := by
  obtain ⟨c, hc⟩ := fill_eq hP hH hps cutoff n hn selection hsel (fun _ => 0) 0
  refine ⟨_, c, by rw [replicate_eq_tab]; exact hc, tab_length _ _, ?_⟩
  intro b hb
  simp [tab, hb]

/-- **C50** (normalisation): the radial distribution function of a selection is, in each bin `r ≥ 1`, the
number of pairs of the bin divided by the size of the selection, the number density and the
`4πr²(cutoff/n)³` of the bin. Bin 0 is null. -/
theorem C50_rdf {P : RParams ℝ} {H : Heur 3 ℝ} (hP : P.Valid) (hH : H.Valid P) {ps : Particles ℝ}
    (hps : Indexed P H ps) (nb : ℝ) (n : Nat) (hn : 0 < n) (selection : List Nat)
    (hsel : ∀ p ∈ selection, p < ps.pos.length) (density : ℝ)
    (hd : getNumberDensity ps = .ok density) :
    ∃ g, getRdf ps selection n nb = .ok g ∧ g.length = n ∧ g[0]? = some 0
      ∧ ∀ r, 1 ≤ r → r < n → g[r]? = some (pairsInShell ps selection (2 * ps.radius * nb)
            (r * (2 * ps.radius * nb) / n) ((r + 1) * (2 * ps.radius * nb) / n)
          / (selection.length * density * (4 * Real.pi * r ^ 2 * (2 * ps.radius * nb / n) ^ 3))) := by
  obtain ⟨g, c, h1, h2, h3⟩ := C50_bins hP hH hps (2 * ps.radius * nb) n hn selection hsel
  have hset : setR (g.map (fun (k : Nat) => (k : ℝ))) 0 0
      = .ok ((g.map (fun (k : Nat) => (k : ℝ))).set 0 0) := by
    unfold setR
    rw [if_pos (by simp [h2, hn])]
  refine ⟨_, by unfold getRdf normalize; simp only; rw [h1, ok_bind, hd, ok_bind, hset, ok_bind]; rfl, by simp [h2],
    ?_, ?_⟩
  · simp [hn, h2]
  · intro r hr hrn
    have h4 := h3 r hrn
    rw [List.getElem?_mapIdx, List.getElem?_set_ne (by omega), List.getElem?_map, h4]
    simp only [Option.map_some, if_pos hr]
    congr 1
    rw [div_div]
    congr 1
    generalize 2 * ps.radius * nb = cut
    rw [div_pow, div_pow, div_div_eq_mul_div]
    ring

/-- **C50** (no bins, counterexample): a histogram without bins is written out of range. -/
theorem C50_no_bins_counterexample (ps : Particles ℝ) (nb density : ℝ)
    (hd : getNumberDensity ps = .ok density) : getRdf ps [] 0 nb = .error .ub := by
  unfold getRdf fill normalize
  simp only
  rw [List.foldlM_nil, pure_eq_ok, ok_bind, hd, ok_bind]
  rfl

/-- **C50** (out of range selection): a particle number out of range is an out of range access, whatever
comes before in the selection. -/
theorem C50_bad_selection {P : RParams ℝ} {H : Heur 3 ℝ} (hP : P.Valid) (hH : H.Valid P)
    {ps : Particles ℝ} (hps : Indexed P H ps) (cutoff : ℝ) (n : Nat) (hn : 0 < n)
    (before after : List Nat) (hsel : ∀ p ∈ before, p < ps.pos.length) (p : Nat)
    (hp : ps.pos.length ≤ p) :
    fill ps cutoff (n / cutoff) (before ++ p :: after) (List.replicate n 0, 0) = .error .ub := by
  obtain ⟨c, hc⟩ := fill_eq hP hH hps cutoff n hn before hsel (fun _ => 0) 0
  rw [replicate_eq_tab]
  unfold fill at hc ⊢
  rw [List.foldlM_append, hc, ok_bind, List.foldlM_cons]
  have : getR ps.pos p = .error .ub := getR_eq_ub hp
  unfold getEuclidianNeighboursOf
  rw [this]
  rfl

/-- The hypotheses hold for three particles and a selection of two. -/
example : ∃ (P : RParams ℝ) (H : Heur 3 ℝ) (ps : Particles ℝ), P.Valid ∧ H.Valid P ∧ Indexed P H ps ∧
    ps.pos.length = 3 ∧ ∀ p ∈ [0, 2], p < ps.pos.length := by
  have hP := stdParams_valid (1000 : ℝ) (1 / 1000)
  obtain ⟨ps, h1, h2, -⟩ := indexed_exists hP (exHeur_valid (d := 3) hP)
    [fun _ => 0, fun _ => 5, fun _ => 1] ⟨fun _ => 0, fun _ => 0⟩ 1
  have h3 : ps.pos.length = 3 := by rw [h2]; rfl
  refine ⟨_, _, ps, hP, exHeur_valid hP, h1, h3, ?_⟩
  intro p hp
  rw [h3]
  simp at hp
  omega

end Rdf
end Colloids
