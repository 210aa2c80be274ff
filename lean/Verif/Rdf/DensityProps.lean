import Verif.Rdf.Props
import Verif.Index.Props

/-! # Properties of the number density and of the selections around the radial distribution function -/

namespace Colloids
namespace Rdf
open Particles

theorem area3 (b : Box 3 ℝ) :
    b.area = (b.hi 0 - b.lo 0) * (b.hi 1 - b.lo 1) * (b.hi 2 - b.lo 2) := by
  have : List.finRange 3 = [0, 1, 2] := by decide
  simp [Box.area, this]

theorem bounds0 (x : Coord ℝ) : bounds x 0 = ⟨x, x⟩ := by
  unfold bounds
  congr 1 <;> funext a <;> simp

theorem foldl_minmax (l : List (Coord ℝ)) (b : Box 3 ℝ) (x0 : Coord ℝ)
    (hb : ∀ a, b.lo a ≤ x0 a ∧ x0 a ≤ b.hi a) :
    ∀ a, let B := l.foldl (fun (b : Box 3 ℝ) x =>
        ⟨fun a => min (b.lo a) (x a), fun a => max (b.hi a) (x a)⟩) b
      B.lo a ≤ b.lo a ∧ b.hi a ≤ B.hi a ∧ (∀ x ∈ l, B.lo a ≤ x a ∧ x a ≤ B.hi a)
      ∧ (B.lo a = b.lo a ∨ ∃ x ∈ l, x a = B.lo a) ∧ (B.hi a = b.hi a ∨ ∃ x ∈ l, x a = B.hi a) := by
  induction l generalizing b with
  | nil => intro a; simp
  | cons y l ih =>
    intro a
    have h := ih (⟨fun a => min (b.lo a) (y a), fun a => max (b.hi a) (y a)⟩)
      (fun a => ⟨le_trans (min_le_left _ _) (hb a).1, le_trans (hb a).2 (le_max_left _ _)⟩) a
    simp only [List.foldl_cons] at h ⊢
    obtain ⟨h1, h2, h3, h4, h5⟩ := h
    refine ⟨le_trans h1 (min_le_left _ _), le_trans (le_max_left _ _) h2, ?_, ?_, ?_⟩
    · intro x hx
      rcases List.mem_cons.1 hx with rfl | hx
      · exact ⟨le_trans h1 (min_le_right _ _), le_trans (le_max_right _ _) h2⟩
      · exact h3 x hx
    · rcases h4 with h4 | ⟨x, hx, h4⟩
      · rcases min_choice (b.lo a) (y a) with e | e
        · exact .inl (h4.trans e)
        · exact .inr ⟨y, by simp, (h4.trans e).symm⟩
      · exact .inr ⟨x, by simp [hx], h4⟩
    · rcases h5 with h5 | ⟨x, hx, h5⟩
      · rcases max_choice (b.hi a) (y a) with e | e
        · exact .inl (h5.trans e)
        · exact .inr ⟨y, by simp, (h5.trans e).symm⟩
      · exact .inr ⟨x, by simp [hx], h5⟩

/-- **C60**: without an index, the number density of particles is their number divided by the volume of
the smallest box that contains their centres. -/
theorem C60_density_no_index (ps : Particles ℝ) (hix : ps.index = none) (hne : ps.pos ≠ []) :
    ∃ lo hi : Coord ℝ, (∀ a, (∀ x ∈ ps.pos, lo a ≤ x a ∧ x a ≤ hi a) ∧ (∃ x ∈ ps.pos, x a = lo a)
        ∧ ∃ x ∈ ps.pos, x a = hi a)
      ∧ getNumberDensity ps
        = .ok (ps.pos.length / ((hi 0 - lo 0) * (hi 1 - lo 1) * (hi 2 - lo 2))) := by
  obtain ⟨x0, l, hl⟩ := List.exists_cons_of_ne_nil hne
  have h := foldl_minmax ps.pos ⟨x0, x0⟩ x0 (fun a => ⟨le_refl _, le_refl _⟩)
  refine ⟨_, _, fun a => ?_, by
    unfold getNumberDensity
    rw [hix]
    simp only
    have : getR ps.pos 0 = .ok x0 := by rw [hl]; rfl
    rw [this, ok_bind, pure_eq_ok, ok_bind, area3]
    rfl⟩
  obtain ⟨-, -, h3, h4, h5⟩ := h a
  have hx0 : x0 ∈ ps.pos := by rw [hl]; simp
  refine ⟨h3, ?_, ?_⟩
  · rcases h4 with h4 | h4
    · exact ⟨x0, hx0, h4.symm⟩
    · exact h4
  · rcases h5 with h5 | h5
    · exact ⟨x0, hx0, h5.symm⟩
    · exact h5

/-- **C60** (with an index): the number density is the number of particles divided by the volume of a box
that contains all of them. Missing: that the box is the smallest, which is false in general (C17). -/
theorem C60_density_index_partial {P : RParams ℝ} {H : Heur 3 ℝ} (hP : P.Valid) (hH : H.Valid P)
    {ps : Particles ℝ} (hps : Indexed P H ps) (hne : ps.pos ≠ []) :
    ∃ lo hi : Coord ℝ, (∀ a, ∀ x ∈ ps.pos, lo a ≤ x a ∧ x a ≤ hi a)
      ∧ getNumberDensity ps
        = .ok (ps.pos.length / ((hi 0 - lo 0) * (hi 1 - lo 1) * (hi 2 - lo 2))) := by
  obtain ⟨t, ht, hreach, hperm⟩ := hps.coherent hP hH
  have hmem : ∀ (i : Nat) x, ps.pos[i]? = some x → (⟨⟨x, x⟩, i⟩ : Leaf 3 ℝ Nat) ∈ t.content := by
    intro i x hx
    rw [hperm.mem_iff]
    exact List.mem_map.2 ⟨(x, i), List.mem_zipIdx_iff_getElem?.2 hx, by rw [bounds0]⟩
  have hroot : ∃ B, t.getOverallBox = .ok B := by
    obtain ⟨x0, l, hl⟩ := List.exists_cons_of_ne_nil hne
    have := hmem 0 x0 (by rw [hl]; rfl)
    unfold RTree.content at this
    unfold RTree.getOverallBox
    cases hr : t.root with
    | none => rw [hr] at this; simp at this
    | some r => exact ⟨r.bound, rfl⟩
  obtain ⟨B, hB⟩ := hroot
  refine ⟨B.lo, B.hi, fun a x hx => ?_, ?_⟩
  · obtain ⟨i, hi⟩ := List.mem_iff_getElem?.1 hx
    exact overall_contains hP hH hreach hB _ (hmem i x hi) a
  · unfold getNumberDensity
    rw [ht]
    simp only
    rw [hB, ok_bind, area3]
    rfl

/-- **C60** (counterexample): two particles in the same plane have a box without volume; the density is a
division by zero. -/
theorem C60_flat_counterexample (x y : Coord ℝ) (h : x 2 = y 2) (r : ℝ) (b : Box 3 ℝ) :
    ∃ B : Box 3 ℝ, B.area = 0 ∧ getNumberDensity ⟨[x, y], b, r, none⟩ = .ok (2 / B.area) := by
  refine ⟨_, ?_, rfl⟩
  rw [area3]
  simp [h]

/-- **C60** (no particles): without an index, the density of an empty set reads its first element. -/
theorem C60_empty_counterexample (b : Box 3 ℝ) (r : ℝ) : getNumberDensity ⟨[], b, r, none⟩ = .error .ub := rfl

/-- **C50** (whole set): the selection of the whole set's distribution is made of particles whose sphere
of radius the cutoff is within the box that contains all the particles, along the axes where this box is
larger than the diameter of the sphere. -/
theorem C50_whole {P : RParams ℝ} {H : Heur 3 ℝ} (hP : P.Valid) (hH : H.Valid P) {ps : Particles ℝ}
    (hps : Indexed P H ps) (hne : ps.pos ≠ []) (n : Nat) (nb : ℝ) :
    ∃ (lo hi : Coord ℝ) (selection : List Nat), getRdfAll ps n nb = getRdf ps selection n nb
      ∧ selection.Pairwise (· < ·) ∧ (∀ a, ∀ x ∈ ps.pos, lo a ≤ x a ∧ x a ≤ hi a)
      ∧ ∀ p ∈ selection, ∃ x, ps.pos[p]? = some x ∧ ∀ a, hi a - lo a > 2 * (2 * ps.radius * nb) →
          ∀ y : Coord ℝ, dist x y ≤ 2 * ps.radius * nb → lo a ≤ y a ∧ y a ≤ hi a := by
  obtain ⟨t, ht, hreach, hperm⟩ := hps.coherent hP hH
  have hmem : ∀ (i : Nat) x, ps.pos[i]? = some x → (⟨⟨x, x⟩, i⟩ : Leaf 3 ℝ Nat) ∈ t.content := by
    intro i x hx
    rw [hperm.mem_iff]
    exact List.mem_map.2 ⟨(x, i), List.mem_zipIdx_iff_getElem?.2 hx, by rw [bounds0]⟩
  have hroot : ∃ B, t.getOverallBox = .ok B := by
    obtain ⟨x0, l, hl⟩ := List.exists_cons_of_ne_nil hne
    have := hmem 0 x0 (by rw [hl]; rfl)
    unfold RTree.content at this
    unfold RTree.getOverallBox
    cases hr : t.root with
    | none => rw [hr] at this; simp at this
    | some r => exact ⟨r.bound, rfl⟩
  obtain ⟨B, hB⟩ := hroot
  obtain ⟨L, h1, h2, h3⟩ := C18_sound hP hH hreach B hB (2 * ps.radius * nb) false
  refine ⟨B.lo, B.hi, L, ?_, h2, fun a x hx => ?_, ?_⟩
  · unfold getRdfAll
    rw [ht]
    simp only
    rw [h1, ok_bind]
  · obtain ⟨i, hi⟩ := List.mem_iff_getElem?.1 hx
    exact overall_contains hP hH hreach hB _ (hmem i x hi) a
  · intro p hp
    obtain ⟨l, hl, rfl, hin⟩ := h3 p hp
    rw [hperm.mem_iff] at hl
    obtain ⟨⟨x, i⟩, hxi, rfl⟩ := List.mem_map.1 hl
    refine ⟨x, List.mem_zipIdx_iff_getElem?.1 hxi, ?_⟩
    intro a ha y hy
    have := hin a (by simp) ha
    simp only [bounds0] at this
    have habs : |x a - y a| ≤ 2 * ps.radius * nb := by
      refine le_trans ?_ hy
      unfold dist
      apply Real.le_sqrt_of_sq_le
      rw [sq_abs]
      unfold sqDist
      have p0 := sq_nonneg (x 0 - y 0)
      have p1 := sq_nonneg (x 1 - y 1)
      have p2 := sq_nonneg (x 2 - y 2)
      match a with
      | 0 => linarith
      | 1 => linarith
      | 2 => linarith
    rw [abs_le] at habs
    constructor <;> linarith [this.1, this.2, habs.1, habs.2]

theorem clear_ok {α : Type} (null : α) (n : Nat) (f : Nat → α) (p q : Nat) (hq : q ≤ n) :
    clear null (tab n f) p q = .ok (tab n (fun i => if p ≤ i ∧ i < q then null else f i)) := by
  unfold clear
  obtain ⟨k, hk⟩ : ∃ k, k = q - p := ⟨_, rfl⟩
  rw [← hk]
  induction k generalizing p f with
  | zero =>
    simp
    apply tab_congr
    intro i _
    rw [if_neg (by omega)]
  | succ k ih =>
    rw [List.range'_succ, List.foldlM_cons, setR_tab _ (by omega), ok_bind, ih _ (p + 1) (by omega)]
    congr 1
    apply tab_congr
    intro i _
    by_cases e : i = p
    · subst e; simp; omega
    · have : (p ≤ i ∧ i < q) ↔ (p + 1 ≤ i ∧ i < q) := by omega
      simp [e, this]

theorem removeOutside_loop {α : Type} (null : α) (n : Nat) (inside : List Nat)
    (hs : inside.Pairwise (· < ·)) (p : Nat) (f : Nat → α) (hp : ∀ i ∈ inside, p ≤ i)
    (hin : ∀ i ∈ inside, i < n) (hpn : p ≤ n) :
    ∃ p', p' ≤ n ∧ p ≤ p' ∧ (∀ i ∈ inside, i < p') ∧
      inside.foldlM (fun (s : Nat × List α) i => do
        let boo ← clear null s.2 s.1 i
        pure (i + 1, boo)) (p, tab n f)
      = .ok (p', tab n (fun i => if p ≤ i ∧ i < p' ∧ i ∉ inside then null else f i)) := by
  induction inside generalizing p f with
  | nil =>
    refine ⟨p, hpn, le_refl _, by simp, ?_⟩
    simp only [List.foldlM_nil, pure_eq_ok]
    congr 2
    apply tab_congr
    intro i _
    rw [if_neg (by omega)]
  | cons j inside ih =>
    rw [List.pairwise_cons] at hs
    have hj : j < n := hin j (by simp)
    obtain ⟨p', h1, h2, h3, h4⟩ := ih hs.2 (j + 1)
      (fun i => if p ≤ i ∧ i < j then null else f i) (fun i hi => hs.1 i hi)
      (fun i hi => hin i (by simp [hi])) hj
    have hpj : p ≤ j := hp j (by simp)
    refine ⟨p', h1, by omega, ?_, ?_⟩
    · intro i hi
      rcases List.mem_cons.1 hi with rfl | hi
      · omega
      · exact h3 i hi
    · rw [List.foldlM_cons, clear_ok null n f p j (by omega), ok_bind, pure_eq_ok, ok_bind, h4]
      congr 2
      apply tab_congr
      intro i _
      by_cases hmem : i ∈ inside
      · have := hs.1 i hmem
        simp [hmem]
        omega
      · by_cases e : i = j
        · subst e; simp
        · simp only [List.mem_cons, hmem, e, or_self, not_false_eq_true, and_true]
          by_cases c1 : p ≤ i ∧ i < j
          · rw [if_neg (by omega), if_pos c1, if_pos (by omega)]
          · rw [if_neg c1]
            by_cases c2 : j + 1 ≤ i ∧ i < p'
            · rw [if_pos c2, if_pos (by omega)]
            · rw [if_neg c2, if_neg (by omega)]

/-- **C59**: when the selection is in increasing order and in range, exactly the values of the particles
out of the selection are reset, the others are left as they are. -/
theorem C59_remove_outside {α : Type} (null : α) (size : Nat) (inside : List Nat) (boo : List α)
    (hs : inside.Pairwise (· < ·)) (hin : ∀ i ∈ inside, i < size) (hlen : boo.length = size) :
    ∃ boo', removeOutside null size inside boo = .ok boo' ∧ boo'.length = size
      ∧ (∀ i ∈ inside, boo'[i]? = boo[i]?) ∧ ∀ i, i < size → i ∉ inside → boo'[i]? = some null := by
  have hb : boo = tab size (fun i : Nat => boo[i]?.getD null) := by
    apply List.ext_getElem?
    intro i
    simp only [tab, List.getElem?_map]
    by_cases hi : i < size
    · simp [hi, hlen]
    · simp [hi, hlen]
  generalize hf : (fun i : Nat => boo[i]?.getD null) = f at hb
  obtain ⟨p', h1, h2, h3, h4⟩ := removeOutside_loop null size inside hs 0 f (by simp) hin (by omega)
  have hres : removeOutside null size inside boo
      = .ok (tab size (fun i => if i ∈ inside then f i else null)) := by
    unfold removeOutside
    rw [hb, h4, ok_bind]
    simp only
    rw [clear_ok null size _ p' size (le_refl _)]
    congr 1
    apply tab_congr
    intro i hi
    by_cases hm : i ∈ inside
    · have := h3 i hm
      simp [hm]
      omega
    · simp [hm]
      by_cases c : i < p'
      · simp [c]
      · simp [show p' ≤ i by omega, hi]
  refine ⟨_, hres, tab_length _ _, ?_, ?_⟩
  · intro i hi
    have := hin i hi
    rw [hb]
    simp [tab, this, hi]
  · intro i hi hn
    simp [tab, hi, hn]

/-- **C59** (counterexample): with a selection that is not in increasing order, values of the selection
are reset. -/
theorem C59_unsorted_counterexample :
    removeOutside 0 2 [1, 0] [7, 8] = .ok [0, 0] := by decide +kernel

/-- The hypotheses of C59 hold for a selection in the middle. -/
example : removeOutside 0 4 [1, 2] [5, 6, 7, 8] = .ok [0, 6, 7, 0] := by decide +kernel

/-- The hypotheses of C60 and C50 hold for two particles, with and without an index. -/
example : ∃ (P : RParams ℝ) (H : Heur 3 ℝ) (ps : Particles ℝ), P.Valid ∧ H.Valid P ∧ Indexed P H ps ∧
    ps.pos ≠ [] := by
  have hP := stdParams_valid (1000 : ℝ) (1 / 1000)
  obtain ⟨ps, h1, h2, -⟩ := indexed_exists hP (exHeur_valid (d := 3) hP)
    [fun _ => 0, fun _ => 5] ⟨fun _ => 0, fun _ => 0⟩ 1
  exact ⟨_, _, ps, hP, exHeur_valid hP, h1, by rw [h2]; simp⟩

end Rdf
end Colloids
