import Verif.Mains.RdfProgModel
import Verif.Rdf.DensityProps
import Verif.Periodic.Props
import Verif.Files.Props
import Verif.Dat.Props

/-! # Properties of the programs `rdf` and `periodic_rdf` -/

namespace Colloids
namespace Mains

open Particles Rdf Periodic

/-- The particles of `pos` at more than `m` from the edges of the smallest box `lo`, `hi` that contains them all, along the axes where this box
is larger than `2*m`; those just on the edges may be selected or not. -/
structure InnerSelection (pos : List (Coord ℝ)) (m : ℝ) (lo hi : Coord ℝ) (sel : List Nat) : Prop where
  box : ∀ a, (∀ x ∈ pos, lo a ≤ x a ∧ x a ≤ hi a) ∧ (∃ x ∈ pos, x a = lo a) ∧ ∃ x ∈ pos, x a = hi a
  sorted : sel.Pairwise (· < ·)
  sound : ∀ p ∈ sel, ∃ x, pos[p]? = some x ∧ ∀ a, hi a - lo a > 2 * m → lo a + m ≤ x a ∧ x a ≤ hi a - m
  complete : ∀ (p : Nat) x, pos[p]? = some x → (∀ a, lo a < x a ∧ x a < hi a) →
    (∀ a, hi a - lo a > 2 * m → lo a + m < x a ∧ x a < hi a - m) → p ∈ sel

theorem InnerSelection.lt {pos : List (Coord ℝ)} {m : ℝ} {lo hi : Coord ℝ} {sel : List Nat} (h : InnerSelection pos m lo hi sel) :
    ∀ p ∈ sel, p < pos.length := by
  intro p hp
  obtain ⟨x, hx, -⟩ := h.sound p hp
  exact (List.getElem?_eq_some_iff.1 hx).1

theorem exists_argmin {α : Type} (f : α → ℝ) : ∀ l : List α, l ≠ [] → ∃ x ∈ l, ∀ y ∈ l, f x ≤ f y
  | [x], _ => ⟨x, by simp, by simp⟩
  | x :: y :: l, _ => by
    obtain ⟨z, hz, hm⟩ := exists_argmin f (y :: l) (by simp)
    rcases le_total (f x) (f z) with h | h
    · refine ⟨x, by simp, ?_⟩
      intro w hw
      rcases List.mem_cons.1 hw with rfl | hw
      · exact le_refl _
      · exact le_trans h (hm w hw)
    · refine ⟨z, by simp [hz], ?_⟩
      intro w hw
      rcases List.mem_cons.1 hw with rfl | hw
      · exact h
      · exact hm w hw

/-- The index of a set of particles, its overall box and its inside. -/
theorem inner_selection {P : RParams ℝ} {H : Heur 3 ℝ} (hP : P.Valid) (hH : H.Valid P) (ps0 : Particles ℝ) (hne : ps0.pos ≠ [])
    (hs : ∀ a, (∃ x ∈ ps0.pos, P.mn ≤ x a) ∧ ∃ x ∈ ps0.pos, x a ≤ P.mx) (m : ℝ) :
    ∃ t B sel, makeRTreeIndex P H ps0 = .ok { ps0 with index := some t } ∧ Indexed P H { ps0 with index := some t } ∧
      RTree.getOverallBox t = .ok B ∧ RStarIndex.getInside t m false = .ok sel ∧ InnerSelection ps0.pos m B.lo B.hi sel := by
  obtain ⟨ps, k1, ⟨t', kt, kr, kp⟩, k2, k3, k4⟩ := makeRTreeIndex_ok hP hH ps0
  have hpl : ((ps0.pos.map fun x => bounds x 0).zipIdx.map fun b => (⟨b.1, b.2⟩ : Leaf 3 ℝ Nat)) = pointLeaves ps0.pos := by
    unfold pointLeaves
    rw [List.zipIdx_map, List.map_map]; rfl
  have hin : ∀ x ∈ ps0.pos, ∃ l ∈ pointLeaves ps0.pos, l.bound = ⟨x, x⟩ := by
    intro x hx
    obtain ⟨i, hi⟩ := List.mem_iff_getElem?.1 hx
    exact ⟨⟨bounds x 0, i⟩, List.mem_map.2 ⟨(x, i), List.mem_zipIdx_iff_getElem?.2 hi, rfl⟩, bounds0 x⟩
  have hout : ∀ l ∈ pointLeaves ps0.pos, ∃ x ∈ ps0.pos, l.bound = ⟨x, x⟩ ∧ ps0.pos[l.val]? = some x := by
    intro l hl
    obtain ⟨⟨x, i⟩, hxi, rfl⟩ := List.mem_map.1 hl
    have hxi := List.mem_zipIdx_iff_getElem?.1 hxi
    exact ⟨x, List.mem_of_getElem? hxi, bounds0 x, hxi⟩
  obtain ⟨t, B, h1, h2, h3, h4⟩ := C17_tight_partial hP hH (pointLeaves ps0.pos) (by
    intro h
    obtain ⟨x, hx⟩ := List.exists_mem_of_ne_nil _ hne
    obtain ⟨l, hl, -⟩ := hin x hx
    rw [h] at hl
    cases hl) (.inr (fun a => by
    obtain ⟨⟨x, hx, hx'⟩, y, hy, hy'⟩ := hs a
    obtain ⟨l, hl, hlx⟩ := hin x hx
    obtain ⟨l', hl', hly⟩ := hin y hy
    exact ⟨⟨l, hl, by rw [hlx]; exact hx'⟩, l', hl', by rw [hly]; exact hy'⟩))
  have hmk : makeRTreeIndex P H ps0 = .ok { ps0 with index := some t } := by
    unfold makeRTreeIndex RStarIndex.ofBoxes
    rw [hpl, h1]; rfl
  have hps : ps = { ps0 with index := some t } := by
    rw [hmk] at k1
    exact (Except.ok.inj k1).symm
  subst hps
  have htt : t' = t := (Option.some.inj kt).symm
  rw [htt] at kr kp
  obtain ⟨sel, s1, s2, s3⟩ := C18_sound hP hH kr B h2 m false
  refine ⟨t, B, sel, hmk, .make hmk, h2, s1, ⟨?_, s2, ?_, ?_⟩⟩
  · intro a
    have hb : ∀ x ∈ ps0.pos, B.lo a ≤ x a ∧ x a ≤ B.hi a := by
      intro x hx
      obtain ⟨l, hl, hlx⟩ := hin x hx
      have := h3 l hl a
      rw [hlx] at this
      exact this
    obtain ⟨x, hx, hxm⟩ := exists_argmin (fun x : Coord ℝ => x a) ps0.pos hne
    obtain ⟨y, hy, hym⟩ := exists_argmin (fun x : Coord ℝ => - x a) ps0.pos hne
    have hc := h4 ⟨fun b => if b = a then x a else B.lo b, fun b => if b = a then y a else B.hi b⟩ (by
      intro l hl b
      obtain ⟨z, hz, hlz, -⟩ := hout l hl
      have h5 := h3 l hl b
      rw [hlz] at h5 ⊢
      dsimp only at h5 ⊢
      by_cases e : b = a
      · subst e
        rw [if_pos rfl, if_pos rfl]
        have h6 := hym z hz
        have h7 := hxm z hz
        exact ⟨h7, by linarith⟩
      · rw [if_neg e, if_neg e]
        exact h5) a
    dsimp only at hc
    rw [if_pos rfl, if_pos rfl] at hc
    exact ⟨hb, ⟨x, hx, le_antisymm hc.1 (hb x hx).1⟩, y, hy, le_antisymm (hb y hy).2 hc.2⟩
  · intro p hp
    obtain ⟨l, hl, rfl, hm⟩ := s3 p hp
    rw [kp.mem_iff] at hl
    obtain ⟨x, -, hlx, hx⟩ := hout l hl
    refine ⟨x, hx, ?_⟩
    intro a ha
    have := hm a (by simp) ha
    rw [hlx] at this
    exact this
  · intro p x hx hin' hm
    have hl : (⟨⟨x, x⟩, p⟩ : Leaf 3 ℝ Nat) ∈ t.content := by
      rw [kp.mem_iff]
      exact List.mem_map.2 ⟨(x, p), List.mem_zipIdx_iff_getElem?.2 hx, by rw [bounds0]⟩
    obtain ⟨L, l1, l2⟩ := C18_points_partial hP hH kr B h2 m false x p hl hin' (fun a _ h => hm a h)
    rw [s1] at l1
    cases l1
    exact l2

/-- C145. The program `rdf`, for a file with at least one particle and where, along each axis, at least one coordinate is not negative. The file
has a row for each bin `r`: the abscissa is `r*range/nBins`, in diameters, and the ordinate is the number of pairs of a particle of the selection
and another one at a distance between `r` and `r+1` times the width of the bins, over the number of particles of the selection, the number density in the
box of the particles and the volume of the shell `4 π r² (width)³`. The selection is that of the particles inside the box of
the particles by the range. The ordinate of the first row is null. Missing: the printing of the numbers, an empty selection or a flat box (the ordinates are
then not numbers). -/
theorem C145_rdf_partial {P : RParams ℝ} {H : Heur 3 ℝ} (hP : P.Valid) (hH : H.Valid P) (junk : Coord ℝ) {stem e : List Char} (he : '.' ∉ e)
    (radius : ℝ) (nBins : Nat) (hn : 0 < nBins) (range : ℝ) (disk : Disk ℝ) {ps : Particles ℝ}
    (hd : Dat.ofDat junk (disk (stem ++ '.' :: e)) radius = .ok ps) (hne : ps.pos ≠ [])
    (hs : ∀ a, (∃ x ∈ ps.pos, P.mn ≤ x a) ∧ ∃ x ∈ ps.pos, x a ≤ P.mx) :
    ∃ lo hi sel rows, InnerSelection ps.pos (2 * radius * range) lo hi sel ∧
      rdf P H junk (stem ++ '.' :: e) radius nBins range disk = .ok (stem ++ ['.', 'r', 'd', 'f'], rows) ∧
      (sel ≠ [] → (∀ a, lo a < hi a) → rows.length = nBins ∧ rows[0]? = some (0, 0) ∧
        ∀ r, 1 ≤ r → r < nBins → rows[r]? = some (r * range / nBins,
          pairsInShell ps sel (2 * radius * range) (r * (2 * radius * range) / nBins) ((r + 1) * (2 * radius * range) / nBins)
            / (sel.length * (ps.pos.length / ((hi 0 - lo 0) * (hi 1 - lo 1) * (hi 2 - lo 2)))
              * (4 * Real.pi * r ^ 2 * (2 * radius * range / nBins) ^ 3)))) := by
  have hr : ps.radius = radius := by
    have hd' := hd
    unfold Dat.ofDat at hd'
    split at hd'
    · cases hd'
    · cases hd'; rfl
  subst hr
  obtain ⟨t, B, sel, h1, h2, h3, h4, h5⟩ := inner_selection hP hH ps hne hs (2 * ps.radius * range)
  have hden : getNumberDensity { ps with index := some t }
      = .ok (ps.pos.length / ((B.hi 0 - B.lo 0) * (B.hi 1 - B.lo 1) * (B.hi 2 - B.lo 2))) := by
    unfold getNumberDensity
    simp only
    rw [h3, ok_bind, area3]
    rfl
  obtain ⟨g, g1, g2, g3, g4⟩ := C50_rdf hP hH h2 range nBins hn sel (fun p hp => h5.lt p hp) _ hden
  refine ⟨B.lo, B.hi, sel, (rdfFile (stem ++ '.' :: e) nBins range g).2, h5, ?_, ?_⟩
  · unfold rdf
    rw [hd, ok_bind, h1, ok_bind]
    unfold getRdfAll
    simp only
    rw [h4, ok_bind, g1, ok_bind, pure_eq_ok]
    unfold rdfFile
    rw [show Files.replaceExt (stem ++ '.' :: e) ['.', 'r', 'd', 'f'] = stem ++ ['.', 'r', 'd', 'f'] by
      simpa using Files.replaceExt_eq [] stem e ['.', 'r', 'd', 'f'] he]
  · intro _ _
    unfold rdfFile
    simp only
    refine ⟨by simp [g2], by rw [List.getElem?_mapIdx, g3]; simp, ?_⟩
    intro r hr1 hr2
    rw [List.getElem?_mapIdx, g4 r hr1 hr2]
    simp only [Option.map_some]
    rw [show (r : ℝ) / (nBins / range) = r * range / nBins by rw [div_div_eq_mul_div]]
    rfl

/-! ## Periodic boundary conditions -/

/-- The nearest image of particle `q` seen from `p` is at a distance in `[lo, hi)`, less than the cutoff. -/
def ImageInShell (ps : Particles ℝ) (cutoff lo hi : ℝ) (p q : Nat) : Prop :=
  q ≠ p ∧ ∃ x y w, ps.pos[p]? = some x ∧ ps.pos[q]? = some y ∧ SameImage ps (y - x) w ∧
    (∀ v, SameImage ps (y - x) v → sqNorm w ≤ sqNorm v) ∧ √(sqNorm w) < cutoff ∧ lo ≤ √(sqNorm w) ∧ √(sqNorm w) < hi

open Classical in
/-- Number of pairs of a particle of the selection and another particle whose nearest image is in the shell. -/
noncomputable def imagesInShell (ps : Particles ℝ) (selection : List Nat) (cutoff lo hi : ℝ) : Nat :=
  (selection.map (fun p => ((List.range ps.pos.length).filter (fun q => decide (ImageInShell ps cutoff lo hi p q))).length)).sum

theorem pfill_row {ps : Particles ℝ} {p n : Nat} {scale : ℝ} (b : Nat → Nat) (around : List Nat)
    (hb : ∀ q ∈ around, b q < n ∧ ∀ s, pbin ps scale s p q = (do
      let g ← modifyR s.1 (b q) (· + 1)
      pure (g, s.2 + 1))) (f : Nat → Nat) (c : Nat) :
    around.foldlM (fun s q => pbin ps scale s p q) (tab n f, c)
      = .ok (tab n (fun i => f i + (around.filter (fun q => decide (b q = i))).length), c + around.length) := by
  induction around generalizing f c with
  | nil => simp
  | cons q around ih =>
    have hq := hb q (by simp)
    rw [List.foldlM_cons, hq.2]
    simp only
    rw [Boo.modifyR_tab _ hq.1, ok_bind, pure_eq_ok, ok_bind, ih (fun q h => hb q (by simp [h]))]
    congr 2
    · apply tab_congr
      intro i _
      by_cases e : b q = i
      · subst e; simp; omega
      · simp [e, Ne.symm e]
    · simp; omega

/-- The vector given by `periodify` is the shortest of the images. -/
theorem periodify_minimal {ps : Particles ℝ} {x y : Coord ℝ} (hx : PointOf ps x) (hy : PointOf ps y) :
    SameImage ps (y - x) (periodify ps (y - x)) ∧
      ∀ v, SameImage ps (y - x) v → sqNorm (periodify ps (y - x)) ≤ sqNorm v := by
  obtain ⟨d, h1, -, h2, -, h3⟩ := C26_minimal_image { ps with pos := [x, y] } 0 1 x y rfl rfl hx hy
  have hd : d = periodify ps (y - x) := by
    have : getDiffBetween { ps with pos := [x, y] } 0 1 = .ok (periodify ps (y - x)) := rfl
    rw [h1] at this
    injection this
  subst hd
  exact ⟨h2, fun v hv => (h3 v hv).2⟩

theorem pfill_eq {P : RParams ℝ} {H : Heur 3 ℝ} (hP : P.Valid) (hH : H.Valid P) {ps : Particles ℝ} (hps : Indexed P H ps)
    (hbox : ∀ x ∈ ps.pos, PointOf ps x) (cutoff : ℝ) (n : Nat) (hn : 0 < n) (selection : List Nat)
    (hsel : ∀ p ∈ selection, p < ps.pos.length) (f : Nat → Nat) (c : Nat) :
    ∃ c', pfill ps cutoff (n / cutoff) selection (tab n f, c)
      = .ok (tab n (fun b => f b + imagesInShell ps selection cutoff (b * cutoff / n) ((b + 1) * cutoff / n)), c') := by
  induction selection generalizing f c with
  | nil => exact ⟨c, by simp [pfill, imagesInShell]⟩
  | cons p selection ih =>
    have hpl := hsel p (by simp)
    have hp : ps.pos[p]? = some ps.pos[p] := by simp [hpl]
    generalize ps.pos[p] = x at hp
    have hxb := hbox x (List.mem_of_getElem? hp)
    have hb0 : InBox ps := ⟨fun a => (hxb a).1, fun y hy a => (hbox y hy a).2⟩
    obtain ⟨N, hN, hsort, hmem⟩ := neighboursOf_ok hp (searches_periodic hP hH (hps.coherent hP hH) hb0 x)
      (fun q _ => pdistSq_nonneg _ _ q) cutoff
    let b : Nat → Nat := fun q => ⌊√(pdistSq ps x q) * (n / cutoff)⌋₊
    have hlt : ∀ q, Closer (pdistSq ps x q) cutoff ↔ √(pdistSq ps x q) < cutoff := by
      intro q
      constructor
      · rintro ⟨h1, h2⟩
        rw [Real.sqrt_lt' h1]
        nlinarith
      · intro h
        have h1 : 0 < cutoff := lt_of_le_of_lt (Real.sqrt_nonneg _) h
        exact ⟨h1, by have := (Real.sqrt_lt' h1).1 h; nlinarith⟩
    have hb : ∀ q ∈ N, b q < n ∧ ∀ s, pbin ps (n / cutoff) s p q = (do
        let g ← modifyR s.1 (b q) (· + 1)
        pure (g, s.2 + 1)) := by
      intro q hq
      obtain ⟨hql, hne, hcl⟩ := (hmem q).1 hq
      have hc : 0 < cutoff := hcl.1
      have hq : ps.pos[q]? = some ps.pos[q] := by simp [hql]
      constructor
      · show ⌊_⌋₊ < n
        rw [Nat.floor_lt (mul_nonneg (Real.sqrt_nonneg _) (by positivity))]
        have : √(pdistSq ps x q) * (n / cutoff) < cutoff * (n / cutoff) :=
          mul_lt_mul_of_pos_right ((hlt q).1 hcl) (by positivity)
        rwa [mul_div_cancel₀ _ (ne_of_gt hc)] at this
      · intro s
        unfold pbin getDiffBetween
        have h1 : ps.at_ q = .ok ps.pos[q] := by unfold at_; rw [hq]
        have h2 : ps.at_ p = .ok x := by unfold at_; rw [hp]
        rw [h1, ok_bind, h2, ok_bind]
        simp only [pure_eq_ok, ok_bind]
        rw [← pdistSq_eq hq]
    have hrow := pfill_row (ps := ps) (p := p) (n := n) (scale := n / cutoff) b N hb f c
    obtain ⟨c', hc'⟩ := ih (fun p h => hsel p (by simp [h]))
      (fun i => f i + (N.filter (fun q => decide (b q = i))).length) (c + N.length)
    refine ⟨c', ?_⟩
    unfold pfill at hc' ⊢
    rw [List.foldlM_cons, hN, ok_bind, hrow, ok_bind, hc']
    congr 2
    apply tab_congr
    intro i hi
    have hcount : (N.filter (fun q => decide (b q = i))).length
        = ((List.range ps.pos.length).filter (fun q => @decide (ImageInShell ps cutoff (i * cutoff / n)
          ((i + 1) * cutoff / n) p q) (Classical.propDecidable _))).length := by
      apply List.Perm.length_eq
      rw [List.perm_ext_iff_of_nodup]
      · intro q
        simp only [List.mem_filter, decide_eq_true_eq, List.mem_range]
        have hkey : √(pdistSq ps x q) < cutoff →
            (b q = i ↔ i * cutoff / n ≤ √(pdistSq ps x q) ∧ √(pdistSq ps x q) < (i + 1) * cutoff / n) := by
          intro hyd
          have hc : 0 < cutoff := lt_of_le_of_lt (Real.sqrt_nonneg _) hyd
          have hn' : (0 : ℝ) < n := by exact_mod_cast hn
          show ⌊_⌋₊ = i ↔ _
          rw [Nat.floor_eq_iff (mul_nonneg (Real.sqrt_nonneg _) (by positivity)),
            div_le_iff₀ hn', lt_div_iff₀ hn', ← mul_div_assoc, le_div_iff₀ hc, div_lt_iff₀ hc]
        rw [hmem]
        constructor
        · rintro ⟨⟨hql, hne, hcl⟩, hbi⟩
          have hyd := (hlt q).1 hcl
          have hk := (hkey hyd).1 hbi
          have hq : ps.pos[q]? = some ps.pos[q] := by simp [hql]
          obtain ⟨m1, m2⟩ := periodify_minimal hxb (hbox _ (List.mem_of_getElem? hq))
          rw [pdistSq_eq hq, dot3_eq_sqNorm] at hyd hk
          exact ⟨hql, hne, x, _, _, hp, hq, m1, m2, hyd, hk.1, hk.2⟩
        · rintro ⟨hql, hne, x', y, w, hx', hy, m1, m2, hyd, k1, k2⟩
          rw [hp] at hx'
          cases hx'
          obtain ⟨m3, m4⟩ := periodify_minimal hxb (hbox _ (List.mem_of_getElem? hy))
          have hw : sqNorm w = pdistSq ps x q := by
            rw [pdistSq_eq hy, dot3_eq_sqNorm]
            exact le_antisymm (m2 _ m3) (m4 _ m1)
          rw [hw] at hyd k1 k2
          exact ⟨⟨hql, hne, (hlt q).2 hyd⟩, (hkey hyd).2 ⟨k1, k2⟩⟩
      · exact (hsort.imp (fun h => Nat.ne_of_lt h)).filter _
      · exact List.nodup_range.filter _
    rw [hcount]
    simp [imagesInShell, Nat.add_assoc]

/-- C145. The program `periodic_rdf`, for particles in the box of the command line. The pairs are counted with the distance to the nearest image,
and the density is that of the periodic box. Missing: the printing of the numbers, an empty selection; and the particles near the
edges are not in the selection although there are no edges (`C145_periodic_counterexample`). -/
theorem C145_periodic_rdf_partial {P : RParams ℝ} {H : Heur 3 ℝ} (hP : P.Valid) (hH : H.Valid P) {stem e : List Char} (he : '.' ∉ e)
    (radius : ℝ) (nBins : Nat) (hn : 0 < nBins) (range : ℝ) (nb : Nat) (size : Coord ℝ) (disk : Disk ℝ) {ps : Particles ℝ}
    (hd : Dat.ofGrv nb ⟨fun _ => 0, size⟩ (disk (stem ++ '.' :: e)) radius = .ok ps) (hne : ps.pos ≠ [])
    (hin : ∀ x ∈ ps.pos, ∀ a, 0 ≤ x a ∧ x a ≤ size a) (hpos : ∀ a, 0 < size a)
    (hs : ∀ a, (∃ x ∈ ps.pos, P.mn ≤ x a) ∧ ∃ x ∈ ps.pos, x a ≤ P.mx) :
    ∃ lo hi sel rows, InnerSelection ps.pos (2 * radius * range) lo hi sel ∧
      periodicRdf P H (stem ++ '.' :: e) radius nBins range nb size disk = .ok (stem ++ ['.', 'r', 'd', 'f'], rows) ∧
      (sel ≠ [] → rows.length = nBins ∧ rows[0]? = some (0, 0) ∧
        ∀ r, 1 ≤ r → r < nBins → rows[r]? = some (r * range / nBins,
          imagesInShell ps sel (2 * radius * range) (r * (2 * radius * range) / nBins) ((r + 1) * (2 * radius * range) / nBins)
            / (sel.length * (nb / (size 0 * size 1 * size 2)) * (4 * Real.pi * r ^ 2 * (2 * radius * range / nBins) ^ 3)))) := by
  have hra : ∀ (n : Nat) (s : Dat.In ℝ), (Dat.readAll n s).length = n := by
    intro n
    induction n with
    | zero => intro s; rfl
    | succ n ih => intro s; simp [Dat.readAll, ih]
  have hr : ps.radius = radius ∧ ps.bb = ⟨fun _ => 0, size⟩ ∧ ps.pos.length = nb := by
    have hd' := hd
    unfold Dat.ofGrv at hd'
    split at hd'
    · cases hd'
    · cases hd'; exact ⟨rfl, rfl, hra _ _⟩
  obtain ⟨hr, hbb, hlen⟩ := hr
  subst hr
  obtain ⟨t, B, sel, h1, h2, h3, h4, h5⟩ := inner_selection hP hH ps hne hs (2 * ps.radius * range)
  have hbox : ∀ x ∈ ps.pos, PointOf { ps with index := some t } x := by
    intro x hx a
    show ps.bb.lo a < ps.bb.hi a ∧ _
    dsimp only
    rw [hbb]
    exact ⟨hpos a, hin x hx a⟩
  obtain ⟨c, hc⟩ := pfill_eq hP hH h2 hbox (2 * ps.radius * range) nBins hn sel (fun p hp => h5.lt p hp) (fun _ => 0) 0
  rw [← Rdf.replicate_eq_tab] at hc
  have hset : ∀ f : Nat → Nat, setR ((tab nBins f).map (fun (k : Nat) => (k : ℝ))) 0 0
      = .ok (((tab nBins f).map (fun (k : Nat) => (k : ℝ))).set 0 0) := by
    intro f
    unfold setR
    rw [if_pos (by simp [tab_length, hn])]
  have hval : ∀ (f : Nat → Nat) (r : Nat), r < nBins → (tab nBins f)[r]? = some (f r) := by
    intro f r h
    unfold tab
    simp [h]
  have hden : pgetNumberDensity { ps with index := some t } = nb / (size 0 * size 1 * size 2) := by
    unfold pgetNumberDensity
    rw [area3]
    simp only
    rw [hbb, hlen]
    simp
  have hg : ∃ g, pgetRdf { ps with index := some t } sel nBins range = .ok g ∧ g.length = nBins ∧ g[0]? = some 0 ∧
      ∀ r, 1 ≤ r → r < nBins → g[r]? = some (imagesInShell ps sel (2 * ps.radius * range) (r * (2 * ps.radius * range) / nBins)
        ((r + 1) * (2 * ps.radius * range) / nBins) / (4 * Real.pi * pgetNumberDensity { ps with index := some t }
          / (nBins / (2 * ps.radius * range)) ^ 3 * sel.length) / (r * r)) := by
    refine ⟨_, by unfold pgetRdf Rdf.normalize; simp only; rw [hc, ok_bind, hset, ok_bind]; rfl, by simp [tab_length],
      by simp [tab_length, hn], ?_⟩
    intro r hr1 hr2
    rw [List.getElem?_mapIdx, List.getElem?_set_ne (by omega), List.getElem?_map, hval _ r hr2]
    simp only [Option.map_some, if_pos hr1, Nat.zero_add]
    rfl
  obtain ⟨g, g1, g2, g3, g4⟩ := hg
  refine ⟨B.lo, B.hi, sel, (rdfFile (stem ++ '.' :: e) nBins range g).2, h5, ?_, ?_⟩
  · unfold periodicRdf
    rw [hd, ok_bind, h1, ok_bind]
    unfold pgetRdfAll
    simp only
    rw [h4, ok_bind, g1, ok_bind, pure_eq_ok]
    unfold rdfFile
    rw [show Files.replaceExt (stem ++ '.' :: e) ['.', 'r', 'd', 'f'] = stem ++ ['.', 'r', 'd', 'f'] by
      simpa using Files.replaceExt_eq [] stem e ['.', 'r', 'd', 'f'] he]
  · intro _
    unfold rdfFile
    simp only
    refine ⟨by simp [g2], by rw [List.getElem?_mapIdx, g3]; simp, ?_⟩
    intro r hr1 hr2
    rw [List.getElem?_mapIdx, g4 r hr1 hr2]
    simp only [Option.map_some]
    rw [show (r : ℝ) / (nBins / range) = r * range / nBins by rw [div_div_eq_mul_div], hden]
    congr 2
    rw [div_div]
    congr 1
    generalize 2 * ps.radius * range = cut
    rw [div_pow, div_pow, div_div_eq_mul_div]
    ring

/-! ## What the periodic program does not do -/

/-- Five particles in a box of side 10. The two first ones are at a distance 2 through the boundary. -/
def fivePos : List (Coord ℝ) := [![1, 5, 5], ![9, 5, 5], ![5, 5, 5], ![5, 1, 1], ![5, 9, 9]]

theorem four_far (n : Int) : (25 / 4 : ℝ) < (4 + n * 10) ^ 2 ∧ (25 / 4 : ℝ) < (-4 + n * 10) ^ 2 := by
  have h : n ≤ -1 ∨ n = 0 ∨ 1 ≤ n := by omega
  rcases h with h | h | h
  · have : (n : ℝ) ≤ -1 := by exact_mod_cast h
    constructor <;> nlinarith
  · subst h; norm_num
  · have : (1 : ℝ) ≤ n := by exact_mod_cast h
    constructor <;> nlinarith

/-- C145 (periodic selection, counterexample): the particles near the edges of the box are left out as if there were no periodicity. Here the
distribution is null everywhere, though two particles are in the last shell of one another. -/
theorem C145_periodic_counterexample {P : RParams ℝ} {H : Heur 3 ℝ} (hP : P.Valid) (hH : H.Valid P) (hmn : P.mn ≤ 9) (hmx : 1 ≤ P.mx)
    {stem e : List Char} (he : '.' ∉ e) (disk : Disk ℝ) (hd : disk (stem ++ '.' :: e) = some (fivePos.flatMap (Dat.printCoord id))) :
    ∃ rows, periodicRdf P H (stem ++ '.' :: e) (1 / 2) 5 (5 / 2) 5 (fun _ => 10) disk = .ok (stem ++ ['.', 'r', 'd', 'f'], rows) ∧
      rows.length = 5 ∧ (∀ row ∈ rows, row.2 = 0) ∧
      ∀ ps : Particles ℝ, ps.pos = fivePos → ps.bb = ⟨fun _ => 0, fun _ => 10⟩ → ImageInShell ps (5 / 2) 2 (5 / 2) 0 1 ∧ ImageInShell ps (5 / 2) 2 (5 / 2) 1 0 := by
  obtain ⟨ps, h1, h2, h3, h4⟩ := Dat.C40_grv (id : ℝ → ℝ) fivePos ⟨fun _ => 0, fun _ => 10⟩ (1 / 2)
  have hpos : ps.pos = fivePos := by rw [h2]; simp
  rw [← hd] at h1
  have hall : ∀ x ∈ ps.pos, ∀ a, 1 ≤ x a ∧ x a ≤ 9 := by
    intro x hx a
    rw [hpos] at hx
    simp only [fivePos, List.mem_cons, List.not_mem_nil, or_false] at hx
    rcases hx with rfl | rfl | rfl | rfl | rfl <;> fin_cases a <;> norm_num
  have hlow : ∀ a, ∃ x ∈ ps.pos, x a = 1 := by
    intro a
    rw [hpos]
    fin_cases a
    · exact ⟨![1, 5, 5], by simp [fivePos], rfl⟩
    · exact ⟨![5, 1, 1], by simp [fivePos], rfl⟩
    · exact ⟨![5, 1, 1], by simp [fivePos], rfl⟩
  have hhigh : ∀ a, ∃ x ∈ ps.pos, x a = 9 := by
    intro a
    rw [hpos]
    fin_cases a
    · exact ⟨![9, 5, 5], by simp [fivePos], rfl⟩
    · exact ⟨![5, 9, 9], by simp [fivePos], rfl⟩
    · exact ⟨![5, 9, 9], by simp [fivePos], rfl⟩
  obtain ⟨lo, hi, sel, rows, k1, k2, k3⟩ := C145_periodic_rdf_partial hP hH he (1 / 2) 5 (by norm_num) (5 / 2) 5 (fun _ => 10) disk h1
    (by rw [hpos]; simp [fivePos]) (fun x hx a => ⟨by linarith [(hall x hx a).1], by linarith [(hall x hx a).2]⟩) (fun a => by norm_num)
    (fun a => by
      obtain ⟨x, hx, hxa⟩ := hlow a
      obtain ⟨y, hy, hya⟩ := hhigh a
      exact ⟨⟨y, hy, by rw [hya]; exact hmn⟩, x, hx, by rw [hxa]; exact hmx⟩)
  have hlo : ∀ a, lo a = 1 := by
    intro a
    obtain ⟨x, hx, hxa⟩ := hlow a
    obtain ⟨b1, ⟨y, hy, hya⟩, -⟩ := k1.box a
    have := (b1 x hx).1
    have := (hall y hy a).1
    linarith
  have hhi : ∀ a, hi a = 9 := by
    intro a
    obtain ⟨x, hx, hxa⟩ := hhigh a
    obtain ⟨b1, -, ⟨y, hy, hya⟩⟩ := k1.box a
    have := (b1 x hx).2
    have := (hall y hy a).2
    linarith
  have hsel : ∀ p ∈ sel, p = 2 := by
    intro p hp
    obtain ⟨x, hx, hm⟩ := k1.sound p hp
    have m0 := hm 0 (by rw [hlo, hhi]; norm_num)
    have m1 := hm 1 (by rw [hlo, hhi]; norm_num)
    rw [hlo, hhi] at m0 m1
    rw [hpos] at hx
    have hp5 : p < 5 := by simpa [fivePos] using (List.getElem?_eq_some_iff.1 hx).1
    have : p = 0 ∨ p = 1 ∨ p = 2 ∨ p = 3 ∨ p = 4 := by omega
    rcases this with rfl | rfl | rfl | rfl | rfl
    · simp only [fivePos, List.getElem?_cons_zero, Option.some.injEq] at hx
      subst hx
      norm_num at m0
    · simp only [fivePos, List.getElem?_cons_zero, List.getElem?_cons_succ, Option.some.injEq] at hx
      subst hx
      norm_num at m0
    · rfl
    · simp only [fivePos, List.getElem?_cons_zero, List.getElem?_cons_succ, Option.some.injEq] at hx
      subst hx
      norm_num at m1
    · simp only [fivePos, List.getElem?_cons_zero, List.getElem?_cons_succ, Option.some.injEq] at hx
      subst hx
      norm_num at m1
  have h2sel : 2 ∈ sel := by
    refine k1.complete 2 ![5, 5, 5] (by rw [hpos]; rfl) ?_ ?_
    · intro a
      rw [hlo, hhi]
      fin_cases a <;> norm_num
    · intro a _
      rw [hlo, hhi]
      fin_cases a <;> norm_num
  have hzero : ∀ lo' hi', imagesInShell ps sel (2 * (1 / 2) * (5 / 2)) lo' hi' = 0 := by
    intro lo' hi'
    unfold imagesInShell
    rw [List.sum_eq_zero_iff_forall_eq_nat]
    intro k hk
    obtain ⟨p, hp, rfl⟩ := List.mem_map.1 hk
    rw [hsel p hp, List.length_eq_zero_iff, List.filter_eq_nil_iff]
    intro q _ hq0
    obtain ⟨hq, x, y, w, hx, hy, hw, -, hcut, -⟩ := (@decide_eq_true_iff _ (Classical.propDecidable _)).1 hq0
    rw [hpos] at hx hy
    simp only [fivePos, List.getElem?_cons_zero, List.getElem?_cons_succ, Option.some.injEq] at hx
    have hw2 : sqNorm w < 25 / 4 := by
      have := (Real.sqrt_lt' (by norm_num)).1 hcut
      norm_num at this ⊢
      exact this
    unfold sqNorm at hw2
    have hq5 : q < 5 := by simpa [fivePos] using (List.getElem?_eq_some_iff.1 hy).1
    have : q = 0 ∨ q = 1 ∨ q = 2 ∨ q = 3 ∨ q = 4 := by omega
    obtain ⟨n0, e0⟩ := hw 0
    obtain ⟨n1, e1⟩ := hw 1
    rw [h3] at e0 e1
    have s0 := sq_nonneg (w 0); have s1 := sq_nonneg (w 1); have s2 := sq_nonneg (w 2)
    rcases this with rfl | rfl | rfl | rfl | rfl
    · simp only [fivePos, List.getElem?_cons_zero, Option.some.injEq] at hy
      subst hx hy
      norm_num at e0
      rw [e0] at hw2
      linarith [(four_far n0).2]
    · simp only [fivePos, List.getElem?_cons_zero, List.getElem?_cons_succ, Option.some.injEq] at hy
      subst hx hy
      norm_num at e0
      rw [e0] at hw2
      linarith [(four_far n0).1]
    · exact hq rfl
    · simp only [fivePos, List.getElem?_cons_zero, List.getElem?_cons_succ, Option.some.injEq] at hy
      subst hx hy
      norm_num at e1
      rw [e1] at hw2
      linarith [(four_far n1).2]
    · simp only [fivePos, List.getElem?_cons_zero, List.getElem?_cons_succ, Option.some.injEq] at hy
      subst hx hy
      norm_num at e1
      rw [e1] at hw2
      linarith [(four_far n1).1]
  obtain ⟨r1, r2, r3⟩ := k3 (List.ne_nil_of_mem h2sel)
  refine ⟨rows, k2, r1, ?_, ?_⟩
  · intro row hrow
    obtain ⟨r, hr⟩ := List.mem_iff_getElem?.1 hrow
    rcases Nat.eq_zero_or_pos r with rfl | hr0
    · rw [r2] at hr
      cases hr
      rfl
    · have hrl : r < 5 := by rw [← r1]; exact (List.getElem?_eq_some_iff.1 hr).1
      rw [r3 r hr0 hrl, hzero] at hr
      cases hr
      simp
  · intro qs hq hbb
    have key : ∀ x y : Coord ℝ, PointOf qs x → PointOf qs y → sqNorm (periodify qs (y - x)) = 4 →
        ∃ w, SameImage qs (y - x) w ∧ (∀ v, SameImage qs (y - x) v → sqNorm w ≤ sqNorm v) ∧ √(sqNorm w) < 5 / 2 ∧ 2 ≤ √(sqNorm w) ∧
          √(sqNorm w) < 5 / 2 := by
      intro x y hx hy h
      obtain ⟨m1, m2⟩ := periodify_minimal hx hy
      refine ⟨_, m1, m2, ?_⟩
      rw [h, show (4 : ℝ) = 2 ^ 2 by norm_num, Real.sqrt_sq (by norm_num)]
      norm_num
    have hP1 : PointOf qs ![1, 5, 5] := by
      intro a; rw [hbb]; fin_cases a <;> norm_num
    have hP2 : PointOf qs ![9, 5, 5] := by
      intro a; rw [hbb]; fin_cases a <;> norm_num
    constructor
    · obtain ⟨w, hw⟩ := key _ _ hP1 hP2 (by
        have e : periodify qs (![9, 5, 5] - ![1, 5, 5]) = ![-2, 0, 0] := by
          funext a
          show wrap1 (qs.bb.hi a - qs.bb.lo a) _ = _
          rw [hbb]
          fin_cases a <;> norm_num [wrap1]
        rw [e]
        norm_num [sqNorm]
        rfl)
      exact ⟨by norm_num, _, _, w, by rw [hq]; rfl, by rw [hq]; rfl, hw.1, hw.2.1, hw.2.2⟩
    · obtain ⟨w, hw⟩ := key _ _ hP2 hP1 (by
        have e : periodify qs (![1, 5, 5] - ![9, 5, 5]) = ![2, 0, 0] := by
          funext a
          show wrap1 (qs.bb.hi a - qs.bb.lo a) _ = _
          rw [hbb]
          fin_cases a <;> norm_num [wrap1]
        rw [e]
        norm_num [sqNorm]
        rfl)
      exact ⟨by norm_num, _, _, w, by rw [hq]; rfl, by rw [hq]; rfl, hw.1, hw.2.1, hw.2.2⟩

/-- The hypotheses of the counterexample, hence those of `C145_periodic_rdf_partial`, hold with the constants of the code. -/
example : ∃ (P : RParams ℝ) (H : Heur 3 ℝ), P.Valid ∧ H.Valid P ∧ P.mn ≤ 9 ∧ 1 ≤ P.mx :=
  have hP := stdParams_valid (1000 : ℝ) (1 / 1000)
  ⟨_, _, hP, exHeur_valid (d := 3) hP, by norm_num [stdParams], by norm_num [stdParams]⟩

/-- The hypotheses of `C145_rdf_partial` hold for the file of the five particles, and one particle is selected. -/
example : ∃ (P : RParams ℝ) (H : Heur 3 ℝ) (ps : Particles ℝ), P.Valid ∧ H.Valid P ∧
    Dat.ofDat (fun _ => 0) (some (Dat.exportToFile id ⟨fivePos, ⟨fun _ => 0, fun _ => 10⟩, 1, none⟩)) (1 / 2) = .ok ps ∧ ps.pos ≠ [] ∧
    ∀ a, (∃ x ∈ ps.pos, P.mn ≤ x a) ∧ ∃ x ∈ ps.pos, x a ≤ P.mx := by
  have hP := stdParams_valid (1000 : ℝ) (1 / 1000)
  obtain ⟨ps, h1, h2, h3, -⟩ := Dat.C40_round_trip_partial (id : ℝ → ℝ) (fun _ => 0) ⟨fivePos, ⟨fun _ => 0, fun _ => 10⟩, 1, none⟩ (1 / 2)
  obtain ⟨y, hy, hya⟩ := h3 2 ![5, 5, 5] rfl
  have hm := List.mem_of_getElem? hy
  refine ⟨_, _, ps, hP, exHeur_valid (d := 3) hP, h1, List.ne_nil_of_mem hm, ?_⟩
  intro a
  have h5 : y a = 5 := by rw [hya a]; fin_cases a <;> rfl
  exact ⟨⟨y, hm, by rw [h5]; norm_num [stdParams]⟩, y, hm, by rw [h5]; norm_num [stdParams]⟩

/-- C145. A missing file stops both programs with an error. -/
theorem C145_missing (P : RParams ℝ) (H : Heur 3 ℝ) (junk : Coord ℝ) (filename : List Char) (radius : ℝ) (nBins : Nat) (range : ℝ) (nb : Nat)
    (size : Coord ℝ) (disk : Disk ℝ) (h : disk filename = none) :
    rdf P H junk filename radius nBins range disk = .error .invalidArgument ∧
      periodicRdf P H filename radius nBins range nb size disk = .error .invalidArgument := by
  unfold rdf periodicRdf
  rw [h]
  exact ⟨rfl, rfl⟩

/-- C145 (no particles): a file without particles stops the program on the exception of the index, and nothing is written. -/
theorem C145_empty (P : RParams ℝ) (H : Heur 3 ℝ) (junk : Coord ℝ) (filename : List Char) (radius : ℝ) (nBins : Nat) (range : ℝ) (disk : Disk ℝ)
    {ps : Particles ℝ} (hd : Dat.ofDat junk (disk filename) radius = .ok ps) (hne : ps.pos = []) :
    rdf P H junk filename radius nBins range disk = .error .outOfRange := by
  unfold rdf makeRTreeIndex
  rw [hd, ok_bind, hne]
  rfl

/-- C145 (no bins, counterexample): with 0 bins, the first bin is written although it does not exist. -/
theorem C145_no_bins_counterexample {P : RParams ℝ} {H : Heur 3 ℝ} (hP : P.Valid) (hH : H.Valid P) (junk : Coord ℝ) (filename : List Char)
    (radius range : ℝ) (disk : Disk ℝ) {ps : Particles ℝ} (hd : Dat.ofDat junk (disk filename) radius = .ok ps) (hne : ps.pos ≠ [])
    (hs : ∀ a, (∃ x ∈ ps.pos, P.mn ≤ x a) ∧ ∃ x ∈ ps.pos, x a ≤ P.mx) :
    rdf P H junk filename radius 0 range disk = .error .ub := by
  obtain ⟨t, B, sel, h1, h2, h3, h4, h5⟩ := inner_selection hP hH ps hne hs (2 * ps.radius * range)
  have hfill : ∀ (l : List Nat), (∀ p ∈ l, p < ps.pos.length) → ∀ c,
      (∃ c', fill { ps with index := some t } (2 * ps.radius * range) ((0 : Nat) / (2 * ps.radius * range)) l ([], c) = .ok ([], c')) ∨
      fill { ps with index := some t } (2 * ps.radius * range) ((0 : Nat) / (2 * ps.radius * range)) l ([], c) = .error .ub := by
    intro l
    induction l with
    | nil => intro _ c; exact .inl ⟨c, rfl⟩
    | cons p l ih =>
      intro hl c
      obtain ⟨N, hN, -, hmem⟩ := C19_particle hP hH h2 p (ps.pos[p]'(hl p (by simp))) (by simp [hl p (by simp)]) (2 * ps.radius * range)
      unfold fill at ih ⊢
      rw [List.foldlM_cons, hN, ok_bind]
      cases N with
      | nil => simp only [List.foldlM_nil, pure_eq_ok, ok_bind]; exact ih (fun q hq => hl q (by simp [hq])) c
      | cons q N =>
        right
        obtain ⟨-, y, hy, -⟩ := (hmem q).1 (by simp)
        have e1 : at_ { ps with index := some t } q = .ok y := by unfold at_; rw [hy]
        have e2 : at_ { ps with index := some t } p = .ok (ps.pos[p]'(hl p (by simp))) := by
          unfold at_; simp [hl p (by simp)]
        rw [List.foldlM_cons]
        unfold bin
        rw [e1, ok_bind, e2, ok_bind]
        rfl
  unfold rdf
  rw [hd, ok_bind, h1, ok_bind]
  unfold getRdfAll
  simp only
  rw [h4, ok_bind]
  unfold getRdf
  simp only
  rcases hfill sel (fun p hp => h5.lt p hp) 0 with ⟨c', hc⟩ | hc
  · rw [List.replicate_zero, hc, ok_bind]
    unfold getNumberDensity
    simp only
    rw [h3, ok_bind, pure_eq_ok, ok_bind]
    rfl
  · rw [List.replicate_zero, hc]
    rfl

end Mains
end Colloids
