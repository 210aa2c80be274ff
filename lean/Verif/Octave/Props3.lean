import Verif.Octave.Lemmas3
import Mathlib.Algebra.Field.Rat
import Mathlib.Algebra.Order.Ring.Rat

/-! # C47: the sliding window of planes; C46 in three dimensions -/

namespace Colloids
namespace Octave

variable {G : Type} [Field G] [LinearOrder G]

/-- **C47.** When the size at the first scale is at least 3 and the volume has at least this size
plus 3 planes, the detection visits the planes `s1, s1+2, ...` up to the margin; loads never
cross the end of the buffer nor leave the volume; and at each step, for all scales, reading
plane `z` from -3 to 4 of the window at plane `k` gives the plane `k+z` of the volume, which
exists. Missing for the full claim: smaller sizes and thinner volumes, see the counterexamples
below. -/
theorem C47_window_partial (o : Finder3 G) (s1 : Nat) (hs : o.sizes[1]? = some s1) (h3 : 3 ≤ s1)
    (hd : s1 + 3 ≤ o.depth) :
    ∃ ws : List (Nat × Circ G),
      slide o (fun k c acc => .ok (acc ++ [(k, c)])) [] = .ok ws ∧
      (∀ k, k ∈ ws.map Prod.fst ↔ s1 ≤ k ∧ k + s1 + 1 < o.depth ∧ (k - s1) % 2 = 0) ∧
      (ws.map Prod.fst).Pairwise (· < ·) ∧
      ∀ k c, (k, c) ∈ ws → ∀ (l : Nat) (z : Int) (j i : Nat), l < o.nbLayers + 3 → -3 ≤ z →
        z ≤ 4 → j < o.rows → i < o.cols → ∃ p : Nat, (p : Int) = k + z ∧ p < o.depth ∧
          c.getG l z j i = .ok (o.layersG l p j i) := by
  obtain ⟨win, hwin, hrun⟩ := slide_spec (σ := List (Nat × Circ G)) o s1 hs h3 hd
  refine ⟨(steps s1 (o.depth - s1 - 1)).map (fun k => (k, win k)), ?_, ?_, ?_, ?_⟩
  · rw [hrun]
    have := append_fold (steps s1 (o.depth - s1 - 1))
      (fun (s : List (Nat × Circ G)) k => Except.ok (s ++ [(k, win k)]))
      (fun k => some (k, win k)) (fun k _ d => rfl) []
    rw [this]
    simp
  · intro k
    rw [List.map_map]
    simp only [List.mem_map, Function.comp, exists_eq_right, mem_steps]
    omega
  · rw [List.map_map]
    have e : (Prod.fst ∘ fun k => (k, win k)) = (id : Nat → Nat) := rfl
    rw [e, List.map_id]
    unfold steps
    refine List.pairwise_map.2 (List.pairwise_lt_range.imp ?_)
    intro a b hab; omega
  · intro k c hc l z j i hl h1 h2 hj hi
    simp only [List.mem_map, Prod.mk.injEq] at hc
    obtain ⟨k', hk', rfl, rfl⟩ := hc
    have hsh := hwin k' hk'
    rw [mem_steps] at hk'
    refine ⟨((k' : Int) + z).toNat, by omega, by omega, hsh.getG hl h1 h2 hj hi⟩

/-- A volume for the hypotheses below: 12 planes of 12 × 12 pixels, a spot at the center. -/
def exBall (sizes : List Nat) (depth : Nat) : Finder3 ℚ where
  nbLayers := 1
  depth := depth
  rows := 12
  cols := 12
  sizes := sizes
  layersG := fun l k j i => if l = 1 ∧ k = 5 ∧ j = 5 ∧ i = 5 then 1 else 0

example : (exBall [3, 3, 4, 5] 12).sizes[1]? = some 3 ∧ 3 ≤ 3 ∧
    3 + 3 ≤ (exBall [3, 3, 4, 5] 12).depth := by decide

omit [LinearOrder G] in
/-- **C47 fails when the size at the first scale is below 3** (radius of the blur about 1.5 or
less): the first load starts before the volume, whatever the volume. -/
theorem C47_small_size_counterexample {σ : Type} (o : Finder3 G) (s1 : Nat)
    (hs : o.sizes[1]? = some s1) (h3 : s1 < 3) (scan : Nat → Circ G → σ → R σ) (s : σ) :
    slide o scan s = .error .ub := by
  unfold slide
  rw [getR_ok.2 hs, ok_bind]
  have e : (Circ.init (o.nbLayers + 3) o.rows o.cols : Circ G).slotIndex (-3) = 0 := by rfl
  have : (Circ.init (o.nbLayers + 3) o.rows o.cols : Circ G).loadAll o ((s1 : Int) - 3) (-3) 6 =
      .error .ub := by
    unfold Circ.loadAll
    rw [List.range_succ_eq_map, List.foldlM_cons]
    unfold Circ.loadplanes
    simp only [e]
    rw [if_neg (by decide), if_pos (.inl (by omega))]
    rfl
  rw [this]
  rfl

example : (exBall [2, 2, 3, 4] 12).sizes[1]? = some 2 ∧ 2 < 3 := by decide

omit [LinearOrder G] in
/-- **C47 fails in thin volumes**: with fewer than `s1 + 3` planes the first load reads after the
volume, even though there is no plane to scan. -/
theorem C47_thin_counterexample {σ : Type} (o : Finder3 G) (s1 : Nat)
    (hs : o.sizes[1]? = some s1) (hd : o.depth < s1 + 3) (scan : Nat → Circ G → σ → R σ) (s : σ) :
    slide o scan s = .error .ub := by
  unfold slide
  rw [getR_ok.2 hs, ok_bind]
  have e : (Circ.init (o.nbLayers + 3) o.rows o.cols : Circ G).slotIndex (-3) = 0 := by rfl
  have : (Circ.init (o.nbLayers + 3) o.rows o.cols : Circ G).loadAll o ((s1 : Int) - 3) (-3) 6 =
      .error .ub := by
    unfold Circ.loadAll
    rw [List.range_succ_eq_map, List.foldlM_cons]
    unfold Circ.loadplanes
    simp only [e]
    rw [if_neg (by decide), if_pos (.inr (.inl (by push_cast; omega)))]
    rfl
  rw [this]
  rfl

example : (exBall [3, 3, 4, 5] 5).sizes[1]? = some 3 ∧ (exBall [3, 3, 4, 5] 5).depth < 3 + 3 := by
  decide

/-- **C46, in three dimensions**, under the hypotheses of C47. The detection succeeds; a pixel of
the scale space is registered at most once; each registered pixel is a local minimum of the
difference of Gaussians, not positive, not an edge, at least its size away from the borders, and
is registered with the intensity, the position and the scale computed from its neighbourhood in
the volume; and each strict local minimum with these properties in the scanned part of the volume
is registered. Missing for the full claim: smaller sizes and thinner volumes. -/
theorem C46_three_dimensions_partial (nz : G → Bool) (maxRatio : G) (o : Finder3 G)
    (hs : o.sizes.length = o.nbLayers + 3) (s1 : Nat) (hs1 : o.sizes[1]? = some s1) (h3 : 3 ≤ s1)
    (hd : s1 + 3 ≤ o.depth) :
    ∃ cs, initializeBinary3 nz maxRatio o = .ok cs ∧ (cs.map (·.pixel)).Nodup ∧
      (∀ x ∈ cs, ∃ l k j i, x = centerOf o l k j i ∧ 1 ≤ l ∧ l ≤ o.nbLayers ∧
        (∃ s, o.sizes[l]? = some s ∧ Inside3 o s k j i) ∧ LocalMin3 o l k j i ∧
        Blob3 nz maxRatio o l k j i) ∧
      (∀ l k j i s s0, 1 ≤ l → l ≤ o.nbLayers → o.sizes[l]? = some s → Inside3 o s k j i →
        -- the scanned part of the volume
        o.sizes[if l % 2 = 1 then l else l - 1]? = some s0 →
        s1 ≤ k → k + s1 + 1 < o.depth →
        max s0 3 ≤ j → j + max s0 3 + 1 < o.rows → max s0 3 ≤ i → i + max s0 3 + 1 < o.cols →
        StrictMin3 o l k j i → Blob3 nz maxRatio o l k j i → centerOf o l k j i ∈ cs) := by
  classical
  obtain ⟨win, hwin, hrun⟩ := slide_spec (σ := List (Center3 G)) o s1 hs1 h3 hd
  set sz : Nat → Nat := fun l => (o.sizes[l]?).getD 0 with hsz
  set blk : List (Nat × Nat × Nat) :=
    (steps 1 (o.nbLayers + 1)).flatMap (fun l => blocks3 o l (sz l)) with hblk
  set L : List (Nat × Nat × Nat × Nat) :=
    (steps s1 (o.depth - s1 - 1)).flatMap (fun k => blk.map (fun b => (k, b))) with hL
  have hmemb : ∀ l j i, (l, j, i) ∈ blk ↔ (1 ≤ l ∧ l < o.nbLayers + 1 ∧ (l - 1) % 2 = 0) ∧
      (max (sz l) 3 ≤ j ∧ j < o.rows - max (sz l) 3 - 1 ∧ (j - max (sz l) 3) % 2 = 0) ∧
      (max (sz l) 3 ≤ i ∧ i < o.cols - max (sz l) 3 - 1 ∧ (i - max (sz l) 3) % 2 = 0) := by
    intro l j i
    simp only [hblk, blocks3, List.mem_flatMap, List.mem_map, Prod.mk.injEq, mem_steps]
    constructor
    · rintro ⟨l', hl', j', hj', i', hi', rfl, rfl, rfl⟩; exact ⟨hl', hj', hi'⟩
    · rintro ⟨hl', hj', hi'⟩; exact ⟨l, hl', j, hj', i, hi', rfl, rfl, rfl⟩
  have hmem : ∀ k b, (k, b) ∈ L ↔ (s1 ≤ k ∧ k < o.depth - s1 - 1 ∧ (k - s1) % 2 = 0) ∧
      b ∈ blk := by
    intro k b
    simp only [hL, List.mem_flatMap, List.mem_map, Prod.mk.injEq, mem_steps]
    constructor
    · rintro ⟨k', hk', b', hb', rfl, rfl⟩; exact ⟨hk', hb'⟩
    · rintro ⟨hk', hb'⟩; exact ⟨k, hk', b, hb', rfl, rfl⟩
  have hscan : ∀ k c d, scan3 nz maxRatio o k c d = blk.foldlM (block3 nz maxRatio o k c) d := by
    intro k c d
    rw [hblk, foldlM_flatMap]
    unfold scan3
    apply foldlM_congr_mem
    intro l hl d
    rw [mem_steps] at hl
    have : o.sizes[l]? = some o.sizes[l] := List.getElem?_eq_getElem (by omega)
    rw [getR_ok.2 this]
    simp only [ok_bind, hsz, this, Option.getD_some]
  have hwhole : initializeBinary3 nz maxRatio o =
      L.foldlM (fun d kb => block3 nz maxRatio o kb.1 (win kb.1) d kb.2) [] := by
    unfold initializeBinary3
    rw [hrun, hL, foldlM_flatMap]
    apply foldlM_congr_mem
    intro k _ d
    rw [hscan, List.foldlM_map]
  have hspec : ∀ kb : Nat × Nat × Nat × Nat, ∃ verdict : Option (Center3 G), kb ∈ L →
      (∀ d, block3 nz maxRatio o kb.1 (win kb.1) d kb.2 = .ok (d ++ verdict.toList)) ∧
      (∀ x, verdict = some x → ∃ l k' j i, x = centerOf o l k' j i ∧
        InBlock3 kb.1 kb.2 l k' j i ∧
        l ≤ o.nbLayers ∧ (∃ s, o.sizes[l]? = some s ∧ Inside3 o s k' j i) ∧
        LocalMin3 o l k' j i ∧ Blob3 nz maxRatio o l k' j i) ∧
      (∀ l k' j i, InBlock3 kb.1 kb.2 l k' j i → l ≤ o.nbLayers →
        (∃ s, o.sizes[l]? = some s ∧ Inside3 o s k' j i) →
        StrictMin3 o l k' j i → Blob3 nz maxRatio o l k' j i →
        verdict = some (centerOf o l k' j i)) := by
    rintro ⟨k, l, j, i⟩
    by_cases hb : (k, l, j, i) ∈ L
    · have hb' := (hmem _ _).1 hb
      have hb2 := (hmemb _ _ _).1 hb'.2
      obtain ⟨v, hv⟩ := block3_spec nz maxRatio o (hwin k (mem_steps.2 hb'.1)) (l, j, i) hs
        (by omega) hb2.1.1 (by omega) (by simp only; omega) (by simp only; omega)
        (by simp only; omega) (by simp only; omega)
      exact ⟨v, fun _ => hv⟩
    · exact ⟨none, fun h => absurd h hb⟩
  choose verdict hverdict using hspec
  have hnd : L.Nodup := by
    rw [hL, List.nodup_flatMap]
    refine ⟨fun k _ => List.Nodup.map (by intro a b h; simpa using h) ?_, ?_⟩
    · rw [hblk, List.nodup_flatMap]
      refine ⟨fun l _ => ?_, ?_⟩
      · unfold blocks3
        rw [List.nodup_flatMap]
        refine ⟨fun j _ => (steps_nodup _ _).map (by intro a b h; simpa using h), ?_⟩
        refine (steps_nodup _ _).imp ?_
        intro j j' hjj x hx hx'
        simp only [List.mem_map] at hx hx'
        obtain ⟨i, _, rfl⟩ := hx
        obtain ⟨i', _, he⟩ := hx'
        simp only [Prod.mk.injEq] at he
        exact hjj he.2.1.symm
      · refine (steps_nodup _ _).imp ?_
        intro l l' hll x hx hx'
        simp only [blocks3, List.mem_flatMap, List.mem_map] at hx hx'
        obtain ⟨j, _, i, _, rfl⟩ := hx
        obtain ⟨j', _, i', _, he⟩ := hx'
        simp only [Prod.mk.injEq] at he
        exact hll he.1.symm
    · refine (steps_nodup _ _).imp ?_
      intro k k' hkk x hx hx'
      simp only [List.mem_map] at hx hx'
      obtain ⟨b, _, rfl⟩ := hx
      obtain ⟨b', _, he⟩ := hx'
      simp only [Prod.mk.injEq] at he
      exact hkk he.1.symm
  refine ⟨L.filterMap verdict, ?_, ?_, ?_, ?_⟩
  · rw [hwhole, append_fold L _ verdict (fun kb hkb d => (hverdict kb hkb).1 d)]
    simp
  · rw [List.Nodup, List.pairwise_map, List.pairwise_filterMap]
    refine hnd.imp_of_mem ?_
    rintro ⟨k, l, j, i⟩ ⟨k', l', j', i'⟩ hb hb' hne x hx x' hx' he
    obtain ⟨pl, pk, pj, pi, rfl, ha, -⟩ := (hverdict _ hb).2.1 _ hx
    obtain ⟨ql, qk, qj, qi, rfl, ha', -⟩ := (hverdict _ hb').2.1 _ hx'
    rw [hmem, hmemb] at hb hb'
    simp only [centerOf, Prod.mk.injEq] at he
    simp only [InBlock3] at ha ha'
    apply hne
    have hl : l = l' := by omega
    subst hl
    simp only [Prod.mk.injEq, true_and]
    omega
  · intro x hx
    obtain ⟨⟨k, l, j, i⟩, hb, hv⟩ := List.mem_filterMap.1 hx
    obtain ⟨pl, pk, pj, pi, e, ha, h1, h2⟩ := (hverdict _ hb).2.1 _ hv
    rw [hmem, hmemb] at hb
    simp only [InBlock3] at ha
    exact ⟨pl, pk, pj, pi, e, by omega, h1, h2⟩
  · intro l k j i s s0 hl1 hl2 hsl hin hs0 hk1 hk2 hj1 hj2 hi1 hi2 hst hbl
    rw [List.mem_filterMap]
    set lb := if l % 2 = 1 then l else l - 1 with hlb
    have hlb' : lb ≤ l ∧ l ≤ lb + 1 ∧ lb % 2 = 1 := by
      rw [hlb]; split <;> omega
    have hm : sz lb = s0 := by simp only [hsz, hs0, Option.getD_some]
    have hb : (s1 + 2 * ((k - s1) / 2), lb, max s0 3 + 2 * ((j - max s0 3) / 2),
        max s0 3 + 2 * ((i - max s0 3) / 2)) ∈ L := by
      rw [hmem, hmemb, hm]; omega
    refine ⟨_, hb, (hverdict _ hb).2.2 l k j i ?_ hl2 ⟨s, hsl, hin⟩ hst hbl⟩
    simp only [InBlock3]; omega

theorem exBall_min (sizes : List Nat) (depth : Nat) : StrictMin3 (exBall sizes depth) 1 5 5 5 := by
  intro l' k' j' i' hn hne
  simp only [dog3, exBall]
  by_cases hl : l' = 1
  · subst hl
    have : ¬ (k' = 5 ∧ j' = 5 ∧ i' = 5) := by
      rintro ⟨rfl, rfl, rfl⟩; exact hne rfl
    norm_num [this]
  · norm_num [hl]
    split <;> norm_num

example : (exBall [3, 3, 4, 5] 12).sizes.length = (exBall [3, 3, 4, 5] 12).nbLayers + 3 ∧
    Inside3 (exBall [3, 3, 4, 5] 12) 3 5 5 5 ∧ 5 + 3 + 1 < (exBall [3, 3, 4, 5] 12).depth ∧
    5 + max 3 3 + 1 < (exBall [3, 3, 4, 5] 12).rows ∧ StrictMin3 (exBall [3, 3, 4, 5] 12) 1 5 5 5 ∧
    Blob3 (fun x => x != 0) (11 / 10) (exBall [3, 3, 4, 5] 12) 1 5 5 5 := by
  refine ⟨rfl, by simp [Inside3, exBall], by decide, by decide, exBall_min _ _, ?_⟩
  norm_num [Blob3, dog3, exBall, edge, ratioAbove]

end Octave
end Colloids
