import Verif.Py.BooAgreeProps
import Verif.Py.PlainRdfProps

/-! # Spatial correlation of the bond orientational order in python: C180 -/

namespace Colloids
namespace Py
namespace PyBoo
open Linker (get_mapRange replicate_map)
open Average (idx_some)
open TreeIndex (mapM_ok_of)
open Bonds (insideOf IsNear shell gap gap_nonneg mem_insideOf insideOf_nodup allNear allNear_near)

variable {d K : Nat}

/-- The pairs of the query once the ranks are replaced by the particles. -/
theorem query_spec {near : ℝ → List (Nat × Nat × ℝ)} {pos : List (Fin d → ℝ)} {inside : List Bool} (hn : IsNear near pos inside) (maxdist : ℝ) :
    ∃ Q : List (Nat × Nat × ℝ), (near maxdist).mapM (fun x => (do
        let c ← idx (insideOf inside) x.1
        pure (c, x.2) : R (Nat × Nat × ℝ))) = .ok Q ∧ (Q.map fun x => (x.1, x.2.1)).Nodup ∧
      ∀ i j v, (i, j, v) ∈ Q ↔ inside[i]? = some true ∧ ∃ p q, pos[i]? = some p ∧ pos[j]? = some q ∧ v = gap p q ∧ v ≤ maxdist := by
  let cen : Nat → Nat := fun a => (insideOf inside).getD a 0
  have hcen : ∀ {a i : Nat}, (insideOf inside)[a]? = some i → cen a = i := by
    intro a i h
    simp only [cen, List.getD_eq_getElem?_getD, h, Option.getD_some]
  refine ⟨(near maxdist).map fun x => (cen x.1, x.2), ?_, ?_, ?_⟩
  · apply mapM_ok_of
    rintro ⟨a, j, v⟩ hx
    obtain ⟨i, p, q, hi, _⟩ := (hn.mem _ _ _ _).1 hx
    rw [idx_some hi, ok_bind, hcen hi]
    rfl
  · have h1 : (((near maxdist).map fun x => (cen x.1, x.2)).map fun x => (x.1, x.2.1))
        = ((near maxdist).map fun x => (x.1, x.2.1)).map fun y => (cen y.1, y.2) := by
      simp only [List.map_map]
      rfl
    rw [h1]
    apply List.Nodup.map_on _ (hn.nodup maxdist)
    rintro ⟨a, j⟩ ha ⟨a', j'⟩ ha' h
    obtain ⟨h2, h3⟩ := Prod.mk.inj h
    simp only at h2 h3
    subst h3
    obtain ⟨⟨a1, j1, v1⟩, hx, hx'⟩ := List.mem_map.1 ha
    obtain ⟨⟨a2, j2, v2⟩, hy, hy'⟩ := List.mem_map.1 ha'
    simp only [Prod.mk.injEq] at hx' hy'
    obtain ⟨rfl, rfl⟩ := hx'
    obtain ⟨rfl, -⟩ := hy'
    obtain ⟨i1, _, _, hi1, _⟩ := (hn.mem _ _ _ _).1 hx
    obtain ⟨i2, _, _, hi2, _⟩ := (hn.mem _ _ _ _).1 hy
    rw [hcen hi1, hcen hi2] at h2
    subst h2
    rw [(List.getElem?_inj (List.getElem?_eq_some_iff.1 hi1).1 (insideOf_nodup inside)).1 (hi1.trans hi2.symm)]
  · intro i j v
    simp only [List.mem_map, Prod.mk.injEq]
    constructor
    · rintro ⟨⟨a, j', v'⟩, hx, h1, h2⟩
      obtain ⟨rfl, rfl⟩ := Prod.mk.inj h2
      obtain ⟨i', p, q, hi, hp, hq, hv, hm⟩ := (hn.mem _ _ _ _).1 hx
      rw [hcen hi] at h1
      subst h1
      exact ⟨mem_insideOf.1 (List.mem_of_getElem? hi), p, q, hp, hq, hv, hm⟩
    · rintro ⟨hi, p, q, hp, hq, hv, hm⟩
      obtain ⟨a, ha⟩ := List.getElem?_of_mem (mem_insideOf.2 hi)
      exact ⟨(a, j, v), (hn.mem _ _ _ _).2 ⟨i, p, q, ha, hp, hq, hv, hm⟩, hcen ha, rfl⟩

theorem bin_iff {Nbins b : Nat} {maxdist v : ℝ} (hN : 0 < Nbins) (hd : 0 < maxdist) (hv : 0 ≤ v) :
    ⌊v * ((Nbins : ℝ) / maxdist)⌋₊ = b ↔ b * (maxdist / Nbins) ≤ v ∧ v < (b + 1) * (maxdist / Nbins) := by
  have hNb : (0 : ℝ) < Nbins := by exact_mod_cast hN
  rw [Nat.floor_eq_iff (by positivity)]
  have e1 : v * ((Nbins : ℝ) / maxdist) = v / (maxdist / Nbins) := by field_simp
  rw [e1, le_div_iff₀ (by positivity), div_lt_iff₀ (by positivity)]

/-- The sum over the pairs of the query that fall in a bin is a sum over the shell of the bin. -/
theorem shell_sum {M : Type} [AddCommMonoid M] {pos : List (Fin d → ℝ)} {inside : List Bool} {maxdist : ℝ} {Q : List (Nat × Nat × ℝ)}
    (hnod : (Q.map fun x => (x.1, x.2.1)).Nodup)
    (hQ : ∀ i j v, (i, j, v) ∈ Q ↔ inside[i]? = some true ∧ ∃ p q, pos[i]? = some p ∧ pos[j]? = some q ∧ v = gap p q ∧ v ≤ maxdist)
    {Nbins b : Nat} (hb : b < Nbins) (hd : 0 < maxdist) (w : Nat → Nat → M) :
    ((Q.filter fun x => decide (x.1 ≠ x.2.1)).map fun x => if ⌊x.2.2 * ((Nbins : ℝ) / maxdist)⌋₊ = b then w x.1 x.2.1 else 0).sum
      = ∑ x ∈ shell pos inside (b * (maxdist / Nbins)) ((b + 1) * (maxdist / Nbins)), w x.1 x.2 := by
  rw [filter_sum (fun x : Nat × Nat × ℝ => ⌊x.2.2 * ((Nbins : ℝ) / maxdist)⌋₊ = b)]
  have hnod' : (((Q.filter fun x => decide (x.1 ≠ x.2.1)).filter fun x => decide (⌊x.2.2 * ((Nbins : ℝ) / maxdist)⌋₊ = b)).map
      fun x => (x.1, x.2.1)).Nodup := hnod.sublist (((List.filter_sublist).trans List.filter_sublist).map _)
  have e : (((Q.filter fun x => decide (x.1 ≠ x.2.1)).filter fun x => decide (⌊x.2.2 * ((Nbins : ℝ) / maxdist)⌋₊ = b)).map
      fun x => w x.1 x.2.1) = ((((Q.filter fun x => decide (x.1 ≠ x.2.1)).filter fun x => decide (⌊x.2.2 * ((Nbins : ℝ) / maxdist)⌋₊ = b)).map
      fun x => (x.1, x.2.1)).map fun y => w y.1 y.2) := by rw [List.map_map]; rfl
  rw [e, ← List.sum_toFinset _ hnod']
  apply Finset.sum_congr _ fun _ _ => rfl
  ext ⟨i, j⟩
  simp only [List.mem_toFinset, List.mem_map, List.mem_filter, decide_eq_true_eq, shell, Finset.mem_filter, Finset.mem_product, Finset.mem_range,
    Prod.mk.injEq]
  constructor
  · rintro ⟨⟨i', j', v⟩, ⟨⟨hx, hne⟩, hbn⟩, rfl, rfl⟩
    obtain ⟨hi, p, q, hp, hq, hv, hm⟩ := (hQ _ _ _).1 hx
    have h0 : 0 ≤ v := by rw [hv]; exact gap_nonneg _ _
    obtain ⟨h2, h3⟩ := (bin_iff (by omega) hd h0).1 hbn
    exact ⟨⟨(List.getElem?_eq_some_iff.1 hp).1, (List.getElem?_eq_some_iff.1 hq).1⟩, hi, hne, p, q, hp, hq, by rw [← hv]; exact h2,
      by rw [← hv]; exact h3⟩
  · rintro ⟨-, hi, hne, p, q, hp, hq, h2, h3⟩
    refine ⟨(i, j, gap p q), ⟨⟨(hQ _ _ _).2 ⟨hi, p, q, hp, hq, rfl, ?_⟩, hne⟩, (bin_iff (by omega) hd (gap_nonneg _ _)).2 ⟨h2, h3⟩⟩, rfl, rfl⟩
    have hNb : (0 : ℝ) < Nbins := by exact_mod_cast (by omega : 0 < Nbins)
    have h4 : ((b : ℝ) + 1) * (maxdist / Nbins) ≤ maxdist := by
      have : ((b : ℝ) + 1) ≤ Nbins := by exact_mod_cast hb
      calc ((b : ℝ) + 1) * (maxdist / Nbins) ≤ Nbins * (maxdist / Nbins) := mul_le_mul_of_nonneg_right this (by positivity)
        _ = maxdist := by field_simp
    linarith

/-- A pair of distinct particles, the first one a center, exactly at the largest distance. -/
def OnEdge (pos : List (Fin d → ℝ)) (isCenter : List Bool) (maxdist : ℝ) : Prop :=
  ∃ (i j : Nat) (p q : Fin d → ℝ), isCenter[i]? = some true ∧ i ≠ j ∧ pos[i]? = some p ∧ pos[j]? = some q ∧ gap p q = maxdist

/-- C180: when no pair is exactly at the distance `maxdist`, `gG_l` counts in each bin the pairs of distinct particles, the first one a center, whose
distance is in the interval of the bin, and adds the products of their coefficients. Missing: `C180_edge_counterexample`. -/
theorem C180_bins_partial {near : ℝ → List (Nat × Nat × ℝ)} {pos : List (Fin d → ℝ)} {isCenter : List Bool} (hn : IsNear near pos isCenter)
    (hl : isCenter.length = pos.length) (prods : Nat → Nat → Fin K → ℝ) {Nbins : Nat} (hN : 0 < Nbins) {maxdist : ℝ} (hd : 0 < maxdist)
    (he : ¬ OnEdge pos isCenter maxdist) :
    ∃ h g, gGl near prods pos isCenter Nbins maxdist = .ok (h, g) ∧ h.length = Nbins ∧ g.length = Nbins ∧ ∀ b, b < Nbins →
      g[b]? = some (shell pos isCenter (b * (maxdist / Nbins)) ((b + 1) * (maxdist / Nbins))).card ∧
      h[b]? = some (∑ x ∈ shell pos isCenter (b * (maxdist / Nbins)) ((b + 1) * (maxdist / Nbins)), prods x.1 x.2) := by
  obtain ⟨Q, hQ, hnod, hmem⟩ := query_spec hn maxdist
  have hbin : ∀ x ∈ Q.filter (fun x => decide (x.1 ≠ x.2.1)), ⌊x.2.2 * ((Nbins : ℝ) / maxdist)⌋₊ < Nbins := by
    rintro ⟨i, j, v⟩ hx
    obtain ⟨hx, hne⟩ := List.mem_filter.1 hx
    obtain ⟨hi, p, q, hp, hq, hv, hm⟩ := (hmem i j v).1 hx
    have h0 : 0 ≤ v := by rw [hv]; exact gap_nonneg _ _
    have hlt : v < maxdist := lt_of_le_of_ne hm fun h => he ⟨i, j, p, q, hi, by simpa using hne, hp, hq, by rw [← hv, h]⟩
    have hNb : (0 : ℝ) < Nbins := by exact_mod_cast hN
    rw [Nat.floor_lt (by positivity), mul_div_assoc', div_lt_iff₀ hd, mul_comm v]
    exact mul_lt_mul_of_pos_left hlt hNb
  have hg := addAt_eq (n := Nbins) (Q.filter fun x => decide (x.1 ≠ x.2.1)) (fun x => ⌊x.2.2 * ((Nbins : ℝ) / maxdist)⌋₊) (fun _ => 1) hbin
    (fun _ => 0)
  have hh := addAt_eq (n := Nbins) (Q.filter fun x => decide (x.1 ≠ x.2.1)) (fun x => ⌊x.2.2 * ((Nbins : ℝ) / maxdist)⌋₊)
    (fun x => prods x.1 x.2.1) hbin (fun _ => 0)
  rw [← replicate_map] at hg hh
  refine ⟨(List.range Nbins).map fun j => 0 + ((Q.filter fun x => decide (x.1 ≠ x.2.1)).map fun x =>
      if ⌊x.2.2 * ((Nbins : ℝ) / maxdist)⌋₊ = j then prods x.1 x.2.1 else 0).sum,
    (List.range Nbins).map fun j => 0 + ((Q.filter fun x => decide (x.1 ≠ x.2.1)).map fun x =>
      if ⌊x.2.2 * ((Nbins : ℝ) / maxdist)⌋₊ = j then 1 else 0).sum, ?_, ?_, ?_, fun b hb => ⟨?_, ?_⟩⟩
  rotate_left
  · simp
  · simp
  · rw [get_mapRange, if_pos hb, zero_add, shell_sum (pos := pos) (inside := isCenter) hnod hmem hb hd (fun _ _ => 1), Finset.sum_const, smul_eq_mul,
      mul_one]
  · rw [get_mapRange, if_pos hb, zero_add, shell_sum (pos := pos) (inside := isCenter) hnod hmem hb hd prods]
  · unfold gGl
    rw [if_neg (by simpa using hl)]
    simp only [pure_eq_ok, ok_bind]
    change ((near maxdist).mapM (fun x => (do
      let c ← idx (insideOf isCenter) x.1
      pure (c, x.2) : R (Nat × Nat × ℝ))) >>= _) = _
    rw [hQ, ok_bind]
    change (addAt (List.replicate Nbins 0) ((Q.filter fun x => decide (x.1 ≠ x.2.1)).map fun x => ⌊x.2.2 * ((Nbins : ℝ) / maxdist)⌋₊)
      ((Q.filter fun x => decide (x.1 ≠ x.2.1)).map fun _ => 1) >>= _) = _
    rw [hg, ok_bind]
    change (addAt (List.replicate Nbins 0) ((Q.filter fun x => decide (x.1 ≠ x.2.1)).map fun x => ⌊x.2.2 * ((Nbins : ℝ) / maxdist)⌋₊)
      ((Q.filter fun x => decide (x.1 ≠ x.2.1)).map fun x => prods x.1 x.2.1) >>= _) = _
    rw [hh, ok_bind]

theorem addAt_error {κ V : Type} [Add V] (f : κ → Nat) (w : κ → V) : ∀ (bonds : List κ) (a : List V), (∃ b ∈ bonds, a.length ≤ f b) →
    addAt a (bonds.map f) (bonds.map w) = .error .outOfRange := by
  intro bonds
  induction bonds with
  | nil => rintro a ⟨b, hb, _⟩; simp at hb
  | cons c bonds ih =>
    rintro a ⟨b, hb, h⟩
    unfold addAt
    simp only [List.map_cons, List.zip_cons_cons, List.foldlM_cons]
    by_cases hc : f c < a.length
    · have hne : b ≠ c := by rintro rfl; omega
      unfold upd
      rw [if_pos hc]
      simp only [ok_bind]
      exact ih _ ⟨b, by simpa [hne] using hb, by simpa using h⟩
    · unfold upd
      rw [if_neg hc]
      rfl

/-- C180: a pair exactly at the distance `maxdist` is found by the search but has no bin: the whole function fails. -/
theorem C180_edge_counterexample {near : ℝ → List (Nat × Nat × ℝ)} {pos : List (Fin d → ℝ)} {isCenter : List Bool} (hn : IsNear near pos isCenter)
    (hl : isCenter.length = pos.length) (prods : Nat → Nat → Fin K → ℝ) (Nbins : Nat) {maxdist : ℝ} (hd : 0 < maxdist)
    (he : OnEdge pos isCenter maxdist) : gGl near prods pos isCenter Nbins maxdist = .error .outOfRange := by
  obtain ⟨Q, hQ, hnod, hmem⟩ := query_spec hn maxdist
  obtain ⟨i, j, p, q, hi, hne, hp, hq, hv⟩ := he
  have hx : (i, j, gap p q) ∈ Q := (hmem _ _ _).2 ⟨hi, p, q, hp, hq, rfl, hv.le⟩
  have := addAt_error (fun x : Nat × Nat × ℝ => ⌊x.2.2 * ((Nbins : ℝ) / maxdist)⌋₊) (fun _ => 1) (Q.filter fun x => decide (x.1 ≠ x.2.1))
    (List.replicate Nbins 0) ⟨_, List.mem_filter.2 ⟨hx, by simpa using hne⟩, by
      simp only [List.length_replicate]
      rw [hv, mul_div_cancel₀ _ hd.ne', Nat.floor_natCast]⟩
  unfold gGl
  rw [if_neg (by simpa using hl)]
  simp only [pure_eq_ok, ok_bind]
  change ((near maxdist).mapM (fun x => (do
    let c ← idx (insideOf isCenter) x.1
    pure (c, x.2) : R (Nat × Nat × ℝ))) >>= _) = _
  rw [hQ, ok_bind]
  change (addAt (List.replicate Nbins 0) ((Q.filter fun x => decide (x.1 ≠ x.2.1)).map fun x => ⌊x.2.2 * ((Nbins : ℝ) / maxdist)⌋₊)
    ((Q.filter fun x => decide (x.1 ≠ x.2.1)).map fun _ => 1) >>= _) = _
  rw [this]
  rfl

/-- Two particles at the distance 1. -/
def duo : List (Fin 1 → ℝ) := [![0], ![1]]

theorem duo_gap {i j : Nat} {p q : Fin 1 → ℝ} (hne : i ≠ j) (hp : duo[i]? = some p) (hq : duo[j]? = some q) : gap p q = 1 := by
  have hi := (List.getElem?_eq_some_iff.1 hp).1
  have hj := (List.getElem?_eq_some_iff.1 hq).1
  simp only [duo, List.length_cons, List.length_nil] at hi hj
  rcases (show (i = 0 ∧ j = 1) ∨ (i = 1 ∧ j = 0) by omega) with ⟨rfl, rfl⟩ | ⟨rfl, rfl⟩ <;>
  · simp only [duo, List.getElem?_cons_zero, List.getElem?_cons_succ, Option.some.injEq] at hp hq
    subst hp hq
    simp [gap, Bonds.sqd]

example : IsNear (allNear duo [true, true]) duo [true, true] ∧ OnEdge duo [true, true] 1 ∧ ¬ OnEdge duo [true, true] 2 := by
  refine ⟨allNear_near _ _, ⟨0, 1, ![0], ![1], rfl, by decide, rfl, rfl, by simp [gap, Bonds.sqd]⟩, ?_⟩
  rintro ⟨i, j, p, q, -, hne, hp, hq, h⟩
  rw [duo_gap hne hp hq] at h
  norm_num at h

/-- C180: when all the products are between -1 and 1, which `C177_bounded` and `C179_bounded` give for the coefficients of `bonds2qlm`, the sum of each
bin is between the opposite of its count and its count: the correlation is between -1 and 1 once normalised. -/
theorem C180_bounded {near : ℝ → List (Nat × Nat × ℝ)} {pos : List (Fin d → ℝ)} {isCenter : List Bool} (hn : IsNear near pos isCenter)
    (hl : isCenter.length = pos.length) {prods : Nat → Nat → Fin K → ℝ} (hp : ∀ i j k, |prods i j k| ≤ 1) {Nbins : Nat} (hN : 0 < Nbins)
    {maxdist : ℝ} (hd : 0 < maxdist) {h : List (Fin K → ℝ)} {g : List Nat} (hr : gGl near prods pos isCenter Nbins maxdist = .ok (h, g)) :
    ∀ (b : Nat) (s : Fin K → ℝ) (n : Nat), h[b]? = some s → g[b]? = some n → ∀ k, |s k| ≤ n := by
  have he : ¬ OnEdge pos isCenter maxdist := by
    intro he
    rw [C180_edge_counterexample hn hl prods Nbins hd he] at hr
    cases hr
  obtain ⟨h', g', hr', h1, h2, h3⟩ := C180_bins_partial hn hl prods hN hd he
  rw [hr] at hr'
  obtain ⟨rfl, rfl⟩ := Prod.mk.inj (Except.ok.inj hr')
  intro b s n hs hn' k
  have hb : b < Nbins := by rw [← h1]; exact (List.getElem?_eq_some_iff.1 hs).1
  obtain ⟨e1, e2⟩ := h3 b hb
  rw [hn'] at e1
  rw [hs] at e2
  rw [Option.some.inj e1, Option.some.inj e2, Finset.sum_apply]
  refine (Finset.abs_sum_le_sum_abs _ _).trans ?_
  refine (Finset.sum_le_card_nsmul _ _ 1 fun x _ => hp _ _ _).trans ?_
  simp

/-- The products of the coefficients of `bonds2qlm` meet the hypothesis of `C180_bounded`. -/
example (i j : Nat) (out : List (Row 6)) (h : bonds2qlm 6 three [(0, 1), (2, 1)] (fun _ => -1) = .ok out) (a b : Row 6) (ha : out[i]? = some a)
    (hb : out[j]? = some b) : |booProduct a b| ≤ 1 := by
  obtain ⟨h1, h2⟩ := C179_bounded (by decide) (by decide) h a (List.mem_of_getElem? ha)
  obtain ⟨h3, h4⟩ := C179_bounded (by decide) (by decide) h b (List.mem_of_getElem? hb)
  exact (C177_bounded a b).trans (mul_le_one₀ h2 h3 h4)

/-- C180: a mask of another length is refused. -/
theorem C180_lengths (near : ℝ → List (Nat × Nat × ℝ)) {pos : List (Fin d → ℝ)} {isCenter : List Bool} (h : isCenter.length ≠ pos.length)
    (prods : Nat → Nat → Fin K → ℝ) (Nbins : Nat) (maxdist : ℝ) : gGl near prods pos isCenter Nbins maxdist = .error .logicError := by
  unfold gGl
  rw [if_pos h]
  rfl

example : [true].length ≠ duo.length := by simp [duo]

end PyBoo
end Py
end Colloids
