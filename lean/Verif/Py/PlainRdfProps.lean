import Verif.Py.BondsProps

/-! # Radial distribution in python (C157) -/

namespace Colloids
namespace Py
namespace Bonds
open Linker (get_mapRange get_mapSet get_mapModify replicate_map)
open Average (idx_some fold_contrib upd_add)
open TreeIndex (mapM_ok_of)

variable {d : Nat}

/-- The particles that are inside. -/
def insideOf (inside : List Bool) : List Nat := (List.range inside.length).filter fun i => inside.getD i false

/-- What `sparse_distance_matrix` is expected to give: each pair of a particle inside and of a particle at most at the distance asked, once. -/
structure IsNear (near : ℝ → List (Nat × Nat × ℝ)) (pos : List (Fin d → ℝ)) (inside : List Bool) : Prop where
  nodup : ∀ m, ((near m).map fun x => (x.1, x.2.1)).Nodup
  mem : ∀ m a j v, (a, j, v) ∈ near m ↔ ∃ i p q, (insideOf inside)[a]? = some i ∧ pos[i]? = some p ∧ pos[j]? = some q ∧ v = gap p q ∧ v ≤ m

/-- The pairs of distinct particles, the first inside, at a distance in the interval of a bin. -/
noncomputable def shell (pos : List (Fin d → ℝ)) (inside : List Bool) (lo hi : ℝ) : Finset (Nat × Nat) :=
  open Classical in (Finset.range pos.length ×ˢ Finset.range pos.length).filter fun x => inside[x.1]? = some true ∧ x.1 ≠ x.2 ∧
    ∃ p q, pos[x.1]? = some p ∧ pos[x.2]? = some q ∧ lo ≤ gap p q ∧ gap p q < hi

theorem insideOf_nodup (inside : List Bool) : (insideOf inside).Nodup := List.Nodup.filter _ List.nodup_range

theorem mem_insideOf {inside : List Bool} {i : Nat} : i ∈ insideOf inside ↔ inside[i]? = some true := by
  unfold insideOf
  rw [List.mem_filter, List.mem_range, List.getD_eq_getElem?_getD]
  constructor
  · rintro ⟨h, h1⟩
    rw [List.getElem?_eq_getElem h] at h1 ⊢
    simpa using h1
  · intro h
    exact ⟨(List.getElem?_eq_some_iff.1 h).1, by rw [h]; rfl⟩

/-- C157: `get_rdf` counts in each bin the pairs of distinct particles, the first one inside, whose distance is in the interval of the bin: larger or
equal to its lower bound and smaller than its upper bound. -/
theorem C157_counts {near : ℝ → List (Nat × Nat × ℝ)} {pos : List (Fin d → ℝ)} {inside : List Bool} (hn : IsNear near pos inside)
    (hl : pos.length = inside.length) (Nbins : Nat) {maxdist : ℝ} (hd : 0 < maxdist) :
    ∃ g : List Nat, getRdf near pos inside Nbins maxdist = .ok g ∧ g.length = Nbins ∧ ∀ b, b < Nbins →
      g[b]? = some (shell pos inside (b * (maxdist / Nbins)) ((b + 1) * (maxdist / Nbins))).card := by
  let cen : Nat → Nat := fun a => (insideOf inside).getD a 0
  let Q := (near maxdist).map fun x => (cen x.1, x.2)
  have hcen : ∀ {a i : Nat}, (insideOf inside)[a]? = some i → cen a = i := by
    intro a i h
    simp only [cen, List.getD_eq_getElem?_getD, h, Option.getD_some]
  have hQ : (near maxdist).mapM (fun x => (do
      let c ← idx (insideOf inside) x.1
      pure (c, x.2) : R (Nat × Nat × ℝ))) = .ok Q := by
    apply mapM_ok_of
    rintro ⟨a, j, v⟩ hx
    obtain ⟨i, p, q, hi, _⟩ := (hn.mem _ _ _ _).1 hx
    rw [idx_some hi, ok_bind, hcen hi]
    rfl
  have hmemQ : ∀ i j v, (i, j, v) ∈ Q ↔ inside[i]? = some true ∧ ∃ p q, pos[i]? = some p ∧ pos[j]? = some q ∧ v = gap p q ∧ v ≤ maxdist := by
    intro i j v
    simp only [Q, List.mem_map, Prod.mk.injEq]
    constructor
    · rintro ⟨⟨a, j', v'⟩, hx, h1, h2⟩
      obtain ⟨rfl, rfl⟩ := Prod.mk.inj h2
      obtain ⟨i', p, q, hi, hp, hq, hv, hm⟩ := (hn.mem _ _ _ _).1 hx
      rw [hcen hi] at h1
      subst h1
      exact ⟨mem_insideOf.1 (List.mem_of_getElem? hi), p, q, hp, hq, hv, hm⟩
    · rintro ⟨hi, p, q, hp, hq, hv, hm⟩
      obtain ⟨a, ha⟩ := List.getElem?_of_mem (mem_insideOf.2 hi)
      exact ⟨(a, j, v), (hn.mem _ _ _ _).2 ⟨i, p, q, ha, hp, hq, hv, hm⟩, hcen ha, rfl⟩
  have hnodQ : (Q.map fun x => (x.1, x.2.1)).Nodup := by
    have h1 : (Q.map fun x => (x.1, x.2.1)) = ((near maxdist).map fun x => (x.1, x.2.1)).map fun y => (cen y.1, y.2) := by
      simp only [Q, List.map_map]
      rfl
    rw [h1]
    apply List.Nodup.map_on _ (hn.nodup maxdist)
    rintro ⟨a, j⟩ ha ⟨a', j'⟩ ha' h
    obtain ⟨h2, h3⟩ := Prod.mk.inj h
    simp only at h2 h3
    subst h3
    obtain ⟨⟨a1, j1, v1⟩, hx, hx'⟩ := List.mem_map.1 ha
    obtain ⟨⟨a2, j2, v2⟩, hy, hy'⟩ := List.mem_map.1 ha'
    simp only [Prod.mk.injEq] at hx' hy'
    obtain ⟨rfl, rfl⟩ := hx'
    obtain ⟨rfl, -⟩ := hy'
    obtain ⟨i1, _, _, hi1, _⟩ := (hn.mem _ _ _ _).1 hx
    obtain ⟨i2, _, _, hi2, _⟩ := (hn.mem _ _ _ _).1 hy
    rw [hcen hi1, hcen hi2] at h2
    subst h2
    rw [(List.getElem?_inj (List.getElem?_eq_some_iff.1 hi1).1 (insideOf_nodup inside)).1 (hi1.trans hi2.symm)]
  let good := Q.filter fun x => decide (x.1 ≠ x.2.1)
  let bin : Nat × Nat × ℝ → Nat := fun x => ⌊x.2.2 * ((Nbins : ℝ) / maxdist)⌋₊
  have hbin : ∀ x ∈ good, bin x < Nbins + 1 := by
    rintro ⟨i, j, v⟩ hx
    obtain ⟨_, p, q, _, _, hv, hm⟩ := (hmemQ i j v).1 (List.mem_filter.1 hx).1
    have h0 : 0 ≤ v := by rw [hv]; exact gap_nonneg _ _
    have h1 : v * ((Nbins : ℝ) / maxdist) ≤ Nbins := by
      rw [mul_div_assoc', div_le_iff₀ hd]
      rw [mul_comm v]
      exact mul_le_mul_of_nonneg_left hm (Nat.cast_nonneg _)
    have h2 : ⌊v * ((Nbins : ℝ) / maxdist)⌋₊ ≤ Nbins := Nat.floor_le_of_le h1
    exact Nat.lt_succ_of_le h2
  have hfold : good.foldlM (fun g x => upd g (bin x) (· + 1)) (List.replicate (Nbins + 1) 0) =
      .ok ((List.range (Nbins + 1)).map fun b => 0 + (good.map fun x => if bin x = b then 1 else 0).sum) := by
    have h0 : List.replicate (Nbins + 1) 0 = (List.range (Nbins + 1)).map fun _ => 0 := by simp [List.map_const']
    rw [h0]
    exact fold_contrib (Nbins + 1) (fun g x => upd g (bin x) (· + 1)) (fun x b => if bin x = b then 1 else 0) good
      (fun x hx g => upd_add (hbin x hx) g 1) (fun _ => 0)
  refine ⟨((List.range (Nbins + 1)).map fun b => 0 + (good.map fun x => if bin x = b then 1 else 0).sum).take Nbins, ?_, by simp, ?_⟩
  · unfold getRdf
    rw [if_neg (by simpa using hl)]
    simp only [pure_eq_ok, ok_bind]
    change ((near maxdist).mapM (fun x => (do
      let c ← idx (insideOf inside) x.1
      pure (c, x.2) : R (Nat × Nat × ℝ))) >>= _) = _
    rw [hQ, ok_bind]
    change (good.foldlM (fun g x => upd g (bin x) (· + 1)) (List.replicate (Nbins + 1) 0) >>= _) = _
    rw [hfold, ok_bind]
  · intro b hb
    rw [List.getElem?_take_of_lt hb, get_mapRange, if_pos (by omega), Nat.zero_add]
    congr 1
    have h1 : (good.map fun x => if bin x = b then 1 else 0).sum = ((good.filter fun x => decide (bin x = b)).map fun x => (x.1, x.2.1)).length := by
      rw [List.length_map]
      induction good with
      | nil => rfl
      | cons x l ih =>
        rw [List.map_cons, List.sum_cons, ih, List.filter_cons]
        by_cases h : bin x = b
        · simp [h, Nat.add_comm]
        · simp [h]
    have hnod : ((good.filter fun x => decide (bin x = b)).map fun x => (x.1, x.2.1)).Nodup := by
      refine List.Nodup.sublist ?_ hnodQ
      exact ((List.filter_sublist).trans List.filter_sublist).map _
    rw [h1, ← List.toFinset_card_of_nodup hnod]
    congr 1
    ext ⟨i, j⟩
    have hNb : (0 : ℝ) < Nbins := by exact_mod_cast (by omega : 0 < Nbins)
    simp only [List.mem_toFinset, List.mem_map, List.mem_filter, decide_eq_true_eq, good, shell, Finset.mem_filter, Finset.mem_product,
      Finset.mem_range, Prod.mk.injEq]
    have hiff : ∀ v : ℝ, 0 ≤ v → (⌊v * ((Nbins : ℝ) / maxdist)⌋₊ = b ↔ b * (maxdist / Nbins) ≤ v ∧ v < (b + 1) * (maxdist / Nbins)) := by
      intro v hv
      rw [Nat.floor_eq_iff (by positivity)]
      have e1 : v * ((Nbins : ℝ) / maxdist) = v / (maxdist / Nbins) := by field_simp
      rw [e1, le_div_iff₀ (by positivity), div_lt_iff₀ (by positivity)]
    constructor
    · rintro ⟨⟨i', j', v⟩, ⟨⟨hx, hne⟩, hbn⟩, rfl, rfl⟩
      obtain ⟨hi, p, q, hp, hq, hv, hm⟩ := (hmemQ _ _ _).1 hx
      have h0 : 0 ≤ v := by rw [hv]; exact gap_nonneg _ _
      obtain ⟨h2, h3⟩ := (hiff v h0).1 hbn
      exact ⟨⟨(List.getElem?_eq_some_iff.1 hp).1, (List.getElem?_eq_some_iff.1 hq).1⟩, hi, hne, p, q, hp, hq, by rw [← hv]; exact h2,
        by rw [← hv]; exact h3⟩
    · rintro ⟨-, hi, hne, p, q, hp, hq, h2, h3⟩
      refine ⟨(i, j, gap p q), ⟨⟨(hmemQ _ _ _).2 ⟨hi, p, q, hp, hq, rfl, ?_⟩, hne⟩, (hiff _ (gap_nonneg _ _)).2 ⟨h2, h3⟩⟩, rfl, rfl⟩
      have h4 : ((b : ℝ) + 1) * (maxdist / Nbins) ≤ maxdist := by
        have : ((b : ℝ) + 1) ≤ Nbins := by exact_mod_cast hb
        calc ((b : ℝ) + 1) * (maxdist / Nbins) ≤ Nbins * (maxdist / Nbins) := mul_le_mul_of_nonneg_right this (by positivity)
          _ = maxdist := by field_simp
      linarith

open Classical in
/-- A search that looks at every pair. -/
noncomputable def allNear (pos : List (Fin d → ℝ)) (inside : List Bool) (m : ℝ) : List (Nat × Nat × ℝ) :=
  ((List.range (insideOf inside).length ×ˢ List.range pos.length).filter fun x =>
    decide (∃ i p q, (insideOf inside)[x.1]? = some i ∧ pos[i]? = some p ∧ pos[x.2]? = some q ∧ gap p q ≤ m)).map
      fun x => (x.1, x.2, gap (pos.getD ((insideOf inside).getD x.1 0) 0) (pos.getD x.2 0))

theorem allNear_near (pos : List (Fin d → ℝ)) (inside : List Bool) : IsNear (allNear pos inside) pos inside := by
  constructor
  · intro m
    unfold allNear
    rw [List.map_map]
    have : ((fun x : Nat × Nat × ℝ => (x.1, x.2.1)) ∘ fun x : Nat × Nat =>
      (x.1, x.2, gap (pos.getD ((insideOf inside).getD x.1 0) 0) (pos.getD x.2 0))) = id := by funext x; rfl
    rw [this, List.map_id]
    exact (List.nodup_range.product List.nodup_range).filter _
  · intro m a j v
    simp only [allNear, List.mem_map, List.mem_filter, decide_eq_true_eq, Prod.exists, Prod.mk.injEq]
    constructor
    · rintro ⟨a', j', ⟨_, i, p, q, h1, h2, h3, h4⟩, rfl, rfl, rfl⟩
      simp only [List.getD_eq_getElem?_getD, h1, h2, h3, Option.getD_some]
      exact ⟨i, p, q, rfl, h2, rfl, rfl, h4⟩
    · rintro ⟨i, p, q, h1, h2, h3, rfl, h4⟩
      refine ⟨a, j, ⟨List.pair_mem_product.2 ⟨List.mem_range.2 (List.getElem?_eq_some_iff.1 h1).1,
        List.mem_range.2 (List.getElem?_eq_some_iff.1 h3).1⟩, i, p, q, h1, h2, h3, h4⟩, rfl, rfl, ?_⟩
      simp only [List.getD_eq_getElem?_getD, h1, h2, h3, Option.getD_some]

example : IsNear (allNear line [true, false, true]) line [true, false, true] ∧ line.length = [true, false, true].length ∧ (0 : ℝ) < 3 :=
  ⟨allNear_near _ _, rfl, by norm_num⟩

/-- C157: a mask of another length is refused. -/
theorem C157_lengths (near : ℝ → List (Nat × Nat × ℝ)) {pos : List (Fin d → ℝ)} {inside : List Bool} (h : pos.length ≠ inside.length) (Nbins : Nat)
    (maxdist : ℝ) : getRdf near pos inside Nbins maxdist = .error .outOfRange := by
  unfold getRdf
  rw [if_pos h]
  rfl

example : line.length ≠ [true].length := by simp [line]

/-- C157: the bins together count the pairs nearer than `maxdist`: a pair exactly at this distance is not counted. -/
theorem C157_total {near : ℝ → List (Nat × Nat × ℝ)} {pos : List (Fin d → ℝ)} {inside : List Bool} (hn : IsNear near pos inside)
    (hl : pos.length = inside.length) {Nbins : Nat} (hN : 0 < Nbins) {maxdist : ℝ} (hd : 0 < maxdist) :
    ∃ g : List Nat, getRdf near pos inside Nbins maxdist = .ok g ∧ g.sum = (shell pos inside 0 maxdist).card := by
  obtain ⟨g, h1, h2, h3⟩ := C157_counts hn hl Nbins hd
  refine ⟨g, h1, ?_⟩
  have hNb : (0 : ℝ) < Nbins := by exact_mod_cast hN
  have hg : g = (List.range Nbins).map fun b : Nat => (shell pos inside ((b : ℝ) * (maxdist / Nbins)) (((b : ℝ) + 1) * (maxdist / Nbins))).card := by
    apply List.ext_getElem?
    intro b
    rw [get_mapRange]
    split_ifs with h
    · exact h3 b h
    · exact List.getElem?_eq_none (by omega)
  have hadd : ∀ (a b c : ℝ), a ≤ b → b ≤ c → (shell pos inside a c).card = (shell pos inside a b).card + (shell pos inside b c).card := by
    intro a b c hab hbc
    rw [← Finset.card_union_of_disjoint]
    · congr 1
      ext ⟨i, j⟩
      simp only [shell, Finset.mem_filter, Finset.mem_union]
      constructor
      · rintro ⟨h4, h5, h6, p, q, hp, hq, h7, h8⟩
        rcases lt_or_ge (gap p q) b with h | h
        · exact Or.inl ⟨h4, h5, h6, p, q, hp, hq, h7, h⟩
        · exact Or.inr ⟨h4, h5, h6, p, q, hp, hq, h, h8⟩
      · rintro (⟨h4, h5, h6, p, q, hp, hq, h7, h8⟩ | ⟨h4, h5, h6, p, q, hp, hq, h7, h8⟩)
        · exact ⟨h4, h5, h6, p, q, hp, hq, h7, lt_of_lt_of_le h8 hbc⟩
        · exact ⟨h4, h5, h6, p, q, hp, hq, le_trans hab h7, h8⟩
    · rw [Finset.disjoint_left]
      rintro ⟨i, j⟩ hx hy
      simp only [shell, Finset.mem_filter] at hx hy
      obtain ⟨-, -, -, p, q, hp, hq, -, h4⟩ := hx
      obtain ⟨-, -, -, p', q', hp', hq', h5, -⟩ := hy
      rw [hp] at hp'
      rw [hq] at hq'
      cases hp'
      cases hq'
      linarith
  have hsum : ∀ n : Nat, ((List.range n).map fun b : Nat => (shell pos inside ((b : ℝ) * (maxdist / Nbins)) (((b : ℝ) + 1) * (maxdist / Nbins))).card).sum =
      (shell pos inside 0 (n * (maxdist / Nbins))).card := by
    intro n
    have hpos : 0 < maxdist / Nbins := by positivity
    induction n with
    | zero =>
      simp only [List.range_zero, List.map_nil, List.sum_nil, Nat.cast_zero, zero_mul]
      symm
      rw [Finset.card_eq_zero, Finset.eq_empty_iff_forall_notMem]
      rintro ⟨i, j⟩ hx
      simp only [shell, Finset.mem_filter] at hx
      obtain ⟨-, -, -, p, q, -, -, h4, h5⟩ := hx
      linarith
    | succ n ih =>
      have h4 := hadd 0 (n * (maxdist / Nbins)) (((n : ℝ) + 1) * (maxdist / Nbins)) (by positivity) (by nlinarith)
      rw [List.range_succ, List.map_append, List.sum_append, ih]
      push_cast
      rw [h4]
      simp
  rw [hg, hsum]
  congr 2
  field_simp

end Bonds
end Py
end Colloids
