import Verif.Py.AverageProps
import Mathlib.Data.Nat.Sqrt
import Mathlib.Algebra.Order.Floor.Semiring

/-! # Radial distribution in a periodic box and wave vectors, in python (C151, C152) -/

namespace Colloids
namespace Py
namespace Periodic
open Linker (get_mapRange replicate_map)
open Average (fold_contrib upd_add idx_some)

variable {d : Nat}

theorem foldl_sum {α : Type} (f : α → ℝ) (l : List α) (a : ℝ) : l.foldl (fun s k => s + f k) a = a + (l.map f).sum := by
  induction l generalizing a with
  | nil => simp
  | cons x l ih => rw [List.foldl_cons, ih, List.map_cons, List.sum_cons, add_assoc]

theorem monoDist_eq {L : ℝ} (hL : 0 < L) (a b : Fin d → ℝ) : monoDist L a b = Real.sqrt (∑ k, periodify (b k) (a k) L ^ 2) := by
  unfold monoDist
  congr 1
  have h := foldl_sum (fun k => periodify (b k) (a k) L ^ 2) (List.finRange d) 0
  rw [zero_add] at h
  rw [← List.sum_ofFn, List.ofFn_eq_map, ← h]
  congr 1
  funext s k
  unfold periodify
  simp only [if_neg (not_le.2 hL), mul_one_div]
  ring

/-- The distance between a point and an image of another one. -/
noncomputable def imageDist (L : ℝ) (a b : Fin d → ℝ) (n : Fin d → ℤ) : ℝ := Real.sqrt (∑ k, (a k - (b k + n k * L)) ^ 2)

theorem mono_nearest {L : ℝ} (hL : 0 < L) (a b : Fin d → ℝ) :
    (∃ n, monoDist L a b = imageDist L a b n) ∧ ∀ n, monoDist L a b ≤ imageDist L a b n := by
  rw [monoDist_eq hL]
  constructor
  · have hex : ∀ k, ∃ m : ℤ, periodify (b k) (a k) L = a k - (b k + m * L) := by
      intro k
      obtain ⟨⟨m, hm⟩, _⟩ := (C149_periodify (b k) (a k) L).1 hL
      exact ⟨-m, by rw [hm]; push_cast; ring⟩
    choose n hn using hex
    refine ⟨n, ?_⟩
    unfold imageDist
    congr 1
    exact Finset.sum_congr rfl fun k _ => by rw [hn k]
  · intro n
    apply Real.sqrt_le_sqrt
    apply Finset.sum_le_sum
    intro k _
    have := ((C149_periodify (b k) (a k) L).1 hL).2.1 (-(n k))
    rw [show a k + ((-(n k) : ℤ) : ℝ) * L - b k = a k - (b k + n k * L) by push_cast; ring] at this
    exact sq_le_sq.2 this

/-- C151. In a periodic box, the bin `r` of the distribution around a particle counts the other particles whose nearest image is between `r` and
`r + 1` bins away, half the box being divided into `Nbins` bins. -/
theorem C151_periodic_rdf (pos : List (Fin d → ℝ)) (Nbins : Nat) (hNb : 0 < Nbins) (L : ℝ) (hL : 0 < L) (near : Nat → Nat → ℝ)
    (hnear : ∀ (i j : Nat) (a b : Fin d → ℝ), pos[i]? = some a → pos[j]? = some b →
      (∃ n, near i j = imageDist L a b n) ∧ ∀ n, near i j ≤ imageDist L a b n) :
    ∃ g, getMonoRdf pos Nbins L = .ok g ∧ g.length = pos.length ∧ ∀ i < pos.length, ∃ row : List Nat, g[i]? = some row ∧
      row.length = Nbins ∧ ∀ r < Nbins, ∃ c : Nat, row[r]? = some c ∧
        c = ((Finset.range pos.length).filter fun j => j ≠ i ∧ (r : ℝ) * (L / 2 / Nbins) ≤ near i j ∧
          near i j < ((r + 1 : Nat) : ℝ) * (L / 2 / Nbins)).card := by
  classical
  have hnd : ∀ (i j : Nat) (a b : Fin d → ℝ), pos[i]? = some a → pos[j]? = some b → monoDist L a b = near i j := by
    intro i j a b ha hb
    obtain ⟨⟨n, hn⟩, h2⟩ := hnear i j a b ha hb
    obtain ⟨⟨m, hm⟩, h4⟩ := mono_nearest hL a b
    apply le_antisymm
    · rw [hn]; exact h4 n
    · rw [hm]; exact h2 m
  have hNbR : (0 : ℝ) < Nbins := by exact_mod_cast hNb
  have hrow : ∀ i ∈ List.range pos.length, (List.range pos.length).foldlM (fun row j => do
      if j = i then pure row
      else do
        let a ← idx pos i
        let b ← idx pos j
        let r := ⌊monoDist L a b * ((Nbins : ℝ) / (L / 2))⌋₊
        if r < Nbins then upd row r (· + 1) else pure row) (List.replicate (Nbins + 1) 0) =
      (.ok ((List.range (Nbins + 1)).map fun r => (((Finset.range pos.length).filter fun j => j ≠ i ∧ r < Nbins ∧
        ⌊near i j * ((Nbins : ℝ) / (L / 2))⌋₊ = r).card)) : R (List Nat)) := by
    intro i hi
    rw [List.mem_range] at hi
    rw [replicate_map, fold_contrib (Nbins + 1) _ (fun j r => if j ≠ i ∧ r < Nbins ∧ ⌊near i j * ((Nbins : ℝ) / (L / 2))⌋₊ = r then 1 else 0) _
      (by
        intro j hj g
        rw [List.mem_range] at hj
        by_cases h : j = i
        · simp [h]
        · rw [if_neg h, idx_some (List.getElem?_eq_getElem hi), idx_some (List.getElem?_eq_getElem hj)]
          simp only [ok_bind]
          rw [hnd i j _ _ (List.getElem?_eq_getElem hi) (List.getElem?_eq_getElem hj)]
          by_cases h2 : ⌊near i j * ((Nbins : ℝ) / (L / 2))⌋₊ < Nbins
          · rw [if_pos h2, upd_add (by omega)]
            congr 1
            apply List.map_congr_left
            intro r hr
            congr 1
            by_cases h3 : ⌊near i j * ((Nbins : ℝ) / (L / 2))⌋₊ = r
            · rw [if_pos h3, if_pos ⟨h, by omega, h3⟩]
            · rw [if_neg h3, if_neg (fun h4 => h3 h4.2.2)]
          · rw [if_neg h2, pure_eq_ok]
            congr 1
            apply List.map_congr_left
            intro r hr
            rw [if_neg (fun h4 => h2 (by rw [h4.2.2]; exact h4.2.1)), add_zero])]
    congr 1
    apply List.map_congr_left
    intro r _
    rw [zero_add, Mains.list_sum_range, Finset.card_filter]
  have hm : (List.range pos.length).mapM (fun i => (List.range pos.length).foldlM (fun row j => do
      if j = i then pure row
      else do
        let a ← idx pos i
        let b ← idx pos j
        let r := ⌊monoDist L a b * ((Nbins : ℝ) / (L / 2))⌋₊
        if r < Nbins then upd row r (· + 1) else pure row) (List.replicate (Nbins + 1) 0)) =
      (.ok ((List.range pos.length).map fun i => (List.range (Nbins + 1)).map fun r => (((Finset.range pos.length).filter fun j => j ≠ i ∧ r < Nbins ∧
        ⌊near i j * ((Nbins : ℝ) / (L / 2))⌋₊ = r).card)) : R (List (List Nat))) := by
    have key : ∀ l : List Nat, (∀ i ∈ l, i ∈ List.range pos.length) → l.mapM (fun i => (List.range pos.length).foldlM (fun row j => do
      if j = i then pure row
      else do
        let a ← idx pos i
        let b ← idx pos j
        let r := ⌊monoDist L a b * ((Nbins : ℝ) / (L / 2))⌋₊
        if r < Nbins then upd row r (· + 1) else pure row) (List.replicate (Nbins + 1) 0)) =
      (.ok (l.map fun i => (List.range (Nbins + 1)).map fun r => (((Finset.range pos.length).filter fun j => j ≠ i ∧ r < Nbins ∧
        ⌊near i j * ((Nbins : ℝ) / (L / 2))⌋₊ = r).card)) : R (List (List Nat))) := by
      intro l
      induction l with
      | nil => intro _; rfl
      | cons i l ih =>
        intro hl
        rw [List.mapM_cons, ih fun t' ht' => hl t' (by simp [ht']), hrow i (hl i (by simp))]
        rfl
    exact key _ fun i hi => hi
  unfold getMonoRdf
  simp only
  rw [hm]
  simp only [ok_bind, pure_eq_ok, List.map_map]
  refine ⟨_, rfl, by simp, ?_⟩
  intro i hi
  refine ⟨_, by rw [get_mapRange, if_pos hi], ?_, ?_⟩
  · simp
  · intro r hr
    refine ⟨_, ?_, rfl⟩
    simp only [Function.comp_apply]
    rw [List.getElem?_dropLast, if_pos (by simpa using hr), get_mapRange, if_pos (by omega)]
    congr 2
    apply Finset.filter_congr
    intro j hj
    rw [Finset.mem_range] at hj
    have hpos : 0 ≤ near i j := by
      rw [← hnd i j _ _ (List.getElem?_eq_getElem hi) (List.getElem?_eq_getElem hj)]
      exact Real.sqrt_nonneg _
    have hfac : (0 : ℝ) < L / 2 / Nbins := by positivity
    have hconv : near i j * ((Nbins : ℝ) / (L / 2)) = near i j / (L / 2 / Nbins) := by field_simp
    rw [hconv]
    constructor
    · rintro ⟨h1, _, h3⟩
      rw [Nat.floor_eq_iff (by positivity), le_div_iff₀ hfac, div_lt_iff₀ hfac] at h3
      exact ⟨h1, h3.1, by push_cast; exact h3.2⟩
    · rintro ⟨h1, h2, h3⟩
      refine ⟨h1, hr, ?_⟩
      rw [Nat.floor_eq_iff (by positivity), le_div_iff₀ hfac, div_lt_iff₀ hfac]
      push_cast at h3
      exact ⟨h2, h3⟩

/-- There is always such a distance. -/
example : ∃ near : Nat → Nat → ℝ, ∀ (i j : Nat) (a b : Fin 3 → ℝ), [fun _ => 1, fun _ => 9][i]? = some a → [fun _ => 1, fun _ => 9][j]? = some b →
      (∃ n, near i j = imageDist 10 a b n) ∧ ∀ n, near i j ≤ imageDist 10 a b n := by
  refine ⟨fun i j => monoDist 10 ([fun _ => 1, fun _ => 9].getD i fun _ => 0 : Fin 3 → ℝ) ([fun _ => 1, fun _ => 9].getD j fun _ => 0), ?_⟩
  intro i j a b ha hb
  simp only [List.getD_eq_getElem?_getD, ha, hb, Option.getD_some]
  exact mono_nearest (by norm_num) a b

/-- The norm of the vectors of `generate_kvec`. -/
def normSq (v : Nat × Nat × Nat) : Nat := v.1 * v.1 + v.2.1 * v.2.1 + v.2.2 * v.2.2

theorem kStep_cases {nk maxNvec i j : Nat} (hm : maxNvec % 3 = 0) {v : List (Nat × Nat × Nat)} (hv : v.length % 3 = 0) :
    kStep nk maxNvec i v j = .ok (if v.length < maxNvec then
      v ++ [(i, j, isqrt (nk * nk - i * i - j * j)), (j, isqrt (nk * nk - i * i - j * j), i), (isqrt (nk * nk - i * i - j * j), i, j)] else v) := by
  unfold kStep
  by_cases h : v.length < maxNvec
  · rw [if_pos h, if_pos h]
    simp only
    rw [if_pos (by omega)]
  · rw [if_neg h, if_neg h]

/-- The shell of a wave vector. -/
theorem isqrt_shell {nk i j : Nat} (hj : j * j < nk * nk - i * i) :
    let k := isqrt (nk * nk - i * i - j * j)
    0 < k ∧ i * i + j * j + k * k ≤ nk * nk ∧ (nk - 1) * (nk - 1) ≤ i * i + j * j + k * k := by
  intro k
  have h1 : k * k ≤ nk * nk - i * i - j * j := Nat.sqrt_le _
  have h2 : nk * nk - i * i - j * j < (k + 1) * (k + 1) := Nat.lt_succ_sqrt _
  have hpos : 0 < k := Nat.sqrt_pos.2 (by omega)
  refine ⟨hpos, by omega, ?_⟩
  have hk : k ≤ nk := by
    by_contra hc
    have : (nk + 1) * (nk + 1) ≤ k * k := Nat.mul_le_mul (by omega) (by omega)
    have h3 : (nk + 1) * (nk + 1) = nk * nk + 2 * nk + 1 := by ring
    omega
  have h3 : (k + 1) * (k + 1) = k * k + 2 * k + 1 := by ring
  have hnk : 0 < nk := by omega
  obtain ⟨m, rfl⟩ : ∃ m, nk = m + 1 := ⟨nk - 1, by omega⟩
  have h4 : (m + 1) * (m + 1) = m * m + 2 * m + 1 := by ring
  simp only [Nat.add_sub_cancel]
  by_cases he : k = m + 1
  · have : m * m ≤ k * k := Nat.mul_le_mul (by omega) (by omega)
    omega
  · omega

/-- C152. `generate_kvec` gives between 3 and `maxNvec` vectors, by threes that are the cyclic permutations of one of them, none of which is longer
than `nk` nor shorter than `nk - 1`. -/
theorem C152_shell_partial (nk maxNvec : Nat) (hnk : 0 < nk) (hm : maxNvec % 3 = 0) (hpos : 0 < maxNvec) :
    ∃ v, generateKvec nk maxNvec = .ok v ∧ 3 ≤ v.length ∧ v.length ≤ maxNvec ∧ (∀ x ∈ v, normSq x ≤ nk * nk ∧ (nk - 1) * (nk - 1) ≤ normSq x) ∧
      ∀ a b c, (a, b, c) ∈ v → (b, c, a) ∈ v ∧ (c, a, b) ∈ v := by
  let Inv : List (Nat × Nat × Nat) → Prop := fun v => v.length % 3 = 0 ∧ v.length ≤ maxNvec ∧
    (∀ x ∈ v, normSq x ≤ nk * nk ∧ (nk - 1) * (nk - 1) ≤ normSq x) ∧ ∀ a b c, (a, b, c) ∈ v → (b, c, a) ∈ v ∧ (c, a, b) ∈ v
  have step : ∀ (i j : Nat) v, Inv v → j * j < nk * nk - i * i → ∃ v', kStep nk maxNvec i v j = .ok v' ∧ Inv v' ∧ v.length ≤ v'.length ∧ 3 ≤ v'.length := by
    intro i j v ⟨h1, h2, h3, h4⟩ hj
    rw [kStep_cases hm h1]
    refine ⟨_, rfl, ?_⟩
    by_cases h : v.length < maxNvec
    · rw [if_pos h]
      obtain ⟨s1, s2, s3⟩ := isqrt_shell hj
      refine ⟨⟨by simp; omega, by simp; omega, ?_, ?_⟩, by simp, by simp⟩
      · intro x hx
        rcases List.mem_append.1 hx with hx | hx
        · exact h3 x hx
        · simp only [List.mem_cons, List.not_mem_nil, or_false] at hx
          rcases hx with rfl | rfl | rfl <;> simp only [normSq] <;> omega
      · intro a b c hx
        rcases List.mem_append.1 hx with hx | hx
        · obtain ⟨e1, e2⟩ := h4 a b c hx
          exact ⟨List.mem_append_left _ e1, List.mem_append_left _ e2⟩
        · simp only [List.mem_cons, List.not_mem_nil, or_false, Prod.mk.injEq] at hx
          rcases hx with ⟨rfl, rfl, rfl⟩ | ⟨rfl, rfl, rfl⟩ | ⟨rfl, rfl, rfl⟩ <;> simp
    · rw [if_neg h]
      exact ⟨⟨h1, h2, h3, h4⟩, le_refl _, by omega⟩
  have inner : ∀ (i : Nat) (js : List Nat) v, Inv v → (∀ j ∈ js, j * j < nk * nk - i * i) →
      ∃ v', js.foldlM (kStep nk maxNvec i) v = .ok v' ∧ Inv v' ∧ v.length ≤ v'.length ∧ (js ≠ [] → 3 ≤ v'.length) := by
    intro i js
    induction js with
    | nil => intro v hv _; exact ⟨v, rfl, hv, le_refl _, fun h => absurd rfl h⟩
    | cons j js ih =>
      intro v hv hj
      obtain ⟨v1, e1, e2, e3, e4⟩ := step i j v hv (hj j (by simp))
      obtain ⟨v2, f1, f2, f3, _⟩ := ih v1 e2 fun j' hj' => hj j' (by simp [hj'])
      refine ⟨v2, by rw [List.foldlM_cons, e1]; exact f1, f2, by omega, fun _ => by omega⟩
  have outer : ∀ (is : List Nat) v, Inv v → ∃ v', is.foldlM (fun v i =>
      ((List.range nk).filter fun j => j * j < nk * nk - i * i).foldlM (kStep nk maxNvec i) v) v = .ok v' ∧ Inv v' ∧ v.length ≤ v'.length ∧
      (0 ∈ is → 3 ≤ v'.length) := by
    intro is
    induction is with
    | nil => intro v hv; exact ⟨v, rfl, hv, le_refl _, fun h => by simp at h⟩
    | cons i is ih =>
      intro v hv
      obtain ⟨v1, e1, e2, e3, e4⟩ := inner i ((List.range nk).filter fun j => j * j < nk * nk - i * i) v hv fun j hj => by
        simpa using (List.mem_filter.1 hj).2
      obtain ⟨v2, f1, f2, f3, f4⟩ := ih v1 e2
      refine ⟨v2, by rw [List.foldlM_cons, e1]; exact f1, f2, by omega, ?_⟩
      intro h0
      rcases List.mem_cons.1 h0 with rfl | h0
      · have : ((List.range nk).filter fun j => j * j < nk * nk - 0 * 0) ≠ [] := by
          apply List.ne_nil_of_mem (a := 0)
          rw [List.mem_filter, List.mem_range]
          refine ⟨hnk, ?_⟩
          have : 0 < nk * nk := Nat.mul_pos hnk hnk
          simpa using this
        have := e4 this
        omega
      · exact f4 h0
  obtain ⟨v, h1, ⟨h2, h3, h4, h5⟩, _, h6⟩ := outer (List.range nk) [] ⟨rfl, by simp, by simp, by simp⟩
  refine ⟨v, ?_, h6 (List.mem_range.2 hnk), h3, h4, h5⟩
  unfold generateKvec
  rw [if_neg (by omega)]
  exact h1

example : 0 < 5 ∧ 30 % 3 = 0 := by decide

/-- C152, the part that is false. The square root is truncated before it is tested, so that no vector is rejected: their length is not `nk`. -/
theorem C152_length_counterexample : ∃ v x, generateKvec 2 30 = .ok v ∧ x ∈ v ∧ normSq x = 2 := by
  refine ⟨[(0, 0, 2), (0, 2, 0), (2, 0, 0), (0, 1, 1), (1, 1, 0), (1, 0, 1), (1, 0, 1), (0, 1, 1), (1, 1, 0), (1, 1, 1), (1, 1, 1), (1, 1, 1)],
    (0, 1, 1), ?_, by decide, by decide⟩
  have h3 : isqrt 3 = 1 := by unfold isqrt; exact (Nat.eq_sqrt.2 (by decide)).symm
  have h4 : isqrt 4 = 2 := by unfold isqrt; exact (Nat.eq_sqrt.2 (by decide)).symm
  have h2 : isqrt 2 = 1 := by unfold isqrt; exact (Nat.eq_sqrt.2 (by decide)).symm
  simp [generateKvec, kStep, List.range_succ, h2, h3, h4]

/-- C152, the part that is false. The same vector is given several times, so that it weighs more in the average. -/
theorem C152_twice_counterexample : ∃ v, generateKvec 2 30 = .ok v ∧ ¬ v.Nodup := by
  refine ⟨[(0, 0, 2), (0, 2, 0), (2, 0, 0), (0, 1, 1), (1, 1, 0), (1, 0, 1), (1, 0, 1), (0, 1, 1), (1, 1, 0), (1, 1, 1), (1, 1, 1), (1, 1, 1)],
    ?_, by decide⟩
  have h3 : isqrt 3 = 1 := by unfold isqrt; exact (Nat.eq_sqrt.2 (by decide)).symm
  have h4 : isqrt 4 = 2 := by unfold isqrt; exact (Nat.eq_sqrt.2 (by decide)).symm
  have h2 : isqrt 2 = 1 := by unfold isqrt; exact (Nat.eq_sqrt.2 (by decide)).symm
  simp [generateKvec, kStep, List.range_succ, h2, h3, h4]

end Periodic
end Py
end Colloids
