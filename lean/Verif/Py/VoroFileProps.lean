import Mathlib.Tactic.Linarith
import Mathlib.Tactic.FinCases
import Mathlib.Tactic.NormNum
import Verif.CommonLemmas
import Verif.Index.Lemmas
import Verif.Py.VoroFileModel
import Verif.Py.VoroProps

/-! # C247, C248: volumes and network of bonds through voro++ in python -/

namespace Colloids
namespace Py
namespace VoroFile

theorem foldl_min_le {A : Type} (f : A → ℝ) (l : List A) (m : ℝ) :
    l.foldl (fun m p => min m (f p)) m ≤ m ∧ ∀ p ∈ l, l.foldl (fun m p => min m (f p)) m ≤ f p := by
  induction l generalizing m with
  | nil => exact ⟨le_rfl, by simp⟩
  | cons a l ih =>
    rw [List.foldl_cons]
    obtain ⟨h1, h2⟩ := ih (min m (f a))
    refine ⟨h1.trans (min_le_left _ _), fun p hp => ?_⟩
    rcases List.mem_cons.1 hp with rfl | hp
    · exact h1.trans (min_le_right _ _)
    · exact h2 p hp

theorem le_foldl_max {A : Type} (f : A → ℝ) (l : List A) (m : ℝ) :
    m ≤ l.foldl (fun m p => max m (f p)) m ∧ ∀ p ∈ l, f p ≤ l.foldl (fun m p => max m (f p)) m := by
  induction l generalizing m with
  | nil => exact ⟨le_rfl, by simp⟩
  | cons a l ih =>
    rw [List.foldl_cons]
    obtain ⟨h1, h2⟩ := ih (max m (f a))
    refine ⟨(le_max_left _ _).trans h1, fun p hp => ?_⟩
    rcases List.mem_cons.1 hp with rfl | hp
    · exact (le_max_right _ _).trans h1
    · exact h2 p hp

theorem foldl_min_mem {A : Type} (f : A → ℝ) (l : List A) (m : ℝ) :
    l.foldl (fun m p => min m (f p)) m = m ∨ ∃ p ∈ l, l.foldl (fun m p => min m (f p)) m = f p := by
  induction l generalizing m with
  | nil => exact Or.inl rfl
  | cons a l ih =>
    rw [List.foldl_cons]
    rcases ih (min m (f a)) with h | ⟨p, hp, h⟩
    · rcases min_choice m (f a) with h' | h'
      · exact Or.inl (h.trans h')
      · exact Or.inr ⟨a, List.mem_cons_self, h.trans h'⟩
    · exact Or.inr ⟨p, List.mem_cons_of_mem _ hp, h⟩

theorem foldl_max_mem {A : Type} (f : A → ℝ) (l : List A) (m : ℝ) :
    l.foldl (fun m p => max m (f p)) m = m ∨ ∃ p ∈ l, l.foldl (fun m p => max m (f p)) m = f p := by
  induction l generalizing m with
  | nil => exact Or.inl rfl
  | cons a l ih =>
    rw [List.foldl_cons]
    rcases ih (max m (f a)) with h | ⟨p, hp, h⟩
    · rcases max_choice m (f a) with h' | h'
      · exact Or.inl (h.trans h')
      · exact Or.inr ⟨a, List.mem_cons_self, h.trans h'⟩
    · exact Or.inr ⟨p, List.mem_cons_of_mem _ hp, h⟩

/-- The six numbers of a box: bounds `lo` and `hi` in each dimension. -/
def six (lo hi : Fin 3 → ℝ) : List ℝ := [lo 0, hi 0, lo 1, hi 1, lo 2, hi 2]

/-- The box of at least two positions: it is at a tenth of the extreme positions. -/
theorem box_eq (dat : List Pos) (h : 2 ≤ dat.length) :
    ∃ lo hi : Fin 3 → ℝ, (∃ bb, box dat = .ok bb ∧ bb.flatten = six lo hi) ∧
      (∀ d, (∀ p ∈ dat, lo d + 0.1 ≤ p d) ∧ (∃ p ∈ dat, lo d + 0.1 = p d)) ∧
      ∀ d, (∀ p ∈ dat, p d ≤ hi d - 0.1) ∧ ∃ p ∈ dat, hi d - 0.1 = p d := by
  match dat, h with
  | a :: b :: l, _ =>
    refine ⟨fun d => colMin a (b :: l) d - 0.1, fun d => colMax a (b :: l) d + 0.1, ⟨_, rfl, rfl⟩, fun d => ⟨fun p hp => ?_, ?_⟩,
      fun d => ⟨fun p hp => ?_, ?_⟩⟩
    · rw [sub_add_cancel]
      obtain ⟨h1, h2⟩ := foldl_min_le (fun p : Pos => p d) (b :: l) (a d)
      rcases List.mem_cons.1 hp with rfl | hp
      · exact h1
      · exact h2 p hp
    · rw [sub_add_cancel]
      rcases foldl_min_mem (fun p : Pos => p d) (b :: l) (a d) with h | ⟨p, hp, h⟩
      · exact ⟨a, List.mem_cons_self, h⟩
      · exact ⟨p, List.mem_cons_of_mem _ hp, h⟩
    · rw [add_sub_cancel_right]
      obtain ⟨h1, h2⟩ := le_foldl_max (fun p : Pos => p d) (b :: l) (a d)
      rcases List.mem_cons.1 hp with rfl | hp
      · exact h1
      · exact h2 p hp
    · rw [add_sub_cancel_right]
      rcases foldl_max_mem (fun p : Pos => p d) (b :: l) (a d) with h | ⟨p, hp, h⟩
      · exact ⟨a, List.mem_cons_self, h⟩
      · exact ⟨p, List.mem_cons_of_mem _ hp, h⟩

/-- Records with different `id`: `recLE` is the order of the `id`. -/
theorem recLE_iff (a b : Nat × ℝ) : recLE a b = true ↔ a.1 < b.1 ∨ (a.1 = b.1 ∧ a.2 ≤ b.2) := by
  rw [recLE, decide_eq_true_eq]

/-- What is read back is sorted by `id`. -/
theorem sortVol_eq (lines : List (Nat × ℝ)) (ids : List Nat) (V : Nat → ℝ) (hs : ids.Pairwise (· < ·)) (h1 : ids.length ≠ 1)
    (hp : lines.Perm (ids.map fun i => (i, V i))) : sortVol lines = .ok (ids.map V) := by
  have hl : lines.length ≠ 1 := by rw [hp.length_eq, List.length_map]; exact h1
  rw [sortVol, if_neg hl]
  have hsort : lines.mergeSort recLE = ids.map fun i => (i, V i) := by
    have hsorted : (lines.mergeSort recLE).Pairwise (fun a b => recLE a b = true) := by
      apply List.pairwise_mergeSort
      · intro a b c hab hbc
        rw [recLE_iff] at *
        rcases hab with h | ⟨h, h'⟩ <;> rcases hbc with k | ⟨k, k'⟩
        · exact Or.inl (h.trans k)
        · exact Or.inl (k ▸ h)
        · exact Or.inl (h ▸ k)
        · exact Or.inr ⟨h.trans k, h'.trans k'⟩
      · intro a b
        rw [Bool.or_eq_true, recLE_iff, recLE_iff]
        rcases lt_trichotomy a.1 b.1 with h | h | h
        · exact Or.inl (Or.inl h)
        · rcases le_total a.2 b.2 with k | k
          · exact Or.inl (Or.inr ⟨h, k⟩)
          · exact Or.inr (Or.inr ⟨h.symm, k⟩)
        · exact Or.inr (Or.inl h)
    refine List.Perm.eq_of_pairwise (le := fun a b => recLE a b = true) ?_ hsorted ?_ ((List.mergeSort_perm lines recLE).trans hp)
    · intro a b _ _ hab hba
      rw [recLE_iff] at hab hba
      rcases hab with h | ⟨h, h'⟩ <;> rcases hba with k | ⟨k, k'⟩
      · omega
      · omega
      · omega
      · exact Prod.ext h (le_antisymm h' k')
    · rw [List.pairwise_map]
      exact hs.imp fun {a b} h => (recLE_iff _ _).2 (Or.inl h)
  rw [hsort, List.map_map]
  rfl

/-- What `volume` gives to voro++ and reads back. -/
theorem volume_eq (g : ℝ → ℝ) (voro : List ℝ → List (Nat × Pos) → List (Nat × ℝ)) (dat : List Pos) (h : 2 ≤ dat.length) {bb : List (List ℝ)}
    {lo hi : Fin 3 → ℝ} (hb : box dat = .ok bb) (hf : bb.flatten = six lo hi) :
    volume g voro dat = sortVol (voro (six (fun d => g (lo d)) (fun d => g (hi d)))
      ((List.range dat.length).zip dat |>.map fun x => (x.1, fun d => g (x.2 d)))) := by
  have h1 : dat.length ≠ 1 := by omega
  rw [volume, hb, ok_bind, saveVoro, if_neg h1, ok_bind, hf, sixArgs, if_pos (by rfl), ok_bind]
  rfl

/-- C247. For at least two particles, voro++ gets a box and the particles with their numbers. Whatever the rounding of the numbers, if it is not
decreasing, all the particles are in this box; the box is at a tenth of the extreme positions. If voro++ prints a cell for each particle, in any order,
`volume` returns the volume of each particle at its place. More generally the volumes returned are those of the printed particles, in the order of
their numbers. -/
theorem C247_volume_partial (g : ℝ → ℝ) (hg : Monotone g) (voro : List ℝ → List (Nat × Pos) → List (Nat × ℝ)) (dat : List Pos) (h : 2 ≤ dat.length) :
    ∃ (lo hi : Fin 3 → ℝ) (file : List (Nat × Pos)),
      file.map Prod.fst = List.range dat.length ∧ file.map Prod.snd = dat.map (fun p d => g (p d)) ∧
      (∀ d, (∀ p ∈ dat, g (lo d) ≤ g (p d) ∧ g (p d) ≤ g (hi d)) ∧ (∃ p ∈ dat, lo d = p d - 0.1) ∧ ∃ p ∈ dat, hi d = p d + 0.1) ∧
      ∀ (ids : List Nat) (V : Nat → ℝ), ids.Pairwise (· < ·) → ids.length ≠ 1 →
        (voro [g (lo 0), g (hi 0), g (lo 1), g (hi 1), g (lo 2), g (hi 2)] file).Perm (ids.map fun i => (i, V i)) →
        volume g voro dat = .ok (ids.map V) := by
  obtain ⟨lo, hi, ⟨bb, hb, hf⟩, hlo, hhi⟩ := box_eq dat h
  have hz : (List.range dat.length).length = dat.length := List.length_range
  refine ⟨lo, hi, (List.range dat.length).zip dat |>.map fun x => (x.1, fun d => g (x.2 d)), ?_, ?_, fun d => ⟨fun p hp => ?_, ?_, ?_⟩, ?_⟩
  · rw [List.map_map]
    exact List.map_fst_zip (by omega)
  · rw [List.map_map]
    have : (Prod.snd ∘ fun x : Nat × Pos => (x.1, fun d => g (x.2 d))) = (fun p : Pos => fun d => g (p d)) ∘ Prod.snd := rfl
    rw [this, ← List.map_map, List.map_snd_zip (by omega)]
  · have h1 := (hlo d).1 p hp
    have h2 := (hhi d).1 p hp
    exact ⟨hg (by linarith), hg (by linarith)⟩
  · obtain ⟨p, hp, e⟩ := (hlo d).2
    exact ⟨p, hp, by linarith⟩
  · obtain ⟨p, hp, e⟩ := (hhi d).2
    exact ⟨p, hp, by linarith⟩
  · intro ids V hs h1 hperm
    rw [volume_eq g voro dat h hb hf]
    exact sortVol_eq _ ids V hs h1 hperm

/-- C247, the part that is false. If voro++ does not print the particle `k`, the particles before `k` get their volumes and each of the others gets the
volume of the next one. -/
theorem C247_missing_counterexample (g : ℝ → ℝ) (voro : List ℝ → List (Nat × Pos) → List (Nat × ℝ)) (dat : List Pos) (V : Nat → ℝ) (k : Nat)
    (hk : k < dat.length) (h3 : 3 ≤ dat.length)
    (hp : ∀ args file, (voro args file).Perm (((List.range dat.length).filter (· ≠ k)).map fun i => (i, V i))) :
    ∃ vol, volume g voro dat = .ok vol ∧ vol.length + 1 = dat.length ∧ (∀ i < k, vol[i]? = some (V i)) ∧
      ∀ i, k ≤ i → i + 1 < dat.length → vol[i]? = some (V (i + 1)) := by
  obtain ⟨lo, hi, ⟨bb, hb, hf⟩, _⟩ := box_eq dat (by omega)
  have hsplit : (List.range dat.length).filter (· ≠ k) = List.range k ++ (List.range (dat.length - k - 1)).map (k + 1 + ·) := by
    have e : dat.length = k + (1 + (dat.length - k - 1)) := by omega
    conv_lhs => rw [e, List.range_add, List.range_add]
    rw [List.filter_append, List.map_append, List.filter_append]
    have f1 : (List.range k).filter (· ≠ k) = List.range k := by
      rw [List.filter_eq_self]
      intro a ha
      have := List.mem_range.1 ha
      simp only [ne_eq, decide_not, Bool.not_eq_true', decide_eq_false_iff_not]
      omega
    have f2 : ((List.range 1).map (k + ·)).filter (· ≠ k) = [] := by simp
    have f3 : (((List.range (dat.length - k - 1)).map (1 + ·)).map (k + ·)).filter (· ≠ k) =
        (List.range (dat.length - k - 1)).map (k + 1 + ·) := by
      rw [List.map_map, List.filter_eq_self.2]
      · apply List.map_congr_left
        intro a _
        simp only [Function.comp_apply]
        omega
      · intro a ha
        obtain ⟨b, _, rfl⟩ := List.mem_map.1 ha
        simp only [Function.comp_apply, ne_eq, decide_not, Bool.not_eq_true', decide_eq_false_iff_not]
        omega
    rw [f1, f2, f3, List.nil_append]
  have hlen : ((List.range dat.length).filter (· ≠ k)).length + 1 = dat.length := by
    rw [hsplit, List.length_append, List.length_map, List.length_range, List.length_range]
    omega
  refine ⟨((List.range dat.length).filter (· ≠ k)).map V, ?_, ?_, ?_, ?_⟩
  · rw [volume_eq g voro dat (by omega) hb hf]
    exact sortVol_eq _ _ V (List.Pairwise.filter _ List.pairwise_lt_range) (by omega) (hp _ _)
  · rw [List.length_map]
    exact hlen
  · intro i hi
    rw [List.getElem?_map, hsplit, List.getElem?_append_left (by rw [List.length_range]; exact hi), List.getElem?_range hi]
    rfl
  · intro i h1 h2
    rw [List.getElem?_map, hsplit, List.getElem?_append_right (by rw [List.length_range]; exact h1), List.length_range, List.getElem?_map,
      List.getElem?_range (by omega)]
    simp only [Option.map_some]
    congr 2
    omega

/-- C247, the part that is false. With a single particle in the file `volume` raises an exception, and `faces` always does, before voro++ is called. -/
theorem C247_faces_counterexample (g : ℝ → ℝ) (voro : List ℝ → List (Nat × Pos) → List (Nat × ℝ)) (a : Pos) (dat : List Pos) :
    volume g voro [a] = .error .invalidArgument ∧ facesArgs g dat = .error .invalidArgument := by
  refine ⟨rfl, ?_⟩
  match dat with
  | [] => rfl
  | [_] => rfl
  | a :: b :: l =>
    rw [facesArgs, box, ok_bind, saveVoro, if_neg (by simp), ok_bind, threeArgs, if_pos (by rfl)]
    · simp only [List.map_cons, List.mapM_cons, fmtArray]
      rfl
    · simp

/-- voro++ in the example: cells of volume 1, 2, 3 printed from the last to the first. -/
example : ∃ dat : List Pos, 3 ≤ dat.length ∧ ∃ voro : List ℝ → List (Nat × Pos) → List (Nat × ℝ),
    ∀ args file, (voro args file).Perm (((List.range dat.length).filter (· ≠ 1)).map fun i => (i, (i : ℝ) + 1)) :=
  ⟨[fun _ => 0, fun _ => 1, fun _ => 2], by simp, fun _ _ => [(2, 3), (0, 1)], fun _ _ => by
    have : (List.range 3).filter (· ≠ 1) = [0, 2] := by decide
    simp only [List.length_cons, List.length_nil, this, List.map_cons, List.map_nil]
    norm_num
    exact List.Perm.swap _ _ _⟩

example : Monotone (fun x : ℝ => x) := fun _ _ h => h

/-! ## Network of bonds -/

/-- Distance between the centers. -/
noncomputable def dist (p q : Part) : ℝ := Real.sqrt ((p.x 0 - q.x 0) ^ 2 + (p.x 1 - q.x 1) ^ 2 + (p.x 2 - q.x 2) ^ 2)

theorem shortBond_iff (p q : Part) (hp : 0 ≤ p.r) (hq : 0 ≤ q.r) : shortBond p q = true ↔ dist p q < 2.26 * (p.r + q.r) := by
  have hd : dist p q = Real.sqrt ((q.x 0 - p.x 0) ^ 2 + (q.x 1 - p.x 1) ^ 2 + (q.x 2 - p.x 2) ^ 2) := by
    rw [dist]
    congr 1
    ring
  rw [shortBond, decide_eq_true_eq, ← hd]
  have h0 : 0 ≤ dist p q := Real.sqrt_nonneg _
  rcases (add_nonneg hp hq).lt_or_eq with h | h
  · rw [div_lt_iff₀ h]
    exact ⟨fun k => k.2, fun k => ⟨h.ne', k⟩⟩
  · rw [← h, mul_zero]
    exact ⟨fun k => absurd rfl k.1, fun k => absurd k (not_lt.2 h0)⟩

theorem zip_filter {A : Type} (f : A → Bool) (l : List A) : ((l.zip (l.map f)).filter Prod.snd).map Prod.fst = l.filter f := by
  induction l with
  | nil => rfl
  | cons b l ih =>
    rw [List.map_cons, List.zip_cons_cons, List.filter_cons, List.filter_cons]
    by_cases h : f b
    · rw [if_pos h, if_pos h, List.map_cons, ih]
    · rw [if_neg h, if_neg h, ih]

theorem keepShort_eq (parts : List Part) (bonds : List (Nat × Nat)) (h : ∀ b ∈ bonds, b.1 < parts.length ∧ b.2 < parts.length) :
    keepShort parts bonds = .ok (bonds.filter fun b => match parts[b.1]?, parts[b.2]? with
      | some p, some q => shortBond p q
      | _, _ => false) := by
  have hm : bonds.mapM (shortOf parts) = .ok (bonds.map fun b => match parts[b.1]?, parts[b.2]? with
      | some p, some q => shortBond p q
      | _, _ => false) := by
    refine TreeIndex.mapM_ok_of _ _ _ fun b hb => ?_
    obtain ⟨h1, h2⟩ := h b hb
    rw [shortOf, List.getElem?_eq_getElem h1, List.getElem?_eq_getElem h2]
  rw [keepShort, hm, ok_bind, pure_eq_ok]
  congr 1
  exact zip_filter _ bonds

/-- C248. `make_bond_network` gives to voro++ a box that holds all the spheres and touches one on each side. If voro++ prints cells of different particles,
with some bond, the numbers in the range and a last bonded particle that is not before those at the walls, the file `.bonds` holds in lexicographic
order each couple of neighbours at a distance below 2.26 times the sum of the radii, once; `.outside` the particles with a wall in their cell;
`.outside2` these and their neighbours, at whatever distance. -/
theorem C248_network_partial {uniq : List Int → List Int} (hu : Micro.Uniques uniq) (voro : List ℝ → List Part → List Voro.Cell) (parts : List Part)
    (hr : ∀ p ∈ parts, 0 ≤ p.r) (hne : parts ≠ []) :
    ∃ lo hi : Fin 3 → ℝ,
      (∀ d, (∀ p ∈ parts, lo d ≤ p.x d - p.r ∧ p.x d + p.r ≤ hi d) ∧ (∃ p ∈ parts, lo d = p.x d - p.r) ∧ ∃ p ∈ parts, hi d = p.x d + p.r) ∧
      ∀ cells, voro [lo 0, hi 0, lo 1, hi 1, lo 2, hi 2] parts = cells →
        (∀ c ∈ cells, c.s = c.ngb.length) → (cells.map Voro.Cell.id).Nodup → (∀ c ∈ cells, c.ngb.Nodup) →
        (∀ c ∈ cells, c.id < parts.length ∧ ∀ n ∈ c.ngb, n < parts.length) →
        (∃ c ∈ cells, ∃ n ∈ c.ngb, (c.id : Int) < n) →
        (∀ c ∈ cells, (∃ w ∈ c.ngb, w < 0) → ∃ c' ∈ cells, ∃ n ∈ c'.ngb, (c'.id : Int) < n ∧ (c.id : Int) ≤ n) →
        ∃ bonds outside outside2, network uniq voro parts = .ok (bonds, outside, outside2) ∧
          bonds.Pairwise (fun a b => a.1 < b.1 ∨ (a.1 = b.1 ∧ a.2 < b.2)) ∧
          (∀ p q, (p, q) ∈ bonds ↔ p < q ∧ (∃ c ∈ cells, c.id = p ∧ (q : Int) ∈ c.ngb) ∧
            ∃ a b, parts[p]? = some a ∧ parts[q]? = some b ∧ dist a b < 2.26 * (a.r + b.r)) ∧
          outside.Pairwise (· < ·) ∧ (∀ p, p ∈ outside ↔ ∃ c ∈ cells, c.id = p ∧ ∃ w ∈ c.ngb, w < 0) ∧
          outside2.Pairwise (· < ·) ∧ ∀ p, p ∈ outside2 ↔ p ∈ outside ∨ ∃ q ∈ outside,
            (p < q ∧ ∃ c ∈ cells, c.id = p ∧ (q : Int) ∈ c.ngb) ∨ (q < p ∧ ∃ c ∈ cells, c.id = q ∧ (p : Int) ∈ c.ngb) := by
  obtain ⟨a, l, rfl⟩ := List.exists_cons_of_ne_nil hne
  refine ⟨fun d => l.foldl (fun m p => min m (p.x d - p.r)) (a.x d - a.r), fun d => l.foldl (fun m p => max m (p.x d + p.r)) (a.x d + a.r),
    fun d => ⟨fun p hp => ?_, ?_, ?_⟩, ?_⟩
  · obtain ⟨h1, h2⟩ := foldl_min_le (fun p : Part => p.x d - p.r) l (a.x d - a.r)
    obtain ⟨h3, h4⟩ := le_foldl_max (fun p : Part => p.x d + p.r) l (a.x d + a.r)
    rcases List.mem_cons.1 hp with rfl | hp
    · exact ⟨h1, h3⟩
    · exact ⟨h2 p hp, h4 p hp⟩
  · rcases foldl_min_mem (fun p : Part => p.x d - p.r) l (a.x d - a.r) with h | ⟨p, hp, h⟩
    · exact ⟨a, List.mem_cons_self, h⟩
    · exact ⟨p, List.mem_cons_of_mem _ hp, h⟩
  · rcases foldl_max_mem (fun p : Part => p.x d + p.r) l (a.x d + a.r) with h | ⟨p, hp, h⟩
    · exact ⟨a, List.mem_cons_self, h⟩
    · exact ⟨p, List.mem_cons_of_mem _ hp, h⟩
  intro cells hc hs hid hnd hrange hbond hwall
  have hcne : cells ≠ [] := by
    rintro rfl
    obtain ⟨c, hc, _⟩ := hbond
    exact absurd hc List.not_mem_nil
  obtain ⟨bs, out, hload, hpw, hmem, hopw, homem⟩ := Voro.C202_bonds hu cells hcne hs hid hnd
  have hbnn : ∀ b ∈ bs, 0 ≤ b.1 ∧ b.1 < b.2 ∧ b.1 < (a :: l).length ∧ b.2 < (a :: l).length := by
    intro b hb
    obtain ⟨h1, c, hc, h2, h3⟩ := (hmem b.1 b.2).1 hb
    obtain ⟨r1, r2⟩ := hrange c hc
    exact ⟨by omega, h1, by omega, r2 _ h3⟩
  have hmem' : ∀ p q : Nat, (p, q) ∈ (bs.map fun b => (b.1.toNat, b.2.toNat)) ↔ p < q ∧ ∃ c ∈ cells, c.id = p ∧ (q : Int) ∈ c.ngb := by
    intro p q
    constructor
    · intro h
      obtain ⟨b, hb, e⟩ := List.mem_map.1 h
      obtain ⟨n1, n2, _⟩ := hbnn b hb
      obtain ⟨_, c, hc, h2, h3⟩ := (hmem b.1 b.2).1 hb
      rw [Prod.mk.injEq] at e
      refine ⟨by omega, c, hc, by omega, ?_⟩
      have : (q : Int) = b.2 := by omega
      rw [this]
      exact h3
    · rintro ⟨h, c, hc, h2, h3⟩
      have := (hmem p q).2 ⟨by omega, c, hc, by omega, h3⟩
      exact List.mem_map.2 ⟨_, this, rfl⟩
  have honn : ∀ o ∈ out, 0 ≤ o := by
    intro o ho
    obtain ⟨c, _, h, _⟩ := (homem o).1 ho
    omega
  have homem' : ∀ p : Nat, p ∈ out.map Int.toNat ↔ ∃ c ∈ cells, c.id = p ∧ ∃ w ∈ c.ngb, w < 0 := by
    intro p
    constructor
    · intro h
      obtain ⟨o, ho, rfl⟩ := List.mem_map.1 h
      obtain ⟨c, hc, h1, h2⟩ := (homem o).1 ho
      exact ⟨c, hc, by omega, h2⟩
    · rintro ⟨c, hc, h1, h2⟩
      exact List.mem_map.2 ⟨(p : Int), (homem p).2 ⟨c, hc, by omega, h2⟩, rfl⟩
  have hbne : (bs.map fun b => (b.1.toNat, b.2.toNat)) ≠ [] := by
    obtain ⟨c, hc, n, hn, h⟩ := hbond
    have := (hmem c.id n).2 ⟨h, c, hc, rfl, hn⟩
    intro e
    rw [List.map_eq_nil_iff] at e
    rw [e] at this
    exact absurd this List.not_mem_nil
  obtain ⟨out2, h2, h2pw, h2mem⟩ := Voro.C202_second (bs.map fun b => (b.1.toNat, b.2.toNat)) (out.map Int.toNat) hbne (by
    intro o ho
    obtain ⟨c, hc, h1, hw⟩ := (homem' o).1 ho
    obtain ⟨c', hc', n, hn, h3, h4⟩ := hwall c hc hw
    refine ⟨(c'.id, n.toNat), (hmem' _ _).2 ⟨by omega, c', hc', rfl, ?_⟩, ?_⟩
    · have : ((n.toNat : Nat) : Int) = n := by omega
      rw [this]
      exact hn
    · rw [le_max_iff]
      exact Or.inr (by show o ≤ n.toNat; omega))
  have hks := keepShort_eq (a :: l) (bs.map fun b => (b.1.toNat, b.2.toNat)) (by
    intro b hb
    obtain ⟨b', hb', rfl⟩ := List.mem_map.1 hb
    obtain ⟨n1, n2, n3, n4⟩ := hbnn b' hb'
    exact ⟨by show b'.1.toNat < _; omega, by show b'.2.toNat < _; omega⟩)
  refine ⟨(bs.map fun b => (b.1.toNat, b.2.toNat)).filter fun b => match (a :: l)[b.1]?, (a :: l)[b.2]? with
      | some p, some q => shortBond p q
      | _, _ => false, out.map Int.toNat, out2, ?_, ?_, ?_, ?_, homem', h2pw, ?_⟩
  · rw [network, partBox, ok_bind]
    simp only [List.flatMap_cons, List.flatMap_nil, List.cons_append, List.nil_append]
    rw [hc, hload, ok_bind, h2, ok_bind, hks, ok_bind]
    rfl
  · apply List.Pairwise.filter
    rw [List.pairwise_map]
    refine List.Pairwise.imp_of_mem ?_ hpw
    intro x y hx hy h
    obtain ⟨n1, n2, _⟩ := hbnn x hx
    obtain ⟨m1, m2, _⟩ := hbnn y hy
    show x.1.toNat < y.1.toNat ∨ (x.1.toNat = y.1.toNat ∧ x.2.toNat < y.2.toNat)
    omega
  · intro p q
    rw [List.mem_filter, hmem', and_assoc]
    refine and_congr_right fun hpq => and_congr_right fun hcell => ?_
    obtain ⟨c, hc, h1, h3⟩ := hcell
    obtain ⟨r1, r2⟩ := hrange c hc
    have hp : p < (a :: l).length := by omega
    have hq : q < (a :: l).length := by have := r2 _ h3; omega
    rw [List.getElem?_eq_getElem hp, List.getElem?_eq_getElem hq]
    simp only [Option.some.injEq]
    rw [shortBond_iff _ _ (hr _ (List.getElem_mem hp)) (hr _ (List.getElem_mem hq))]
    constructor
    · intro h
      exact ⟨_, _, rfl, rfl, h⟩
    · rintro ⟨_, _, rfl, rfl, h⟩
      exact h
  · rw [List.pairwise_map]
    refine List.Pairwise.imp_of_mem ?_ hopw
    intro x y hx hy h
    have := honn x hx
    have := honn y hy
    omega
  · intro p
    rw [h2mem]
    refine or_congr Iff.rfl (exists_congr fun q => and_congr_right fun _ => ?_)
    rw [hmem', hmem']

/-- C248, the part that is false. If a particle at a wall comes after all the bonded ones, nothing is saved: `IndexError`. -/
theorem C248_last_counterexample {uniq : List Int → List Int} (hu : Micro.Uniques uniq) (cells : List Voro.Cell) (parts : List Part) (hne : parts ≠ [])
    (hs : ∀ c ∈ cells, c.s = c.ngb.length) (hid : (cells.map Voro.Cell.id).Nodup) (hnd : ∀ c ∈ cells, c.ngb.Nodup)
    (hbond : ∃ c ∈ cells, ∃ n ∈ c.ngb, (c.id : Int) < n)
    (hlast : ∃ c ∈ cells, (∃ w ∈ c.ngb, w < 0) ∧ ∀ c' ∈ cells, ∀ n ∈ c'.ngb, (c'.id : Int) < n → n < c.id) :
    network uniq (fun _ _ => cells) parts = .error .outOfRange := by
  obtain ⟨a, l, rfl⟩ := List.exists_cons_of_ne_nil hne
  have hcne : cells ≠ [] := by
    rintro rfl
    obtain ⟨c, hc, _⟩ := hbond
    exact absurd hc List.not_mem_nil
  obtain ⟨bs, out, hload, _, hmem, _, homem⟩ := Voro.C202_bonds hu cells hcne hs hid hnd
  have hbne : (bs.map fun b => (b.1.toNat, b.2.toNat)) ≠ [] := by
    obtain ⟨c, hc, n, hn, h⟩ := hbond
    have := (hmem c.id n).2 ⟨h, c, hc, rfl, hn⟩
    intro e
    rw [List.map_eq_nil_iff] at e
    rw [e] at this
    exact absurd this List.not_mem_nil
  obtain ⟨c, hc, hw, hl⟩ := hlast
  rw [network, partBox, ok_bind]
  simp only
  rw [hload, ok_bind]
  simp only
  rw [Voro.C202_outside_counterexample _ (out.map Int.toNat) hbne c.id (List.mem_map.2 ⟨(c.id : Int), (homem _).2 ⟨c, hc, rfl, hw⟩, rfl⟩)]
  · rfl
  · intro b hb
    obtain ⟨b', hb', rfl⟩ := List.mem_map.1 hb
    obtain ⟨h1, c', hc', h2, h3⟩ := (hmem b'.1 b'.2).1 hb'
    have := hl c' hc' b'.2 h3 (by omega)
    exact ⟨by show b'.1.toNat < _; omega, by show b'.2.toNat < _; omega⟩

/-- Two particles that touch each other, each of them at a wall. -/
example : (∀ c ∈ [Voro.Cell.mk 0 2 [1, -1], Voro.Cell.mk 1 2 [0, -2]], c.s = c.ngb.length ∧ c.ngb.Nodup ∧ c.id < 2 ∧ (∀ n ∈ c.ngb, n < 2) ∧
    ((∃ w ∈ c.ngb, w < 0) → ∃ c' ∈ [Voro.Cell.mk 0 2 [1, -1], Voro.Cell.mk 1 2 [0, -2]], ∃ n ∈ c'.ngb, (c'.id : Int) < n ∧ (c.id : Int) ≤ n)) := by
  decide

/-- A third particle alone at a wall. -/
example : ∃ c ∈ [Voro.Cell.mk 0 1 [1], Voro.Cell.mk 1 1 [0], Voro.Cell.mk 2 1 [-1]], (∃ w ∈ c.ngb, w < 0) ∧
    ∀ c' ∈ [Voro.Cell.mk 0 1 [1], Voro.Cell.mk 1 1 [0], Voro.Cell.mk 2 1 [-1]], ∀ n ∈ c'.ngb, (c'.id : Int) < n → n < c.id := by
  decide

end VoroFile
end Py
end Colloids
