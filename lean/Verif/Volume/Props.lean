import Verif.CommonLemmas
import Verif.DynField.Lemmas
import Verif.Octave.PyramidLemmas
import Verif.Volume.Model
import Mathlib.Algebra.BigOperators.Group.Finset.Basic
import Mathlib.Algebra.BigOperators.Intervals
import Mathlib.Algebra.Order.BigOperators.Group.Finset
import Mathlib.Tactic.Ring
import Mathlib.Tactic.Linarith
import Mathlib.Tactic.FieldSimp
import Mathlib.Tactic.Positivity
import Mathlib.Tactic.NormNum
import Mathlib.Algebra.Order.Ring.Rat
import Mathlib.Algebra.Field.Rat
import Mathlib.Data.Rat.Floor

/-!
# Properties of the synthetic volumes (C80, C81)
-/

namespace Colloids.Volume

open Octave (fold_closed div_addr mod_addr)

variable {G : Type} [Field G] [LinearOrder G] [FloorRing G] [IsStrictOrderedRing G]

/-! ## Lemmas -/

theorem addr_eq_iff (ny nx k j i k' j' i' : Nat) (hj : j < ny) (hi : i < nx) (hj' : j' < ny)
    (hi' : i' < nx) : addr ny nx k j i = addr ny nx k' j' i' ↔ k = k' ∧ j = j' ∧ i = i' := by
  constructor
  · intro h
    unfold addr at h
    have h1 := congrArg (· / nx) h
    have h2 := congrArg (· % nx) h
    simp only [div_addr _ _ hi, div_addr _ _ hi', mod_addr _ _ hi, mod_addr _ _ hi'] at h1 h2
    have h3 := congrArg (· / ny) h1
    have h4 := congrArg (· % ny) h1
    simp only [div_addr _ _ hj, div_addr _ _ hj', mod_addr _ _ hj, mod_addr _ _ hj'] at h3 h4
    exact ⟨h3, h4, h2⟩
  · rintro ⟨rfl, rfl, rfl⟩
    rfl

theorem addr_lt_size (nz ny nx k j i : Nat) (hk : k < nz) (hj : j < ny) (hi : i < nx) :
    addr ny nx k j i < nz * ny * nx := by
  unfold addr
  have h1 : (k + 1) * ny ≤ nz * ny := Nat.mul_le_mul_right _ (by omega)
  rw [Nat.succ_mul] at h1
  have h2 : (k * ny + j + 1) * nx ≤ nz * ny * nx := Nat.mul_le_mul_right _ (by omega)
  rw [Nat.succ_mul] at h2
  omega

/-- A loop whose steps overwrite parts of a table. -/
theorem foldlM_paint {T ι : Type} (N : Nat) (w : Nat → T) (Q : ι → Nat → Bool)
    (step : List T → ι → R (List T)) (L : List ι)
    (h : ∀ x ∈ L, ∀ f, step (tab N f) x = .ok (tab N (fun p => if Q x p then w p else f p)))
    (f : Nat → T) :
    L.foldlM step (tab N f)
      = .ok (tab N (fun p => if L.any (fun x => Q x p) then w p else f p)) := by
  induction L generalizing f with
  | nil => simp [pure_eq_ok]
  | cons a L ih =>
    rw [List.foldlM_cons, h a (by simp), ok_bind, ih (fun x hx => h x (by simp [hx]))]
    congr 1
    refine tab_congr (fun p _ => ?_)
    rw [List.any_cons]
    cases Q a p <;> cases (L.any fun x => Q x p) <;> rfl

omit [IsStrictOrderedRing G] in
theorem span_lt (size : Nat) (c r : G) (k : Nat) [IsStrictOrderedRing G] (h : k ∈ span size c r) :
    k < size := by
  unfold span at h
  rw [List.mem_range'] at h
  obtain ⟨i, hi, rfl⟩ := h
  have : ⌈min (size : G) (c + r + 1)⌉₊ ≤ size := by
    rw [Nat.ceil_le]
    exact min_le_left _ _
  omega

theorem mem_span (size : Nat) (c r : G) (k : Nat) (hk : k < size) (hr : 0 ≤ r)
    (h : ((k : G) - c) ^ 2 < r * r) : k ∈ span size c r := by
  have habs : |(k : G) - c| < r := abs_lt_of_sq_lt_sq (by rw [sq r]; exact h) hr
  obtain ⟨h1, h2⟩ := abs_lt.1 habs
  unfold span
  rw [List.mem_range']
  have hf : ⌊max 0 (c - r)⌋₊ ≤ k := by
    have : ⌊max 0 (c - r)⌋₊ ≤ ⌊(k : G)⌋₊ :=
      Nat.floor_le_floor (max_le (Nat.cast_nonneg _) (by linarith))
    rwa [Nat.floor_natCast] at this
  have hc : k < ⌈min (size : G) (c + r + 1)⌉₊ := by
    rw [Nat.lt_ceil]
    exact lt_min (by exact_mod_cast hk) (by linarith)
  exact ⟨k - ⌊max 0 (c - r)⌋₊, by omega, by omega⟩

/-! ## C80: spheres -/

/-- C80. `drawsphere` writes inside the volume only, gives the value to all the pixels at a
distance from the center less than the radius and leaves all the others as they were, wherever
the center is. -/
theorem C80_sphere {T : Type} [Inhabited T] (nz ny nx : Nat) (input : List T)
    (hl : input.length = nz * ny * nx) (z y x r : G) (hr : 0 ≤ r) (value : T) :
    ∃ out, drawsphere nz ny nx input z y x r value = .ok out ∧ out.length = nz * ny * nx
      ∧ ∀ k j i, k < nz → j < ny → i < nx →
        out[(k * ny + j) * nx + i]? =
          if ((i : G) - x) ^ 2 + ((j : G) - y) ^ 2 + ((k : G) - z) ^ 2 < r ^ 2 then some value
          else input[(k * ny + j) * nx + i]? := by
  have hin : input = tab (nz * ny * nx) (fun i => input[i]?.getD default) := by
    rw [← hl]; exact eq_tab input
  let Q : Nat → Nat → Nat → Nat → Bool := fun k j i p =>
    decide (((i : G) - x) ^ 2 + ((j : G) - y) ^ 2 + ((k : G) - z) ^ 2 < r * r
      ∧ p = addr ny nx k j i)
  have hmain : drawsphere nz ny nx (tab (nz * ny * nx) (fun i => input[i]?.getD default)) z y x r
      value = .ok (tab (nz * ny * nx) (fun p =>
        if (span nz z r).any (fun k => (span ny y r).any (fun j => (span nx x r).any (fun i =>
          Q k j i p))) then value else input[p]?.getD default)) := by
    unfold drawsphere
    refine foldlM_paint _ (fun _ => value) (fun k p => (span ny y r).any (fun j =>
      (span nx x r).any (fun i => Q k j i p))) _ _ (fun k hk f => ?_) _
    refine foldlM_paint _ (fun _ => value) (fun j p => (span nx x r).any (fun i => Q k j i p)) _ _
      (fun j hj f => ?_) _
    refine foldlM_paint _ (fun _ => value) (fun i p => Q k j i p) _ _ (fun i hi f => ?_) _
    by_cases hc : ((i : G) - x) ^ 2 + ((j : G) - y) ^ 2 + ((k : G) - z) ^ 2 < r * r
    · rw [if_pos hc, setR_tab _ (addr_lt_size nz ny nx k j i (span_lt _ _ _ _ hk)
        (span_lt _ _ _ _ hj) (span_lt _ _ _ _ hi))]
      congr 1
      refine tab_congr (fun p _ => ?_)
      simp only [Q, hc, true_and, decide_eq_true_eq]
    · rw [if_neg hc]
      congr 1
      refine tab_congr (fun p _ => ?_)
      simp only [Q, hc, false_and, decide_false, Bool.false_eq_true, if_false]
  rw [← hin] at hmain
  refine ⟨_, hmain, tab_length _ _, ?_⟩
  intro k j i hk hj hi
  have hlt := addr_lt_size nz ny nx k j i hk hj hi
  change (tab _ _)[addr ny nx k j i]? = if _ then _ else input[addr ny nx k j i]?
  simp only [tab, List.getElem?_map, List.getElem?_range hlt, Option.map_some]
  have h1 := sq_nonneg ((i : G) - x)
  have h2 := sq_nonneg ((j : G) - y)
  have h3 := sq_nonneg ((k : G) - z)
  by_cases hc : ((i : G) - x) ^ 2 + ((j : G) - y) ^ 2 + ((k : G) - z) ^ 2 < r * r
  · rw [sq r, if_pos hc, if_pos]
    simp only [List.any_eq_true]
    exact ⟨k, mem_span nz z r k hk hr (by linarith), j, mem_span ny y r j hj hr (by linarith), i,
      mem_span nx x r i hi hr (by linarith), by simp only [Q, hc, true_and, decide_true]⟩
  · rw [sq r, if_neg hc, if_neg]
    · rw [List.getElem?_eq_getElem (by omega)]
      rfl
    · simp only [List.any_eq_true, Q, decide_eq_true_eq]
      rintro ⟨k', hk', j', hj', i', hi', hc', he⟩
      obtain ⟨rfl, rfl, rfl⟩ := (addr_eq_iff ny nx k j i k' j' i' hj hi (span_lt _ _ _ _ hj')
        (span_lt _ _ _ _ hi')).1 he
      exact hc hc'

example : drawsphere 1 3 3 [0, 0, 0, 0, 0, 0, 0, 0, 0] (0 : ℚ) 1 (1 / 2) (11 / 10) 7
    = .ok [0, 0, 0, 7, 7, 0, 0, 0, 0] := by decide +kernel

/-! ## C81: shrinking -/

/-- Sum of the pixels of a block of a volume. -/
def blockSum (lny lnx : Nat) (large : List G) (f k j i : Nat) : G :=
  ∑ mk ∈ Finset.range f, ∑ mj ∈ Finset.range f, ∑ mi ∈ Finset.range f,
    large[((f * k + mk) * lny + (f * j + mj)) * lnx + (f * i + mi)]?.getD 0

omit [IsStrictOrderedRing G] in
theorem accumulate_int [IsStrictOrderedRing G] (a : List Int) :
    accumulate (a.map (fun (v : Int) => (v : G))) = a.sum := by
  have : ∀ (c : Int), (a.map (fun (v : Int) => (v : G))).foldl (fun acc v => trunc ((acc : G) + v)) c
      = c + a.sum := by
    induction a with
    | nil => simp
    | cons b a ih =>
      intro c
      rw [List.map_cons, List.foldl_cons, ih, List.sum_cons]
      have : trunc ((c : G) + (b : G)) = c + b := by
        unfold trunc
        rw [← Int.cast_add]
        split
        · exact Int.ceil_intCast _
        · exact Int.floor_intCast _
      rw [this]
      ring
  unfold accumulate
  rw [this, zero_add]

/-- Ends with the value of a sum. -/
theorem foldlM_sum (step : G → Nat → R G) (g : Nat → G) (n : Nat)
    (h : ∀ i, i < n → ∀ v, step v i = .ok (v + g i)) (v : G) :
    (List.range n).foldlM step v = .ok (v + ∑ i ∈ Finset.range n, g i) := by
  have := fold_closed step (fun n => v + ∑ i ∈ Finset.range n, g i) n (fun i hi => by
    rw [h i hi, Finset.sum_range_succ, add_assoc])
  simpa using this

/-- What `volume_shrink` does when the sums of the rows of a block are `rows`. -/
theorem shrink_eq (conv : G → G) (snz sny snx lnz lny lnx : Nat) (large : List G) (f : Nat)
    (hl : large.length = lnz * lny * lnx) (hz : f * snz ≤ lnz) (hy : f * sny ≤ lny)
    (hx : f * snx ≤ lnx) :
    ∃ out, shrink conv snz sny snx lny lnx large f = .ok out ∧ out.length = snz * sny * snx
      ∧ ∀ k j i, k < snz → j < sny → i < snx →
        out[(k * sny + j) * snx + i]? = some (conv ((∑ mk ∈ Finset.range f,
          ∑ mj ∈ Finset.range f, ((accumulate (tab f (fun mi =>
            large[((f * k + mk) * lny + (f * j + mj)) * lnx + (f * i + mi)]?.getD 0)) : Int) : G))
          / ((f * f * f : Nat) : G) + 1 / 2)) := by
  let val : Nat → Nat → Nat → G := fun k j i => conv ((∑ mk ∈ Finset.range f,
          ∑ mj ∈ Finset.range f, ((accumulate (tab f (fun mi =>
            large[((f * k + mk) * lny + (f * j + mj)) * lnx + (f * i + mi)]?.getD 0)) : Int) : G))
          / ((f * f * f : Nat) : G) + 1 / 2)
  let w : Nat → G := fun p => val (p / snx / sny) (p / snx % sny) (p % snx)
  have hw : ∀ k j i, j < sny → i < snx → w (addr sny snx k j i) = val k j i := by
    intro k j i hj hi
    simp only [w, addr, div_addr _ _ hi, mod_addr _ _ hi, div_addr _ _ hj, mod_addr _ _ hj]
  have hrep : List.replicate (snz * sny * snx) (0 : G) = tab (snz * sny * snx) (fun _ => 0) := by
    simp [tab]
  have hblock : ∀ k j i, k < snz → j < sny → i < snx →
      (List.range f).foldlM (fun (v : G) mk =>
          (List.range f).foldlM (fun (v : G) mj => do
            let a ← (List.range f).mapM (fun mi =>
              getR large (addr lny lnx (f * k + mk) (f * j + mj) (f * i) + mi))
            pure (v + (accumulate a : Int))) v) 0
        = .ok (∑ mk ∈ Finset.range f,
          ∑ mj ∈ Finset.range f, ((accumulate (tab f (fun mi =>
            large[((f * k + mk) * lny + (f * j + mj)) * lnx + (f * i + mi)]?.getD 0)) : Int) : G)) := by
    intro k j i hk hj hi
    have key := foldlM_sum (fun (v : G) mk =>
          (List.range f).foldlM (fun (v : G) mj => do
            let a ← (List.range f).mapM (fun mi =>
              getR large (addr lny lnx (f * k + mk) (f * j + mj) (f * i) + mi))
            pure (v + (accumulate a : Int))) v)
      (fun mk => ∑ mj ∈ Finset.range f, ((accumulate (tab f (fun mi =>
            large[((f * k + mk) * lny + (f * j + mj)) * lnx + (f * i + mi)]?.getD 0)) : Int) : G)) f
      (fun mk hmk v => by
        refine foldlM_sum _ _ f (fun mj hmj v => ?_) v
        have h1 : f * (k + 1) ≤ f * snz := Nat.mul_le_mul_left _ hk
        have h2 : f * (j + 1) ≤ f * sny := Nat.mul_le_mul_left _ hj
        have h3 : f * (i + 1) ≤ f * snx := Nat.mul_le_mul_left _ hi
        rw [Nat.mul_succ] at h1 h2 h3
        rw [mapM_tab _ (fun mi =>
          large[((f * k + mk) * lny + (f * j + mj)) * lnx + (f * i + mi)]?.getD 0) f
          (fun mi hmi => by
            have ha := addr_lt_size lnz lny lnx (f * k + mk) (f * j + mj) (f * i + mi)
              (by omega) (by omega) (by omega)
            unfold addr at ha ⊢
            rw [Nat.add_assoc, getR_of_lt (by omega), List.getElem?_eq_getElem (by omega)]
            rfl), ok_bind, pure_eq_ok]) 0
    rw [zero_add] at key
    exact key
  have hmain : shrink conv snz sny snx lny lnx large f = .ok (tab (snz * sny * snx) (fun p =>
      if (List.range snz).any (fun k => (List.range sny).any (fun j => (List.range snx).any (fun i =>
        decide (p = addr sny snx k j i)))) then w p else 0)) := by
    unfold shrink
    rw [hrep]
    refine foldlM_paint _ w (fun k p => (List.range sny).any (fun j => (List.range snx).any (fun i =>
        decide (p = addr sny snx k j i)))) _ _ (fun k hk f' => ?_) _
    refine foldlM_paint _ w (fun j p => (List.range snx).any (fun i =>
        decide (p = addr sny snx k j i))) _ _ (fun j hj f' => ?_) _
    refine foldlM_paint _ w (fun i p => decide (p = addr sny snx k j i)) _ _
      (fun i hi f' => ?_) _
    rw [List.mem_range] at hk hj hi
    rw [hblock k j i hk hj hi, ok_bind, setR_tab _ (addr_lt_size snz sny snx k j i hk hj hi)]
    congr 1
    refine tab_congr (fun p _ => ?_)
    by_cases hp : p = addr sny snx k j i
    · rw [if_pos hp, if_pos (by simpa using hp), hp, hw k j i hj hi]
    · rw [if_neg hp, if_neg (by simpa using hp)]
  refine ⟨_, hmain, tab_length _ _, ?_⟩
  intro k j i hk hj hi
  have hlt := addr_lt_size snz sny snx k j i hk hj hi
  change (tab _ _)[addr sny snx k j i]? = _
  simp only [tab, List.getElem?_map, List.getElem?_range hlt, Option.map_some]
  rw [if_pos (by
    simp only [List.any_eq_true, decide_eq_true_eq]
    exact ⟨k, List.mem_range.2 hk, j, List.mem_range.2 hj, i, List.mem_range.2 hi, rfl⟩)]
  exact congrArg some (hw k j i hj hi)

theorem blockSum_int (lny lnx : Nat) (pix : List Int) (f k j i : Nat) :
    (∑ mk ∈ Finset.range f, ∑ mj ∈ Finset.range f, ((accumulate (tab f (fun mi =>
        (pix.map (fun (v : Int) => (v : G)))[((f * k + mk) * lny + (f * j + mj)) * lnx
          + (f * i + mi)]?.getD 0)) : Int) : G))
      = blockSum lny lnx (pix.map (fun (v : Int) => (v : G))) f k j i := by
  unfold blockSum
  refine Finset.sum_congr rfl (fun mk _ => Finset.sum_congr rfl (fun mj _ => ?_))
  have h1 : ∀ p : Nat, (pix.map (fun (v : Int) => (v : G)))[p]?.getD 0 = ((pix[p]?.getD 0 : Int) : G) := by
    intro p
    rw [List.getElem?_map]
    cases pix[p]? <;> simp
  have h2 : tab f (fun mi => (pix.map (fun (v : Int) => (v : G)))[((f * k + mk) * lny + (f * j + mj)) * lnx
          + (f * i + mi)]?.getD 0)
      = (tab f (fun mi => pix[((f * k + mk) * lny + (f * j + mj)) * lnx
          + (f * i + mi)]?.getD 0)).map (fun (v : Int) => (v : G)) := by
    unfold tab
    rw [List.map_map]
    refine List.map_congr_left (fun mi _ => ?_)
    rw [h1]
    rfl
  rw [h2, accumulate_int]
  simp only [h1]
  rw [← Int.cast_sum]
  congr 1

theorem exists_addr (nz ny nx p : Nat) (h : p < nz * ny * nx) :
    ∃ k j i, k < nz ∧ j < ny ∧ i < nx ∧ p = (k * ny + j) * nx + i := by
  have hx : 0 < nx := by
    rcases Nat.eq_zero_or_pos nx with h0 | h0
    · simp [h0] at h
    · exact h0
  have hy : 0 < ny := by
    rcases Nat.eq_zero_or_pos ny with h0 | h0
    · simp [h0] at h
    · exact h0
  have h1 : p / nx < nz * ny := Nat.div_lt_of_lt_mul (by rw [Nat.mul_comm]; exact h)
  refine ⟨p / nx / ny, p / nx % ny, p % nx, Nat.div_lt_of_lt_mul (by rw [Nat.mul_comm]; exact h1),
    Nat.mod_lt _ hy, Nat.mod_lt _ hx, ?_⟩
  have e1 := Nat.div_add_mod p nx
  have e2 := Nat.div_add_mod (p / nx) ny
  rw [Nat.mul_comm (p / nx / ny), e2, Nat.mul_comm, e1]

theorem blockSum_bounds (lny lnx : Nat) (pix : List Int) (f M k j i : Nat)
    (hpix : ∀ v ∈ pix, 0 ≤ v ∧ v ≤ M) :
    0 ≤ blockSum lny lnx (pix.map (fun (v : Int) => (v : G))) f k j i
      ∧ blockSum lny lnx (pix.map (fun (v : Int) => (v : G))) f k j i ≤ (f : G) ^ 3 * M := by
  have h1 : ∀ p : Nat, 0 ≤ (pix.map (fun (v : Int) => (v : G)))[p]?.getD 0
      ∧ (pix.map (fun (v : Int) => (v : G)))[p]?.getD 0 ≤ M := by
    intro p
    rw [List.getElem?_map]
    cases hp : pix[p]? with
    | none => simp
    | some v =>
      obtain ⟨h2, h3⟩ := hpix v (List.mem_of_getElem? hp)
      simp only [Option.map_some, Option.getD_some]
      exact ⟨by exact_mod_cast h2, by exact_mod_cast h3⟩
  unfold blockSum
  constructor
  · exact Finset.sum_nonneg (fun _ _ => Finset.sum_nonneg (fun _ _ => Finset.sum_nonneg
      (fun _ _ => (h1 _).1)))
  · refine (Finset.sum_le_sum (fun _ _ => Finset.sum_le_sum (fun _ _ => Finset.sum_le_sum
      (fun _ _ => (h1 _).2)))).trans ?_
    simp only [Finset.sum_const, Finset.card_range, nsmul_eq_mul]
    apply le_of_eq
    ring

/-- C81. For pixels of an integer type in `[0, M]`, each pixel of the small volume is the mean of
its block rounded to the nearest integer, and is in `[0, M]`. -/
theorem C81_mean_partial (snz sny snx lnz lny lnx : Nat) (pix : List Int) (f M : Nat) (hf : 0 < f)
    (hl : pix.length = lnz * lny * lnx) (hz : f * snz ≤ lnz) (hy : f * sny ≤ lny)
    (hx : f * snx ≤ lnx) (hpix : ∀ v ∈ pix, 0 ≤ v ∧ v ≤ M) :
    ∃ out : List Int, shrink (fun v : G => (trunc v : G)) snz sny snx lny lnx
        (pix.map (fun (v : Int) => (v : G))) f = .ok (out.map (fun (v : Int) => (v : G)))
      ∧ out.length = snz * sny * snx ∧ (∀ v ∈ out, 0 ≤ v ∧ v ≤ M)
      ∧ ∀ k j i, k < snz → j < sny → i < snx → ∃ v : Int, out[(k * sny + j) * snx + i]? = some v
        ∧ (v : G) - 1 / 2 ≤ blockSum lny lnx (pix.map (fun (v : Int) => (v : G))) f k j i / (f : G) ^ 3
        ∧ blockSum lny lnx (pix.map (fun (v : Int) => (v : G))) f k j i / (f : G) ^ 3 < v + 1 / 2 := by
  obtain ⟨out, h1, h2, h3⟩ := shrink_eq (fun v : G => (trunc v : G)) snz sny snx lnz lny lnx
    (pix.map (fun (v : Int) => (v : G))) f (by simpa using hl) hz hy hx
  simp only [blockSum_int] at h3
  have hf' : (0 : G) < f := by exact_mod_cast hf
  have hf3 : (0 : G) < (f : G) ^ 3 := by positivity
  have hcast : ((f * f * f : Nat) : G) = (f : G) ^ 3 := by push_cast; ring
  simp only [hcast] at h3
  have hval : ∀ k j i, ∃ v : Int,
      trunc (blockSum lny lnx (pix.map (fun (v : Int) => (v : G))) f k j i / (f : G) ^ 3 + 1 / 2) = v
        ∧ 0 ≤ v ∧ v ≤ M
        ∧ (v : G) - 1 / 2 ≤ blockSum lny lnx (pix.map (fun (v : Int) => (v : G))) f k j i / (f : G) ^ 3
        ∧ blockSum lny lnx (pix.map (fun (v : Int) => (v : G))) f k j i / (f : G) ^ 3 < v + 1 / 2 := by
    intro k j i
    obtain ⟨b1, b2⟩ := blockSum_bounds (G := G) lny lnx pix f M k j i hpix
    generalize blockSum lny lnx (pix.map (fun (v : Int) => (v : G))) f k j i = S at *
    have c1 : 0 ≤ S / (f : G) ^ 3 := div_nonneg b1 hf3.le
    have c2 : S / (f : G) ^ 3 ≤ M := by
      rw [div_le_iff₀ hf3]
      linarith
    have e1 := Int.floor_le (S / (f : G) ^ 3 + 1 / 2)
    have e2 := Int.lt_floor_add_one (S / (f : G) ^ 3 + 1 / 2)
    refine ⟨_, rfl, ?_⟩
    unfold trunc
    rw [if_neg (by linarith)]
    refine ⟨Int.floor_nonneg.2 (by linarith), ?_, by linarith, by linarith⟩
    have : ⌊S / (f : G) ^ 3 + 1 / 2⌋ < (M : Int) + 1 := by
      rw [Int.floor_lt]
      push_cast
      linarith
    omega
  have hint : ∀ v ∈ out, ∃ u : Int, v = (u : G) ∧ 0 ≤ u ∧ u ≤ M := by
    intro v hv
    obtain ⟨p, hp, hpv⟩ := List.getElem_of_mem hv
    obtain ⟨k, j, i, hk, hj, hi, rfl⟩ := exists_addr snz sny snx p (by omega)
    have := h3 k j i hk hj hi
    rw [List.getElem?_eq_getElem hp, hpv] at this
    obtain ⟨u, e, u0, uM, -⟩ := hval k j i
    rw [e] at this
    exact ⟨u, Option.some.inj this, u0, uM⟩
  have hback : out = (out.map (fun v : G => ⌊v⌋)).map (fun (v : Int) => (v : G)) := by
    rw [List.map_map]
    conv_lhs => rw [← List.map_id out]
    refine List.map_congr_left (fun v hv => ?_)
    obtain ⟨u, rfl, -⟩ := hint v hv
    simp
  refine ⟨out.map (fun v : G => ⌊v⌋), by rw [h1, ← hback], by simpa using h2, ?_, ?_⟩
  · intro v hv
    obtain ⟨w, hw, rfl⟩ := List.mem_map.1 hv
    obtain ⟨u, rfl, u0, uM⟩ := hint w hw
    rw [Int.floor_intCast]
    exact ⟨u0, uM⟩
  · intro k j i hk hj hi
    obtain ⟨u, e, -, -, u1, u2⟩ := hval k j i
    refine ⟨u, ?_, u1, u2⟩
    rw [List.getElem?_map, h3 k j i hk hj hi, e]
    simp

/-- The hypotheses of `C81_mean_partial`, and its result on a volume of 2×2×2 pixels. -/
example : shrink (fun v : ℚ => (trunc v : ℚ)) 1 1 1 2 2 [1, 2, 3, 4, 5, 6, 7, 9] 2 = .ok [5] := by
  decide +kernel

/-- C81. For pixels of a floating point type with values in `[0, 1)`, as the rest of the library
uses, the result is 0.5 everywhere whatever the volume. -/
theorem C81_float_counterexample (snz sny snx lnz lny lnx : Nat) (large : List G) (f : Nat)
    (hl : large.length = lnz * lny * lnx) (hz : f * snz ≤ lnz) (hy : f * sny ≤ lny)
    (hx : f * snx ≤ lnx) (hpix : ∀ v ∈ large, 0 ≤ v ∧ v < 1) :
    shrink (fun v : G => v) snz sny snx lny lnx large f
      = .ok (List.replicate (snz * sny * snx) (1 / 2)) := by
  obtain ⟨out, h1, h2, h3⟩ := shrink_eq (fun v : G => v) snz sny snx lnz lny lnx large f hl hz hy hx
  have hacc : ∀ a : List G, (∀ v ∈ a, 0 ≤ v ∧ v < 1) → accumulate a = 0 := by
    intro a
    unfold accumulate
    induction a with
    | nil => intro _; rfl
    | cons b a ih =>
      intro h
      obtain ⟨b0, b1⟩ := h b (by simp)
      rw [List.foldl_cons]
      have : trunc (((0 : Int) : G) + b) = 0 := by
        unfold trunc
        rw [Int.cast_zero, zero_add, if_neg (by linarith), Int.floor_eq_zero_iff]
        exact ⟨b0, b1⟩
      rw [this]
      exact ih (fun v hv => h v (by simp [hv]))
  have hget : ∀ p : Nat, 0 ≤ large[p]?.getD 0 ∧ large[p]?.getD 0 < 1 := by
    intro p
    cases hp : large[p]? with
    | none => simp
    | some v => exact hpix v (List.mem_of_getElem? hp)
  rw [h1]
  congr 1
  rw [List.eq_replicate_iff]
  refine ⟨h2, fun v hv => ?_⟩
  obtain ⟨p, hp, hpv⟩ := List.getElem_of_mem hv
  obtain ⟨k, j, i, hk, hj, hi, rfl⟩ := exists_addr snz sny snx p (by omega)
  have := h3 k j i hk hj hi
  rw [List.getElem?_eq_getElem hp, hpv] at this
  rw [Option.some.inj this]
  have hz : ∀ mk mj, accumulate (tab f (fun mi =>
      large[((f * k + mk) * lny + (f * j + mj)) * lnx + (f * i + mi)]?.getD 0)) = 0 := by
    intro mk mj
    refine hacc _ (fun v hv => ?_)
    obtain ⟨mi, -, rfl⟩ := List.mem_map.1 hv
    exact hget _
  simp [hz]

example : shrink (fun v : ℚ => v) 1 1 1 2 2 [0, 0, 0, 0, 0, 0, 0, 0] 2 = .ok [1 / 2]
    ∧ shrink (fun v : ℚ => v) 1 1 1 2 2 [9 / 10, 9 / 10, 9 / 10, 9 / 10, 9 / 10, 9 / 10, 9 / 10,
      9 / 10] 2 = .ok [1 / 2] := by
  decide +kernel

end Colloids.Volume
