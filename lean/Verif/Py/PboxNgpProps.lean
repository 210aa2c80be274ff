import Mathlib.Tactic.FieldSimp
import Verif.Py.PboxProps

/-! # The non Gaussian parameter in a periodic box in python: C228 -/

namespace Colloids
namespace Py
namespace Pbox

section Ngp
variable {G : Type} [Field G] [LinearOrder G] [IsStrictOrderedRing G] {F : Type}

/-- The sum of the squared displacements over the intervals of length `dt` that start before `k`. -/
def sum2 (D : Nat → Nat → List G) (k dt : Nat) : G := ∑ t ∈ Finset.range k, (D t (t + dt)).sum

/-- The sum of the fourth powers of the displacements over the intervals of length `dt` that start before `k`. -/
def sum4 (D : Nat → Nat → List G) (k dt : Nat) : G := ∑ t ∈ Finset.range k, ((D t (t + dt)).map fun x => x ^ 2).sum

/-- Three fifths of the mean fourth power over the square of the mean square, minus one, among `n` displacements; nothing when all the displacements
are zero. -/
def alpha2 (n : Nat) (s2 s4 : G) : Option G := if s2 = 0 then none else some (3 / 5 * (s4 / n) / (s2 / n) ^ 2 - 1)

omit [LinearOrder G] [IsStrictOrderedRing G] in
theorem upd_bins {A : Type} [AddCommMonoid A] {N k : Nat} (hk : k < N) (f : Nat → A) (v : A) :
    upd ((List.range N).map f) k (· + v) = .ok ((List.range N).map fun b => f b + if k = b then v else 0) := by
  have := Pairs.modifyR_bins hk f v
  rw [modifyR, if_pos (by simpa using hk)] at this
  rw [upd, if_pos (by simpa using hk)]
  injection this with this
  rw [this]

theorem upd_map {A : Type} {N k : Nat} (hk : k < N) (f : Nat → A) (g : A → A) :
    upd ((List.range N).map f) k g = .ok ((List.range N).map fun b => if k = b then g (f b) else f b) := by
  rw [upd, if_pos (by simpa using hk)]
  congr 1
  refine List.ext_getElem? fun b => ?_
  rw [List.getElem?_modify, List.getElem?_map, List.getElem?_map]
  by_cases hb : b < N
  · by_cases hkb : k = b <;> simp [hb, hkb]
  · by_cases hkb : k = b <;> simp [hb, hkb]

/-- The squares of the displacements that are read. -/
def Reads (sq : F → F → R (List G)) (N : Nat) (A : List F) (D : Nat → Nat → List G) : Prop :=
  ∀ i j a b, i < j → A[i]? = some a → A[j]? = some b → sq a b = .ok (D i j) ∧ (D i j).length = N

omit [LinearOrder G] [IsStrictOrderedRing G] in
theorem term_eq {sq : F → F → R (List G)} {N : Nat} {A : List F} {D : Nat → Nat → List G} (h : Reads sq N A D) {M t0 dt : Nat}
    (ht : t0 + 1 + dt < A.length) (hM : dt + 1 < M) (f : Nat → G × G) :
    ngpTerm sq A t0 ((List.range M).map f) dt = .ok ((List.range M).map fun y => f y +
      if dt + 1 = y then ((D t0 (t0 + y)).sum, ((D t0 (t0 + y)).map fun x => x ^ 2).sum) else 0) := by
  have h1 : A[t0]? = some A[t0] := List.getElem?_eq_getElem (by omega)
  have h2 : A[t0 + 1 + dt]? = some A[t0 + 1 + dt] := List.getElem?_eq_getElem ht
  simp only [ngpTerm, idx, h1, h2, ok_bind, (h _ _ _ _ (by omega) h1 h2).1, upd_bins hM]
  congr 1
  refine List.map_congr_left fun y _ => ?_
  by_cases hy : dt + 1 = y
  · subst hy
    rw [if_pos rfl, if_pos rfl, show t0 + (dt + 1) = t0 + 1 + dt by omega]
  · rw [if_neg hy, if_neg hy]

omit [LinearOrder G] [IsStrictOrderedRing G] in
/-- Both loops: `K` starting points, each with `W t0` intervals. -/
theorem loops_eq {sq : F → F → R (List G)} {N : Nat} {A : List F} {D : Nat → Nat → List G} (h : Reads sq N A D) {M K : Nat} (W : Nat → Nat)
    (hW : ∀ t0 < K, ∀ dt < W t0, t0 + 1 + dt < A.length ∧ dt + 1 < M) :
    (List.range K).foldlM (fun m t0 => (List.range (W t0)).foldlM (ngpTerm sq A t0) m) (List.replicate M 0) =
      .ok ((List.range M).map fun y => ∑ t ∈ Finset.range K, if 1 ≤ y ∧ y ≤ W t then
        ((D t (t + y)).sum, ((D t (t + y)).map fun x => x ^ 2).sum) else 0) := by
  rw [replicate_eq_map, Pairs.fold_add M _ (fun t y => if 1 ≤ y ∧ y ≤ W t then ((D t (t + y)).sum, ((D t (t + y)).map fun x => x ^ 2).sum) else 0)]
  · simp only [zero_add, Pairs.list_sum_range]
  · intro t ht f
    have ht := List.mem_range.1 ht
    rw [Pairs.fold_add M _ (fun dt y => if dt + 1 = y then ((D t (t + y)).sum, ((D t (t + y)).map fun x => x ^ 2).sum) else 0)]
    · congr 1
      refine List.map_congr_left fun y _ => ?_
      congr 1
      rw [Pairs.list_sum_range]
      by_cases hy : 1 ≤ y ∧ y ≤ W t
      · rw [if_pos hy, Finset.sum_eq_single (y - 1), if_pos (by omega)]
        · intro b _ hb; rw [if_neg (by omega)]
        · intro hb; exact absurd (Finset.mem_range.2 (by omega)) hb
      · rw [if_neg hy]
        refine Finset.sum_eq_zero fun b hb => ?_
        have := Finset.mem_range.1 hb
        rw [if_neg (by omega)]
    · intro dt hdt f
      obtain ⟨h1, h2⟩ := hW t ht dt (List.mem_range.1 hdt)
      exact term_eq h h1 h2 f

omit [LinearOrder G] [IsStrictOrderedRing G] in
theorem pair_sum (D : Nat → Nat → List G) (k dt : Nat) :
    (∑ t ∈ Finset.range k, (((D t (t + dt)).sum, ((D t (t + dt)).map fun x => x ^ 2).sum) : G × G)) = (sum2 D k dt, sum4 D k dt) := by
  ext
  · rw [Prod.fst_sum]; rfl
  · rw [Prod.snd_sum]; rfl

theorem spread (x : G) (l : List G) : 0 ≤ l.length * x ^ 2 - 2 * x * l.sum + (l.map fun y => y ^ 2).sum := by
  induction l with
  | nil => simp
  | cons y l ih =>
    simp only [List.length_cons, List.sum_cons, List.map_cons]
    push_cast
    nlinarith [sq_nonneg (x - y)]

/-- The mean of the squares is at least the square of the mean. -/
theorem sq_sum_le (l : List G) : l.sum ^ 2 ≤ l.length * (l.map fun y => y ^ 2).sum := by
  induction l with
  | nil => simp
  | cons x l ih =>
    have := spread x l
    simp only [List.length_cons, List.sum_cons, List.map_cons]
    push_cast
    nlinarith

theorem sums_flat (D : Nat → Nat → List G) (N k dt : Nat) (hD : ∀ t < k, (D t (t + dt)).length = N) :
    ∃ l : List G, l.length = N * k ∧ l.sum = sum2 D k dt ∧ (l.map fun y => y ^ 2).sum = sum4 D k dt := by
  induction k with
  | zero => exact ⟨[], by simp [sum2, sum4]⟩
  | succ k ih =>
    obtain ⟨l, h1, h2, h3⟩ := ih fun t ht => hD t (by omega)
    refine ⟨l ++ D k (k + dt), ?_, ?_, ?_⟩
    · rw [List.length_append, h1, hD k (by omega)]; ring
    · rw [List.sum_append, h2, sum2, sum2, Finset.sum_range_succ]
    · rw [List.map_append, List.sum_append, h3, sum4, sum4, Finset.sum_range_succ]

theorem value_eq (D : Nat → Nat → List G) (N k dt : Nat) (hD : ∀ t < k, (D t (t + dt)).length = N) (c : G) (y : G)
    (hc : c * y = 3 * (N * k : Nat) * sum4 D k dt) :
    ngpValue c (sum2 D k dt, y) = alpha2 (N * k) (sum2 D k dt) (sum4 D k dt) ∧
      ∀ v, ngpValue c (sum2 D k dt, y) = some v → -(2 / 5) ≤ v := by
  obtain ⟨l, h1, h2, h3⟩ := sums_flat D N k dt hD
  have hcs := sq_sum_le l
  rw [h1, h2, h3] at hcs
  unfold ngpValue alpha2
  by_cases hs : sum2 D k dt = 0
  · simp [hs]
  · have hpos : 0 < sum2 D k dt ^ 2 := lt_of_le_of_ne (sq_nonneg _) (Ne.symm (pow_ne_zero _ hs))
    have hn : ((N * k : Nat) : G) ≠ 0 := by
      intro h
      rw [h, zero_mul] at hcs
      linarith
    rw [if_neg (by positivity), if_neg hs]
    constructor
    · congr 1
      rw [hc]
      field_simp
    · intro v hv
      injection hv with hv
      rw [← hv]
      show -(2 / 5) ≤ c * y / (5 * sum2 D k dt ^ 2) - 1
      rw [hc]
      have : 3 / 5 ≤ 3 * ((N * k : Nat) : G) * sum4 D k dt / (5 * sum2 D k dt ^ 2) := by
        rw [le_div_iff₀ (by positivity)]
        nlinarith
      linarith

omit [LinearOrder G] [IsStrictOrderedRing G] in
theorem ngp_zero [DecidableEq G] {sq : F → F → R (List G)} {N : Nat} {A : List F} {D : Nat → Nat → List G} (h : Reads sq N A D) :
    ngp sq N A 0 = .ok ((List.range (A.length + 1)).map fun y => ngpValue ((N : G) * 3)
      (if y = 0 then (1, 0) else (sum2 D (A.length - y) y, sum4 D (A.length - y) y * ((A.length - y : Nat) : G)))) := by
  obtain ⟨f, hf⟩ : ∃ f : Nat → G × G, f = fun y => ∑ t ∈ Finset.range A.length, if 1 ≤ y ∧ y ≤ A.length - (t + 1) then
        ((D t (t + y)).sum, ((D t (t + y)).map fun x => x ^ 2).sum) else 0 := ⟨_, rfl⟩
  have h1 := loops_eq h (M := A.length + 1) (K := A.length) (fun t0 => A.length - (t0 + 1)) (fun t0 ht dt hdt => by omega)
  rw [← hf] at h1
  have h2 : ∀ k ≤ A.length, (List.range k).foldlM (fun (m : List (G × G)) dt => upd m dt fun x => (x.1, x.2 * ((A.length - dt : Nat) : G)))
      ((List.range (A.length + 1)).map f) = .ok ((List.range (A.length + 1)).map fun y =>
        if y < k then ((f y).1, (f y).2 * ((A.length - y : Nat) : G)) else f y) := by
    intro k
    induction k with
    | zero => intro _; simp [pure_eq_ok]
    | succ k ih =>
      intro hk
      rw [List.range_succ (n := k), List.foldlM_append, ih (by omega), ok_bind, List.foldlM_cons, upd_map (by omega), ok_bind, List.foldlM_nil, pure_eq_ok]
      congr 1
      refine List.map_congr_left fun y _ => ?_
      by_cases hy : k = y
      · subst hy; simp
      · by_cases hlt : y < k
        · rw [if_neg hy, if_pos hlt, if_pos (by omega)]
        · rw [if_neg hy, if_neg hlt, if_neg (by omega)]
  rw [ngp, if_neg (by omega), if_pos rfl, h1, ok_bind, h2 _ le_rfl, ok_bind, upd_map (by omega), ok_bind, pure_eq_ok, List.map_map]
  congr 1
  refine List.map_congr_left fun y hy => ?_
  have hy := List.mem_range.1 hy
  simp only [Function.comp]
  congr 1
  have hfy : 1 ≤ y → f y = (sum2 D (A.length - y) y, sum4 D (A.length - y) y) := by
    intro h1
    rw [hf, ← pair_sum]
    simp only
    have hs : Finset.range (A.length - y) ⊆ Finset.range A.length := by
      intro t; simp only [Finset.mem_range]; omega
    rw [← Finset.sum_subset hs]
    · refine Finset.sum_congr rfl fun t ht => ?_
      have := Finset.mem_range.1 ht
      rw [if_pos (by omega)]
    · intro t h2 h3
      rw [Finset.mem_range] at h2 h3
      rw [if_neg (by omega)]
  by_cases h0 : y = 0
  · subst h0
    have hf0 : f 0 = 0 := by rw [hf]; simp
    by_cases hlt : 0 < A.length <;> simp [hf0, hlt]
  · rw [if_neg (by omega), if_neg h0, hfy (by omega)]
    by_cases hlt : y < A.length
    · rw [if_pos hlt]
    · rw [if_neg hlt]
      have : A.length - y = 0 := by omega
      rw [this]
      simp [sum4]

omit [LinearOrder G] [IsStrictOrderedRing G] in
theorem ngp_pos [DecidableEq G] {sq : F → F → R (List G)} {N av : Nat} {A : List F} {D : Nat → Nat → List G} (h : Reads sq N A D) (h0 : 0 < av)
    (hav : av ≤ A.length) : ngp sq N A av = .ok ((List.range (A.length + 1 - av)).map fun y => ngpValue ((av : G) * (N : G) * 3)
      (if y = 0 then (1, 0) else (sum2 D av y, sum4 D av y))) := by
  have h1 := loops_eq h (M := A.length + 1 - av) (K := min av A.length) (fun _ => A.length - av) (fun t0 ht dt hdt => by omega)
  rw [ngp, if_neg (by omega), if_neg (by omega), h1, ok_bind, upd_map (by omega), ok_bind, pure_eq_ok, List.map_map, min_eq_left hav]
  congr 1
  refine List.map_congr_left fun y hy => ?_
  have hy := List.mem_range.1 hy
  simp only [Function.comp]
  congr 1
  by_cases hy0 : y = 0
  · subst hy0; simp
  · rw [if_neg (by omega), if_neg hy0, ← pair_sum]
    refine Finset.sum_congr rfl fun t _ => ?_
    rw [if_pos (by omega)]

/-- C228. With `av` at 0, `ngp` gives for each interval `dt` shorter than the data the non Gaussian parameter of the displacements over all the
intervals of length `dt`; it is never below -2/5. -/
theorem C228_all_partial {sq : F → F → R (List G)} {N : Nat} {A : List F} {D : Nat → Nat → List G} (h : Reads sq N A D) :
    ∃ out, ngp sq N A 0 = .ok out ∧ out.length = A.length + 1 ∧ ∀ dt, 1 ≤ dt → dt < A.length →
      out[dt]? = some (alpha2 (N * (A.length - dt)) (sum2 D (A.length - dt) dt) (sum4 D (A.length - dt) dt)) ∧
      ∀ v, out[dt]? = some (some v) → -(2 / 5) ≤ v := by
  refine ⟨_, ngp_zero h, by simp, fun dt h3 h4 => ?_⟩
  have hD : ∀ t < A.length - dt, (D t (t + dt)).length = N := fun t ht =>
    (h t (t + dt) _ _ (by omega) (List.getElem?_eq_getElem (by omega)) (List.getElem?_eq_getElem (by omega))).2
  have hv := value_eq D N (A.length - dt) dt hD ((N : G) * 3) (sum4 D (A.length - dt) dt * ((A.length - dt : Nat) : G)) (by push_cast; ring)
  rw [List.getElem?_map, List.getElem?_range (by omega), Option.map_some, if_neg (by omega)]
  exact ⟨by rw [hv.1], fun v hv' => hv.2 v (by injection hv')⟩

/-- C228. With a positive `av` the average is over the `av` first starting points, for each interval up to `len(A) - av`. -/
theorem C228_first_partial {sq : F → F → R (List G)} {N av : Nat} {A : List F} {D : Nat → Nat → List G} (h : Reads sq N A D) (h0 : 0 < av)
    (hav : av ≤ A.length) :
    ∃ out, ngp sq N A av = .ok out ∧ out.length = A.length + 1 - av ∧ ∀ dt, 1 ≤ dt → dt + av ≤ A.length →
      out[dt]? = some (alpha2 (N * av) (sum2 D av dt) (sum4 D av dt)) ∧ ∀ v, out[dt]? = some (some v) → -(2 / 5) ≤ v := by
  refine ⟨_, ngp_pos h h0 hav, by simp, fun dt h3 h4 => ?_⟩
  have hD : ∀ t < av, (D t (t + dt)).length = N := fun t ht =>
    (h t (t + dt) _ _ (by omega) (List.getElem?_eq_getElem (by omega)) (List.getElem?_eq_getElem (by omega))).2
  have hv := value_eq D N av dt hD ((av : G) * (N : G) * 3) (sum4 D av dt) (by push_cast; ring)
  rw [List.getElem?_map, List.getElem?_range (by omega), Option.map_some, if_neg (by omega)]
  exact ⟨by rw [hv.1], fun v hv' => hv.2 v (by injection hv')⟩

/-- C228, the part that is false. The first value is always -1, that no displacements can give, and with `av` at 0 there is one value too many: the
last one, for an interval that is as long as the data, is always a division of zero by zero. -/
theorem C228_ends_counterexample {sq : F → F → R (List G)} {N : Nat} {A : List F} {D : Nat → Nat → List G} (h : Reads sq N A D) (hA : 0 < A.length) :
    (∃ out, ngp sq N A 0 = .ok out ∧ out[0]? = some (some (-1 : G)) ∧ out[A.length]? = some none) ∧
    ∀ av, 0 < av → av ≤ A.length → ∃ out, ngp sq N A av = .ok out ∧ out[0]? = some (some (-1 : G)) := by
  have h5 : (5 : G) ≠ 0 := by norm_num
  refine ⟨⟨_, ngp_zero h, ?_, ?_⟩, fun av h0 hav => ⟨_, ngp_pos h h0 hav, ?_⟩⟩
  · rw [List.getElem?_map, List.getElem?_range (by omega), Option.map_some, if_pos rfl]
    simp [ngpValue]
  · rw [List.getElem?_map, List.getElem?_range (by omega), Option.map_some, if_neg (by omega), Nat.sub_self]
    simp [ngpValue, sum2]
  · rw [List.getElem?_map, List.getElem?_range (by omega), Option.map_some, if_pos rfl]
    simp [ngpValue]

omit [IsStrictOrderedRing G] in
/-- C228. More starting points than configurations are refused. -/
theorem C228_refused (sq : F → F → R (List G)) (N av : Nat) (A : List F) (hav : A.length < av) : ∃ e, ngp sq N A av = .error e := by
  by_cases h : A.length + 1 < av
  · exact ⟨_, by rw [ngp, if_pos h]⟩
  · have e : av = A.length + 1 := by omega
    subst e
    refine ⟨.outOfRange, ?_⟩
    rw [ngp, if_neg h, if_neg (by omega)]
    have : A.length - (A.length + 1) = 0 := by omega
    rw [this, Nat.sub_self]
    have hl : ∀ (l : List Nat) (m : List (G × G)), l.foldlM (fun m t0 => (List.range 0).foldlM (ngpTerm sq A t0) m) m = (.ok m : R _) := by
      intro l
      induction l with
      | nil => intro m; rfl
      | cons x l ih => intro m; rw [List.foldlM_cons]; exact ih m
    rw [hl, ok_bind]
    rfl

/-- Three configurations of two particles. -/
example : Reads (fun a b : ℚ => .ok [(b - a) ^ 2, 4 * (b - a) ^ 2]) 2 [0, 1, 3]
    (fun i j => [((([0, 1, 3] : List ℚ).getD j 0) - ([0, 1, 3] : List ℚ).getD i 0) ^ 2, 4 * ((([0, 1, 3] : List ℚ).getD j 0) - ([0, 1, 3] : List ℚ).getD i 0) ^ 2]) := by
  intro i j a b _ ha hb
  simp [List.getD_eq_getElem?_getD, ha, hb]

end Ngp

end Pbox
end Py
end Colloids
