import Mathlib.Tactic.Linarith
import Mathlib.Tactic.Ring
import Mathlib.Tactic.Positivity
import Mathlib.Tactic.FieldSimp
import Mathlib.Tactic.LinearCombination
import Verif.Py.BrownModel
import Verif.Py.PboxNgpProps
import Verif.Index.Lemmas

/-! # Two-point microrheology in python: C229, C230 -/

namespace Colloids
namespace Py
namespace Brown

/-- The last value of a key. -/
def lastOf {A : Type} [Zero A] (kvs : List (Nat × A)) (b : Nat) : A := (((kvs.filter fun kv => kv.1 == b).getLast?).map Prod.snd).getD 0

theorem set_fold {A : Type} [AddMonoid A] {N : Nat} (f : Nat → A) (kvs : List (Nat × A)) (h : ∀ kv ∈ kvs, kv.1 < N) :
    (kvs.map fun kv => (kv.1, f kv.1 + kv.2)).foldl (fun b kv => b.set kv.1 kv.2) ((List.range N).map f) =
      (List.range N).map fun b => f b + lastOf kvs b := by
  induction kvs using List.reverseRecOn with
  | nil => simp [lastOf]
  | append_singleton l x ih =>
    rw [List.map_append, List.foldl_append, ih fun kv hkv => h kv (List.mem_append_left _ hkv)]
    have hx : x.1 < N := h x (by simp)
    refine List.ext_getElem? fun b => ?_
    simp only [List.map_cons, List.map_nil, List.foldl_cons, List.foldl_nil, List.getElem?_set, List.length_map, List.length_range]
    by_cases hb : x.1 = b
    · subst hb
      rw [if_pos rfl, if_pos hx, List.getElem?_map, List.getElem?_range hx]
      simp [lastOf, List.filter_append]
    · rw [if_neg hb, List.getElem?_map, List.getElem?_map]
      by_cases hbN : b < N
      · have : lastOf (l ++ [x]) b = lastOf l b := by simp [lastOf, List.filter_append, hb]
        rw [List.getElem?_range hbN, Option.map_some, Option.map_some, this]
      · rw [List.getElem?_eq_none (by simpa using hbN)]; rfl

theorem fancyAdd_eq {A : Type} [AddMonoid A] {N : Nat} (f : Nat → A) (kvs : List (Nat × A)) (h : ∀ kv ∈ kvs, kv.1 < N) :
    fancyAdd ((List.range N).map f) kvs = .ok ((List.range N).map fun b => f b + lastOf kvs b) := by
  rw [fancyAdd, TreeIndex.mapM_ok_of _ (fun kv => (kv.1, f kv.1 + kv.2)), ok_bind, set_fold f kvs h, pure_eq_ok]
  intro kv hkv
  simp only [idx, List.getElem?_map, List.getElem?_range (h kv hkv), Option.map_some, ok_bind, pure_eq_ok]

/-- The distance of two particles. -/
noncomputable def distance (pos : List (Fin 3 → ℝ)) (i j : Nat) : ℝ := norm3 (pos.getD j 0 - pos.getD i 0)

/-- What the tree finds: the particles that are not further than `rmax`, each one once. -/
structure BallSpec (pos : List (Fin 3 → ℝ)) (rmax : ℝ) (ball : Nat → List Nat) : Prop where
  mem : ∀ i j, j ∈ ball i ↔ j < pos.length ∧ distance pos i j ≤ rmax
  nodup : ∀ i, (ball i).Nodup

theorem near_iff (pos : List (Fin 3 → ℝ)) {rmin : ℝ} (h : 0 < rmin) (i j : Nat) :
    rmin ^ 2 ≤ ∑ k, (pos.getD j 0 k - pos.getD i 0 k) ^ 2 ↔ rmin ≤ distance pos i j := by
  unfold distance norm3
  rw [Real.le_sqrt' h]
  rfl

/-- The bin of a distance. -/
theorem logBin_iff {rmin rmax d : ℝ} {n : Nat} (h0 : 0 < rmin) (h1 : rmin < rmax) (hn : 0 < n) (hd : rmin ≤ d) (b : Nat) :
    logBin rmin rmax n d = b ↔ Real.exp (b * ((Real.log rmax - Real.log rmin) / n) + Real.log rmin) ≤ d ∧
      d < Real.exp (((b + 1 : Nat) : ℝ) * ((Real.log rmax - Real.log rmin) / n) + Real.log rmin) := by
  have hd0 : 0 < d := lt_of_lt_of_le h0 hd
  have hn' : (0 : ℝ) < n := by exact_mod_cast hn
  have hw : 0 < (Real.log rmax - Real.log rmin) / n := div_pos (sub_pos.2 (Real.log_lt_log h0 h1)) hn'
  have hl : 0 ≤ Real.log d - Real.log rmin := sub_nonneg.2 (Real.log_le_log h0 hd)
  rw [← Real.le_log_iff_exp_le hd0, ← Real.log_lt_iff_lt_exp hd0, logBin]
  have hq : 0 ≤ (Real.log d - Real.log rmin) / ((Real.log rmax - Real.log rmin) / n) := div_nonneg hl hw.le
  have hf : 0 ≤ ⌊(Real.log d - Real.log rmin) / ((Real.log rmax - Real.log rmin) / n)⌋ := Int.floor_nonneg.2 hq
  rw [show (⌊(Real.log d - Real.log rmin) / ((Real.log rmax - Real.log rmin) / n)⌋.toNat = b) ↔
    ⌊(Real.log d - Real.log rmin) / ((Real.log rmax - Real.log rmin) / n)⌋ = (b : ℤ) by omega, Int.floor_eq_iff, le_div_iff₀ hw, div_lt_iff₀ hw]
  push_cast
  constructor
  · rintro ⟨a, c⟩; constructor <;> linarith
  · rintro ⟨a, c⟩; constructor <;> linarith

theorem logBin_lt {rmin rmax d : ℝ} {n : Nat} (h0 : 0 < rmin) (h1 : rmin < rmax) (hn : 0 < n) (hd : rmin ≤ d) (hd' : d < rmax) :
    logBin rmin rmax n d < n := by
  have hd0 : 0 < d := lt_of_lt_of_le h0 hd
  have hn' : (0 : ℝ) < n := by exact_mod_cast hn
  have hw : 0 < (Real.log rmax - Real.log rmin) / n := div_pos (sub_pos.2 (Real.log_lt_log h0 h1)) hn'
  have hl := Real.log_lt_log hd0 hd'
  have : ⌊(Real.log d - Real.log rmin) / ((Real.log rmax - Real.log rmin) / n)⌋ < (n : ℤ) := by
    rw [Int.floor_lt, div_lt_iff₀ hw]
    push_cast
    rw [mul_div_cancel₀ _ hn'.ne']
    linarith
  unfold logBin
  omega

theorem logBin_max {rmin rmax : ℝ} {n : Nat} (h0 : 0 < rmin) (h1 : rmin < rmax) (hn : 0 < n) : logBin rmin rmax n rmax = n := by
  have hn' : (n : ℝ) ≠ 0 := by positivity
  have hw : Real.log rmax - Real.log rmin ≠ 0 := (sub_pos.2 (Real.log_lt_log h0 h1)).ne'
  have : (Real.log rmax - Real.log rmin) / ((Real.log rmax - Real.log rmin) / n) = n := by field_simp
  rw [logBin, this]
  simp

open Classical in
/-- The neighbours of `i` between two distances, in the order of the tree. -/
noncomputable def between (pos : List (Fin 3 → ℝ)) (ball : Nat → List Nat) (lo hi : ℝ) (i : Nat) : List Nat :=
  (ball i).filter fun j => decide (lo ≤ distance pos i j ∧ distance pos i j < hi)

/-- The limit number `b` of the bins. -/
noncomputable def edge (rmin rmax : ℝ) (n b : Nat) : ℝ := Real.exp (b * ((Real.log rmax - Real.log rmin) / n) + Real.log rmin)

theorem edge_ge {rmin rmax : ℝ} {n : Nat} (h0 : 0 < rmin) (h1 : rmin < rmax) (b : Nat) : rmin ≤ edge rmin rmax n b := by
  have hw : 0 ≤ (Real.log rmax - Real.log rmin) / n := div_nonneg (sub_pos.2 (Real.log_lt_log h0 h1)).le (Nat.cast_nonneg _)
  unfold edge
  rw [← Real.log_le_iff_le_exp h0]
  have : 0 ≤ (b : ℝ) * ((Real.log rmax - Real.log rmin) / n) := mul_nonneg (Nat.cast_nonneg _) hw
  linarith

theorem bin_filter {pos : List (Fin 3 → ℝ)} {ball : Nat → List Nat} {rmin rmax : ℝ} {n : Nat} (h0 : 0 < rmin) (h1 : rmin < rmax) (hn : 0 < n)
    (i b : Nat) : (neighbours pos ball rmin i).filter (fun j => logBin rmin rmax n (distance pos i j) == b) =
      between pos ball (edge rmin rmax n b) (edge rmin rmax n (b + 1)) i := by
  classical
  rw [neighbours, between, List.filter_filter]
  refine List.filter_congr fun j _ => ?_
  rw [Bool.eq_iff_iff]
  simp only [Bool.and_eq_true, beq_iff_eq, decide_eq_true_eq, near_iff pos h0]
  constructor
  · rintro ⟨a, c⟩; exact (logBin_iff h0 h1 hn c b).1 a
  · intro h
    have c := le_trans (edge_ge h0 h1 b) h.1
    exact ⟨(logBin_iff h0 h1 hn c b).2 h, c⟩

theorem lastOf_map {A : Type} [Zero A] (js : List Nat) (bin : Nat → Nat) (v : Nat → A) (b : Nat) :
    lastOf (js.map fun j => (bin j, v j)) b = (((js.filter fun j => bin j == b).getLast?).map v).getD 0 := by
  unfold lastOf
  rw [List.filter_map, List.getLast?_map, Option.map_map]
  rfl

/-- The body of the loop when no neighbour is at `rmax`. -/
theorem brownStep_eq {pos : List (Fin 3 → ℝ)} {disp : Nat → Nat → Fin 3 → ℝ} {ball : Nat → List Nat} {rmin rmax : ℝ} {n : Nat} (h0 : 0 < rmin)
    (h1 : rmin < rmax) (hn : 0 < n) {i : Nat} (hi : i < pos.length) (hlt : ∀ j ∈ ball i, distance pos i j < rmax)
    (f : Nat → Nat → Fin 6 → WithTop ℝ) (g : Nat → Nat) :
    brownStep pos disp ball rmin rmax n ((List.range n).map f, (List.range n).map g) i =
      .ok ((List.range n).map fun b => f b + (((between pos ball (edge rmin rmax n b) (edge rmin rmax n (b + 1)) i).getLast?).map (payload pos disp i)).getD 0,
        (List.range n).map fun b => g b + (((between pos ball (edge rmin rmax n b) (edge rmin rmax n (b + 1)) i).getLast?).map fun _ => 1).getD 0) := by
  have hmem : ∀ j ∈ neighbours pos ball rmin i, logBin rmin rmax n (distance pos i j) < n := by
    intro j hj
    unfold neighbours at hj
    simp only [List.mem_filter, decide_eq_true_eq, near_iff pos h0] at hj
    exact logBin_lt h0 h1 hn hj.2 (hlt j hj.1)
  have hk : ∀ (A : Type) (v : Nat → A), ∀ kv ∈ (neighbours pos ball rmin i).map (fun j => (logBin rmin rmax n (distance pos i j), v j)), kv.1 < n := by
    intro A v kv hkv
    obtain ⟨j, hj, rfl⟩ := List.mem_map.1 hkv
    exact hmem j hj
  have hidx : idx pos i = .ok pos[i] := by rw [idx, List.getElem?_eq_getElem hi]
  have e1 := fancyAdd_eq f _ (hk _ (payload pos disp i))
  have e2 := fancyAdd_eq g _ (hk _ (fun _ => 1))
  simp only [lastOf_map, bin_filter h0 h1 hn] at e1 e2
  have hdist : ∀ j, norm3 (pos.getD j 0 - pos.getD i 0) = distance pos i j := fun _ => rfl
  simp only [brownStep, hidx, ok_bind, hdist, e1, e2, pure_eq_ok]

theorem brown_fold {pos : List (Fin 3 → ℝ)} {disp : Nat → Nat → Fin 3 → ℝ} {ball : Nat → List Nat} {rmin rmax : ℝ} {n : Nat} (h0 : 0 < rmin)
    (h1 : rmin < rmax) (hn : 0 < n) (inside : List Nat) (hin : ∀ i ∈ inside, i < pos.length ∧ ∀ j ∈ ball i, distance pos i j < rmax)
    (f : Nat → Nat → Fin 6 → WithTop ℝ) (g : Nat → Nat) :
    inside.foldlM (brownStep pos disp ball rmin rmax n) ((List.range n).map f, (List.range n).map g) =
      .ok ((List.range n).map fun b => f b + (inside.map fun i =>
          (((between pos ball (edge rmin rmax n b) (edge rmin rmax n (b + 1)) i).getLast?).map (payload pos disp i)).getD 0).sum,
        (List.range n).map fun b => g b + (inside.map fun i =>
          (((between pos ball (edge rmin rmax n b) (edge rmin rmax n (b + 1)) i).getLast?).map fun _ => 1).getD 0).sum) := by
  induction inside generalizing f g with
  | nil => simp [pure_eq_ok]
  | cons i l ih =>
    obtain ⟨hi, hlt⟩ := hin i List.mem_cons_self
    rw [List.foldlM_cons, brownStep_eq h0 h1 hn hi hlt, ok_bind, ih fun x hx => hin x (List.mem_cons_of_mem _ hx)]
    simp only [List.map_cons, List.sum_cons, add_assoc]

/-- C229. In `get_Brownian_corr` the limits of the bins go from `rmin` to `rmax` with a constant ratio; in each bin each particle of the selection
contributes for the last one of its neighbours that the tree gives between the limits of the bin, and is counted once if it has such a neighbour. -/
theorem C229_last_partial {pos : List (Fin 3 → ℝ)} {disp : Nat → Nat → Fin 3 → ℝ} {ball : Nat → List Nat} {rmin rmax : ℝ} {n : Nat} (h0 : 0 < rmin)
    (h1 : rmin < rmax) (hn : 0 < n) (hball : BallSpec pos rmax ball) (inside : List Nat) (hin : ∀ i ∈ inside, i < pos.length)
    (hne : ∀ i ∈ inside, ∀ j < pos.length, distance pos i j ≠ rmax) :
    ∃ bres nb edges, brownianCorr pos disp ball rmin rmax n inside = .ok (bres, nb, edges) ∧ bres.length = n ∧ nb.length = n ∧ edges.length = n + 1 ∧
      edges[0]? = some rmin ∧ edges[n]? = some rmax ∧
      ∀ (b : Nat) (lo hi : ℝ), edges[b]? = some lo → edges[b + 1]? = some hi → hi / lo = Real.exp (Real.log (rmax / rmin) / n) ∧
        bres[b]? = some ((inside.map fun i => (((between pos ball lo hi i).getLast?).map (payload pos disp i)).getD 0).sum) ∧
        nb[b]? = some (inside.countP fun i => !(between pos ball lo hi i).isEmpty) := by
  have hn' : (n : ℝ) ≠ 0 := by positivity
  have hrmax : 0 < rmax := h0.trans h1
  have hfold := brown_fold (disp := disp) h0 h1 hn inside (ball := ball) (fun i hi => ⟨hin i hi, fun j hj => by
    obtain ⟨g1, g2⟩ := (hball.mem i j).1 hj
    exact lt_of_le_of_ne g2 (hne i hi j g1)⟩) (fun _ => 0) (fun _ => 0)
  refine ⟨(List.range n).map fun b => 0 + (inside.map fun i =>
          (((between pos ball (edge rmin rmax n b) (edge rmin rmax n (b + 1)) i).getLast?).map (payload pos disp i)).getD 0).sum,
        (List.range n).map fun b => 0 + (inside.map fun i =>
          (((between pos ball (edge rmin rmax n b) (edge rmin rmax n (b + 1)) i).getLast?).map fun _ => 1).getD 0).sum,
    (List.range (n + 1)).map (edge rmin rmax n), ?_, ?_, ?_, by simp, ?_, ?_, ?_⟩
  · rw [brownianCorr, Pbox.replicate_eq_map, Pbox.replicate_eq_map, hfold, ok_bind]
    rfl
  · simp
  · simp
  · simp [edge, Real.exp_log h0]
  · rw [List.getElem?_map, List.getElem?_range (by omega), Option.map_some, edge, mul_div_cancel₀ _ hn', sub_add_cancel, Real.exp_log hrmax]
  · intro b lo hi hlo hhi
    have hb : b + 1 < n + 1 := by
      have := (List.getElem?_eq_some_iff.1 hhi).1
      simpa using this
    rw [List.getElem?_map, List.getElem?_range (by omega), Option.map_some, Option.some.injEq] at hlo hhi
    refine ⟨?_, ?_, ?_⟩
    · rw [← hlo, ← hhi, edge, edge, ← Real.exp_sub, Real.log_div hrmax.ne' h0.ne']
      congr 1
      push_cast
      ring
    · rw [List.getElem?_map, List.getElem?_range (by omega), Option.map_some, hlo, hhi, zero_add]
    · rw [List.getElem?_map, List.getElem?_range (by omega), Option.map_some, hlo, hhi, zero_add]
      congr 1
      clear hfold hin hne
      induction inside with
      | nil => rfl
      | cons i l ih =>
        rw [List.map_cons, List.sum_cons, ih, List.countP_cons]
        cases hbt : between pos ball lo hi i with
        | nil => simp
        | cons x xs =>
          rw [List.getLast?_eq_some_getLast (by simp)]
          simp [add_comm]

/-- C229. When no particle has two neighbours in the same bin the sums are over all the pairs of a particle of the selection and another particle at a
distance in the bin. -/
theorem C229_pairs_partial {pos : List (Fin 3 → ℝ)} {disp : Nat → Nat → Fin 3 → ℝ} {ball : Nat → List Nat} {rmin rmax : ℝ} {n : Nat} (h0 : 0 < rmin)
    (h1 : rmin < rmax) (hn : 0 < n) (hball : BallSpec pos rmax ball) (inside : List Nat) (hin : ∀ i ∈ inside, i < pos.length)
    (hne : ∀ i ∈ inside, ∀ j < pos.length, distance pos i j ≠ rmax) :
    ∃ bres nb edges, brownianCorr pos disp ball rmin rmax n inside = .ok (bres, nb, edges) ∧
      ∀ (b : Nat) (lo hi : ℝ), edges[b]? = some lo → edges[b + 1]? = some hi →
        (∀ i ∈ inside, ∀ j j', j < pos.length → j' < pos.length → lo ≤ distance pos i j → distance pos i j < hi → lo ≤ distance pos i j' → distance pos i j' < hi → j = j') →
        bres[b]? = some ((inside.map fun i => ((between pos ball lo hi i).map (payload pos disp i)).sum).sum) ∧
        nb[b]? = some ((inside.map fun i => (between pos ball lo hi i).length).sum) := by
  obtain ⟨bres, nb, edges, hr, _, _, _, _, _, hb⟩ := C229_last_partial (disp := disp) h0 h1 hn hball inside hin hne
  refine ⟨bres, nb, edges, hr, fun b lo hi hlo hhi hone => ?_⟩
  obtain ⟨_, g1, g2⟩ := hb b lo hi hlo hhi
  have hshort : ∀ i ∈ inside, between pos ball lo hi i = [] ∨ ∃ j, between pos ball lo hi i = [j] := by
    intro i hi'
    have hnd : (between pos ball lo hi i).Nodup := by unfold between; exact (hball.nodup i).filter _
    have hm : ∀ j ∈ between pos ball lo hi i, j < pos.length ∧ lo ≤ distance pos i j ∧ distance pos i j < hi := by
      intro j hj
      unfold between at hj
      simp only [List.mem_filter, decide_eq_true_eq] at hj
      exact ⟨((hball.mem i j).1 hj.1).1, hj.2⟩
    rcases hbt : between pos ball lo hi i with _ | ⟨x, _ | ⟨y, l⟩⟩
    · exact Or.inl rfl
    · exact Or.inr ⟨x, rfl⟩
    · rw [hbt] at hnd hm
      have hx := hm x (by simp)
      have hy := hm y (by simp)
      have := hone i hi' x y hx.1 hy.1 hx.2.1 hx.2.2 hy.2.1 hy.2.2
      rw [List.nodup_cons] at hnd
      exact absurd (this ▸ List.mem_cons_self) hnd.1
  constructor
  · rw [g1]
    congr 1
    refine congrArg List.sum (List.map_congr_left fun i hi' => ?_)
    rcases hshort i hi' with h | ⟨j, h⟩ <;> rw [h] <;> simp
  · rw [g2]
    congr 1
    clear hone hr g1 g2 hb hin hne
    induction inside with
    | nil => rfl
    | cons i l ih =>
      rw [List.countP_cons, List.map_cons, List.sum_cons, ih fun x hx => hshort x (List.mem_cons_of_mem _ hx), add_comm]
      rcases hshort i List.mem_cons_self with h | ⟨j, h⟩ <;> rw [h] <;> simp

/-- C229, the part that is false. Two neighbours of a particle in the same bin count as one: numpy assigns once to a repeated index. -/
theorem C229_repeated_counterexample {pos : List (Fin 3 → ℝ)} {disp : Nat → Nat → Fin 3 → ℝ} {ball : Nat → List Nat} {rmin rmax : ℝ} {n : Nat} (h0 : 0 < rmin)
    (h1 : rmin < rmax) (hn : 0 < n) (hball : BallSpec pos rmax ball) (i : Nat) (hi : i < pos.length)
    (hne : ∀ j < pos.length, distance pos i j ≠ rmax) (j j' : Nat) (hj : j < pos.length) (hj' : j' < pos.length) (hjj : j ≠ j')
    (hd : rmin ≤ distance pos i j) (hd' : distance pos i j = distance pos i j') (hm : distance pos i j < rmax) :
    ∃ bres nb edges, brownianCorr pos disp ball rmin rmax n [i] = .ok (bres, nb, edges) ∧ ∃ (b : Nat) (lo hi : ℝ), edges[b]? = some lo ∧
      edges[b + 1]? = some hi ∧ nb[b]? = some 1 ∧ 2 ≤ (between pos ball lo hi i).length := by
  obtain ⟨bres, nb, edges, hr, _, _, hl, _, _, hb⟩ := C229_last_partial (disp := disp) h0 h1 hn hball [i] (by simpa using hi) (by simpa using hne)
  refine ⟨bres, nb, edges, hr, logBin rmin rmax n (distance pos i j), edge rmin rmax n (logBin rmin rmax n (distance pos i j)),
    edge rmin rmax n (logBin rmin rmax n (distance pos i j) + 1), ?_⟩
  have hlt := logBin_lt h0 h1 hn hd hm
  have hedges : edges = (List.range (n + 1)).map (edge rmin rmax n) := by
    rw [brownianCorr, bind_ok] at hr
    obtain ⟨⟨x, y⟩, _, hr⟩ := hr
    simp only [pure_eq_ok, Except.ok.injEq, Prod.mk.injEq] at hr
    exact hr.2.2.symm
  have e1 : edges[logBin rmin rmax n (distance pos i j)]? = some (edge rmin rmax n (logBin rmin rmax n (distance pos i j))) := by
    rw [hedges, List.getElem?_map, List.getElem?_range (by omega), Option.map_some]
  have e2 : edges[logBin rmin rmax n (distance pos i j) + 1]? = some (edge rmin rmax n (logBin rmin rmax n (distance pos i j) + 1)) := by
    rw [hedges, List.getElem?_map, List.getElem?_range (by omega), Option.map_some]
  have hin := (logBin_iff h0 h1 hn hd _).1 rfl
  have m1 : j ∈ between pos ball (edge rmin rmax n (logBin rmin rmax n (distance pos i j))) (edge rmin rmax n (logBin rmin rmax n (distance pos i j) + 1)) i := by
    unfold between
    simp only [List.mem_filter, decide_eq_true_eq]
    exact ⟨(hball.mem i j).2 ⟨hj, hm.le⟩, hin⟩
  have m2 : j' ∈ between pos ball (edge rmin rmax n (logBin rmin rmax n (distance pos i j))) (edge rmin rmax n (logBin rmin rmax n (distance pos i j) + 1)) i := by
    unfold between
    simp only [List.mem_filter, decide_eq_true_eq]
    rw [← hd']
    exact ⟨(hball.mem i j').2 ⟨hj', hd' ▸ hm.le⟩, hin⟩
  refine ⟨e1, e2, ?_, ?_⟩
  · rw [(hb _ _ _ e1 e2).2.2]
    cases hbt : between pos ball (edge rmin rmax n (logBin rmin rmax n (distance pos i j))) (edge rmin rmax n (logBin rmin rmax n (distance pos i j) + 1)) i with
    | nil => rw [hbt] at m1; exact absurd m1 List.not_mem_nil
    | cons x l => simp [hbt]
  · generalize between pos ball (edge rmin rmax n (logBin rmin rmax n (distance pos i j))) (edge rmin rmax n (logBin rmin rmax n (distance pos i j) + 1)) i = l at m1 m2
    match l, m1, m2 with
    | [], m1, _ => exact absurd m1 List.not_mem_nil
    | [x], m1, m2 =>
      simp only [List.mem_singleton] at m1 m2
      exact absurd (m1.trans m2.symm) hjj
    | _ :: _ :: _, _, _ => simp

/-- C229, the part that is false. A neighbour exactly at `rmax`, that the tree gives, is out of the last bin: the function stops with an error. -/
theorem C229_limit_counterexample {pos : List (Fin 3 → ℝ)} {disp : Nat → Nat → Fin 3 → ℝ} {ball : Nat → List Nat} {rmin rmax : ℝ} {n : Nat} (h0 : 0 < rmin)
    (h1 : rmin < rmax) (hn : 0 < n) (hball : BallSpec pos rmax ball) (inside rest : List Nat) (hin : ∀ i ∈ inside, i < pos.length)
    (hne : ∀ i ∈ inside, ∀ j < pos.length, distance pos i j ≠ rmax) (i j : Nat) (hi : i < pos.length) (hj : j < pos.length)
    (hd : distance pos i j = rmax) : brownianCorr pos disp ball rmin rmax n (inside ++ i :: rest) = .error .outOfRange := by
  have hfold := brown_fold (disp := disp) h0 h1 hn inside (ball := ball) (fun i hi => ⟨hin i hi, fun j hj => by
    obtain ⟨g1, g2⟩ := (hball.mem i j).1 hj
    exact lt_of_le_of_ne g2 (hne i hi j g1)⟩) (fun _ => 0) (fun _ => 0)
  have hidx : idx pos i = .ok pos[i] := by rw [idx, List.getElem?_eq_getElem hi]
  have herr : ∀ (a : List (Nat → Fin 6 → WithTop ℝ)), a.length = n → ∀ v : Nat → Nat → Fin 6 → WithTop ℝ,
      fancyAdd a ((neighbours pos ball rmin i).map fun j => (logBin rmin rmax n (distance pos i j), v j)) = .error .outOfRange := by
    intro a ha v
    have hmem : j ∈ neighbours pos ball rmin i := by
      unfold neighbours
      simp only [List.mem_filter, decide_eq_true_eq, near_iff pos h0]
      exact ⟨(hball.mem i j).2 ⟨hj, hd.le⟩, by rw [hd]; exact h1.le⟩
    have hm : (logBin rmin rmax n (distance pos i j), v j) ∈ (neighbours pos ball rmin i).map fun j => (logBin rmin rmax n (distance pos i j), v j) :=
      List.mem_map.2 ⟨j, hmem, rfl⟩
    have hkey : ∀ kvs : List (Nat × (Nat → Fin 6 → WithTop ℝ)), (∃ kv ∈ kvs, a.length ≤ kv.1) →
        (kvs.mapM fun kv => do
          let old ← idx a kv.1
          pure (kv.1, old + kv.2)) = (.error .outOfRange : R _) := by
      intro kvs
      induction kvs with
      | nil => rintro ⟨_, h, _⟩; exact absurd h List.not_mem_nil
      | cons x l ih =>
        rintro ⟨kv, h, hle⟩
        rw [List.mapM_cons]
        by_cases hx : x.1 < a.length
        · have hl : ∃ kv ∈ l, a.length ≤ kv.1 := by
            rcases List.mem_cons.1 h with rfl | h
            · omega
            · exact ⟨kv, h, hle⟩
          simp only [idx, List.getElem?_eq_getElem hx, ok_bind, pure_eq_ok]
          have := ih hl
          simp only [idx, pure_eq_ok] at this
          rw [this, error_bind]
        · simp only [idx, List.getElem?_eq_none (not_lt.1 hx), error_bind]
    rw [fancyAdd, hkey _ ⟨_, hm, by rw [hd, logBin_max h0 h1 hn]; omega⟩, error_bind]
  rw [brownianCorr, List.foldlM_append, Pbox.replicate_eq_map, Pbox.replicate_eq_map, hfold, ok_bind, List.foldlM_cons]
  have hdist : ∀ j, norm3 (pos.getD j 0 - pos.getD i 0) = distance pos i j := fun _ => rfl
  simp only [brownStep, hidx, ok_bind, hdist]
  rw [herr _ (by simp), error_bind, error_bind, error_bind]

/-- Two particles on the last axis but one, with what a tree gives for them. -/
theorem ball_pair : BallSpec [![0, 0, 0], ![1, 0, 0]] 3 (fun _ => [0, 1]) := by
  have hn : ∀ a : ℝ, 0 ≤ a → norm3 ![a, 0, 0] = a := fun a ha => by
    simp [norm3, Fin.sum_univ_three, Real.sqrt_sq ha]
  have hn' : norm3 ![-1, 0, 0] = 1 := by simp [norm3, Fin.sum_univ_three]
  have hz : ∀ i j : Nat, distance [![0, 0, 0], ![1, 0, 0]] i j ≤ 3 := by
    intro i j
    have e : ∀ k : Nat, ([![0, 0, 0], ![1, 0, 0]] : List (Fin 3 → ℝ)).getD k 0 = ![if k = 1 then 1 else 0, 0, 0] := by
      intro k
      match k with
      | 0 => simp
      | 1 => simp
      | k + 2 => ext x; fin_cases x <;> simp
    unfold distance
    rw [e, e]
    have : (![if j = 1 then 1 else 0, 0, 0] - ![if i = 1 then 1 else 0, 0, 0] : Fin 3 → ℝ) = ![(if j = 1 then 1 else 0) - (if i = 1 then 1 else 0), 0, 0] := by
      ext x; fin_cases x <;> simp
    rw [this]
    by_cases hi : i = 1 <;> by_cases hj : j = 1
    · rw [if_pos hi, if_pos hj, sub_self, hn 0 le_rfl]; norm_num
    · rw [if_pos hi, if_neg hj, zero_sub, hn']; norm_num
    · rw [if_neg hi, if_pos hj, sub_zero, hn 1 zero_le_one]; norm_num
    · rw [if_neg hi, if_neg hj, sub_zero, hn 0 le_rfl]; norm_num
  refine ⟨fun i j => ?_, fun _ => by decide⟩
  constructor
  · intro h
    refine ⟨?_, hz i j⟩
    rcases (by simpa using h : j = 0 ∨ j = 1) with rfl | rfl <;> simp
  · rintro ⟨h, _⟩
    have : j < 2 := by simpa using h
    have : j = 0 ∨ j = 1 := by omega
    simpa using this

/-! ## C230 -/

theorem norm3_sq (r : Fin 3 → ℝ) : norm3 r ^ 2 = r 0 ^ 2 + r 1 ^ 2 + r 2 ^ 2 := by
  rw [norm3, Real.sq_sqrt (Finset.sum_nonneg fun _ _ => sq_nonneg _), Fin.sum_univ_three]

/-- C230. For two particles that are not above each other the three components are numbers: the first one is the product of the displacements along the
line of the particles, the third one is the product of the displacements along the horizontal direction normal to this line, and the sum of the three
is the scalar product of the displacements. The three others are their squares. -/
theorem C230_components (r d e : Fin 3 → ℝ) (h : r 0 ≠ 0 ∨ r 1 ≠ 0) :
    ∃ x y z : ℝ, six (comps r d e) = ![(x : WithTop ℝ), (y : WithTop ℝ), (z : WithTop ℝ), ((x ^ 2 : ℝ) : WithTop ℝ), ((y ^ 2 : ℝ) : WithTop ℝ), ((z ^ 2 : ℝ) : WithTop ℝ)] ∧
      x * (r 0 ^ 2 + r 1 ^ 2 + r 2 ^ 2) = (d 0 * r 0 + d 1 * r 1 + d 2 * r 2) * (e 0 * r 0 + e 1 * r 1 + e 2 * r 2) ∧
      z * (r 0 ^ 2 + r 1 ^ 2) = (d 0 * r 1 - d 1 * r 0) * (e 0 * r 1 - e 1 * r 0) ∧
      x + y + z = d 0 * e 0 + d 1 * e 1 + d 2 * e 2 := by
  have hpos : 0 < r 0 ^ 2 + r 1 ^ 2 := by
    rcases h with h | h
    · have := sq_pos_of_ne_zero h; nlinarith [sq_nonneg (r 1)]
    · have := sq_pos_of_ne_zero h; nlinarith [sq_nonneg (r 0)]
  have hrho : Real.sqrt (r 0 ^ 2 + r 1 ^ 2) ≠ 0 := (Real.sqrt_pos.2 hpos).ne'
  have hrho2 : Real.sqrt (r 0 ^ 2 + r 1 ^ 2) ^ 2 = r 0 ^ 2 + r 1 ^ 2 := Real.sq_sqrt hpos.le
  have hn2 := norm3_sq r
  have hn0 : norm3 r ≠ 0 := by
    intro h0
    rw [h0] at hn2
    nlinarith [sq_nonneg (r 2)]
  simp only [comps, planar, if_neg hrho]
  generalize Real.sqrt (r 0 ^ 2 + r 1 ^ 2) = ρ at hrho hrho2
  generalize norm3 r = N at hn0 hn2
  refine ⟨_, _, _, rfl, ?_, ?_, ?_⟩
  · simp only [dot, Fin.sum_univ_three]
    rw [← hn2]
    field_simp
  · rw [← hrho2]
    field_simp
    ring
  · have e2 : ∀ a b c : ℝ, (![a, b, c] : Fin 3 → ℝ) 2 = c := fun _ _ _ => rfl
    simp only [dot, third, Fin.sum_univ_three, Matrix.cons_val_zero, Matrix.cons_val_one, e2]
    field_simp
    simp only [hn2, hrho2]
    ring

/-- C230. What a pair adds to the sums at each interval of time: the components of the displacements of its two particles in this interval, relative
to the vector between their initial positions. -/
theorem C230_contribution {pos : List (Fin 3 → ℝ)} (disp : Nat → Nat → Fin 3 → ℝ) (i j l : Nat) {a b : Fin 3 → ℝ} (ha : pos[i]? = some a)
    (hb : pos[j]? = some b) (h : b 0 ≠ a 0 ∨ b 1 ≠ a 1) :
    ∃ x y z : ℝ, payload pos disp i j l = ![(x : WithTop ℝ), (y : WithTop ℝ), (z : WithTop ℝ), ((x ^ 2 : ℝ) : WithTop ℝ), ((y ^ 2 : ℝ) : WithTop ℝ), ((z ^ 2 : ℝ) : WithTop ℝ)] ∧
      x * ∑ k, (b k - a k) ^ 2 = (∑ k, disp l i k * (b k - a k)) * ∑ k, disp l j k * (b k - a k) ∧
      z * ((b 0 - a 0) ^ 2 + (b 1 - a 1) ^ 2) =
        (disp l i 0 * (b 1 - a 1) - disp l i 1 * (b 0 - a 0)) * (disp l j 0 * (b 1 - a 1) - disp l j 1 * (b 0 - a 0)) ∧
      x + y + z = ∑ k, disp l i k * disp l j k := by
  have ea : pos.getD i 0 = a := by rw [List.getD_eq_getElem?_getD, ha]; rfl
  have eb : pos.getD j 0 = b := by rw [List.getD_eq_getElem?_getD, hb]; rfl
  obtain ⟨x, y, z, g1, g2, g3, g4⟩ := C230_components (b - a) (disp l i) (disp l j) (by simpa only [Pi.sub_apply, sub_ne_zero] using h)
  refine ⟨x, y, z, ?_, ?_, ?_, ?_⟩
  · rw [payload, ea, eb, g1]
  · simpa only [Fin.sum_univ_three, Pi.sub_apply] using g2
  · simpa only [Pi.sub_apply] using g3
  · simpa only [Fin.sum_univ_three] using g4

/-- C230, the part that is false. For two particles above each other the second and the third component are not numbers. -/
theorem C230_axis_counterexample (r d e : Fin 3 → ℝ) (h0 : r 0 = 0) (h1 : r 1 = 0) :
    six (comps r d e) 1 = ⊤ ∧ six (comps r d e) 2 = ⊤ := by
  have : planar r = none := by simp [planar, h0, h1]
  simp only [comps, this]
  exact ⟨rfl, rfl⟩

theorem sum_top {ι : Type} (l : List ι) (f : ι → Nat → Fin 6 → WithTop ℝ) (i : ι) (hi : i ∈ l) (t : Nat) (k : Fin 6) (h : f i t k = ⊤) :
    (l.map f).sum t k = ⊤ := by
  induction l with
  | nil => exact absurd hi List.not_mem_nil
  | cons x l ih =>
    rw [List.map_cons, List.sum_cons, Pi.add_apply, Pi.add_apply]
    rcases List.mem_cons.1 hi with rfl | hi
    · rw [h, WithTop.top_add]
    · rw [ih hi, WithTop.add_top]

/-- C230, the part that is false. One particle of the selection, the neighbour of which in a bin is above it, makes both transverse sums of this bin
something that is not a number, for all the intervals of time. -/
theorem C230_spoiled_counterexample {pos : List (Fin 3 → ℝ)} {disp : Nat → Nat → Fin 3 → ℝ} {ball : Nat → List Nat} {rmin rmax : ℝ} {n : Nat} (h0 : 0 < rmin)
    (h1 : rmin < rmax) (hn : 0 < n) (hball : BallSpec pos rmax ball) (inside : List Nat) (hin : ∀ i ∈ inside, i < pos.length)
    (hne : ∀ i ∈ inside, ∀ j < pos.length, distance pos i j ≠ rmax) (i j : Nat) (hi : i ∈ inside) (hj : j < pos.length)
    (hx : pos.getD j 0 0 = pos.getD i 0 0) (hy : pos.getD j 0 1 = pos.getD i 0 1) (hd : rmin ≤ distance pos i j) (hm : distance pos i j < rmax)
    (hone : ∀ j' < pos.length, distance pos i j' < rmin ∨ rmax < distance pos i j' ∨ j' = j) :
    ∃ bres nb edges, brownianCorr pos disp ball rmin rmax n inside = .ok (bres, nb, edges) ∧
      ∃ (b : Nat) (v : Nat → Fin 6 → WithTop ℝ), bres[b]? = some v ∧ ∀ t, v t 1 = ⊤ ∧ v t 2 = ⊤ := by
  obtain ⟨bres, nb, edges, hr, _, _, hl, _, _, hb⟩ := C229_last_partial (disp := disp) h0 h1 hn hball inside hin hne
  have hlt := logBin_lt h0 h1 hn hd hm
  have hedges : edges = (List.range (n + 1)).map (edge rmin rmax n) := by
    rw [brownianCorr, bind_ok] at hr
    obtain ⟨⟨x, y⟩, _, hr⟩ := hr
    simp only [pure_eq_ok, Except.ok.injEq, Prod.mk.injEq] at hr
    exact hr.2.2.symm
  have e1 : edges[logBin rmin rmax n (distance pos i j)]? = some (edge rmin rmax n (logBin rmin rmax n (distance pos i j))) := by
    rw [hedges, List.getElem?_map, List.getElem?_range (by omega), Option.map_some]
  have e2 : edges[logBin rmin rmax n (distance pos i j) + 1]? = some (edge rmin rmax n (logBin rmin rmax n (distance pos i j) + 1)) := by
    rw [hedges, List.getElem?_map, List.getElem?_range (by omega), Option.map_some]
  have hio := (logBin_iff h0 h1 hn hd _).1 rfl
  refine ⟨bres, nb, edges, hr, _, _, (hb _ _ _ e1 e2).2.1, fun t => ?_⟩
  have hlast : (between pos ball (edge rmin rmax n (logBin rmin rmax n (distance pos i j))) (edge rmin rmax n (logBin rmin rmax n (distance pos i j) + 1)) i).getLast? = some j := by
    have hmem : j ∈ between pos ball (edge rmin rmax n (logBin rmin rmax n (distance pos i j))) (edge rmin rmax n (logBin rmin rmax n (distance pos i j) + 1)) i := by
      unfold between
      simp only [List.mem_filter, decide_eq_true_eq]
      exact ⟨(hball.mem i j).2 ⟨hj, hm.le⟩, hio⟩
    have hall : ∀ x ∈ between pos ball (edge rmin rmax n (logBin rmin rmax n (distance pos i j))) (edge rmin rmax n (logBin rmin rmax n (distance pos i j) + 1)) i, x = j := by
      intro x hx
      unfold between at hx
      simp only [List.mem_filter, decide_eq_true_eq] at hx
      obtain ⟨g1, g2⟩ := (hball.mem i x).1 hx.1
      rcases hone x g1 with h | h | h
      · exact absurd (le_trans (edge_ge h0 h1 _) hx.2.1) (not_le.2 h)
      · exact absurd g2 (not_le.2 h)
      · exact h
    rw [List.getLast?_eq_some_getLast (List.ne_nil_of_mem hmem)]
    exact congrArg some (hall _ (List.getLast_mem _))
  have htop := C230_axis_counterexample (pos.getD j 0 - pos.getD i 0) (disp t i) (disp t j) (by rw [Pi.sub_apply, hx, sub_self])
    (by rw [Pi.sub_apply, hy, sub_self])
  refine ⟨sum_top inside _ i hi t 1 ?_, sum_top inside _ i hi t 2 ?_⟩
  · simp only [hlast, Option.map_some, Option.getD_some]
    exact htop.1
  · simp only [hlast, Option.map_some, Option.getD_some]
    exact htop.2

theorem sum_sq_dev (xs : List ℝ) (m : ℝ) :
    (xs.map fun x => (x - m) ^ 2).sum = (xs.map fun x => x ^ 2).sum - 2 * m * xs.sum + xs.length * m ^ 2 := by
  induction xs with
  | nil => simp
  | cons x l ih =>
    simp only [List.map_cons, List.sum_cons, List.length_cons, ih]
    push_cast
    ring

/-- C230. From the sum and the sum of the squares of the contributions of a bin `MSD_twopoint` gives their mean and the root of the mean square of
their deviations from the mean: the radicand is never negative. -/
theorem C230_error (xs : List ℝ) (h : xs ≠ []) :
    ∃ m err : ℝ, msdTwopoint xs.sum (xs.map fun x => x ^ 2).sum xs.length = some (m, err) ∧ m * xs.length = xs.sum ∧ 0 ≤ err ∧
      err ^ 2 * xs.length = (xs.map fun x => (x - m) ^ 2).sum := by
  have hl : xs.length ≠ 0 := by simpa using h
  have hl' : (xs.length : ℝ) ≠ 0 := by exact_mod_cast hl
  have hpos : (0 : ℝ) < xs.length := lt_of_le_of_ne (Nat.cast_nonneg _) hl'.symm
  have key : (xs.map fun x => (x - xs.sum / xs.length) ^ 2).sum = ((xs.map fun x => x ^ 2).sum / xs.length - (xs.sum / xs.length) ^ 2) * xs.length := by
    rw [sum_sq_dev]
    field_simp
    ring
  have hnn : 0 ≤ (xs.map fun x => (x - xs.sum / xs.length) ^ 2).sum := List.sum_nonneg (by simp only [List.mem_map]; rintro _ ⟨x, _, rfl⟩; positivity)
  have hrad : 0 ≤ (xs.map fun x => x ^ 2).sum / xs.length - (xs.sum / xs.length) ^ 2 := by
    rw [key] at hnn
    exact nonneg_of_mul_nonneg_left hnn hpos
  refine ⟨xs.sum / xs.length, Real.sqrt ((xs.map fun x => x ^ 2).sum / xs.length - (xs.sum / xs.length) ^ 2), ?_, ?_, Real.sqrt_nonneg _, ?_⟩
  · simp only [msdTwopoint, if_neg hl]
  · field_simp
  · rw [Real.sq_sqrt hrad, key]

/-- C230, the part that is false. The error does not decrease with the number of pairs: it is the same when all the pairs are found twice. -/
theorem C230_spread_counterexample (s s2 : ℝ) (nb : Nat) : msdTwopoint (2 * s) (2 * s2) (2 * nb) = msdTwopoint s s2 nb := by
  rcases Nat.eq_zero_or_pos nb with rfl | h
  · rfl
  · have h' : (nb : ℝ) ≠ 0 := by positivity
    simp only [msdTwopoint, if_neg (show ¬ nb = 0 by omega), if_neg (show ¬ 2 * nb = 0 by omega)]
    push_cast
    rw [mul_div_mul_left _ _ two_ne_zero, mul_div_mul_left _ _ two_ne_zero]

/-- An instance of the hypotheses of `C229_last_partial`: two particles at distance one. -/
example : ∀ i ∈ [0, 1], ∀ j < [![0, 0, 0], (![1, 0, 0] : Fin 3 → ℝ)].length, distance [![0, 0, 0], ![1, 0, 0]] i j ≠ 3 := by
  intro i hi j hj
  have : distance [![0, 0, 0], ![1, 0, 0]] i j ≤ 1 := by
    have hi' : i = 0 ∨ i = 1 := by simpa using hi
    have hj' : j = 0 ∨ j = 1 := by simp at hj; omega
    rcases hi' with rfl | rfl <;> rcases hj' with rfl | rfl <;> simp [distance, norm3, Fin.sum_univ_three]
  intro h
  linarith

/-- The vector from a particle to another one that is not above it. -/
example : (![1, 2, 2] : Fin 3 → ℝ) 0 ≠ 0 ∨ (![1, 2, 2] : Fin 3 → ℝ) 1 ≠ 0 := by left; simp

end Brown
end Py
end Colloids
