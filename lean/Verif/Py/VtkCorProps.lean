import Mathlib.Tactic.Linarith
import Mathlib.Tactic.FieldSimp
import Mathlib.Tactic.NormNum
import Mathlib.Tactic.IntervalCases
import Verif.CommonLemmas
import Verif.Py.VtkModel
import Verif.Py.VtkProps

/-!
# The spatial correlation of `python/colloids/vtk.py`
-/

namespace Colloids
namespace Py
namespace Vtk

section

variable (N d Nbins : Nat) (maxDist : ℝ) (pos : Nat → Nat → ℝ) (lo hi : Nat → ℝ) (f : Nat → ℝ) (query : Nat → List Nat)

/-- what the tree returns: every point at `maxDist` or less, once -/
def Queries : Prop := ∀ p < N, (query p).Nodup ∧ ∀ q, q ∈ query p ↔ q < N ∧ dist d pos p q ≤ maxDist

/-- the last of the neighbours of `p` that are in a bin -/
noncomputable def lastIn (b p : Nat) : Option Nat := (((query p).erase p).filter fun q => binOf d Nbins maxDist pos p q == b).getLast?

theorem lastOf_bins {α : Type} (r : Nat → Nat) (g : Nat → α) (qs : List Nat) (b : Nat) :
    lastOf b ((qs.map r).zip (qs.map g)) = ((qs.filter fun q => r q == b).getLast?).map g := by
  induction qs using List.reverseRecOn with
  | nil => rfl
  | append_singleton l x ih =>
    rw [List.map_append, List.map_append, List.zip_append (by simp)]
    have : (([x].map r).zip ([x].map g)) = [(r x, g x)] := rfl
    rw [this, lastOf_append, ih, List.filter_append]
    by_cases h : r x = b
    · rw [if_pos h, List.filter_cons_of_pos (by simpa using h)]
      simp
    · rw [if_neg h, List.filter_cons_of_neg (by simpa using h)]
      simp

theorem corrOne_spec (st : List Nat × List ℝ) (p : Nat) (h1 : st.1.length = Nbins) (h2 : st.2.length = Nbins)
    (hb : ∀ q ∈ (query p).erase p, binOf d Nbins maxDist pos p q < Nbins) :
    ∃ st', corrOne d Nbins maxDist pos f query st p = .ok st' ∧ st'.1.length = Nbins ∧ st'.2.length = Nbins ∧ ∀ b < Nbins,
      st'.1.getD b 0 = st.1.getD b 0 + (if (lastIn d Nbins maxDist pos query b p).isSome then 1 else 0) ∧
      st'.2.getD b 0 = st.2.getD b 0 + ((lastIn d Nbins maxDist pos query b p).map fun q => f q * f p).getD 0 := by
  unfold corrOne
  dsimp only
  obtain ⟨o1, a1, a2, a3⟩ := fancyAdd_spec 0 st.1 (((query p).erase p).map (binOf d Nbins maxDist pos p))
    ((((query p).erase p).map (binOf d Nbins maxDist pos p)).map fun _ => 1)
    (by rw [h1]; intro i hi; obtain ⟨q, hq, rfl⟩ := List.mem_map.1 hi; exact hb q hq) (by simp)
  obtain ⟨o2, b1, b2, b3⟩ := fancyAdd_spec 0 st.2 (((query p).erase p).map (binOf d Nbins maxDist pos p))
    (((query p).erase p).map fun q => f q * f p)
    (by rw [h2]; intro i hi; obtain ⟨q, hq, rfl⟩ := List.mem_map.1 hi; exact hb q hq) (by simp)
  rw [a1, ok_bind, b1, ok_bind]
  refine ⟨_, rfl, a2.trans h1, b2.trans h2, ?_⟩
  intro b hb'
  refine ⟨?_, ?_⟩
  · rw [a3 b (by omega), List.map_map, show ((fun _ => 1) ∘ binOf d Nbins maxDist pos p : Nat → Nat) = fun _ => 1 from rfl, lastOf_bins]
    unfold lastIn
    cases (((query p).erase p).filter fun q => binOf d Nbins maxDist pos p q == b).getLast? <;> simp
  · rw [b3 b (by omega), lastOf_bins]
    unfold lastIn
    cases (((query p).erase p).filter fun q => binOf d Nbins maxDist pos p q == b).getLast? <;> simp

theorem corr_fold (l : List Nat) (st : List Nat × List ℝ) (h1 : st.1.length = Nbins) (h2 : st.2.length = Nbins)
    (hb : ∀ p ∈ l, ∀ q ∈ (query p).erase p, binOf d Nbins maxDist pos p q < Nbins) :
    ∃ st', l.foldlM (corrOne d Nbins maxDist pos f query) st = .ok st' ∧ ∀ b < Nbins,
      st'.1.getD b 0 = st.1.getD b 0 + l.countP (fun p => (lastIn d Nbins maxDist pos query b p).isSome) ∧
      st'.2.getD b 0 = st.2.getD b 0 + (l.map fun p => ((lastIn d Nbins maxDist pos query b p).map fun q => f q * f p).getD 0).sum := by
  induction l generalizing st with
  | nil => exact ⟨st, rfl, fun b _ => by simp⟩
  | cons p l ih =>
    obtain ⟨s1, a1, a2, a3, a4⟩ := corrOne_spec d Nbins maxDist pos f query st p h1 h2 (hb p (by simp))
    obtain ⟨s2, b1, b2⟩ := ih s1 a2 a3 (fun p hp => hb p (by simp [hp]))
    refine ⟨s2, ?_, ?_⟩
    · rw [List.foldlM_cons, a1, ok_bind, b1]
    · intro b hb'
      obtain ⟨u1, u2⟩ := a4 b hb'
      obtain ⟨v1, v2⟩ := b2 b hb'
      refine ⟨?_, ?_⟩
      · rw [v1, u1, List.countP_cons]
        omega
      · rw [v2, u2, List.map_cons, List.sum_cons]
        ring

/-- where a bin begins and ends -/
theorem binOf_iff (hm : 0 < maxDist) (hN : 0 < Nbins) (p q b : Nat) :
    binOf d Nbins maxDist pos p q = b ↔ b * maxDist / Nbins ≤ dist d pos p q ∧ dist d pos p q < (b + 1) * maxDist / Nbins := by
  unfold binOf
  have hN' : (0 : ℝ) < Nbins := by exact_mod_cast hN
  have h0 : 0 ≤ dist d pos p q := by unfold dist; positivity
  rw [Nat.floor_eq_iff (by positivity), le_div_iff₀ hm, div_lt_iff₀ hm, div_le_iff₀ hN', lt_div_iff₀ hN']

theorem binOf_lt (hm : 0 < maxDist) (hN : 0 < Nbins) (p q : Nat) (h : dist d pos p q < maxDist) : binOf d Nbins maxDist pos p q < Nbins := by
  unfold binOf
  have hN' : (0 : ℝ) < Nbins := by exact_mod_cast hN
  have h0 : 0 ≤ dist d pos p q := by unfold dist; positivity
  rw [Nat.floor_lt (by positivity), div_lt_iff₀ hm]
  nlinarith

/-- **C205** What `spatialCorelation` computes: in a bin, the mean over the points inside that have a neighbour in this bin of the product of
their value and that of the last such neighbour. -/
theorem C205_last (hm : 0 < maxDist) (hN : 0 < Nbins) (hq : Queries N d maxDist pos query)
    (hlt : ∀ p ∈ insideId N d pos lo hi maxDist, ∀ q < N, q ≠ p → dist d pos p q ≠ maxDist) :
    ∃ out, spatialCor N d Nbins maxDist pos lo hi f query = .ok out ∧ out.length = Nbins ∧ ∀ b < Nbins, ∃ first, out[b]? = some (first,
      ((insideId N d pos lo hi maxDist).map fun p => ((lastIn d Nbins maxDist pos query b p).map fun q => f q * f p).getD 0).sum /
        (((insideId N d pos lo hi maxDist).countP fun p => (lastIn d Nbins maxDist pos query b p).isSome : Nat) : ℝ)) := by
  have hin : ∀ p ∈ insideId N d pos lo hi maxDist, p < N := fun p hp => List.mem_range.1 (List.mem_filter.1 hp).1
  obtain ⟨st, h1, h2⟩ := corr_fold d Nbins maxDist pos f query (insideId N d pos lo hi maxDist)
    (List.replicate Nbins 0, List.replicate Nbins 0) (by simp) (by simp) (by
      intro p hp q hq'
      obtain ⟨n1, n2⟩ := hq p (hin p hp)
      obtain ⟨c1, c2⟩ := (n1.mem_erase_iff).1 hq'
      obtain ⟨e1, e2⟩ := (n2 q).1 c2
      exact binOf_lt d Nbins maxDist pos hm hN p q (lt_of_le_of_ne e2 (hlt p hp q e1 c1)))
  unfold spatialCor
  rw [h1, ok_bind]
  refine ⟨_, rfl, by simp, ?_⟩
  intro b hb
  rw [List.getElem?_map, List.getElem?_range hb, Option.map_some]
  obtain ⟨u1, u2⟩ := h2 b hb
  have z1 : (List.replicate Nbins 0).getD b 0 = 0 := by
    rw [List.getD_eq_getElem?_getD, List.getElem?_replicate, if_pos hb]; rfl
  have z2 : (List.replicate Nbins (0 : ℝ)).getD b 0 = 0 := by
    rw [List.getD_eq_getElem?_getD, List.getElem?_replicate, if_pos hb]; rfl
  refine ⟨(b : ℝ) / maxDist, ?_⟩
  rw [u1, u2]
  dsimp only
  rw [z1, z2, zero_add, zero_add]
  split
  · rename_i h0
    rw [h0]
    have : ((insideId N d pos lo hi maxDist).map fun p => ((lastIn d Nbins maxDist pos query b p).map fun q => f q * f p).getD 0).sum = 0 := by
      refine List.sum_eq_zero ?_
      intro x hx
      obtain ⟨p, hp, rfl⟩ := List.mem_map.1 hx
      have := (List.countP_eq_zero.1 h0) p hp
      simp only [Bool.not_eq_true, Option.isSome_eq_false_iff, Option.isNone_iff_eq_none] at this
      rw [this]
      rfl
    rw [this]
    simp
  · rfl

open Classical in
/-- the pairs of a point inside and another one whose distance is in a bin -/
noncomputable def pairsIn (b : Nat) : List (Nat × Nat) :=
  (insideId N d pos lo hi maxDist).flatMap fun p => ((List.range N).filter fun q =>
    decide (q ≠ p ∧ b * maxDist / Nbins ≤ dist d pos p q ∧ dist d pos p q < (b + 1) * maxDist / Nbins)).map fun q => (p, q)

/-- **C205** If no point inside has two neighbours in the same bin, the result is the mean of the product of the values over all pairs of the bin. -/
theorem C205_mean_partial (hm : 0 < maxDist) (hN : 0 < Nbins) (hq : Queries N d maxDist pos query)
    (hlt : ∀ p ∈ insideId N d pos lo hi maxDist, ∀ q < N, q ≠ p → dist d pos p q ≠ maxDist)
    (b : Nat) (hb : b < Nbins)
    (hone : ∀ p ∈ insideId N d pos lo hi maxDist, ∀ q < N, ∀ q' < N, q ≠ p → q' ≠ p → binOf d Nbins maxDist pos p q = b →
      binOf d Nbins maxDist pos p q' = b → q = q') :
    ∃ out first, spatialCor N d Nbins maxDist pos lo hi f query = .ok out ∧ out[b]? = some (first,
      ((pairsIn N d Nbins maxDist pos lo hi b).map fun x => f x.2 * f x.1).sum / ((pairsIn N d Nbins maxDist pos lo hi b).length : ℝ)) := by
  obtain ⟨out, h1, h2, h3⟩ := C205_last N d Nbins maxDist pos lo hi f query hm hN hq hlt
  obtain ⟨first, h4⟩ := h3 b hb
  refine ⟨out, first, h1, ?_⟩
  rw [h4]
  have hin : ∀ p ∈ insideId N d pos lo hi maxDist, p < N := fun p hp => List.mem_range.1 (List.mem_filter.1 hp).1
  have hN' : (0 : ℝ) < Nbins := by exact_mod_cast hN
  classical
  have each : ∀ p ∈ insideId N d pos lo hi maxDist, ((List.range N).filter fun q =>
      decide (q ≠ p ∧ b * maxDist / Nbins ≤ dist d pos p q ∧ dist d pos p q < (b + 1) * maxDist / Nbins)) =
        (lastIn d Nbins maxDist pos query b p).toList := by
    intro p hp
    obtain ⟨n1, n2⟩ := hq p (hin p hp)
    have m1 : ∀ q, q ∈ ((List.range N).filter fun q =>
        decide (q ≠ p ∧ b * maxDist / Nbins ≤ dist d pos p q ∧ dist d pos p q < (b + 1) * maxDist / Nbins)) ↔
        q ∈ ((query p).erase p).filter fun q => binOf d Nbins maxDist pos p q == b := by
      intro q
      simp only [List.mem_filter, List.mem_range, decide_eq_true_eq, beq_iff_eq, n1.mem_erase_iff, n2]
      rw [binOf_iff d Nbins maxDist pos hm hN]
      constructor
      · rintro ⟨c1, c2, c3, c4⟩
        refine ⟨⟨c2, c1, ?_⟩, c3, c4⟩
        have : ((b : ℝ) + 1) * maxDist / Nbins ≤ maxDist := by
          rw [div_le_iff₀ hN', mul_comm]
          have : (b : ℝ) + 1 ≤ Nbins := by exact_mod_cast hb
          nlinarith
        linarith
      · rintro ⟨⟨c1, c2, c3⟩, c4, c5⟩
        exact ⟨c2, c1, c4, c5⟩
    have nd1 : ((List.range N).filter fun q =>
        decide (q ≠ p ∧ b * maxDist / Nbins ≤ dist d pos p q ∧ dist d pos p q < (b + 1) * maxDist / Nbins)).Nodup := List.nodup_range.filter _
    have nd2 : (((query p).erase p).filter fun q => binOf d Nbins maxDist pos p q == b).Nodup := (n1.erase p).filter _
    have al : ∀ q ∈ (((query p).erase p).filter fun q => binOf d Nbins maxDist pos p q == b),
        ∀ q' ∈ (((query p).erase p).filter fun q => binOf d Nbins maxDist pos p q == b), q = q' := by
      intro q hq1 q' hq2
      simp only [List.mem_filter, beq_iff_eq, n1.mem_erase_iff, n2] at hq1 hq2
      exact hone p hp q hq1.1.2.1 q' hq2.1.2.1 hq1.1.1 hq2.1.1 hq1.2 hq2.2
    unfold lastIn
    generalize (((query p).erase p).filter fun q => binOf d Nbins maxDist pos p q == b) = B at m1 nd2 al
    generalize ((List.range N).filter fun q =>
        decide (q ≠ p ∧ b * maxDist / Nbins ≤ dist d pos p q ∧ dist d pos p q < (b + 1) * maxDist / Nbins)) = A at m1 nd1
    have hperm : A.Perm B := (List.perm_ext_iff_of_nodup nd1 nd2).2 m1
    match B with
    | [] => simpa using hperm
    | [x] => simpa using hperm
    | x :: y :: r =>
      have := al x (by simp) y (by simp)
      simp [this] at nd2
  have hpairs : pairsIn N d Nbins maxDist pos lo hi b =
      (insideId N d pos lo hi maxDist).flatMap fun p => (lastIn d Nbins maxDist pos query b p).toList.map fun q => (p, q) := by
    unfold pairsIn
    refine List.flatMap_congr ?_
    intro p hp
    rw [← each p hp]
  rw [hpairs]
  generalize insideId N d pos lo hi maxDist = l
  have e1 : (l.map fun p => ((lastIn d Nbins maxDist pos query b p).map fun q => f q * f p).getD 0).sum =
      ((l.flatMap fun p => (lastIn d Nbins maxDist pos query b p).toList.map fun q => (p, q)).map fun x => f x.2 * f x.1).sum := by
    induction l with
    | nil => rfl
    | cons p l ih =>
      rw [List.map_cons, List.sum_cons, ih, List.flatMap_cons, List.map_append, List.sum_append]
      cases lastIn d Nbins maxDist pos query b p <;> simp
  have e2 : l.countP (fun p => (lastIn d Nbins maxDist pos query b p).isSome) =
      (l.flatMap fun p => (lastIn d Nbins maxDist pos query b p).toList.map fun q => (p, q)).length := by
    clear e1
    induction l with
    | nil => rfl
    | cons p l ih =>
      rw [List.countP_cons, ih, List.flatMap_cons, List.length_append]
      cases lastIn d Nbins maxDist pos query b p
      · simp
      · simp [Nat.add_comm]
  rw [e1, e2]

/-- **C205** Counterexample: the first column is not the distance where the bins begin, unless the number of bins is the square of `maxDist`. -/
theorem C205_abscissa_counterexample (hm : 0 < maxDist) (hN : 0 < Nbins) (out : List (ℝ × ℝ))
    (h : spatialCor N d Nbins maxDist pos lo hi f query = .ok out) (b : Nat) (hb : b < Nbins) (hb0 : 0 < b) :
    ∃ row, out[b]? = some row ∧ (row.1 = b * maxDist / Nbins ↔ (Nbins : ℝ) = maxDist ^ 2) := by
  unfold spatialCor at h
  cases hst : (insideId N d pos lo hi maxDist).foldlM (corrOne d Nbins maxDist pos f query)
    (List.replicate Nbins 0, List.replicate Nbins 0) with
  | error e => rw [hst, error_bind] at h; cases h
  | ok st =>
    rw [hst, ok_bind] at h
    cases h
    rw [List.getElem?_map, List.getElem?_range hb, Option.map_some]
    refine ⟨_, rfl, ?_⟩
    dsimp only
    have hN' : (0 : ℝ) < Nbins := by exact_mod_cast hN
    have hb' : (0 : ℝ) < b := by exact_mod_cast hb0
    rw [div_eq_div_iff hm.ne' hN'.ne']
    constructor
    · intro e
      have : (b : ℝ) * Nbins = b * maxDist ^ 2 := by rw [e]; ring
      exact mul_left_cancel₀ hb'.ne' this
    · intro e
      rw [e]
      ring

end

theorem fancyAdd_error {α : Type} [Add α] (a : List α) (idx : List Nat) (vals : List α) (hlen : idx.length = vals.length)
    (h : ∃ i ∈ idx, a.length ≤ i) : fancyAdd a idx vals = .error .outOfRange := by
  unfold fancyAdd
  obtain ⟨i, hi, hle⟩ := h
  have hz : ∃ x ∈ idx.zip vals, a.length ≤ x.1 := by
    obtain ⟨k, hk, rfl⟩ := List.mem_iff_getElem.1 hi
    exact ⟨(idx[k], vals[k]), List.mem_iff_getElem.2 ⟨k, by simp; omega, by simp⟩, hle⟩
  generalize idx.zip vals = l at hz
  generalize hacc : a = acc
  conv_lhs => rw [← hacc]
  suffices H : ∀ (l : List (Nat × α)) (acc : List α), (∃ x ∈ l, a.length ≤ x.1) → l.foldlM (fun acc iv =>
      match a[iv.1]? with
      | some x => (.ok (acc.set iv.1 (x + iv.2)) : R (List α))
      | none => .error .outOfRange) acc = .error .outOfRange from H l a hz
  intro l
  induction l with
  | nil => rintro acc ⟨x, hx, _⟩; simp at hx
  | cons y l ih =>
    rintro acc ⟨x, hx, hle⟩
    rw [List.foldlM_cons]
    cases hy : a[y.1]? with
    | none => rfl
    | some v =>
      refine ih _ ?_
      rcases List.mem_cons.1 hx with rfl | hx
      · rw [List.getElem?_eq_none hle] at hy
        cases hy
      · exact ⟨x, hx, hle⟩

theorem fancyAdd_length {α : Type} [Add α] (a : List α) (idx : List Nat) (vals : List α) :
    fancyAdd a idx vals = .error .outOfRange ∨ ∃ out, fancyAdd a idx vals = .ok out ∧ out.length = a.length := by
  unfold fancyAdd
  generalize idx.zip vals = l
  suffices H : ∀ (l : List (Nat × α)) (acc : List α), acc.length = a.length → (l.foldlM (fun acc iv =>
      match a[iv.1]? with
      | some x => (.ok (acc.set iv.1 (x + iv.2)) : R (List α))
      | none => .error .outOfRange) acc = .error .outOfRange ∨ ∃ out, l.foldlM (fun acc iv =>
      match a[iv.1]? with
      | some x => (.ok (acc.set iv.1 (x + iv.2)) : R (List α))
      | none => .error .outOfRange) acc = .ok out ∧ out.length = a.length) from H l a rfl
  intro l
  induction l with
  | nil => intro acc h; exact Or.inr ⟨acc, rfl, h⟩
  | cons y l ih =>
    intro acc h
    rw [List.foldlM_cons]
    cases hy : a[y.1]? with
    | none => exact Or.inl rfl
    | some v => exact ih _ (by simpa using h)

/-- **C205** Counterexample: two points exactly at `maxDist` of each other, one of them inside: the bin does not exist, `IndexError`. -/
theorem C205_limit_counterexample (N d Nbins : Nat) (maxDist : ℝ) (pos : Nat → Nat → ℝ) (lo hi : Nat → ℝ) (f : Nat → ℝ)
    (query : Nat → List Nat) (hm : 0 < maxDist) (hq : Queries N d maxDist pos query)
    (p q : Nat) (hp : p ∈ insideId N d pos lo hi maxDist) (hqN : q < N) (hne : q ≠ p) (hd : dist d pos p q = maxDist) :
    spatialCor N d Nbins maxDist pos lo hi f query = .error .outOfRange := by
  unfold spatialCor
  have hbin : binOf d Nbins maxDist pos p q = Nbins := by
    unfold binOf
    rw [hd, mul_comm, mul_div_assoc, div_self hm.ne', mul_one, Nat.floor_natCast]
  have hpN : p < N := List.mem_range.1 (List.mem_filter.1 hp).1
  have hqq : q ∈ (query p).erase p := ((hq p hpN).1.mem_erase_iff).2 ⟨hne, ((hq p hpN).2 q).2 ⟨hqN, hd.le⟩⟩
  suffices H : ∀ (l : List Nat) (st : List Nat × List ℝ), st.1.length = Nbins → p ∈ l →
      l.foldlM (corrOne d Nbins maxDist pos f query) st = .error .outOfRange by
    rw [H _ _ (by simp) hp]
    rfl
  intro l
  induction l with
  | nil => intro st _ h; simp at h
  | cons x l ih =>
    intro st h hpl
    rw [List.foldlM_cons]
    by_cases hx : x = p
    · subst hx
      have : corrOne d Nbins maxDist pos f query st x = .error .outOfRange := by
        unfold corrOne
        dsimp only
        rw [fancyAdd_error st.1 _ _ (by simp) ⟨Nbins, List.mem_map.2 ⟨q, hqq, hbin⟩, by omega⟩]
        rfl
      rw [this]
      rfl
    · have hpl' : p ∈ l := by
        rcases List.mem_cons.1 hpl with h | h
        · exact absurd h.symm hx
        · exact h
      have hstep : corrOne d Nbins maxDist pos f query st x = .error .outOfRange ∨
          ∃ st', corrOne d Nbins maxDist pos f query st x = .ok st' ∧ st'.1.length = Nbins := by
        unfold corrOne
        dsimp only
        rcases fancyAdd_length st.1 (((query x).erase x).map (binOf d Nbins maxDist pos x))
          ((((query x).erase x).map (binOf d Nbins maxDist pos x)).map fun _ => 1) with e | ⟨o, e, eo⟩
        · left; rw [e]; rfl
        · rw [e, ok_bind]
          rcases fancyAdd_length st.2 (((query x).erase x).map (binOf d Nbins maxDist pos x))
            (((query x).erase x).map fun q => f q * f x) with e' | ⟨o', e', eo'⟩
          · left; rw [e']; rfl
          · right
            rw [e', ok_bind]
            exact ⟨_, rfl, eo.trans h⟩
      rcases hstep with e | ⟨st', e, el⟩
      · rw [e]; rfl
      · rw [e, ok_bind]
        exact ih st' el hpl'

/-! ### Three points -/

/-- three points on a line -/
def pos3 (p : Nat) (_ : Nat) : ℝ := (p : ℝ) - 1

/-- their values -/
def f3 (p : Nat) : ℝ := if p = 2 then -1 else 1

theorem dist3 (p q : Nat) : dist 1 pos3 p q = |(q : ℝ) - p| := by
  unfold dist pos3
  simp only [List.range_one, List.map_cons, List.map_nil, List.sum_cons, List.sum_nil, add_zero]
  rw [Real.sqrt_sq_eq_abs]
  congr 1
  ring

theorem inside3 : insideId 3 1 pos3 (fun _ => -1) (fun _ => 1) (3 / 2) = [1] := by
  unfold insideId pos3
  rw [show List.range 3 = [0, 1, 2] from rfl]
  norm_num [List.filter_cons]

theorem bin3 (q : Nat) (h : q = 0 ∨ q = 2) : binOf 1 2 (3 / 2) pos3 1 q = 1 := by
  rw [binOf_iff _ _ _ _ (by norm_num) (by norm_num), dist3]
  rcases h with rfl | rfl <;> norm_num

/-- **C205** Counterexample: three points at -1, 0 and 1 with values 1, 1 and -1.  Over the two pairs of the middle point the product is 1 and -1, of mean 0.
In whatever order the tree returns the neighbours, the result is 1 or -1. -/
theorem C205_repeat_counterexample (query : Nat → List Nat) (hq : Queries 3 1 (3 / 2) pos3 query) :
    ∃ (out : List (ℝ × ℝ)) (first v : ℝ), spatialCor 3 1 2 (3 / 2) pos3 (fun _ => -1) (fun _ => 1) f3 query = .ok out ∧ out[1]? = some (first, v) ∧ (v = 1 ∨ v = -1) ∧
      ((pairsIn 3 1 2 (3 / 2) pos3 (fun _ => -1) (fun _ => 1) 1).map fun x => f3 x.2 * f3 x.1).sum = 0 := by
  obtain ⟨out, h1, h2, h3⟩ := C205_last 3 1 2 (3 / 2) pos3 (fun _ => -1) (fun _ => 1) f3 query (by norm_num) (by norm_num) hq (by
    rw [inside3]
    intro p hp q hq3 hne
    obtain rfl : p = 1 := by simpa using hp
    rw [dist3]
    interval_cases q <;> norm_num)
  obtain ⟨first, h4⟩ := h3 1 (by norm_num)
  rw [inside3] at h4
  simp only [List.map_cons, List.map_nil, List.sum_cons, List.sum_nil, add_zero] at h4
  obtain ⟨n1, n2⟩ := hq 1 (by norm_num)
  have h0 : 0 ∈ ((query 1).erase 1).filter fun q => binOf 1 2 (3 / 2) pos3 1 q == 1 := by
    rw [List.mem_filter, n1.mem_erase_iff, n2, dist3]
    refine ⟨⟨by norm_num, by norm_num, by norm_num⟩, ?_⟩
    rw [bin3 0 (Or.inl rfl)]
    rfl
  cases hl : lastIn 1 2 (3 / 2) pos3 query 1 1 with
  | none =>
    unfold lastIn at hl
    rw [List.getLast?_eq_none_iff] at hl
    rw [hl] at h0
    simp at h0
  | some q =>
    rw [hl] at h4
    have hqm : q ∈ ((query 1).erase 1).filter fun q => binOf 1 2 (3 / 2) pos3 1 q == 1 := List.mem_of_getLast? hl
    rw [List.mem_filter, n1.mem_erase_iff, n2] at hqm
    have hq' : q = 0 ∨ q = 2 := by
      obtain ⟨⟨a1, a2, _⟩, _⟩ := hqm
      omega
    refine ⟨out, first, _, h1, h4, ?_, ?_⟩
    · simp only [List.countP_cons, hl, List.countP_nil]
      rcases hq' with rfl | rfl <;> norm_num [f3]
    · unfold pairsIn
      rw [inside3]
      rw [show List.range 3 = [0, 1, 2] from rfl]
      simp only [List.flatMap_cons, List.flatMap_nil, List.append_nil, dist3]
      norm_num [List.filter_cons, f3]

/-- an example of what a tree returns -/
example : Queries 3 1 (3 / 2) pos3 (fun p => if p = 0 then [0, 1] else if p = 1 then [2, 0, 1] else [2, 1]) := by
  intro p hp
  constructor
  · interval_cases p <;> simp
  · intro q
    rw [dist3]
    by_cases h : q < 3
    · interval_cases p <;> interval_cases q <;> norm_num
    · interval_cases p <;> simp [h] <;> omega

end Vtk
end Py
end Colloids
