import Verif.Py.PboxProps
import Verif.Index.Lemmas
import Verif.CommonLemmas

/-! # Neighbours in a periodic box and selected bonds in python: C226, C227 -/

namespace Colloids
namespace Py
namespace Pbox

open Periodic

/-- The distance of two particles in units of the sum of their radii. -/
noncomputable def scaled (L : ℝ) (pos : List (Fin 3 → ℝ)) (radii : List ℝ) (p q : Nat) : ℝ :=
  imgDist L (pos.getD p 0) (pos.getD q 0) / (radii.getD p 0 + radii.getD q 0)

/-- The possible neighbours of a particle. -/
def Near (L : ℝ) (pos : List (Fin 3 → ℝ)) (radii : List ℝ) (maxdist : ℝ) (p q : Nat) : Prop :=
  q < pos.length ∧ q ≠ p ∧ scaled L pos radii p q ≤ maxdist

theorem foldlM_pure {α β : Type} (f : β → α → R β) (g : β → α → β) (l : List α) (h : ∀ b, ∀ a ∈ l, f b a = .ok (g b a)) (b : β) :
    l.foldlM f b = .ok (l.foldl g b) := by
  induction l generalizing b with
  | nil => rfl
  | cons a l ih =>
    rw [List.foldlM_cons, h b a List.mem_cons_self, ok_bind, ih fun b x hx => h b x (List.mem_cons_of_mem _ hx)]
    rfl

theorem foldl_filterMap_insert {key : Nat → ℝ} (P : Nat → Prop) [DecidablePred P] (l : List Nat) (m : List (ℝ × Nat)) :
    l.foldl (fun m q => if P q then mmInsert (key q) q m else m) m = mmInsertAll m ((l.filter (P ·)).map fun q => (key q, q)) := by
  induction l generalizing m with
  | nil => rfl
  | cons x l ih =>
    rw [List.foldl_cons, ih]
    by_cases hx : P x
    · rw [if_pos hx, List.filter_cons_of_pos (by simpa using hx), List.map_cons]; rfl
    · rw [if_neg hx, List.filter_cons_of_neg (by simpa using hx)]

theorem take_tail {α : Type} (m : List α) (N : Nat) : N - m.length = N - (m.take N).length := by
  rw [List.length_take]; omega

open Classical in
theorem ngbRow_eq {L : ℝ} {pos : List (Fin 3 → ℝ)} {radii : List ℝ} {N : Nat} {maxdist : ℝ} (hr : radii.length = pos.length)
    {p fuel : Nat} (hp : p < pos.length) (x : Nat → ℝ)
    (hx : ∀ q < pos.length, pairSq fuel L (pos.getD p 0) (pos.getD q 0) = .ok (x q)) :
    ∃ m : List (ℝ × Nat), ngbRow fuel pos radii L N maxdist p = .ok ((m.take N).map (fun x => (x.2 : ℤ)) ++ List.replicate (N - (m.take N).length) (-1)) ∧
      m.Pairwise (fun a b => a.1 ≤ b.1) ∧
      m.Perm (((List.range pos.length).filter fun q => decide (p ≠ q ∧ x q / (radii.getD p 0 + radii.getD q 0) ^ 2 ≤ maxdist * maxdist)).map fun q =>
        (x q / (radii.getD p 0 + radii.getD q 0) ^ 2, q)) := by
  refine ⟨mmInsertAll [] _, ?_, mmInsertAll_sorted [] _ List.Pairwise.nil, mmInsertAll_perm [] _⟩
  rw [ngbRow, foldlM_pure _ (fun m q => if p ≠ q ∧ x q / (radii.getD p 0 + radii.getD q 0) ^ 2 ≤ maxdist * maxdist then
    mmInsert (x q / (radii.getD p 0 + radii.getD q 0) ^ 2) q m else m), ok_bind, pure_eq_ok, foldl_filterMap_insert, take_tail]
  intro m q hq
  have hq := List.mem_range.1 hq
  have h1 := hx q hq
  have e1 : pos.getD p 0 = pos[p] := by rw [List.getD_eq_getElem?_getD, List.getElem?_eq_getElem hp, Option.getD_some]
  have e2 : pos.getD q 0 = pos[q] := by rw [List.getD_eq_getElem?_getD, List.getElem?_eq_getElem hq, Option.getD_some]
  have e3 : radii.getD p 0 = radii[p]'(by omega) := by
    rw [List.getD_eq_getElem?_getD, List.getElem?_eq_getElem (by omega), Option.getD_some]
  have e4 : radii.getD q 0 = radii[q]'(by omega) := by
    rw [List.getD_eq_getElem?_getD, List.getElem?_eq_getElem (by omega), Option.getD_some]
  rw [e1, e2] at h1
  rw [ngbStep]
  by_cases hpq : p = q
  · simp [hpq]
  rw [if_neg hpq, getR_of_lt hp, getR_of_lt hq, getR_of_lt (by omega), getR_of_lt (by omega)]
  simp only [ok_bind, h1, e3, e4]
  by_cases hd : maxdist * maxdist < x q / (radii[p]'(by omega) + radii[q]'(by omega)) ^ 2
  · rw [if_pos hd, if_neg (fun h => absurd h.2 (not_le.2 hd))]
  · rw [if_neg hd, if_pos ⟨hpq, not_lt.1 hd⟩]

theorem getD_mem {α : Type} {l : List α} {d : α} {i : Nat} (h : i < l.length) : l.getD i d ∈ l := by
  rw [List.getD_eq_getElem?_getD, List.getElem?_eq_getElem h, Option.getD_some]; exact List.getElem_mem h

/-- C226. `get_N_ngbs` in a periodic box gives, for each particle that no other particle exceeds by more than half the box along an axis, the at most
`N` nearest particles among those that are not further than `maxdist`, in units of the sum of the radii; the nearest come first, the row is filled
with -1. -/
theorem C226_nearest_partial {L : ℝ} {pos : List (Fin 3 → ℝ)} {radii : List ℝ} {maxdist : ℝ} (N : Nat) (hL : 0 < L) (hbox : InBox L pos)
    (hlen : radii.length = pos.length) (hrad : ∀ r ∈ radii, 0 < r) (hmax : 0 ≤ maxdist) (fuel : Nat) :
    ∃ out, getNNgbs (fuel + 1) pos radii L N maxdist = .ok out ∧ out.length = pos.length ∧
      ∀ (p : Nat) (a : Fin 3 → ℝ), pos[p]? = some a → (∀ b ∈ pos, Reach L a b) →
        ∃ l : List Nat, out[p]? = some (l.map (fun (q : Nat) => (q : ℤ)) ++ List.replicate (N - l.length) (-1)) ∧ l.Nodup ∧ l.length ≤ N ∧
          (∀ q ∈ l, Near L pos radii maxdist p q) ∧ l.Pairwise (fun q q' => scaled L pos radii p q ≤ scaled L pos radii p q') ∧
          ∀ q, Near L pos radii maxdist p q → q ∉ l → l.length = N ∧ ∀ q' ∈ l, scaled L pos radii p q' ≤ scaled L pos radii p q := by
  classical
  have hany : ∀ p q, p < pos.length → q < pos.length → ∃ x, pairSq (fuel + 1) L (pos.getD p 0) (pos.getD q 0) = .ok x ∧
      (Reach L (pos.getD p 0) (pos.getD q 0) → x = imgDist L (pos.getD p 0) (pos.getD q 0) ^ 2) := by
    intro p q hp hq
    have hb := hbox _ (getD_mem (d := 0) hp) _ (getD_mem (d := 0) hq)
    by_cases hr : Reach L (pos.getD p 0) (pos.getD q 0)
    · refine ⟨_, pairSq_seen hL hb hr fuel, fun _ => ?_⟩
      rw [imgDist, Real.sq_sqrt (Finset.sum_nonneg fun _ _ => sq_nonneg _)]
    · obtain ⟨x, h, _⟩ := pairSq_unseen hL hb hr fuel
      exact ⟨x, h, fun h => absurd h hr⟩
  have hrow : ∀ p, p < pos.length → ∃ row, ngbRow (fuel + 1) pos radii L N maxdist p = .ok row ∧ ((∀ b ∈ pos, Reach L (pos.getD p 0) b) →
        ∃ l : List Nat, row = (l.map (fun (q : Nat) => (q : ℤ)) ++ List.replicate (N - l.length) (-1)) ∧ l.Nodup ∧ l.length ≤ N ∧
          (∀ q ∈ l, Near L pos radii maxdist p q) ∧ l.Pairwise (fun q q' => scaled L pos radii p q ≤ scaled L pos radii p q') ∧
          ∀ q, Near L pos radii maxdist p q → q ∉ l → l.length = N ∧ ∀ q' ∈ l, scaled L pos radii p q' ≤ scaled L pos radii p q) := by
    intro p hp
    have hx : ∀ q, ∃ x : ℝ, q < pos.length → pairSq (fuel + 1) L (pos.getD p 0) (pos.getD q 0) = .ok x ∧
        (Reach L (pos.getD p 0) (pos.getD q 0) → x = imgDist L (pos.getD p 0) (pos.getD q 0) ^ 2) := by
      intro q
      by_cases hq : q < pos.length
      · obtain ⟨x, h⟩ := hany p q hp hq; exact ⟨x, fun _ => h⟩
      · exact ⟨0, fun h => absurd h hq⟩
    choose x hx using hx
    obtain ⟨m, h1, h2, h3⟩ := ngbRow_eq (N := N) (maxdist := maxdist) hlen hp x fun q hq => (hx q hq).1
    refine ⟨_, h1, fun hreach => ?_⟩
    have hsc : ∀ q, q < pos.length → x q / (radii.getD p 0 + radii.getD q 0) ^ 2 = scaled L pos radii p q ^ 2 := by
      intro q hq
      rw [(hx q hq).2 (hreach _ (getD_mem hq)), scaled, div_pow]
    have hnn : ∀ q, q < pos.length → 0 ≤ scaled L pos radii p q := by
      intro q hq
      have g1 : 0 < radii.getD p 0 := hrad _ (getD_mem (by omega))
      have g2 : 0 < radii.getD q 0 := hrad _ (getD_mem (by omega))
      exact div_nonneg (Real.sqrt_nonneg _) (by linarith)
    have hle : ∀ q, q < pos.length → (x q / (radii.getD p 0 + radii.getD q 0) ^ 2 ≤ maxdist * maxdist ↔ scaled L pos radii p q ≤ maxdist) := by
      intro q hq
      rw [hsc q hq, ← sq, sq_le_sq₀ (hnn q hq) hmax]
    have hmem : ∀ y : ℝ × Nat, y ∈ m ↔ Near L pos radii maxdist p y.2 ∧ y.1 = scaled L pos radii p y.2 ^ 2 := by
      intro y
      rw [h3.mem_iff, List.mem_map]
      constructor
      · rintro ⟨q, hq, rfl⟩
        rw [List.mem_filter, List.mem_range, decide_eq_true_eq] at hq
        exact ⟨⟨hq.1, fun h => hq.2.1 h.symm, (hle q hq.1).1 hq.2.2⟩, hsc q hq.1⟩
      · rintro ⟨⟨h4, h5, h6⟩, h7⟩
        refine ⟨y.2, ?_, ?_⟩
        · rw [List.mem_filter, List.mem_range, decide_eq_true_eq]
          exact ⟨h4, fun h => h5 h.symm, (hle _ h4).2 h6⟩
        · rw [hsc _ h4, ← h7]
    have hnd : (m.map Prod.snd).Nodup := by
      rw [(h3.map Prod.snd).nodup_iff, List.map_map]
      simp only [Function.comp_def, List.map_id']
      exact List.nodup_range.filter _
    refine ⟨(m.take N).map Prod.snd, ?_, ?_, ?_, ?_, ?_, ?_⟩
    · rw [List.map_map, List.length_map]; rfl
    · rw [List.map_take]; exact hnd.sublist (List.take_sublist _ _)
    · simp only [List.length_map, List.length_take]; omega
    · intro q hq
      obtain ⟨y, hy, rfl⟩ := List.mem_map.1 hq
      exact ((hmem y).1 (List.mem_of_mem_take hy)).1
    · rw [List.pairwise_map]
      refine ((h2.sublist (List.take_sublist N m)).imp_of_mem fun {y z} hy hz hyz => ?_)
      have gy := (hmem y).1 (List.mem_of_mem_take hy)
      have gz := (hmem z).1 (List.mem_of_mem_take hz)
      rw [gy.2, gz.2, sq_le_sq₀ (hnn _ gy.1.1) (hnn _ gz.1.1)] at hyz
      exact hyz
    · intro q hq hnot
      have hqm : (scaled L pos radii p q ^ 2, q) ∈ m := (hmem _).2 ⟨hq, rfl⟩
      have hqd : (scaled L pos radii p q ^ 2, q) ∈ m.drop N := by
        rw [← List.take_append_drop N m, List.mem_append] at hqm
        rcases hqm with h | h
        · exact absurd (List.mem_map.2 ⟨_, h, rfl⟩) hnot
        · exact h
      have hlong : N < m.length := by
        by_contra h
        rw [List.drop_eq_nil_of_le (by omega)] at hqd
        exact absurd hqd List.not_mem_nil
      refine ⟨by simp only [List.length_map, List.length_take]; omega, ?_⟩
      intro q' hq'
      obtain ⟨y, hy, rfl⟩ := List.mem_map.1 hq'
      have gy := (hmem y).1 (List.mem_of_mem_take hy)
      rw [← List.take_append_drop N m, List.pairwise_append] at h2
      have := h2.2.2 y hy _ hqd
      rw [gy.2] at this
      exact (sq_le_sq₀ (hnn _ gy.1.1) (hnn _ hq.1)).1 this
  have hrow' : ∀ p, ∃ row : List ℤ, p < pos.length → ngbRow (fuel + 1) pos radii L N maxdist p = .ok row ∧ ((∀ b ∈ pos, Reach L (pos.getD p 0) b) →
        ∃ l : List Nat, row = (l.map (fun (q : Nat) => (q : ℤ)) ++ List.replicate (N - l.length) (-1)) ∧ l.Nodup ∧ l.length ≤ N ∧
          (∀ q ∈ l, Near L pos radii maxdist p q) ∧ l.Pairwise (fun q q' => scaled L pos radii p q ≤ scaled L pos radii p q') ∧
          ∀ q, Near L pos radii maxdist p q → q ∉ l → l.length = N ∧ ∀ q' ∈ l, scaled L pos radii p q' ≤ scaled L pos radii p q) := by
    intro p
    by_cases hp : p < pos.length
    · obtain ⟨row, h⟩ := hrow p hp; exact ⟨row, fun _ => h⟩
    · exact ⟨[], fun h => absurd h hp⟩
  choose row hrow using hrow'
  refine ⟨(List.range pos.length).map row, ?_, by simp, ?_⟩
  · rw [getNNgbs, if_neg (by omega)]
    exact TreeIndex.mapM_ok_of _ _ _ fun p hp => (hrow p (List.mem_range.1 hp)).1
  · intro p a hpa hreach
    obtain ⟨hp, he⟩ := List.getElem?_eq_some_iff.1 hpa
    have e : pos.getD p 0 = a := by rw [List.getD_eq_getElem?_getD, hpa, Option.getD_some]
    obtain ⟨l, h1, h2⟩ := (hrow p hp).2 (by rw [e]; exact hreach)
    exact ⟨l, by rw [List.getElem?_map, List.getElem?_range hp, Option.map_some, h1], h2⟩

/-- C226, the part that is false. Of two particles that are neighbours through a face of the box, the lower one does not get the other as a
neighbour although the other gets it. -/
theorem C226_crossing_counterexample {L ra rb maxdist : ℝ} {a b : Fin 3 → ℝ} (N : Nat) (hN : 0 < N) (hL : 0 < L) (hbox : ∀ k, |a k - b k| < L)
    (ha : 0 < ra) (hb : 0 < rb) (hd : imgDist L a b / (ra + rb) ≤ maxdist) (hmL : maxdist * (ra + rb) < L)
    (hk : ∃ k, a k - b k < -(L / 2)) (hk' : ∀ k, a k - b k ≤ L / 2) (fuel : Nat) :
    getNNgbs (fuel + 1) [a, b] [ra, rb] L N maxdist = .ok [List.replicate N (-1), 0 :: List.replicate (N - 1) (-1)] := by
  have hmax : 0 ≤ maxdist := le_trans (div_nonneg (Real.sqrt_nonneg _) (by linarith)) hd
  obtain ⟨x, hx1, hx2⟩ := pairSq_unseen hL hbox (reach_pair hk) fuel
  have hbox' : ∀ k, |b k - a k| < L := fun k => by rw [abs_sub_comm]; exact hbox k
  have hba := pairSq_seen hL hbox' (fun k => by have := hk' k; linarith) fuel
  have hs : 0 < ra + rb := by linarith
  have c1 : maxdist * maxdist < x / (ra + rb) ^ 2 := by
    rw [lt_div_iff₀ (by positivity)]
    have : (maxdist * (ra + rb)) ^ 2 < L ^ 2 := pow_lt_pow_left₀ hmL (by positivity) (by norm_num)
    nlinarith
  have c2 : ¬ maxdist * maxdist < (∑ k, periodify (a k) (b k) L ^ 2) / (rb + ra) ^ 2 := by
    rw [not_lt, ← sq]
    have e : (∑ k, periodify (a k) (b k) L ^ 2) = imgDist L b a ^ 2 := by
      rw [imgDist, Real.sq_sqrt (Finset.sum_nonneg fun _ _ => sq_nonneg _)]
    rw [e, imgDist_comm hL, ← div_pow, add_comm rb ra]
    exact pow_le_pow_left₀ (div_nonneg (Real.sqrt_nonneg _) hs.le) hd 2
  have g0 : ∀ (α : Type) (u v : α), getR [u, v] 0 = .ok u := fun _ _ _ => rfl
  have g1 : ∀ (α : Type) (u v : α), getR [u, v] 1 = .ok v := fun _ _ _ => rfl
  have r2 : List.range 2 = [0, 1] := by decide
  have row0 : ngbRow (fuel + 1) [a, b] [ra, rb] L N maxdist 0 = .ok (List.replicate N (-1)) := by
    simp only [ngbRow, List.length_cons, List.length_nil, zero_add, r2, List.foldlM_cons, List.foldlM_nil, ngbStep, if_true, ok_bind, g0, g1, hx1,
      if_pos c1, pure_eq_ok, Nat.reduceAdd]
    simp
  have row1 : ngbRow (fuel + 1) [a, b] [ra, rb] L N maxdist 1 = .ok (0 :: List.replicate (N - 1) (-1)) := by
    simp only [ngbRow, List.length_cons, List.length_nil, zero_add, r2, List.foldlM_cons, List.foldlM_nil, ngbStep, if_true, ok_bind, g0, g1, hba,
      if_neg c2, pure_eq_ok, Nat.reduceAdd]
    obtain ⟨N, rfl⟩ : ∃ M, N = M + 1 := ⟨N - 1, by omega⟩
    simp [mmInsert]
  rw [getNNgbs, if_neg (by simp)]
  simp only [List.length_cons, List.length_nil, zero_add, Nat.reduceAdd, r2, List.mapM_cons, List.mapM_nil, row0, row1, ok_bind, pure_eq_ok]

/-- Two particles at a distance 2 through a face of a box of side 10, with radii 1. -/
example : (∀ k : Fin 3, |(![1, 1, 1] : Fin 3 → ℝ) k - ![9, 1, 1] k| < 10) ∧ imgDist 10 ![1, 1, 1] ![9, 1, 1] / (1 + 1) ≤ 3 ∧
    (3 : ℝ) * (1 + 1) < 10 ∧ (∃ k : Fin 3, (![1, 1, 1] : Fin 3 → ℝ) k - ![9, 1, 1] k < -(10 / 2)) ∧ ∀ k : Fin 3, (![1, 1, 1] : Fin 3 → ℝ) k - ![9, 1, 1] k ≤ 10 / 2 := by
  refine ⟨?_, ?_, by norm_num, ⟨0, by norm_num⟩, ?_⟩
  · intro k; fin_cases k <;> norm_num [abs_lt]
  · unfold imgDist
    rw [div_le_iff₀ (by norm_num), Real.sqrt_le_left (by norm_num), Fin.sum_univ_three]
    have e1 : (![1, 1, 1] : Fin 3 → ℝ) 2 = 1 := rfl
    have e2 : (![9, 1, 1] : Fin 3 → ℝ) 2 = 1 := rfl
    rw [e1, e2]
    unfold periodify
    norm_num
  · intro k; fin_cases k <;> norm_num

/-- In that box the first particle of these two is not below the other by more than 5. -/
example : InBox 10 [fun _ => 1, fun _ => (2 : ℝ)] ∧ (∀ b ∈ [fun _ => 1, fun _ => (2 : ℝ)], Reach 10 (fun _ => 1) b) ∧ Near 10 [fun _ => 1, fun _ => (2 : ℝ)] [1, 1] 3 0 1 := by
  refine ⟨?_, ?_, by simp, by simp, ?_⟩
  · intro u hu v hv k
    simp only [List.mem_cons, List.not_mem_nil, or_false] at hu hv
    rcases hu with rfl | rfl <;> rcases hv with rfl | rfl <;> norm_num [abs_lt]
  · intro b hb k
    simp only [List.mem_cons, List.not_mem_nil, or_false] at hb
    rcases hb with rfl | rfl <;> norm_num
  · unfold scaled imgDist
    simp only [List.getD_cons_zero, List.getD_cons_succ]
    rw [div_le_iff₀ (by norm_num), Real.sqrt_le_left (by norm_num), Fin.sum_univ_three]
    unfold periodify
    norm_num

/-- C226. A number of radii that is not the number of particles is refused. -/
theorem C226_refused (fuel : Nat) (pos : List (Fin 3 → ℝ)) (radii : List ℝ) (L : ℝ) (N : Nat) (maxdist : ℝ) (h : pos.length ≠ radii.length) :
    getNNgbs fuel pos radii L N maxdist = .error .logicError := by
  rw [getNNgbs, if_pos h]

example : ([![0, 0, 0], ![1, 1, 1]] : List (Fin 3 → ℝ)).length ≠ ([1] : List ℝ).length := by decide

/-! ## C227 -/

theorem mapM_pair {G : Type} [LinearOrder G] (Q6 : List G) (d : G) (l : List (Nat × Nat)) (h : ∀ b ∈ l, b.1 < Q6.length ∧ b.2 < Q6.length) :
    l.mapM (fun b => do
      let x ← idx Q6 b.1
      let y ← idx Q6 b.2
      pure (b, min x y)) = (.ok (l.map fun b => (b, min (Q6.getD b.1 d) (Q6.getD b.2 d))) : R _) := by
  refine TreeIndex.mapM_ok_of _ _ _ fun b hb => ?_
  obtain ⟨h1, h2⟩ := h b hb
  simp only [idx, List.getElem?_eq_getElem h1, List.getElem?_eq_getElem h2, ok_bind, pure_eq_ok, List.getD_eq_getElem?_getD, Option.getD_some]

/-- C227. From a file of two bonds or more, `loadXbonds` gives in the order of the file the bonds whose two ends have a value above the
threshold. -/
theorem C227_xbonds_partial {G : Type} [LinearOrder G] (lines : List (Nat × Nat)) (Q6 : List G) (thr : G) (h2 : 2 ≤ lines.length)
    (h : ∀ b ∈ lines, b.1 < Q6.length ∧ b.2 < Q6.length) :
    ∃ out, loadXbonds lines Q6 thr = .ok out ∧ out.Sublist lines ∧
      (∀ b, b ∈ out ↔ b ∈ lines ∧ ∃ x y, Q6[b.1]? = some x ∧ Q6[b.2]? = some y ∧ thr < x ∧ thr < y) ∧
      ∀ b ∈ out, out.count b = lines.count b := by
  have hq : ∀ b ∈ lines, thr < min (Q6.getD b.1 thr) (Q6.getD b.2 thr) ↔ ∃ x y, Q6[b.1]? = some x ∧ Q6[b.2]? = some y ∧ thr < x ∧ thr < y := by
    intro b hb
    obtain ⟨h1, h2⟩ := h b hb
    simp only [List.getD_eq_getElem?_getD, List.getElem?_eq_getElem h1, List.getElem?_eq_getElem h2, Option.getD_some, lt_min_iff, Option.some.injEq]
    constructor
    · rintro ⟨a, b⟩; exact ⟨_, _, rfl, rfl, a, b⟩
    · rintro ⟨x, y, rfl, rfl, a, b⟩; exact ⟨a, b⟩
  refine ⟨lines.filter fun b => decide (thr < min (Q6.getD b.1 thr) (Q6.getD b.2 thr)), ?_, List.filter_sublist, ?_, ?_⟩
  · rw [loadXbonds, mapM_pair Q6 thr lines h, ok_bind, if_neg (by omega), List.filter_map, List.map_map]
    simp only [Function.comp_def, List.map_id']
  · intro b
    rw [List.mem_filter, decide_eq_true_eq]
    constructor
    · rintro ⟨h1, h2⟩; exact ⟨h1, (hq b h1).1 h2⟩
    · rintro ⟨h1, h2⟩; exact ⟨h1, (hq b h1).2 h2⟩
  · intro b hb
    have := (List.mem_filter.1 hb).2
    exact List.count_filter (p := fun (b : Nat × Nat) => decide (thr < min (Q6.getD b.1 thr) (Q6.getD b.2 thr))) this

example : loadXbonds [(0, 1), (1, 2)] [3, 4, (0 : Nat)] 1 = .ok [(0, 1)] := by decide

/-- C227, the part that is false. A file of one bond or none is refused, because the array that is read has a single dimension. -/
theorem C227_single_counterexample {G : Type} [LinearOrder G] (lines : List (Nat × Nat)) (Q6 : List G) (thr : G) (h2 : lines.length < 2)
    (h : ∀ b ∈ lines, b.1 < Q6.length ∧ b.2 < Q6.length) : loadXbonds lines Q6 thr = .error .invalidArgument := by
  rw [loadXbonds, mapM_pair Q6 thr lines h, ok_bind, if_pos h2]

example : loadXbonds [(0, 1)] [3, (4 : Nat)] 1 = .error .invalidArgument := by decide

end Pbox
end Py
end Colloids
