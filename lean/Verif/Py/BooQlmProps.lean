import Verif.Py.BooYlmProps

/-! # Bond orientational order of the particles in python: C175 and C176 -/

namespace Colloids
namespace Py
namespace PyBoo
open Boo (len len_sq len_pos legendre sphericalHarmonic y0)
open Linker (get_mapRange replicate_map)
open Average (fold_contrib upd_add idx_some)
open TreeIndex (mapM_ok_of)
open Bonds (ends)

theorem addAt_eq {κ V : Type} [AddCommMonoid V] {n : Nat} (bonds : List κ) (f : κ → Nat) (w : κ → V) (hf : ∀ b ∈ bonds, f b < n) (g : Nat → V) :
    addAt ((List.range n).map g) (bonds.map f) (bonds.map w) =
      .ok ((List.range n).map fun j => g j + (bonds.map fun b => if f b = j then w b else 0).sum) := by
  unfold addAt
  rw [List.zip_map', List.foldlM_map]
  exact fold_contrib n (fun a b => upd a (f b) (· + w b)) (fun b j => if f b = j then w b else 0) bonds
    (fun b hb g => upd_add (hf b hb) g (w b)) g

theorem ends_length (i : Nat) (bonds : List (Nat × Nat)) :
    ((bonds.flatMap fun b => [b.1, b.2]).map fun k => if k = i then 1 else 0).sum = (ends i bonds).length := by
  unfold ends
  induction bonds with
  | nil => rfl
  | cons b bonds ih =>
    simp only [List.flatMap_cons, List.map_append, List.sum_append, List.length_append, ih]
    congr 1
    simp only [List.map_cons, List.map_nil, List.sum_cons, List.sum_nil]
    split_ifs <;> simp

theorem count_eq {N : Nat} {bonds : List (Nat × Nat)} (h : ∀ b ∈ bonds, b.1 < N ∧ b.2 < N) :
    countBonds N bonds = .ok ((List.range N).map fun i => (ends i bonds).length) := by
  unfold countBonds
  rw [replicate_map, fold_contrib N _ (fun k i => if k = i then 1 else 0)]
  · congr 1
    apply List.map_congr_left
    intro i _
    rw [Nat.zero_add, ends_length]
  · intro k hk g
    apply upd_add
    obtain ⟨b, hb, hk⟩ := List.mem_flatMap.1 hk
    have := h b hb
    simp only [List.mem_cons, List.not_mem_nil, or_false] at hk
    rcases hk with rfl | rfl
    · exact this.1
    · exact this.2

theorem ends_sum {V : Type} [AddCommMonoid V] (i : Nat) (f g : Nat × Nat → V) (z : Nat → V) :
    ∀ bonds : List (Nat × Nat), (∀ b ∈ bonds, b.1 = i → f b = z b.2) → (∀ b ∈ bonds, b.2 = i → g b = z b.1) →
      (bonds.map fun b => if b.1 = i then f b else 0).sum + (bonds.map fun b => if b.2 = i then g b else 0).sum = ((ends i bonds).map z).sum := by
  intro bonds
  unfold ends
  induction bonds with
  | nil => intro _ _; simp
  | cons b bonds ih =>
    intro hf hg
    simp only [List.map_cons, List.sum_cons, List.flatMap_cons, List.map_append, List.sum_append]
    rw [← ih (fun b hb => hf b (by simp [hb])) (fun b hb => hg b (by simp [hb]))]
    have e1 : (if b.1 = i then f b else 0) = (List.map z (if b.1 = i then [b.2] else [])).sum := by
      split_ifs with h
      · simp [hf b (by simp) h]
      · simp
    have e2 : (if b.2 = i then g b else 0) = (List.map z (if b.2 = i then [b.1] else [])).sum := by
      split_ifs with h
      · simp [hg b (by simp) h]
      · simp
    rw [e1, e2]
    abel

theorem divide_eq {l N : Nat} (q : Nat → Row l) (n : Nat → Nat) :
    divideBy ((List.range N).map q) ((List.range N).map n) = (List.range N).map fun i => (1 / ((max 1 (n i) : Nat) : ℝ)) • q i := by
  unfold divideBy
  rw [List.zipWith_map, List.zipWith_self]

theorem filter_sum {κ V : Type} [AddCommMonoid V] (P : κ → Prop) [DecidablePred P] (w : κ → V) (bonds : List κ) :
    (bonds.map fun b => if P b then w b else 0).sum = ((bonds.filter fun b => P b).map w).sum := by
  induction bonds with
  | nil => rfl
  | cons b bonds ih =>
    rw [List.map_cons, List.sum_cons, ih, List.filter_cons]
    by_cases h : P b <;> simp [h]

/-- C175: `bonds2qlm` gives to each particle the mean, over the bonds it belongs to, of the coefficients of the bond taken from its first end to its
second end. -/
theorem C175_mean (l : Nat) {pos : List (Fin 3 → ℝ)} {p : Nat → Fin 3 → ℝ} (hp : ∀ i < pos.length, pos[i]? = some (p i))
    {bonds : List (Nat × Nat)} (hb : ∀ b ∈ bonds, b.1 < pos.length ∧ b.2 < pos.length) (periods : Fin 3 → ℝ) :
    bonds2qlm l pos bonds periods = .ok ((List.range pos.length).map fun i =>
      (1 / ((max 1 (ends i bonds).length : Nat) : ℝ)) •
        ((bonds.filter (fun b => b.1 = i) ++ bonds.filter (fun b => b.2 = i)).map fun b =>
          vect2Ylm l fun a => Periodic.periodify (p b.1 a) (p b.2 a) (periods a)).sum) := by
  unfold bonds2qlm
  rw [mapM_ok_of _ (fun b : Nat × Nat => vect2Ylm l fun a => Periodic.periodify (p b.1 a) (p b.2 a) (periods a)) bonds]
  · simp only [ok_bind]
    rw [replicate_map, addAt_eq bonds Prod.fst _ (fun b h => (hb b h).1)]
    simp only [ok_bind]
    rw [addAt_eq bonds Prod.snd _ (fun b h => (hb b h).2)]
    simp only [ok_bind]
    rw [count_eq hb]
    simp only [ok_bind]
    rw [divide_eq]
    simp only [pure_eq_ok]
    congr 1
    apply List.map_congr_left
    intro i _
    rw [zero_add, filter_sum (fun b : Nat × Nat => b.1 = i), filter_sum (fun b : Nat × Nat => b.2 = i), List.map_append, List.sum_append]
  · intro b h
    rw [idx_some (hp _ (hb b h).1), idx_some (hp _ (hb b h).2)]
    rfl

/-- Three particles of a line, the second one bonded to the others. -/
def three : List (Fin 3 → ℝ) := [![0, 0, 0], ![0, 0, 1], ![0, 2, 1]]

theorem three_get : ∀ i < three.length, three[i]? = some (three.getD i 0) := by
  intro i hi
  rw [List.getD_eq_getElem?_getD, List.getElem?_eq_getElem hi]
  rfl

example : ∀ b ∈ [(0, 1), (2, 1)], b.1 < three.length ∧ b.2 < three.length := by simp [three]

theorem periodify_swap {u v period : ℝ} (h : 0 < period → ∀ k : ℤ, v - u ≠ (k + 1 / 2) * period) :
    Periodic.periodify v u period = -Periodic.periodify u v period := by
  unfold Periodic.periodify
  simp only
  split_ifs with hp
  · ring
  · have hp : 0 < period := not_le.1 hp
    have hf : ⌊(u - v) / period + 1 / 2⌋ = -⌊(v - u) / period + 1 / 2⌋ := by
      rw [Int.floor_eq_iff]
      have h1 := Int.floor_le ((v - u) / period + 1 / 2)
      have h2 := Int.lt_floor_add_one ((v - u) / period + 1 / 2)
      have e : (u - v) / period = -((v - u) / period) := by rw [← neg_div]; ring
      have hne : (⌊(v - u) / period + 1 / 2⌋ : ℝ) ≠ (v - u) / period + 1 / 2 := by
        intro h'
        apply h hp (⌊(v - u) / period + 1 / 2⌋ - 1)
        have : (v - u) / period = ⌊(v - u) / period + 1 / 2⌋ - 1 / 2 := by rw [h']; ring
        rw [div_eq_iff hp.ne'] at this
        refine this.trans ?_
        push_cast
        ring
      have h3 := lt_of_le_of_ne h1 hne
      rw [e]
      push_cast
      constructor <;> linarith
    rw [hf]
    push_cast
    ring

theorem ylm_swap {l : Nat} (h2 : 2 ∣ l) {u v periods : Fin 3 → ℝ} (ht : ∀ a, 0 < periods a → ∀ k : ℤ, v a - u a ≠ (k + 1 / 2) * periods a) :
    (vect2Ylm l fun a => Periodic.periodify (u a) (v a) (periods a)) = vect2Ylm l fun a => Periodic.periodify (v a) (u a) (periods a) := by
  have : (fun a => Periodic.periodify (v a) (u a) (periods a)) = -fun a => Periodic.periodify (u a) (v a) (periods a) := by
    funext a
    exact periodify_swap (ht a)
  rw [this, ylm_even l h2]

/-- C175: for an even degree, and when no bond is exactly half a period long along a dimension, the order of the ends of the bonds does not matter: the
coefficients of a particle are the mean over its neighbours of the coefficients of the vectors to its neighbours. Missing: odd degrees
(`C175_odd_counterexample`). -/
theorem C175_neighbours_partial {l : Nat} (h2 : 2 ∣ l) {pos : List (Fin 3 → ℝ)} {p : Nat → Fin 3 → ℝ} (hp : ∀ i < pos.length, pos[i]? = some (p i))
    {bonds : List (Nat × Nat)} (hb : ∀ b ∈ bonds, b.1 < pos.length ∧ b.2 < pos.length) {periods : Fin 3 → ℝ}
    (ht : ∀ b ∈ bonds, ∀ a, 0 < periods a → ∀ k : ℤ, p b.2 a - p b.1 a ≠ (k + 1 / 2) * periods a) :
    ∃ out, bonds2qlm l pos bonds periods = .ok out ∧ out.length = pos.length ∧ ∀ i < pos.length,
      (ends i bonds = [] → out[i]? = some 0) ∧
      (ends i bonds ≠ [] → out[i]? = some ((1 / ((ends i bonds).length : ℝ)) •
        ((ends i bonds).map fun j => vect2Ylm l fun a => Periodic.periodify (p i a) (p j a) (periods a)).sum)) := by
  refine ⟨_, C175_mean l hp hb periods, by simp, fun i hi => ?_⟩
  rw [get_mapRange, if_pos hi, List.map_append, List.sum_append, ← filter_sum (fun b : Nat × Nat => b.1 = i),
    ← filter_sum (fun b : Nat × Nat => b.2 = i),
    ends_sum i _ _ (fun j => vect2Ylm l fun a => Periodic.periodify (p i a) (p j a) (periods a)) bonds]
  · refine ⟨fun h => by simp [h], fun h => ?_⟩
    have : 1 ≤ (ends i bonds).length := List.length_pos_of_ne_nil h
    rw [Nat.max_eq_right this]
  · rintro b - rfl
    rfl
  · rintro b hb rfl
    exact ylm_swap h2 (ht b hb)

example : (2 ∣ 6) ∧ (∀ b ∈ [(0, 1), (2, 1)], ∀ a, 0 < (fun _ => 10 : Fin 3 → ℝ) a → ∀ k : ℤ,
    three.getD b.2 0 a - three.getD b.1 0 a ≠ (k + 1 / 2) * (fun _ => 10 : Fin 3 → ℝ) a) := by
  refine ⟨by decide, ?_⟩
  intro b hb a _ k h
  have key : ∀ z : ℤ, three.getD b.2 0 a - three.getD b.1 0 a = z → z % 10 ≠ 5 → False := by
    intro z hz hz5
    rw [hz] at h
    have : (z : ℝ) = ((10 * k + 5 : ℤ) : ℝ) := by push_cast; rw [h]; ring
    have := Int.cast_injective this
    omega
  simp only [List.mem_cons, List.not_mem_nil, or_false] at hb
  rcases hb with rfl | rfl
  · fin_cases a
    · exact key 0 (by simp [three]) (by decide)
    · exact key 0 (by simp [three]) (by decide)
    · exact key 1 (by simp [three]) (by decide)
  · fin_cases a
    · exact key 0 (by simp [three]) (by decide)
    · exact key (-2) (by simp [three]) (by decide)
    · exact key 0 (by simp [three]) (by decide)

theorem single_eq (l : Nat) {pos : List (Fin 3 → ℝ)} {p : Nat → Fin 3 → ℝ} (hp : ∀ i < pos.length, pos[i]? = some (p i)) {i : Nat}
    (hi : i < pos.length) {ngbs : List Nat} (hn : ∀ j ∈ ngbs, j < pos.length) (h0 : ngbs ≠ []) :
    singlePos2qlm l pos i ngbs = .ok (some ((1 / (ngbs.length : ℝ)) • (ngbs.map fun j => vect2Ylm l (p j - p i)).sum)) := by
  unfold singlePos2qlm
  rw [idx_some (hp i hi)]
  simp only [ok_bind]
  rw [mapM_ok_of _ (fun j => p j - p i) ngbs (fun j hj => by rw [idx_some (hp j (hn j hj))]; rfl)]
  simp only [ok_bind]
  rw [if_neg (by simpa using h0), List.length_map, List.map_map]
  rfl

theorem ends_lt {pos : List (Fin 3 → ℝ)} {bonds : List (Nat × Nat)} (hb : ∀ b ∈ bonds, b.1 < pos.length ∧ b.2 < pos.length) (i : Nat) :
    ∀ j ∈ ends i bonds, j < pos.length := by
  intro j hj
  rcases Bonds.mem_ends.1 hj with h | h
  · exact (hb _ h).2
  · exact (hb _ h).1

/-- C175: without periods and for an even degree `bonds2qlm` gives to each particle that has a bond what `single_pos2qlm` gives from the list of its
neighbours. Missing: odd degrees (`C175_odd_counterexample`), and particles without bond: 0 against a mean of nothing. -/
theorem C175_single_partial {l : Nat} (h2 : 2 ∣ l) {pos : List (Fin 3 → ℝ)} {bonds : List (Nat × Nat)}
    (hb : ∀ b ∈ bonds, b.1 < pos.length ∧ b.2 < pos.length) {periods : Fin 3 → ℝ} (ht : ∀ a, periods a ≤ 0) :
    ∃ out, bonds2qlm l pos bonds periods = .ok out ∧ ∀ i < pos.length,
      (ends i bonds = [] → out[i]? = some 0 ∧ singlePos2qlm l pos i (ends i bonds) = .ok none) ∧
      (ends i bonds ≠ [] → ∃ row, out[i]? = some row ∧ singlePos2qlm l pos i (ends i bonds) = .ok (some row)) := by
  have hp : ∀ i < pos.length, pos[i]? = some (pos.getD i 0) := by
    intro i hi
    rw [List.getD_eq_getElem?_getD, List.getElem?_eq_getElem hi]
    rfl
  obtain ⟨out, ho, _, h⟩ := C175_neighbours_partial h2 hp hb (fun b _ a h' => absurd h' (not_lt.2 (ht a)))
  refine ⟨out, ho, fun i hi => ⟨fun h0 => ⟨(h i hi).1 h0, ?_⟩, fun h0 => ⟨_, (h i hi).2 h0, ?_⟩⟩⟩
  · rw [h0]
    unfold singlePos2qlm
    rw [idx_some (hp i hi)]
    rfl
  · rw [single_eq l hp hi (ends_lt hb i) h0]
    congr 4
    apply List.map_congr_left
    intro j _
    congr 1
    funext a
    unfold Periodic.periodify
    simp [ht a]

example : (2 ∣ 4) ∧ (∀ b ∈ [(0, 1), (2, 1)], b.1 < three.length ∧ b.2 < three.length) ∧ ends 1 [(0, 1), (2, 1)] ≠ [] := by
  refine ⟨by decide, by simp [three], by decide⟩

theorem ylm_pole (l : Nat) : vect2Ylm l ![0, 0, 1] 0 = (y0 l : ℂ) := by
  have hv : (![0, 0, 1] : Fin 3 → ℝ) ≠ 0 := fun h => by have := congrFun h 2; simp at this
  have hl : len ![0, 0, 1] = 1 := by unfold len; simp
  rw [C175_formula l hv, hl]
  have hf : ((l.factorial : ℝ)) ≠ 0 := by positivity
  simp [Boo.legendre_one, y0, div_self hf]

theorem y0_ne (l : Nat) : y0 l ≠ 0 := by
  unfold y0
  apply (Real.sqrt_pos.2 _).ne'
  have := Real.pi_pos
  positivity

/-- C175: for an odd degree `bonds2qlm` is not the mean over the neighbours: the two ends of a bond get the same coefficients, while those of the
vectors to the neighbours are opposite. -/
theorem C175_odd_counterexample (l : Nat) (h2 : ¬ 2 ∣ l) :
    ∃ (u v : Fin 3 → ℝ) (q : Row l), q ≠ 0 ∧ (∀ periods : Fin 3 → ℝ, (∀ a, periods a ≤ 0) →
        bonds2qlm l [u, v] [(0, 1)] periods = .ok [q, q] ∧ bonds2qlm l [u, v] [(1, 0)] periods = .ok [-q, -q]) ∧
      singlePos2qlm l [u, v] 0 [1] = .ok (some q) ∧ singlePos2qlm l [u, v] 1 [0] = .ok (some (-q)) := by
  have hv : (![0, 0, 1] : Fin 3 → ℝ) ≠ 0 := fun h => by have := congrFun h 2; simp at this
  have hp : ∀ i < [(0 : Fin 3 → ℝ), ![0, 0, 1]].length, [(0 : Fin 3 → ℝ), ![0, 0, 1]][i]? = some (if i = 0 then 0 else ![0, 0, 1]) := by
    intro i hi
    rcases (show i = 0 ∨ i = 1 by simp at hi; omega) with rfl | rfl <;> simp
  have hneg : vect2Ylm l ![0, 0, -1] = -vect2Ylm l ![0, 0, 1] := by
    rw [show (![0, 0, -1] : Fin 3 → ℝ) = -![0, 0, 1] by simp]
    exact (C175_parity l hv).2 h2
  refine ⟨0, ![0, 0, 1], vect2Ylm l ![0, 0, 1], fun h => ?_, fun periods ht => ⟨?_, ?_⟩, ?_, ?_⟩
  · have := congrFun h 0
    rw [ylm_pole, Pi.zero_apply] at this
    exact y0_ne l (by exact_mod_cast this)
  · rw [C175_mean l hp (by simp)]
    have e : (fun a => Periodic.periodify 0 ((![0, 0, 1] : Fin 3 → ℝ) a) (periods a)) = ![0, 0, 1] := by
      funext a; unfold Periodic.periodify; simp [ht a]
    simp [List.range_succ, ends, e]
  · rw [C175_mean l hp (by simp)]
    have e : (fun a => Periodic.periodify ((![0, 0, 1] : Fin 3 → ℝ) a) 0 (periods a)) = ![0, 0, -1] := by
      funext a; unfold Periodic.periodify; fin_cases a <;> simp [ht]
    simp [List.range_succ, ends, e, hneg]
  · rw [single_eq l hp (by simp) (by simp) (by simp)]
    simp
  · rw [single_eq l hp (by simp) (by simp) (by simp)]
    simp [hneg]

/-- C175: a bond to a particle that does not exist is an `IndexError`. -/
theorem C175_outside (l : Nat) {pos : List (Fin 3 → ℝ)} {bonds : List (Nat × Nat)} {b : Nat × Nat} (hb : b ∈ bonds)
    (h : pos.length ≤ b.1 ∨ pos.length ≤ b.2) (periods : Fin 3 → ℝ) : bonds2qlm l pos bonds periods = .error .outOfRange := by
  unfold bonds2qlm
  have : (bonds.mapM fun b => do
      let u ← idx pos b.1
      let v ← idx pos b.2
      pure (vect2Ylm l fun a => Periodic.periodify (u a) (v a) (periods a))) = (.error .outOfRange : R (List (Row l))) := by
    induction bonds with
    | nil => simp at hb
    | cons c bonds ih =>
      rw [List.mapM_cons]
      by_cases hc : c.1 < pos.length ∧ c.2 < pos.length
      · have hne : b ≠ c := by rintro rfl; omega
        rw [idx_some (List.getElem?_eq_getElem hc.1), idx_some (List.getElem?_eq_getElem hc.2)]
        simp only [ok_bind]
        rw [pure_bind, ih (by simpa [hne] using hb)]
        rfl
      · by_cases h1 : c.1 < pos.length
        · rw [idx_some (List.getElem?_eq_getElem h1)]
          simp only [ok_bind]
          unfold idx
          rw [List.getElem?_eq_none (by omega)]
          rfl
        · unfold idx
          rw [List.getElem?_eq_none (l := pos) (i := c.1) (by omega)]
          rfl
  rw [this]
  rfl

example : (0, 7) ∈ [(0, 1), (0, 7)] ∧ (three.length ≤ 0 ∨ three.length ≤ 7) := by simp [three]

end PyBoo
end Py
end Colloids
