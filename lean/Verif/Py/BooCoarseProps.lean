import Verif.Py.BooQlmProps

/-! # Coarse graining of the bond orientational order in python: C176 -/

namespace Colloids
namespace Py
namespace PyBoo
open Linker (get_mapRange replicate_map get_mapModify)
open Average (idx_some)
open TreeIndex (mapM_ok_of)
open Bonds (ends)

theorem upd_and {n i : Nat} (hi : i < n) (g : Nat → Bool) (w : Bool) :
    upd ((List.range n).map g) i (· && w) = .ok ((List.range n).map fun j => g j && (i != j || w)) := by
  unfold upd
  rw [if_pos (by simpa using hi), get_mapModify]
  congr 1
  apply List.map_congr_left
  intro j _
  by_cases h : j = i
  · subst h; simp
  · simp [h, Ne.symm h]

theorem andAt_eq {κ : Type} {n : Nat} (f : κ → Nat) (w : κ → Bool) : ∀ (bonds : List κ), (∀ b ∈ bonds, f b < n) → ∀ g : Nat → Bool,
    andAt ((List.range n).map g) (bonds.map f) (bonds.map w) = .ok ((List.range n).map fun j => g j && bonds.all fun b => f b != j || w b) := by
  intro bonds
  induction bonds with
  | nil => intro _ g; simp [andAt]
  | cons b bonds ih =>
    intro h g
    have := ih (fun c hc => h c (by simp [hc]))
    unfold andAt at this ⊢
    simp only [List.map_cons, List.zip_cons_cons, List.foldlM_cons]
    rw [upd_and (h b (by simp))]
    simp only [ok_bind]
    rw [this]
    simp only [List.all_cons, Bool.and_assoc]

/-- A list given by its items. -/
def Items {α : Type} (l : List α) (n : Nat) (f : Nat → α) : Prop := l.length = n ∧ ∀ i < n, l[i]? = some (f i)

theorem Items.eq {α : Type} {l : List α} {n : Nat} {f : Nat → α} (h : Items l n f) : l = (List.range n).map f := by
  apply List.ext_getElem?
  intro i
  rw [get_mapRange]
  split
  · exact h.2 i ‹_›
  · rw [List.getElem?_eq_none (by have := h.1; omega)]

theorem Items.range {α : Type} (n : Nat) (f : Nat → α) : Items ((List.range n).map f) n f :=
  ⟨by simp, fun i hi => by rw [get_mapRange, if_pos hi]⟩

theorem Items.idx {α : Type} {l : List α} {n : Nat} {f : Nat → α} (h : Items l n f) {i : Nat} (hi : i < n) : Py.idx l i = .ok (f i) :=
  idx_some (h.2 i hi)

theorem coarse_eq {l n : Nat} {qlm : List (Row l)} {q : Nat → Row l} (hq : Items qlm n q) {inside : List Bool} {ins : Nat → Bool}
    (hi : Items inside n ins) {bonds : List (Nat × Nat)} (hb : ∀ b ∈ bonds, b.1 < n ∧ b.2 < n) :
    coarsegrainQlm qlm bonds inside = .ok
      ((List.range n).map fun i => (1 / ((max 1 (ends i bonds).length : Nat) : ℝ)) •
          if ins i && (ends i bonds).all ins then ((ends i bonds).map q).sum else 0,
        (List.range n).map fun i => ins i && (ends i bonds).all ins) := by
  have hall : ∀ i, ((ins i && bonds.all fun b => b.1 != i || ins b.2) && bonds.all fun b => b.2 != i || ins b.1) = (ins i && (ends i bonds).all ins) := by
    intro i
    rw [Bool.and_assoc]
    congr 1
    rw [Bool.eq_iff_iff]
    simp only [Bool.and_eq_true, List.all_eq_true, Bool.or_eq_true, bne_iff_ne, ne_eq]
    constructor
    · rintro ⟨h1, h2⟩ j hj
      rcases Bonds.mem_ends.1 hj with h | h
      · exact (h1 _ h).resolve_left (by simp)
      · exact (h2 _ h).resolve_left (by simp)
    · intro h
      refine ⟨fun b hb => ?_, fun b hb => ?_⟩
      · by_cases e : b.1 = i
        · subst e; exact Or.inr (h _ (Bonds.mem_ends.2 (Or.inl hb)))
        · exact Or.inl e
      · by_cases e : b.2 = i
        · subst e; exact Or.inr (h _ (Bonds.mem_ends.2 (Or.inr hb)))
        · exact Or.inl e
  unfold coarsegrainQlm
  rw [if_neg (by rw [hi.1, hq.1]; simp)]
  rw [mapM_ok_of (fun b : Nat × Nat => idx inside b.2) (fun b : Nat × Nat => ins b.2) bonds (fun b h => hi.idx (hb b h).2),
    mapM_ok_of (fun b : Nat × Nat => idx inside b.1) (fun b : Nat × Nat => ins b.1) bonds (fun b h => hi.idx (hb b h).1),
    mapM_ok_of (fun b : Nat × Nat => idx qlm b.2) (fun b : Nat × Nat => q b.2) bonds (fun b h => hq.idx (hb b h).2),
    mapM_ok_of (fun b : Nat × Nat => idx qlm b.1) (fun b : Nat × Nat => q b.1) bonds (fun b h => hq.idx (hb b h).1)]
  simp only [pure_eq_ok, ok_bind]
  rw [hi.eq, andAt_eq Prod.fst (fun b : Nat × Nat => ins b.2) bonds (fun b h => (hb b h).1)]
  simp only [ok_bind]
  rw [andAt_eq Prod.snd (fun b : Nat × Nat => ins b.1) bonds (fun b h => (hb b h).2)]
  simp only [ok_bind, hq.1, hall]
  rw [count_eq hb]
  simp only [ok_bind]
  rw [replicate_map, addAt_eq bonds Prod.fst (fun b : Nat × Nat => q b.2) (fun b h => (hb b h).1)]
  simp only [ok_bind]
  rw [addAt_eq bonds Prod.snd (fun b : Nat × Nat => q b.1) (fun b h => (hb b h).2)]
  simp only [ok_bind]
  rw [List.zipWith_map, List.zipWith_self, divide_eq]
  congr 2
  apply List.map_congr_left
  intro i _
  rw [zero_add, ends_sum i _ _ q bonds (by rintro b - rfl; rfl) (by rintro b - rfl; rfl)]
  congr 1
  cases ins i && (ends i bonds).all ins <;> simp

/-- C176: the mask given back marks the particles that are inside and of which all the neighbours are inside. -/
theorem C176_mask {l n : Nat} {qlm : List (Row l)} {q : Nat → Row l} (hq : Items qlm n q) {inside : List Bool} {ins : Nat → Bool}
    (hi : Items inside n ins) {bonds : List (Nat × Nat)} (hb : ∀ b ∈ bonds, b.1 < n ∧ b.2 < n) :
    ∃ Q mask, coarsegrainQlm qlm bonds inside = .ok (Q, mask) ∧ Q.length = n ∧ mask.length = n ∧
      ∀ i < n, (mask[i]? = some true ↔ ins i = true ∧ ∀ j, (i, j) ∈ bonds ∨ (j, i) ∈ bonds → ins j = true) := by
  refine ⟨_, _, coarse_eq hq hi hb, by simp, by simp, fun i h => ?_⟩
  rw [get_mapRange, if_pos h]
  simp only [Option.some.injEq, Bool.and_eq_true, List.all_eq_true, Bonds.mem_ends]

/-- C176: a particle of the mask gets the mean of the coefficients of its neighbours, or 0 when it has none; the other particles get 0. Missing: the
particle itself, that the documentation counts in the mean (`C176_itself_counterexample`). -/
theorem C176_mean_partial {l n : Nat} {qlm : List (Row l)} {q : Nat → Row l} (hq : Items qlm n q) {inside : List Bool} {ins : Nat → Bool}
    (hi : Items inside n ins) {bonds : List (Nat × Nat)} (hb : ∀ b ∈ bonds, b.1 < n ∧ b.2 < n) :
    ∃ Q mask, coarsegrainQlm qlm bonds inside = .ok (Q, mask) ∧ ∀ i < n,
      (mask[i]? ≠ some true → Q[i]? = some 0) ∧ (ends i bonds = [] → Q[i]? = some 0) ∧
      (mask[i]? = some true → ends i bonds ≠ [] → Q[i]? = some ((1 / ((ends i bonds).length : ℝ)) • ((ends i bonds).map q).sum)) := by
  refine ⟨_, _, coarse_eq hq hi hb, fun i h => ?_⟩
  rw [get_mapRange, get_mapRange, if_pos h, if_pos h]
  refine ⟨fun h => ?_, fun h => by simp [h], fun h1 h2 => ?_⟩
  · have : (ins i && (ends i bonds).all ins) = false := by
      cases hc : ins i && (ends i bonds).all ins
      · rfl
      · exact absurd (by rw [hc]) h
    simp [this]
  · have : 1 ≤ (ends i bonds).length := List.length_pos_of_ne_nil h2
    rw [Option.some.inj h1, Nat.max_eq_right this]
    simp

/-- C176: what the documentation announces, `(q(i) + Σ q(j)) / (N + 1)`, is given back for a particle of the mask that has neighbours only when its
coefficients are already the mean of those of its neighbours. -/
theorem C176_documented {l n : Nat} {qlm : List (Row l)} {q : Nat → Row l} (hq : Items qlm n q) {inside : List Bool} {ins : Nat → Bool}
    (hi : Items inside n ins) {bonds : List (Nat × Nat)} (hb : ∀ b ∈ bonds, b.1 < n ∧ b.2 < n) :
    ∃ Q mask, coarsegrainQlm qlm bonds inside = .ok (Q, mask) ∧ ∀ i < n, mask[i]? = some true → ends i bonds ≠ [] →
      (Q[i]? = some ((1 / ((ends i bonds).length + 1 : ℝ)) • (q i + ((ends i bonds).map q).sum)) ↔
        ((ends i bonds).length : ℝ) • q i = ((ends i bonds).map q).sum) := by
  obtain ⟨Q, mask, h, hQ⟩ := C176_mean_partial hq hi hb
  refine ⟨Q, mask, h, fun i hn hm h0 => ?_⟩
  rw [(hQ i hn).2.2 hm h0, Option.some.injEq]
  have hk : (0 : ℝ) < (ends i bonds).length := by exact_mod_cast List.length_pos_of_ne_nil h0
  generalize ((ends i bonds).length : ℝ) = k at hk ⊢
  generalize ((ends i bonds).map q).sum = s
  constructor
  · intro e
    have := congrArg (fun x => (k * (k + 1)) • x) e
    simp only [smul_smul] at this
    rw [show k * (k + 1) * (1 / k) = k + 1 by field_simp, show k * (k + 1) * (1 / (k + 1)) = k by field_simp, add_smul, one_smul, smul_add] at this
    exact (add_left_cancel (a := k • s) (by rw [this, add_comm])).symm
  · intro e
    rw [← e, show q i + k • q i = (k + 1) • q i by rw [add_smul, one_smul, add_comm], smul_smul, smul_smul]
    congr 1
    field_simp

/-- C176: two bonded particles exchange their coefficients, whatever they are, where the documentation announces the mean of the two. A particle without
neighbour gets 0 where the documentation announces its own coefficients. -/
theorem C176_itself_counterexample {l : Nat} (a b : Row l) :
    coarsegrainQlm [a, b] [(0, 1)] [true, true] = .ok ([b, a], [true, true]) ∧ coarsegrainQlm [a] [] [true] = .ok ([0], [true]) := by
  have hq : Items [a, b] 2 (fun i => if i = 0 then a else b) := by
    refine ⟨rfl, fun i hi => ?_⟩
    rcases (show i = 0 ∨ i = 1 by omega) with rfl | rfl <;> rfl
  have hi : Items [true, true] 2 (fun _ => true) := by
    refine ⟨rfl, fun i hi => ?_⟩
    rcases (show i = 0 ∨ i = 1 by omega) with rfl | rfl <;> rfl
  have hq' : Items [a] 1 (fun _ => a) := ⟨rfl, fun i hi => by rw [show i = 0 by omega]; rfl⟩
  have hi' : Items [true] 1 (fun _ => true) := ⟨rfl, fun i hi => by rw [show i = 0 by omega]; rfl⟩
  rw [coarse_eq hq hi (by simp), coarse_eq hq' hi' (by simp)]
  constructor
  · simp [List.range_succ, ends]
  · simp [List.range_succ, ends]

/-- C176: coarse graining twice two bonded particles gives back what was given. -/
theorem C176_twice_counterexample {l : Nat} (a b : Row l) : (do
      let x ← coarsegrainQlm [a, b] [(0, 1)] [true, true]
      coarsegrainQlm x.1 [(0, 1)] x.2) = .ok ([a, b], [true, true]) := by
  rw [(C176_itself_counterexample a b).1]
  simp only [ok_bind]
  rw [(C176_itself_counterexample b a).1]

example : ∃ (q : Nat → Row 2), Items [(0 : Row 2), (fun _ => 1 : Row 2), 0] 3 q ∧ Items [true, true, false] 3 (fun i => decide (i < 2)) ∧
    ∀ b ∈ [(0, 1), (2, 1)], b.1 < 3 ∧ b.2 < 3 := by
  refine ⟨fun i => if i = 1 then fun _ => 1 else 0, ⟨rfl, fun i hi => ?_⟩, ⟨rfl, fun i hi => ?_⟩, by decide⟩
  · rcases (show i = 0 ∨ i = 1 ∨ i = 2 by omega) with rfl | rfl | rfl <;> rfl
  · rcases (show i = 0 ∨ i = 1 ∨ i = 2 by omega) with rfl | rfl | rfl <;> rfl

end PyBoo
end Py
end Colloids
