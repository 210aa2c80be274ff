import Verif.Mains.SimModel
import Verif.Boo.FlipProps
import Verif.Boo.FieldLemmas
import Verif.Boo.RotProps2
import Mathlib.Tactic.FinCases

/-! # C133: the similarities of bonded particles in `boo_flip` -/

namespace Colloids
namespace Mains

open Boo

theorem binarySearch_iff {l : List Nat} (h : l.Pairwise (· < ·)) (v : Nat) : binarySearch l v = true ↔ v ∈ l := by
  unfold binarySearch
  have hm := fun x => mem_fromLowerBound h (v := v) (x := x)
  have hsub : (fromLowerBound l v).Pairwise (· < ·) := by
    unfold fromLowerBound
    exact h.sublist (List.drop_sublist _ _)
  cases hl : fromLowerBound l v with
  | nil =>
    simp only [hl, List.not_mem_nil, false_iff] at hm
    simp only [Bool.false_eq_true, false_iff]
    exact fun hv => hm v ⟨hv, le_refl _⟩
  | cons x xs =>
    rw [hl] at hm hsub
    have hx := (hm x).1 (by simp)
    simp only [Bool.not_eq_eq_eq_not, Bool.not_true, decide_eq_false_iff_not, not_lt]
    constructor
    · intro h1
      have : x = v := by omega
      exact this ▸ hx.1
    · intro hv
      have := (hm v).2 ⟨hv, le_refl _⟩
      rcases List.mem_cons.1 this with e | e
      · omega
      · have := (List.pairwise_cons.1 hsub).1 v e
        omega

/-- The bonds that are compared: both particles are selected and have a tensor. -/
def Compared (B : List BooData) (inside : List Nat) (b : Bond) : Prop :=
  NonNull B b.low ∧ NonNull B b.high ∧ b.low ∈ inside ∧ b.high ∈ inside

/-- What is computed for a bond, `-2` if it is not compared. -/
noncomputable def okD {α : Type} (d : α) : R α → α
  | .ok x => x
  | .error _ => d

open Classical in
/-- The similarity of a bond. -/
noncomputable def simVal (B : List BooData) (inside : List Nat) (b : Bond) : Option ℝ :=
  if Compared B inside b then
    okD none (do sim6 (← getR B b.low) (← getR B b.high))
  else some (-2)

open Classical in
/-- The similarity of a bond after a half turn. -/
noncomputable def refVal (pos : List (Fin 3 → ℝ)) (B : List BooData) (inside : List Nat) (b : Bond) : Option ℝ :=
  if Compared B inside b then
    okD none (do sim6 (← getR B b.low) (← turned pos B b.low b.high))
  else some (-2)

open Classical in
/-- Number of bonds of a particle whose value is above one half. -/
noncomputable def bondsAbove (v : Bond → Option ℝ) (bonds : List Bond) (p : Nat) : Nat :=
  bonds.countP (fun b => decide ((b.low = p ∨ b.high = p) ∧ above (v b)))

theorem sim6_ok {a b : BooData} (ha : a.length = 36) (hb : b.length = 36) : ∃ x, sim6 a b = .ok x := by
  unfold sim6 normedProduct
  rw [sumNorm_eq ha (by norm_num) (by norm_num), sumNorm_eq hb (by norm_num) (by norm_num),
    innerProduct_eq ha hb (by norm_num) (by norm_num)]
  exact ⟨_, rfl⟩

open Classical in
theorem countBond_ok (n : Nat) (bonds : List Bond) (v : Bond → Option ℝ) (b : Bond) (h1 : b.low < b.high)
    (h2 : b.high < n) : countBond (tab n (bondsAbove v bonds)) b (v b) = .ok (tab n (bondsAbove v (bonds ++ [b]))) := by
  unfold countBond
  have hc : ∀ p, bondsAbove v (bonds ++ [b]) p =
      bondsAbove v bonds p + (if (b.low = p ∨ b.high = p) ∧ above (v b) then 1 else 0) := by
    intro p
    unfold bondsAbove
    rw [List.countP_append, List.countP_singleton]
    simp only [decide_eq_true_eq]
  by_cases ha : above (v b)
  · rw [if_pos ha, Boo.modifyR_tab _ (by omega), ok_bind, Boo.modifyR_tab _ h2]
    refine congrArg Except.ok (tab_congr ?_)
    intro p _
    rw [hc p]
    by_cases e1 : p = b.low
    · subst e1
      rw [if_neg (by omega), if_pos rfl, if_pos ⟨Or.inl rfl, ha⟩]
    · by_cases e2 : p = b.high
      · subst e2
        rw [if_pos rfl, if_neg e1, if_pos ⟨Or.inr rfl, ha⟩]
      · rw [if_neg e2, if_neg e1, if_neg (by rintro ⟨h | h, -⟩ <;> omega)]
        rfl
  · rw [if_neg ha, pure_eq_ok]
    refine congrArg Except.ok (tab_congr ?_)
    intro p _
    rw [hc p, if_neg (fun h => ha h.2)]
    rfl

theorem setR_pending {α : Type} (l : List α) (k : Nat) (a x : α) :
    setR (l ++ List.replicate (k + 1) a) l.length x = .ok (l ++ [x] ++ List.replicate k a) := by
  unfold setR
  rw [if_pos (by simp), List.set_append_right _ _ (le_refl _), Nat.sub_self, List.replicate_succ, List.set_cons_zero]
  simp

theorem pending_same {α : Type} (l : List α) (k : Nat) (a : α) :
    l ++ List.replicate (k + 1) a = l ++ [a] ++ List.replicate k a := by
  rw [List.replicate_succ]; simp

/-- The arrays once the bonds `done` have been seen, `k` remaining. -/
noncomputable def simState (pos : List (Fin 3 → ℝ)) (B : List BooData) (inside : List Nat) (done : List Bond) (k : Nat) : Sims :=
  ⟨done.map (simVal B inside) ++ List.replicate k (some (-2)), done.map (refVal pos B inside) ++ List.replicate k (some (-2)),
   tab pos.length (bondsAbove (simVal B inside) done), tab pos.length (bondsAbove (refVal pos B inside) done)⟩

theorem not_above_two : ¬ above (some (-2)) := by
  unfold above
  norm_num

open Classical in
theorem bondsAbove_skip (v : Bond → Option ℝ) (done : List Bond) (b : Bond) (h : ¬ above (v b)) (p : Nat) :
    bondsAbove v (done ++ [b]) p = bondsAbove v done p := by
  unfold bondsAbove
  rw [List.countP_append, List.countP_singleton]
  simp [h]

theorem simState_skip (pos : List (Fin 3 → ℝ)) (B : List BooData) (inside : List Nat) (done : List Bond) (k : Nat)
    (b : Bond) (h : ¬ Compared B inside b) :
    simState pos B inside done (k + 1) = simState pos B inside (done ++ [b]) k := by
  have e1 : simVal B inside b = some (-2) := by unfold simVal; rw [if_neg h]
  have e2 : refVal pos B inside b = some (-2) := by unfold refVal; rw [if_neg h]
  unfold simState
  congr 1
  · rw [pending_same, List.map_append, List.map_singleton, e1]
  · rw [pending_same, List.map_append, List.map_singleton, e2]
  · exact tab_congr (fun p _ => (bondsAbove_skip _ done b (by rw [e1]; exact not_above_two) p).symm)
  · exact tab_congr (fun p _ => (bondsAbove_skip _ done b (by rw [e2]; exact not_above_two) p).symm)

theorem simStep_ok (pos : List (Fin 3 → ℝ)) (B : List BooData) (inside : List Nat) (hB : ∀ q ∈ B, q.length = 36)
    (hpos : pos.length = B.length) (hin : inside.Pairwise (· < ·)) (done : List Bond) (k : Nat) (b : Bond)
    (h1 : b.low < b.high) (h2 : b.high < B.length) :
    simStep pos B inside (simState pos B inside done (k + 1), done.length) b =
      .ok (simState pos B inside (done ++ [b]) k, (done ++ [b]).length) := by
  have hl : b.low < B.length := by omega
  have l1 : (B[b.low]).length = 36 := hB _ (by simp)
  have l2 : (B[b.high]).length = 36 := hB _ (by simp)
  have nn : ∀ p (hp : p < B.length) (h0 : 0 < (B[p]).length), NonNull B p ↔ B[p][0] ≠ 0 := by
    intro p hp h0
    unfold NonNull
    constructor
    · rintro ⟨q, z, e1, e2, e3⟩
      rw [List.getElem?_eq_getElem hp] at e1
      injection e1 with e1
      subst e1
      rw [List.getElem?_eq_getElem h0] at e2
      injection e2 with e2
      rw [e2]; exact e3
    · intro h
      exact ⟨_, _, List.getElem?_eq_getElem hp, List.getElem?_eq_getElem h0, h⟩
  have nl := nn b.low hl (by omega)
  have nh := nn b.high h2 (by omega)
  unfold simStep
  rw [getR_of_lt hl, ok_bind, getR_of_lt (show 0 < (B[b.low]).length by omega), ok_bind]
  by_cases hz : B[b.low][0] = 0
  · rw [if_pos hz, pure_eq_ok, simState_skip _ _ _ _ _ b (fun h => (nl.1 h.1) hz)]
    simp
  · rw [if_neg hz, getR_of_lt h2, ok_bind, getR_of_lt (show 0 < (B[b.high]).length by omega), ok_bind]
    by_cases hz2 : B[b.high][0] = 0
    · rw [if_pos hz2, pure_eq_ok, simState_skip _ _ _ _ _ b (fun h => (nh.1 h.2.1) hz2)]
      simp
    · rw [if_neg hz2]
      by_cases hi : binarySearch inside b.low = false ∨ binarySearch inside b.high = false
      · rw [if_pos hi, pure_eq_ok, simState_skip _ _ _ _ _ b ?_]
        · simp
        · rintro ⟨-, -, k1, k2⟩
          rw [← binarySearch_iff hin] at k1 k2
          rw [k1, k2] at hi
          simp at hi
      · rw [if_neg hi]
        have hc : Compared B inside b := by
          refine ⟨nl.2 hz, nh.2 hz2, ?_, ?_⟩
          · rw [← binarySearch_iff hin]
            exact Bool.eq_true_of_not_eq_false (fun h => hi (Or.inl h))
          · rw [← binarySearch_iff hin]
            exact Bool.eq_true_of_not_eq_false (fun h => hi (Or.inr h))
        obtain ⟨r, er, lr, -⟩ := rotate_st l2 (fun i => (pos[b.high]'(by omega)) i - (pos[b.low]'(by omega)) i)
        obtain ⟨x, ex⟩ := sim6_ok l1 l2
        obtain ⟨y, ey⟩ := sim6_ok l1 lr
        have e1 : simVal B inside b = x := by
          unfold simVal
          rw [if_pos hc, getR_of_lt hl, ok_bind, getR_of_lt h2, ok_bind, ex]
          rfl
        have e2 : refVal pos B inside b = y := by
          unfold refVal turned
          rw [if_pos hc, getR_of_lt hl, ok_bind, getR_of_lt h2, ok_bind, getR_of_lt (by omega), ok_bind,
            getR_of_lt (by omega), ok_bind, er, ok_bind, ey]
          rfl
        unfold simBond partDiff
        rw [posAt_ok (show b.high < pos.length by omega), ok_bind, posAt_ok (show b.low < pos.length by omega), ok_bind,
          pure_eq_ok, ok_bind, er, ok_bind, ex, ok_bind]
        have c1 := countBond_ok pos.length done (simVal B inside) b h1 (by omega)
        have c2 := countBond_ok pos.length done (refVal pos B inside) b h1 (by omega)
        rw [e1] at c1
        rw [e2] at c2
        have p1 := setR_pending (done.map (simVal B inside)) k (some (-2)) x
        have p2 := setR_pending (done.map (refVal pos B inside)) k (some (-2)) y
        rw [List.length_map] at p1 p2
        simp only [simState]
        rw [p1, ok_bind, ey, ok_bind, p2, ok_bind, c1, ok_bind, c2, ok_bind, pure_eq_ok, ok_bind, pure_eq_ok,
          List.map_append, List.map_append, List.map_singleton, List.map_singleton, e1, e2]
        simp

theorem similarities_ok (pos : List (Fin 3 → ℝ)) (B : List BooData) (inside : List Nat) (bonds : List Bond)
    (hB : ∀ q ∈ B, q.length = 36) (hpos : pos.length = B.length) (hin : inside.Pairwise (· < ·))
    (hb : ∀ b ∈ bonds, b.low < b.high ∧ b.high < B.length) :
    similarities pos B inside bonds = .ok (simState pos B inside bonds 0) := by
  have key : ∀ (rest done : List Bond), (∀ b ∈ rest, b.low < b.high ∧ b.high < B.length) →
      rest.foldlM (simStep pos B inside) (simState pos B inside done rest.length, done.length) =
        .ok (simState pos B inside (done ++ rest) 0, (done ++ rest).length) := by
    intro rest
    induction rest with
    | nil => intro done _; simp [pure_eq_ok]
    | cons b rest ih =>
      intro done h
      rw [List.foldlM_cons, List.length_cons, simStep_ok pos B inside hB hpos hin done rest.length b
        (h b (by simp)).1 (h b (by simp)).2, ok_bind, ih (done ++ [b]) (fun c hc => h c (by simp [hc]))]
      simp
  unfold similarities
  have h0 : (⟨List.replicate bonds.length (some (-2)), List.replicate bonds.length (some (-2)),
      List.replicate pos.length 0, List.replicate pos.length 0⟩ : Sims) = simState pos B inside [] bonds.length := by
    unfold simState
    have : ∀ v : Bond → Option ℝ, List.replicate pos.length 0 = tab pos.length (bondsAbove v []) := by
      intro v
      unfold tab bondsAbove
      simp
    congr 1
    · exact this _
    · exact this _
  have := key bonds [] hb
  simp only [List.length_nil, List.nil_append] at this
  simp only [h0]
  rw [this, ok_bind, pure_eq_ok]

/-- What is announced for two tensors: their normed product of degree 6, between `-1` and `1`; not a number if one of
them is null at this degree. -/
def IsSimilarity (a b : BooData) (v : Option ℝ) : Prop :=
  (sumNorm a 6 ≠ .ok 0 → sumNorm b 6 ≠ .ok 0 → ∃ x, v = some x ∧ normedProduct a b 6 = .ok x ∧ |x| ≤ 1) ∧
  (sumNorm a 6 = .ok 0 ∨ sumNorm b 6 = .ok 0 → v = none)

theorem sim6_spec {a b : BooData} (ha : a.length = 36) (hb : b.length = 36) {v : Option ℝ} (h : sim6 a b = .ok v) :
    IsSimilarity a b v := by
  have ea := sumNorm_eq ha (l := 6) (by norm_num) (by norm_num)
  have eb := sumNorm_eq hb (l := 6) (by norm_num) (by norm_num)
  generalize (∑ m ∈ Finset.Icc (-((6 : Nat) : Int)) (6 : Nat), Complex.normSq (cf a 6 m)) = x at ea
  generalize (∑ m ∈ Finset.Icc (-((6 : Nat) : Int)) (6 : Nat), Complex.normSq (cf b 6 m)) = y at eb
  constructor
  · intro na nb
    obtain ⟨z, hz, hz1⟩ := C37_normed a b ha hb 6 (by norm_num) (by norm_num) na nb
    refine ⟨z, ?_, hz, hz1⟩
    unfold sim6 at h
    rw [ea, ok_bind, eb, ok_bind, hz, ok_bind, pure_eq_ok, if_neg] at h
    · exact (Except.ok.inj h).symm
    · rw [ea] at na
      rw [eb] at nb
      intro h0
      rcases mul_eq_zero.1 h0 with h0 | h0
      · exact na (by rw [h0])
      · exact nb (by rw [h0])
  · intro h0
    obtain ⟨w, hw⟩ : ∃ w, normedProduct a b 6 = .ok w := by
      unfold normedProduct
      rw [innerProduct_eq ha hb (by norm_num) (by norm_num), ea, eb]
      exact ⟨_, rfl⟩
    unfold sim6 at h
    rw [ea, ok_bind, eb, ok_bind, hw, ok_bind, pure_eq_ok, if_pos] at h
    · exact (Except.ok.inj h).symm
    · rw [ea, eb] at h0
      rcases h0 with h0 | h0
      · rw [Except.ok.inj h0, zero_mul]
      · rw [Except.ok.inj h0, mul_zero]

/-- **C133.** One value per bond, in the order of the bonds: `-2` if one of the particles is not selected or has no tensor,
otherwise the similarity of their tensors, and the one after a half turn around the bond. -/
theorem C133_values (pos : List (Fin 3 → ℝ)) (B : List BooData) (inside : List Nat) (bonds : List Bond)
    (hB : ∀ q ∈ B, q.length = 36) (hpos : pos.length = B.length) (hin : inside.Pairwise (· < ·))
    (hb : ∀ b ∈ bonds, b.low < b.high ∧ b.high < B.length) :
    ∃ s, similarities pos B inside bonds = .ok s ∧ s.sim.length = bonds.length ∧ s.ref.length = bonds.length ∧
      ∀ (c : Nat) (b : Bond), bonds[c]? = some b →
        (¬ Compared B inside b → s.sim[c]? = some (some (-2)) ∧ s.ref[c]? = some (some (-2))) ∧
        (Compared B inside b → ∃ lo hi hi' x y, B[b.low]? = some lo ∧ B[b.high]? = some hi ∧
          turned pos B b.low b.high = .ok hi' ∧ s.sim[c]? = some x ∧ s.ref[c]? = some y ∧
          IsSimilarity lo hi x ∧ IsSimilarity lo hi' y) := by
  refine ⟨_, similarities_ok pos B inside bonds hB hpos hin hb, by simp [simState], by simp [simState], ?_⟩
  intro c b hc
  have e1 : (simState pos B inside bonds 0).sim[c]? = some (simVal B inside b) := by simp [simState, hc]
  have e2 : (simState pos B inside bonds 0).ref[c]? = some (refVal pos B inside b) := by simp [simState, hc]
  constructor
  · intro hn
    rw [e1, e2]
    unfold simVal refVal
    rw [if_neg hn, if_neg hn]
    exact ⟨rfl, rfl⟩
  · intro hcm
    obtain ⟨h1, h2⟩ := hb b (List.mem_of_getElem? hc)
    have hl : b.low < B.length := by omega
    have l1 : (B[b.low]).length = 36 := hB _ (by simp)
    have l2 : (B[b.high]).length = 36 := hB _ (by simp)
    obtain ⟨r, er, lr, -⟩ := rotate_st l2 (fun i => (pos[b.high]'(by omega)) i - (pos[b.low]'(by omega)) i)
    have ht : turned pos B b.low b.high = .ok r := by
      unfold turned
      rw [getR_of_lt h2, ok_bind, getR_of_lt (by omega), ok_bind, getR_of_lt (by omega), ok_bind, er]
    obtain ⟨x, ex⟩ := sim6_ok l1 l2
    obtain ⟨y, ey⟩ := sim6_ok l1 lr
    refine ⟨B[b.low], B[b.high], r, x, y, by simp, by simp, ht, ?_, ?_, sim6_spec l1 l2 ex, sim6_spec l1 lr ey⟩
    · rw [e1]
      unfold simVal
      rw [if_pos hcm, getR_of_lt hl, ok_bind, getR_of_lt h2, ok_bind, ex]
      rfl
    · rw [e2]
      unfold refVal
      rw [if_pos hcm, getR_of_lt hl, ok_bind, ht, ok_bind, ey]
      rfl

open Classical in
/-- **C133.** The number written for a particle is the number of its bonds whose value is above one half. -/
theorem C133_counts (pos : List (Fin 3 → ℝ)) (B : List BooData) (inside : List Nat) (bonds : List Bond)
    (hB : ∀ q ∈ B, q.length = 36) (hpos : pos.length = B.length) (hin : inside.Pairwise (· < ·))
    (hb : ∀ b ∈ bonds, b.low < b.high ∧ b.high < B.length) :
    ∃ s, similarities pos B inside bonds = .ok s ∧ s.nb.length = pos.length ∧ s.nbRef.length = pos.length ∧
      ∀ p, p < pos.length →
        s.nb[p]? = some ((bonds.zip s.sim).countP (fun bx =>
          decide ((bx.1.low = p ∨ bx.1.high = p) ∧ ∃ x, bx.2 = some x ∧ 1 / 2 < x))) ∧
        s.nbRef[p]? = some ((bonds.zip s.ref).countP (fun bx =>
          decide ((bx.1.low = p ∨ bx.1.high = p) ∧ ∃ x, bx.2 = some x ∧ 1 / 2 < x))) := by
  refine ⟨_, similarities_ok pos B inside bonds hB hpos hin hb, by simp [simState, tab_length],
    by simp [simState, tab_length], ?_⟩
  intro p hp
  have habove : ∀ v, above v ↔ ∃ x, v = some x ∧ 1 / 2 < x := by
    intro v
    cases v with
    | none => simp [above]
    | some x =>
      unfold above
      constructor
      · intro h; exact ⟨x, rfl, by norm_num at h ⊢; linarith⟩
      · rintro ⟨y, hy, h⟩
        injection hy with hy
        subst hy
        norm_num at h ⊢
        linarith
  have key : ∀ v : Bond → Option ℝ, bondsAbove v bonds p = (bonds.zip (bonds.map v ++ List.replicate 0 (some (-2)))).countP
      (fun bx => decide ((bx.1.low = p ∨ bx.1.high = p) ∧ ∃ x, bx.2 = some x ∧ 1 / 2 < x)) := by
    intro v
    unfold bondsAbove
    rw [List.replicate_zero, List.append_nil]
    induction bonds with
    | nil => rfl
    | cons b l ih =>
      rw [List.map_cons, List.zip_cons_cons, List.countP_cons, List.countP_cons, ih (fun c hc => hb c (by simp [hc]))]
      simp only [habove]
  constructor
  · have := getR_tab (f := bondsAbove (simVal B inside) bonds) hp
    rw [getR_ok] at this
    refine this.trans (congrArg some ?_)
    exact key _
  · have := getR_tab (f := bondsAbove (refVal pos B inside) bonds) hp
    rw [getR_ok] at this
    refine this.trans (congrArg some ?_)
    exact key _

open Classical in
theorem bondsAbove_sum (n : Nat) (v : Bond → Option ℝ) : ∀ bonds : List Bond,
    (∀ b ∈ bonds, b.low < b.high ∧ b.high < n) →
    (tab n (bondsAbove v bonds)).sum = 2 * (bonds.map v).countP (fun x => decide (above x)) := by
  intro bonds
  induction bonds with
  | nil => intro _; unfold tab bondsAbove; simp
  | cons b l ih =>
    intro h
    have ih := ih (fun c hc => h c (by simp [hc]))
    obtain ⟨h1, h2⟩ := h b (by simp)
    have hc : ∀ p, bondsAbove v (b :: l) p = bondsAbove v l p +
        ((if p = b.low ∧ above (v b) then 1 else 0) + (if p = b.high ∧ above (v b) then 1 else 0)) := by
      intro p
      unfold bondsAbove
      rw [List.countP_cons]
      congr 1
      by_cases ha : above (v b)
      · by_cases e1 : p = b.low
        · subst e1; simp [ha, show b.low ≠ b.high by omega]
        · by_cases e2 : p = b.high
          · subst e2; simp [ha, show b.high ≠ b.low by omega]
          · simp [Ne.symm e1, Ne.symm e2, e1, e2]
      · simp [ha]
    have hs : ∀ (f : Nat → Nat), (tab n f).sum = ∑ p ∈ Finset.range n, f p := by
      intro f
      unfold tab
      rw [Finset.sum_range, ← List.sum_ofFn]
      congr 1
      apply List.ext_getElem
      · simp
      · intro i _ _; simp
    rw [hs] at ih ⊢
    rw [Finset.sum_congr rfl (fun p _ => hc p), Finset.sum_add_distrib, ih, Finset.sum_add_distrib, List.map_cons,
      List.countP_cons]
    by_cases ha : above (v b)
    · simp only [ha, and_true, Finset.sum_ite_eq', Finset.mem_range, decide_true, if_true]
      rw [if_pos (by omega), if_pos h2]
      ring
    · simp [ha]

open Classical in
/-- **C133.** The numbers of the particles add up to twice the number of bonds above one half. -/
theorem C133_total (pos : List (Fin 3 → ℝ)) (B : List BooData) (inside : List Nat) (bonds : List Bond)
    (hB : ∀ q ∈ B, q.length = 36) (hpos : pos.length = B.length) (hin : inside.Pairwise (· < ·))
    (hb : ∀ b ∈ bonds, b.low < b.high ∧ b.high < B.length) :
    ∃ s, similarities pos B inside bonds = .ok s ∧
      s.nb.sum = 2 * s.sim.countP (fun x => decide (∃ y, x = some y ∧ (1 / 2 : ℝ) < y)) ∧
      s.nbRef.sum = 2 * s.ref.countP (fun x => decide (∃ y, x = some y ∧ (1 / 2 : ℝ) < y)) := by
  refine ⟨_, similarities_ok pos B inside bonds hB hpos hin hb, ?_⟩
  have habove : ∀ v : Option ℝ, (∃ x, v = some x ∧ (1 / 2 : ℝ) < x) ↔ above v := by
    intro v
    cases v with
    | none => simp [above]
    | some x =>
      unfold above
      constructor
      · rintro ⟨y, hy, h⟩
        injection hy with hy
        subst hy
        norm_num at h ⊢
        linarith
      · intro h; exact ⟨x, rfl, by norm_num at h ⊢; linarith⟩
  simp only [habove]
  unfold simState
  simp only [List.replicate_zero, List.append_nil]
  have hb' : ∀ b ∈ bonds, b.low < b.high ∧ b.high < pos.length := by rw [hpos]; exact hb
  exact ⟨bondsAbove_sum _ _ bonds hb', bondsAbove_sum _ _ bonds hb'⟩

/-- **C133.** The similarities do not depend on the numbers given to both particles of a bond. -/
theorem C133_symmetric (pos : List (Fin 3 → ℝ)) (B : List BooData) (p o : Nat) (a b : BooData) (x y : Fin 3 → ℝ)
    (hp : B[p]? = some a) (ho : B[o]? = some b) (hx : pos[p]? = some x) (hy : pos[o]? = some y) (hxy : x ≠ y)
    (ha : RealTensor a) (hb : RealTensor b) :
    sim6 a b = sim6 b a ∧ ∃ a' b', turned pos B p o = .ok b' ∧ turned pos B o p = .ok a' ∧ sim6 a b' = sim6 b a' := by
  have hsym : ∀ (a b : BooData), a.length = 36 → b.length = 36 → sim6 a b = sim6 b a := by
    intro a b ha hb
    unfold sim6 normedProduct
    rw [C37_symmetric a b ha hb 6 (by norm_num) (by norm_num), sumNorm_eq ha (by norm_num) (by norm_num),
      sumNorm_eq hb (by norm_num) (by norm_num), innerProduct_eq hb ha (by norm_num) (by norm_num)]
    simp only [ok_bind, pure_eq_ok]
    rw [mul_comm (∑ m ∈ Finset.Icc (-((6 : Nat) : Int)) (6 : Nat), Complex.normSq (cf a 6 m))]
  refine ⟨hsym a b ha.1 hb.1, ?_⟩
  have hd : (fun i => y i - x i) ≠ (0 : Fin 3 → ℝ) := by
    intro h
    apply hxy
    funext i
    have := congrFun h i
    simp only [Pi.zero_apply] at this
    linarith
  obtain ⟨b', eb, lb, -⟩ := rotate_st hb.1 (fun i => y i - x i)
  obtain ⟨a', ea, la, -⟩ := rotate_st ha.1 (fun i => y i - x i)
  refine ⟨a', b', ?_, ?_, ?_⟩
  · unfold turned
    rw [getR_ok.2 ho, ok_bind, getR_ok.2 hx, ok_bind, getR_ok.2 hy, ok_bind, eb]
  · unfold turned
    rw [getR_ok.2 hp, ok_bind, getR_ok.2 hy, ok_bind, getR_ok.2 hx, ok_bind, rotate_neg ha.1, ea]
  · have i1 := C82_product a b' ha (rotate_real hb eb) _ hd a' b ea (C82_involution b hb _ hd b' eb) 6 (by norm_num)
      (by norm_num)
    have n1 := (C82_norm a ha _ hd a' ea 6 (by norm_num) (by norm_num)).1
    have n2 := (C82_norm b hb _ hd b' eb 6 (by norm_num) (by norm_num)).1
    rw [hsym b a' hb.1 la]
    unfold sim6 normedProduct
    rw [i1, n1, n2]

/-- **C133.** If the surroundings of a particle are those of the other turned by half a turn around the bond, as on both
sides of a twin boundary, the second similarity of the bond is 1. -/
theorem C133_twin (pos : List (Fin 3 → ℝ)) (B : List BooData) (p o : Nat) (a : BooData) (hp : B[p]? = some a)
    (ha : RealTensor a) (h6 : sumNorm a 6 ≠ .ok 0) (ht : turned pos B p o = .ok a) :
    ∃ b', turned pos B p o = .ok b' ∧ sim6 a b' = .ok (some 1) := by
  refine ⟨a, ht, ?_⟩
  obtain ⟨z, hz⟩ := ha.2 6 (by norm_num) (by norm_num)
  have h1 := C37_normed_self_partial a ha.1 6 (by norm_num) (by norm_num) h6 _ hz (by simp)
  obtain ⟨v, hv⟩ := sim6_ok ha.1 ha.1
  obtain ⟨x, e1, e2, -⟩ := (sim6_spec ha.1 ha.1 hv).1 h6 h6
  rw [h1] at e2
  rw [hv, e1, Except.ok.inj e2]

/-- Two bonded particles: the tensors are those of the bond, both selected. -/
example (q : BooData) (h : ofBond ![1, 2, 3] = .ok q) : (∀ x ∈ [q, q], x.length = 36) ∧ [0, 1].Pairwise (· < ·) ∧
    ∀ b ∈ [(⟨0, 1⟩ : Bond)], b.low < b.high ∧ b.high < [q, q].length := by
  refine ⟨?_, by decide, ?_⟩
  · intro x hx
    rw [show x = q by simpa using hx]
    exact ofBond_len h
  · intro b hb
    rw [show b = ⟨0, 1⟩ by simpa using hb]
    exact ⟨by decide, by simp [Bond.high]⟩

/-- Their surroundings are the same up to half a turn around the bond. -/
example (q : BooData) (h : ofBond ![1, 2, 3] = .ok q) :
    turned [0, ![1, 2, 3]] [q, q] 0 1 = .ok q ∧ sumNorm q 6 ≠ .ok 0 ∧ RealTensor q := by
  have hne : (![1, 2, 3] : Fin 3 → ℝ) ≠ 0 := vec_ne three_ne_zero
  refine ⟨?_, ?_, bond_real hne h⟩
  · obtain ⟨q1, q2, e1, e2, e3⟩ := C82_half_turn ![1, 2, 3] ![1, 2, 3] hne hne
    have : halfTurn ![1, 2, 3] ![1, 2, 3] = ![1, 2, 3] := by
      funext i
      unfold halfTurn
      fin_cases i <;> norm_num [vec_two]
    rw [this] at e2
    obtain rfl : q1 = q := by rw [h] at e1; exact (Except.ok.inj e1).symm
    obtain rfl : q2 = q1 := by rw [h] at e2; exact (Except.ok.inj e2).symm
    have hd : (fun i => (![1, 2, 3] : Fin 3 → ℝ) i - (0 : Fin 3 → ℝ) i) = ![1, 2, 3] := by
      funext i; simp
    unfold turned
    simp only [getR_ok.2 (show [q2, q2][1]? = some q2 from rfl),
      getR_ok.2 (show ([0, ![1, 2, 3]] : List (Fin 3 → ℝ))[0]? = some 0 from rfl),
      getR_ok.2 (show ([0, ![1, 2, 3]] : List (Fin 3 → ℝ))[1]? = some ![1, 2, 3] from rfl), ok_bind]
    rw [hd, e3]
  · rw [(C83_unit _ hne q h 6 (by norm_num) (by norm_num)).1]
    intro hh
    have := Except.ok.inj hh
    have hpi := Real.pi_pos
    have : (0 : ℝ) < (2 * ((6 : Nat) : ℝ) + 1) / (4 * Real.pi) := by positivity
    linarith

end Mains
end Colloids
