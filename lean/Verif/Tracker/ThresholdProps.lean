import Verif.Tracker.ThresholdModel
import Mathlib.Tactic.Ring
import Mathlib.Tactic.Linarith
import Mathlib.Tactic.NormNum
import Mathlib.Tactic.FieldSimp
import Mathlib.Tactic.Positivity
import Mathlib.Algebra.Order.Ring.Rat
import Mathlib.Algebra.Field.Rat
import Mathlib.Data.Rat.Floor

/-! # C99 : the automatic threshold -/

namespace Colloids
namespace Tracker

variable {G : Type} [Field G] [LinearOrder G] [FloorSemiring G]

theorem minFrom_spec (h : List Nat) : ∀ (c i best a : Nat), a ≤ best → best < i →
    (∀ u, a ≤ u → u < i → h.getD best 0 ≤ h.getD u 0) → (∀ u, a ≤ u → u < best → h.getD best 0 < h.getD u 0) →
    a ≤ minFrom h c i best ∧ minFrom h c i best < i + c ∧
      (∀ u, a ≤ u → u < i + c → h.getD (minFrom h c i best) 0 ≤ h.getD u 0) ∧
      ∀ u, a ≤ u → u < minFrom h c i best → h.getD (minFrom h c i best) 0 < h.getD u 0 := by
  intro c
  induction c with
  | zero => intro i best a h1 h2 h3 h4; exact ⟨h1, h2, h3, h4⟩
  | succ c ih =>
    intro i best a h1 h2 h3 h4
    rw [minFrom, show i + (c + 1) = i + 1 + c by omega]
    by_cases hlt : h.getD i 0 < h.getD best 0
    · rw [if_pos hlt]
      refine ih (i + 1) i a (by omega) (by omega) ?_ ?_
      · intro u hu hu'
        by_cases e : u = i
        · rw [e]
        · exact Nat.le_trans (Nat.le_of_lt hlt) (h3 u hu (by omega))
      · intro u hu hu'
        exact Nat.lt_of_lt_of_le hlt (h3 u hu hu')
    · rw [if_neg hlt]
      refine ih (i + 1) best a h1 (by omega) ?_ h4
      intro u hu hu'
      by_cases e : u = i
      · rw [e]; omega
      · exact h3 u hu (by omega)

theorem minElement_spec (h : List Nat) {a b : Nat} (hab : a < b) :
    a ≤ minElement h a b ∧ minElement h a b < b ∧ (∀ u, a ≤ u → u < b → h.getD (minElement h a b) 0 ≤ h.getD u 0) ∧
      ∀ u, a ≤ u → u < minElement h a b → h.getD (minElement h a b) 0 < h.getD u 0 := by
  unfold minElement
  rw [if_pos hab]
  have := minFrom_spec h (b - a - 1) (a + 1) a a (Nat.le_refl _) (by omega)
    (fun u h1 h2 => by rw [show u = a by omega]) (fun u h1 h2 => by omega)
  rwa [show a + 1 + (b - a - 1) = b by omega] at this

theorem maxFrom_spec (h : List Nat) : ∀ (c i best : Nat), best < i → (∀ u < i, h.getD u 0 ≤ h.getD best 0) →
    maxFrom h c i best < i + c ∧ ∀ u < i + c, h.getD u 0 ≤ h.getD (maxFrom h c i best) 0 := by
  intro c
  induction c with
  | zero => intro i best h1 h2; exact ⟨h1, h2⟩
  | succ c ih =>
    intro i best h1 h2
    rw [maxFrom, show i + (c + 1) = i + 1 + c by omega]
    by_cases hlt : h.getD best 0 < h.getD i 0
    · rw [if_pos hlt]
      refine ih (i + 1) i (by omega) ?_
      intro u hu
      by_cases e : u = i
      · rw [e]
      · exact Nat.le_trans (h2 u (by omega)) (Nat.le_of_lt hlt)
    · rw [if_neg hlt]
      refine ih (i + 1) best (by omega) ?_
      intro u hu
      by_cases e : u = i
      · rw [e]; omega
      · exact h2 u (by omega)

theorem lowerBound_le (h : List Nat) : ∀ (fuel first len : Nat), len ≤ fuel → lowerBound h fuel first len ≤ first + len := by
  intro fuel
  induction fuel with
  | zero => intro first len _; rw [lowerBound]; omega
  | succ fuel ih =>
    intro first len hl
    rw [lowerBound]
    split
    · omega
    · split
      · have := ih (first + len / 2 + 1) (len - len / 2 - 1) (by omega)
        omega
      · have := ih first (len / 2) (by omega)
        omega

/-- If the classes that are looked at by halving are not empty, the first one is taken. -/
theorem lowerBound_zero (h : List Nat) : ∀ (fuel len : Nat), (∀ s, 1 ≤ s → 1 ≤ h.getD (len / 2 ^ s) 0) →
    lowerBound h fuel 0 len = 0 := by
  intro fuel
  induction fuel with
  | zero => intro len _; rfl
  | succ fuel ih =>
    intro len hs
    rw [lowerBound]
    split
    · rfl
    · have h1 := hs 1 (Nat.le_refl _)
      rw [Nat.pow_one] at h1
      rw [Nat.zero_add, if_neg (by omega)]
      refine ih (len / 2) ?_
      intro s h2
      rw [Nat.div_div_eq_div_mul, ← Nat.pow_succ']
      exact hs (s + 1) (by omega)

theorem valley_zero (h : List Nat) (peak : Nat) : ∀ (fuel lowest : Nat), lowest < peak → h.getD lowest 0 = 0 →
    valley h peak fuel lowest = .error .diverge := by
  intro fuel
  induction fuel with
  | zero => intro _ _ _; rfl
  | succ fuel ih =>
    intro lowest hl hz
    obtain ⟨h1, h2, h3, h4⟩ := minElement_spec h hl
    rw [valley, if_pos hz]
    refine ih _ h2 ?_
    have := h3 lowest (Nat.le_refl _) hl
    omega

theorem histogram_step (mn scale : G) : ∀ (xs : List G) (h : List Nat) (b : Nat), b < h.length →
    (xs.foldl (fun h x => if classOf mn scale x < h.length then h.modify (classOf mn scale x) (· + 1) else h) h).length =
      h.length ∧
    (xs.foldl (fun h x => if classOf mn scale x < h.length then h.modify (classOf mn scale x) (· + 1) else h) h).getD b 0 =
      h.getD b 0 + xs.countP (fun x => decide (classOf mn scale x = b)) := by
  intro xs
  induction xs with
  | nil => intro h b _; simp
  | cons x xs ih =>
    intro h b hb
    rw [List.foldl_cons]
    by_cases hc : classOf mn scale x < h.length
    · rw [if_pos hc]
      obtain ⟨i1, i2⟩ := ih (h.modify (classOf mn scale x) (· + 1)) b (by rw [List.length_modify]; exact hb)
      refine ⟨by rw [i1, List.length_modify], ?_⟩
      rw [i2, List.countP_cons, List.getD_eq_getElem?_getD, List.getElem?_modify, List.getD_eq_getElem?_getD,
        List.getElem?_eq_getElem hb]
      by_cases e : classOf mn scale x = b
      · simp [e]
        omega
      · simp [e]
    · rw [if_neg hc]
      obtain ⟨i1, i2⟩ := ih h b hb
      refine ⟨i1, ?_⟩
      have hne : classOf mn scale x ≠ b := by omega
      rw [i2, List.countP_cons]
      simp [hne]

/-- The number of intensities of a class. -/
def inClass (mn scale : G) (xs : List G) (b : Nat) : Nat := xs.countP (fun x => decide (classOf mn scale x = b))

theorem histogram_get (mn scale : G) (xs : List G) (b : Nat) (hb : b < 100) :
    (histogram mn scale xs).getD b 0 = inClass mn scale xs b := by
  unfold histogram inClass
  rw [(histogram_step mn scale xs (List.replicate 100 0) b (by simpa using hb)).2]
  rw [List.getD_eq_getElem?_getD, List.getElem?_replicate, if_pos hb, Option.getD_some, Nat.zero_add]

theorem histogram_length (mn scale : G) (xs : List G) : (histogram mn scale xs).length = 100 := by
  unfold histogram
  rw [(histogram_step mn scale xs (List.replicate 100 0) 0 (by simp)).1]
  simp

theorem take_sum (mn scale : G) (xs : List G) : ∀ m ≤ 100, ((histogram mn scale xs).take m).sum =
    xs.countP (fun x => decide (classOf mn scale x < m)) := by
  intro m
  induction m with
  | zero => intro _; simp
  | succ m ih =>
    intro hm
    have hl := histogram_length mn scale xs
    have hg := histogram_get mn scale xs m (by omega)
    rw [List.getD_eq_getElem?_getD, List.getElem?_eq_getElem (by omega)] at hg
    rw [List.take_succ_eq_append_getElem (by omega), List.sum_append, ih (by omega), List.sum_singleton]
    simp only [Option.getD_some] at hg
    rw [hg]
    unfold inClass
    clear hg ih
    induction xs with
    | nil => simp
    | cons x xs ihx =>
      simp only [List.countP_cons]
      have hl' := histogram_length mn scale xs
      have := ihx hl'
      by_cases h1 : classOf mn scale x < m
      · have h2 : classOf mn scale x < m + 1 := by omega
        have h3 : classOf mn scale x ≠ m := by omega
        simp [h1, h2, h3]
        omega
      · by_cases h3 : classOf mn scale x = m
        · simp [h3]
          omega
        · have h2 : ¬ classOf mn scale x < m + 1 := by omega
          simp [h1, h2, h3]
          omega

theorem drop_countP {α : Type} (p : α → Bool) : ∀ (l : List α), l.Pairwise (fun a b => p b = true → p a = true) →
    l.drop (l.countP p) = l.filter (fun x => !p x) := by
  intro l
  induction l with
  | nil => intro _; rfl
  | cons x l ih =>
    intro h
    rw [List.pairwise_cons] at h
    by_cases hx : p x = true
    · rw [List.countP_cons_of_pos hx, List.drop_succ_cons, ih h.2, List.filter_cons_of_neg (by simp [hx])]
    · have hnone : ∀ y ∈ l, ¬ p y = true := fun y hy hp => hx (h.1 y hy hp)
      have hz : l.countP p = 0 := List.countP_eq_zero.2 hnone
      rw [List.countP_cons_of_neg hx, hz, List.drop_zero, List.filter_cons_of_pos (by simp [hx])]
      congr 1
      rw [List.filter_eq_self.2]
      intro y hy
      simp [hnone y hy]

section ordered

variable [IsStrictOrderedRing G]

theorem class_lt {mn mx x : G} (hlt : mn < mx) (hx : mn ≤ x) (m : Nat) :
    classOf mn (100 / (mx - mn)) x < m ↔ x < mn + m * ((mx - mn) / 100) := by
  unfold classOf
  have hd : 0 < mx - mn := by linarith
  have h0 : 0 ≤ (x - mn) * (100 / (mx - mn)) := by
    have : 0 ≤ x - mn := by linarith
    positivity
  rw [Nat.floor_lt h0, ← mul_div_assoc, div_lt_iff₀ hd]
  constructor
  · intro h
    have : x - mn < m * ((mx - mn) / 100) := by
      rw [← mul_div_assoc, lt_div_iff₀ (by norm_num)]
      exact h
    linarith
  · intro h
    have : x - mn < m * ((mx - mn) / 100) := by linarith
    rw [← mul_div_assoc, lt_div_iff₀ (by norm_num)] at this
    exact this

/-- The number of centers whose intensity is in the `b`-th hundredth of the range of intensities. -/
def population (xs : List G) (mn mx : G) (b : Nat) : Nat :=
  xs.countP (fun x => decide (mn + b * ((mx - mn) / 100) ≤ x ∧ x < mn + ((b + 1 : Nat) : G) * ((mx - mn) / 100)))

theorem inClass_population {mn mx : G} (hlt : mn < mx) (xs : List G) (hx : ∀ x ∈ xs, mn ≤ x) (b : Nat) :
    inClass mn (100 / (mx - mn)) xs b = population xs mn mx b := by
  unfold inClass population
  refine List.countP_congr ?_
  intro x h
  rw [decide_eq_true_iff, decide_eq_true_iff]
  have h1 := class_lt hlt (hx x h) b
  have h2 := class_lt hlt (hx x h) (b + 1)
  rw [← h2, ← not_lt, ← h1]
  omega

/-- What is needed in all the theorems below. -/
structure Sorted (xs : List G) (mn mx : G) : Prop where
  sorted : xs.Pairwise (· ≤ ·)
  first : xs.head? = some mn
  last : xs.getLast? = some mx
  lt : mn < mx

omit [FloorSemiring G] [Field G] [IsStrictOrderedRing G] in
theorem Sorted.ge {xs : List G} {mn mx : G} (h : Sorted xs mn mx) : ∀ x ∈ xs, mn ≤ x := by
  intro x hx
  match xs, h.first, h.sorted, hx with
  | y :: ys, hf, hs, hx =>
    simp only [List.head?_cons, Option.some.injEq] at hf
    subst hf
    rcases List.mem_cons.1 hx with e | e
    · rw [e]
    · exact (List.pairwise_cons.1 hs).1 x e

omit [IsStrictOrderedRing G] in
theorem autoThreshold_eq {xs : List G} {mn mx : G} (h : Sorted xs mn mx) (fuel : Nat) :
    autoThreshold fuel xs =
      (valley (histogram mn (100 / (mx - mn)) xs) (maxFrom (histogram mn (100 / (mx - mn)) xs) 99 1 0) fuel
        (minElement (histogram mn (100 / (mx - mn)) xs)
          (lowerBound (histogram mn (100 / (mx - mn)) xs) (maxFrom (histogram mn (100 / (mx - mn)) xs) 99 1 0) 0
            (maxFrom (histogram mn (100 / (mx - mn)) xs) 99 1 0))
          (maxFrom (histogram mn (100 / (mx - mn)) xs) 99 1 0)) >>= fun lowest =>
      .ok (xs.drop ((histogram mn (100 / (mx - mn)) xs).take lowest).sum)) := by
  unfold autoThreshold
  rw [h.first, h.last]
  simp only
  rw [if_neg (ne_of_gt h.lt)]
  rfl

theorem cut_eq {xs : List G} {mn mx : G} (h : Sorted xs mn mx) (m : Nat) (hm : m ≤ 100) :
    xs.drop ((histogram mn (100 / (mx - mn)) xs).take m).sum =
      xs.filter (fun x => decide (mn + m * ((mx - mn) / 100) ≤ x)) := by
  rw [take_sum _ _ _ m hm, drop_countP]
  · refine List.filter_congr ?_
    intro x hx
    have := class_lt h.lt (h.ge x hx) m
    by_cases hc : classOf mn (100 / (mx - mn)) x < m
    · have h2 := this.1 hc
      simp [hc, h2]
    · have h2 : mn + m * ((mx - mn) / 100) ≤ x := by
        rw [← not_lt]
        exact fun h' => hc (this.2 h')
      simp [hc, h2]
  · refine h.sorted.imp_of_mem ?_
    intro a b ha hb hab hc
    rw [decide_eq_true_iff] at hc ⊢
    have h1 := (class_lt h.lt (h.ge b hb) m).1 hc
    exact (class_lt h.lt (h.ge a ha) m).2 (lt_of_le_of_lt hab h1)

theorem peak_spec {xs : List G} {mn mx : G} (h : Sorted xs mn mx) :
    maxFrom (histogram mn (100 / (mx - mn)) xs) 99 1 0 < 100 ∧
      ∀ b < 100, population xs mn mx b ≤
        population xs mn mx (maxFrom (histogram mn (100 / (mx - mn)) xs) 99 1 0) := by
  obtain ⟨h1, h2⟩ := maxFrom_spec (histogram mn (100 / (mx - mn)) xs) 99 1 0 (by decide)
    (fun u hu => by rw [show u = 0 by omega])
  refine ⟨h1, ?_⟩
  intro b hb
  have := h2 b hb
  rwa [histogram_get _ _ _ _ hb, histogram_get _ _ _ _ h1, inClass_population h.lt _ h.ge,
    inClass_population h.lt _ h.ge] at this

/-- When it ends, the centers that stay are those above a threshold: a multiple of a hundredth of the range
of intensities, that does not cut the most populated class. -/
theorem C99_threshold (xs : List G) (mn mx : G) (h : Sorted xs mn mx) (fuel : Nat) (kept : List G)
    (he : autoThreshold fuel xs = .ok kept) :
    ∃ m p : Nat, m ≤ p ∧ p < 100 ∧ (∀ b < 100, population xs mn mx b ≤ population xs mn mx p) ∧
      1 ≤ population xs mn mx m ∧
      kept = xs.filter (fun x => decide (mn + m * ((mx - mn) / 100) ≤ x)) := by
  rw [autoThreshold_eq h] at he
  obtain ⟨hp, hmax⟩ := peak_spec h
  generalize hP : maxFrom (histogram mn (100 / (mx - mn)) xs) 99 1 0 = p at he hp hmax
  rw [bind_ok] at he
  obtain ⟨m, h1, h2⟩ := he
  have hvalley : ∀ fuel lowest m, lowest ≤ p → valley (histogram mn (100 / (mx - mn)) xs) p fuel lowest = .ok m →
      m ≤ p ∧ (histogram mn (100 / (mx - mn)) xs).getD m 0 ≠ 0 := by
    intro fuel
    induction fuel with
    | zero => intro lowest m _ h; rw [valley] at h; simp at h
    | succ fuel ih =>
      intro lowest m hl h
      rw [valley] at h
      split at h
      · refine ih _ m ?_ h
        unfold minElement
        split
        · next hlt =>
          have := (minElement_spec (histogram mn (100 / (mx - mn)) xs) hlt).2.1
          unfold minElement at this
          rw [if_pos hlt] at this
          omega
        · omega
      · next hne =>
        cases h
        exact ⟨hl, hne⟩
  have hle : minElement (histogram mn (100 / (mx - mn)) xs)
      (lowerBound (histogram mn (100 / (mx - mn)) xs) p 0 p) p ≤ p := by
    by_cases hlt : lowerBound (histogram mn (100 / (mx - mn)) xs) p 0 p < p
    · exact Nat.le_of_lt (minElement_spec _ hlt).2.1
    · unfold minElement
      rw [if_neg hlt]
  obtain ⟨h3, h4⟩ := hvalley fuel _ m hle h1
  refine ⟨m, p, h3, hp, hmax, ?_, ?_⟩
  · rw [histogram_get _ _ _ _ (by omega), inClass_population h.lt _ h.ge] at h4
    omega
  · rw [cut_eq h m (by omega)] at h2
    simpa using h2.symm

/-- If no class below the most populated one is empty, it ends, and the threshold is at the least populated
class below the most populated one (the first one if there are several). If the most populated class is the
first, no center is removed. -/
theorem C99_valley_partial (xs : List G) (mn mx : G) (h : Sorted xs mn mx) (fuel : Nat) :
    ∃ p < 100, (∀ b < 100, population xs mn mx b ≤ population xs mn mx p) ∧
      ((∀ b < p, 1 ≤ population xs mn mx b) →
        ∃ m ≤ p, (0 < p → m < p) ∧ (∀ b < p, population xs mn mx m ≤ population xs mn mx b) ∧
          (∀ b < m, population xs mn mx m < population xs mn mx b) ∧
          autoThreshold (fuel + 1) xs = .ok (xs.filter (fun x => decide (mn + m * ((mx - mn) / 100) ≤ x)))) := by
  obtain ⟨hp, hmax⟩ := peak_spec h
  generalize hP : maxFrom (histogram mn (100 / (mx - mn)) xs) 99 1 0 = p at hp hmax
  refine ⟨p, hp, hmax, ?_⟩
  intro hne
  have hpop : ∀ b < 100, (histogram mn (100 / (mx - mn)) xs).getD b 0 = population xs mn mx b := by
    intro b hb
    rw [histogram_get _ _ _ _ hb, inClass_population h.lt _ h.ge]
  have hauto := autoThreshold_eq h (fuel + 1)
  rw [hP] at hauto
  rcases Nat.eq_zero_or_pos p with hz | hpos
  · subst hz
    have hmin : minElement (histogram mn (100 / (mx - mn)) xs)
        (lowerBound (histogram mn (100 / (mx - mn)) xs) 0 0 0) 0 = 0 := rfl
    have hfirst : (histogram mn (100 / (mx - mn)) xs).getD 0 0 ≠ 0 := by
      rw [histogram_get _ _ _ _ (by decide)]
      unfold inClass
      have hmem : mn ∈ xs := by
        match xs, h.first with
        | y :: ys, hf =>
          simp only [List.head?_cons, Option.some.injEq] at hf
          rw [hf]
          exact List.mem_cons_self
      have : 0 < xs.countP (fun x => decide (classOf mn (100 / (mx - mn)) x = 0)) := by
        rw [List.countP_pos_iff]
        exact ⟨mn, hmem, by simp [classOf]⟩
      omega
    refine ⟨0, Nat.le_refl _, fun h' => absurd h' (Nat.lt_irrefl _), fun b hb => absurd hb (Nat.not_lt_zero b),
      fun b hb => absurd hb (Nat.not_lt_zero b), ?_⟩
    rw [hauto, hmin, valley, if_neg hfirst, ok_bind, cut_eq h 0 (by decide)]
  · have hlb : lowerBound (histogram mn (100 / (mx - mn)) xs) p 0 p = 0 := by
      refine lowerBound_zero _ _ _ ?_
      intro s hs
      have hlt : p / 2 ^ s < p := Nat.div_lt_self hpos (Nat.one_lt_two_pow (by omega))
      rw [hpop _ (by omega)]
      exact hne _ hlt
    obtain ⟨h1, h2, h3, h4⟩ := minElement_spec (histogram mn (100 / (mx - mn)) xs) hpos
    refine ⟨minElement (histogram mn (100 / (mx - mn)) xs) 0 p, by omega, fun _ => h2, ?_, ?_, ?_⟩
    · intro b hb
      have := h3 b (Nat.zero_le _) hb
      rwa [hpop _ (by omega), hpop _ (by omega)] at this
    · intro b hb
      have := h4 b (Nat.zero_le _) hb
      rwa [hpop _ (by omega), hpop _ (by omega)] at this
    · rw [hauto, hlb, valley, if_neg, ok_bind, cut_eq h _ (by omega)]
      rw [hpop _ (by omega)]
      have := hne _ h2
      omega

/-- It never ends if a class below the most populated one is empty and the classes `p/2`, `p/4`, ..., that
are looked at by the search for the first one that is not empty, are not: the loop that should leave the
empty classes finds the same one again. -/
theorem C99_hang_counterexample (xs : List G) (mn mx : G) (h : Sorted xs mn mx) :
    ∃ p < 100, (∀ b < 100, population xs mn mx b ≤ population xs mn mx p) ∧
      ((∀ s, 1 ≤ s → 1 ≤ population xs mn mx (p / 2 ^ s)) → (∃ b < p, population xs mn mx b = 0) →
        ∀ fuel, autoThreshold fuel xs = .error .diverge) := by
  obtain ⟨hp, hmax⟩ := peak_spec h
  generalize hP : maxFrom (histogram mn (100 / (mx - mn)) xs) 99 1 0 = p at hp hmax
  refine ⟨p, hp, hmax, ?_⟩
  rintro hhalf ⟨b, hb, hzero⟩ fuel
  have hpop : ∀ b < 100, (histogram mn (100 / (mx - mn)) xs).getD b 0 = population xs mn mx b := by
    intro b hb
    rw [histogram_get _ _ _ _ hb, inClass_population h.lt _ h.ge]
  have hlb : lowerBound (histogram mn (100 / (mx - mn)) xs) p 0 p = 0 := by
    refine lowerBound_zero _ _ _ ?_
    intro s hs
    have hlt : p / 2 ^ s ≤ p := Nat.div_le_self _ _
    rw [hpop _ (by omega)]
    exact hhalf s hs
  obtain ⟨h1, h2, h3, -⟩ := minElement_spec (histogram mn (100 / (mx - mn)) xs) (show 0 < p by omega)
  have hz : (histogram mn (100 / (mx - mn)) xs).getD (minElement (histogram mn (100 / (mx - mn)) xs) 0 p) 0 = 0 := by
    have := h3 b (Nat.zero_le _) hb
    rw [hpop b (by omega), hzero] at this
    omega
  rw [autoThreshold_eq h, hP, hlb, valley_zero _ _ _ _ h2 hz]
  rfl

end ordered

/-- No center, or centers of one brightness only: the behaviour is undefined. -/
theorem C99_undefined_counterexample (fuel : Nat) (x : G) (n : Nat) :
    autoThreshold fuel (List.replicate n x) = .error .ub := by
  unfold autoThreshold
  match n with
  | 0 => rfl
  | n + 1 =>
    rw [List.getLast?_replicate, if_neg (by omega), List.replicate_succ, List.head?_cons]
    simp

/-- The class 2 is empty and the class 3 the most populated: 1 intensity in class 0, 1 in class 1, 2 in class
3; the greatest is in no class. -/
example : Sorted ([0, 1, 3, 3, 100] : List ℚ) 0 100 ∧
    (∀ fuel, autoThreshold (G := ℚ) fuel [0, 1, 3, 3, 100] = .error .diverge) := by
  have hs : Sorted ([0, 1, 3, 3, 100] : List ℚ) 0 100 := by
    refine ⟨?_, rfl, rfl, by norm_num⟩
    simp
    norm_num
  refine ⟨hs, ?_⟩
  obtain ⟨p, hp, hmax, hh⟩ := C99_hang_counterexample _ _ _ hs
  have h3 := hmax 3 (by decide)
  have e3 : population ([0, 1, 3, 3, 100] : List ℚ) 0 100 3 = 2 := by
    simp [population]
    norm_num
  have hp3 : p = 3 := by
    by_contra hne
    have : ∀ q < 100, q ≠ 3 → population ([0, 1, 3, 3, 100] : List ℚ) 0 100 q < 2 := by decide +kernel
    have := this p hp hne
    omega
  subst hp3
  refine hh ?_ ⟨2, by decide, ?_⟩
  · intro s hs1
    have : 3 / 2 ^ s = 0 ∨ 3 / 2 ^ s = 1 := by
      have h1 : 2 ≤ 2 ^ s := by
        calc 2 = 2 ^ 1 := rfl
          _ ≤ 2 ^ s := Nat.pow_le_pow_right (by decide) hs1
      have h2 : 3 / 2 ^ s ≤ 1 := Nat.div_le_div_left h1 (by decide)
      generalize 3 / 2 ^ s = w at h2
      omega
    rcases this with e | e <;> rw [e] <;> simp [population] <;> norm_num
  · simp [population]
    norm_num

example : autoThreshold (G := ℚ) 1 [0, 0, 1, 2, 2, 2, 100] = .ok [1, 2, 2, 2, 100] := by
  decide +kernel

end Tracker
end Colloids
