import Verif.Tracker.RadiiProps

/-! # C102 : the profile of intensity and its steepest descent -/

namespace Colloids
namespace Tracker

open scoped BigOperators

theorem modifyR_map_range {α : Type} (n : Nat) (f : Nat → α) (l : Nat) (g : α → α) (h : l < n) :
    modifyR ((List.range n).map f) l g = .ok ((List.range n).map (fun b => if b = l then g (f b) else f b)) := by
  rw [modifyR_ok]
  refine ⟨by simpa using h, ?_⟩
  apply List.ext_getElem?
  intro i
  rw [List.getElem?_modify]
  by_cases hi : i < n
  · simp only [List.getElem?_map, List.getElem?_range hi, Option.map_some]
    by_cases e : l = i
    · simp [e]
    · simp [e, Ne.symm e]
  · simp only [List.getElem?_map, List.getElem?_eq_none (show (List.range n).length ≤ i by simp; omega), Option.map_none]
    rfl

theorem partialSum_go {α : Type} [AddCommMonoid α] (acc : α) (n : Nat) (f : Nat → α) :
    partialSum.go acc ((List.range n).map f) = (List.range n).map (fun b => acc + ∑ i ∈ Finset.range (b + 1), f i) := by
  induction n generalizing acc f with
  | zero => rfl
  | succ n ih =>
    rw [List.range_succ_eq_map, List.map_cons, List.map_map, partialSum.go, ih, List.map_cons, List.map_map]
    congr 1
    · simp
    · refine List.map_congr_left fun b _ => ?_
      simp only [Function.comp]
      rw [Finset.sum_range_succ' _ (b + 1), add_assoc, add_comm (f 0)]

theorem partialSum_map_range {α : Type} [AddCommMonoid α] (n : Nat) (f : Nat → α) :
    partialSum ((List.range n).map f) = (List.range n).map (fun b => ∑ i ∈ Finset.range (b + 1), f i) := by
  cases n with
  | zero => rfl
  | succ n =>
    rw [List.range_succ_eq_map, List.map_cons, List.map_map, partialSum, partialSum_go, List.map_cons, List.map_map]
    congr 1
    · simp
    · refine List.map_congr_left fun b _ => ?_
      simp only [Function.comp]
      rw [Finset.sum_range_succ' _ (b + 1), add_comm (f 0)]

/-- The class of a pixel. -/
noncomputable def cls (precision : ℝ) (q : ℝ × ℝ) : Nat := ⌊Real.sqrt q.1 / precision⌋₊

theorem cls_lt {precision : ℝ} (hp : 0 < precision) (q : ℝ × ℝ) (b : Nat) :
    cls precision q < b ↔ Real.sqrt q.1 < b * precision := by
  unfold cls
  rw [Nat.floor_lt (div_nonneg (Real.sqrt_nonneg _) hp.le), div_lt_iff₀ hp]

open Classical in
theorem accumulate {precision : ℝ} (hp : 0 < precision) (n : Nat) (hn : 0 < n) (px : List (ℝ × ℝ)) (f : Nat → ℝ) (g : Nat → Nat) :
    px.foldlM (addPixel (n * precision) precision) ((List.range n).map f, (List.range n).map g) =
      .ok ((List.range n).map (fun b => f b + (px.map (fun q => if cls precision q = b then q.2 else 0)).sum),
        (List.range n).map (fun b => g b + (px.map (fun q => if cls precision q = b then 1 else 0)).sum)) := by
  induction px generalizing f g with
  | nil =>
    simp only [List.map_nil, List.sum_nil, add_zero]
    rfl
  | cons q px ih =>
    rw [List.foldlM_cons]
    by_cases hc : cls precision q < n
    · have hd : q.1 < (n * precision) ^ 2 := by
        have h := (cls_lt hp q n).1 hc
        rwa [Real.sqrt_lt' (lt_of_le_of_lt (Real.sqrt_nonneg _) h)] at h
      have e1 := modifyR_map_range n f (cls precision q) (· + q.2) hc
      have e2 := modifyR_map_range n g (cls precision q) (· + 1) hc
      have step : addPixel (n * precision) precision ((List.range n).map f, (List.range n).map g) q =
          .ok ((List.range n).map (fun b => if b = cls precision q then f b + q.2 else f b),
            (List.range n).map (fun b => if b = cls precision q then g b + 1 else g b)) := by
        unfold cls at e1 e2 ⊢
        unfold addPixel
        rw [if_pos hd, e1, ok_bind, e2, ok_bind]
        rfl
      rw [step, ok_bind, ih]
      refine congrArg Except.ok (Prod.ext (List.map_congr_left fun b _ => ?_) (List.map_congr_left fun b _ => ?_))
      · rw [List.map_cons, List.sum_cons]
        show (if b = cls precision q then _ else _) + _ = _
        by_cases e : b = cls precision q
        · rw [if_pos e, if_pos e.symm]; ring
        · rw [if_neg e, if_neg (Ne.symm e)]; ring
      · rw [List.map_cons, List.sum_cons]
        show (if b = cls precision q then _ else _) + _ = _
        by_cases e : b = cls precision q
        · rw [if_pos e, if_pos e.symm]; ring
        · rw [if_neg e, if_neg (Ne.symm e)]; ring
    · have hd : ¬ q.1 < (n * precision) ^ 2 := by
        intro hd
        refine hc ((cls_lt hp q n).2 ?_)
        exact (Real.sqrt_lt' (by positivity)).2 hd
      have step : addPixel (n * precision) precision ((List.range n).map f, (List.range n).map g) q =
          .ok ((List.range n).map f, (List.range n).map g) := by
        unfold addPixel
        rw [if_neg hd]
        rfl
      rw [step, ok_bind, ih]
      refine congrArg Except.ok (Prod.ext (List.map_congr_left fun b hb => ?_) (List.map_congr_left fun b hb => ?_))
      · have : ¬ cls precision q = b := fun e => hc (by rw [e]; exact List.mem_range.1 hb)
        rw [List.map_cons, List.sum_cons, if_neg this, zero_add]
      · have : ¬ cls precision q = b := fun e => hc (by rw [e]; exact List.mem_range.1 hb)
        rw [List.map_cons, List.sum_cons, if_neg this, zero_add]

open Classical in
theorem sum_classes (precision : ℝ) (px : List (ℝ × ℝ)) {α : Type} [AddCommMonoid α] (φ : ℝ × ℝ → α) (s : Finset Nat) :
    ∑ b ∈ s, (px.map (fun q => if cls precision q = b then φ q else 0)).sum =
      (px.map (fun q => if cls precision q ∈ s then φ q else 0)).sum := by
  induction px with
  | nil => simp
  | cons q px ih => simp only [List.map_cons, List.sum_cons, Finset.sum_add_distrib, ih, Finset.sum_ite_eq]

theorem setR_map_range {α : Type} (n : Nat) (hn : 0 < n) (f : Nat → α) (a : α) :
    setR ((List.range n).map f) 0 a = .ok ((List.range n).map (fun b => if b = 0 then a else f b)) := by
  rw [setR_ok]
  refine ⟨by simpa using hn, ?_⟩
  apply List.ext_getElem?
  intro i
  rw [List.getElem?_set]
  by_cases hi : i < n
  · simp only [List.getElem?_map, List.getElem?_range hi, Option.map_some, List.length_map, List.length_range]
    by_cases e : i = 0
    · subst e
      simp [hn]
    · simp [e, Ne.symm e]
  · simp only [List.getElem?_map, List.getElem?_eq_none (show (List.range n).length ≤ i by simp; omega), Option.map_none]
    rw [if_neg (by omega)]

theorem sum_ones_filter (l : List (ℝ × ℝ)) (q : ℝ × ℝ → Prop) [DecidablePred q] :
    (l.map (fun a => if q a then 1 else 0)).sum = (l.filter (fun a => decide (q a))).length := by
  induction l with
  | nil => rfl
  | cons a l ih =>
    rw [List.filter_cons, List.map_cons, List.sum_cons, ih]
    by_cases h : q a
    · rw [if_pos h, if_pos (decide_eq_true h), List.length_cons]; omega
    · rw [if_neg h, if_neg (by simpa using h)]; omega

open Classical in
/-- When `rmax` is a whole number of classes, the profile gives in the class `b` the sum of the intensities of
all the pixels closer than `(b+1) precision`, divided by the number of pixels that are not in the first class,
plus one. -/
theorem C102_profile (n : Nat) (hn : 0 < n) (precision : ℝ) (hp : 0 < precision) (px : List (ℝ × ℝ)) :
    ∃ val, profile n (n * precision) precision px = .ok val ∧ val.length = n ∧ ∀ b < n, val[b]? = some (
      ((px.filter (fun q => decide (Real.sqrt q.1 < (b + 1) * precision))).map (fun q => q.2)).sum /
      (1 + ((px.filter (fun q => decide (precision ≤ Real.sqrt q.1 ∧ Real.sqrt q.1 < (b + 1) * precision))).length : ℝ))) := by
  have hz : (List.replicate n (0 : ℝ)) = (List.range n).map (fun _ => 0) := by
    rw [List.map_const', List.length_range]
  have hz' : (List.replicate n 0) = (List.range n).map (fun _ => 0) := by
    rw [List.map_const', List.length_range]
  have hle : ∀ q b, cls precision q ∈ Finset.range (b + 1) ↔ Real.sqrt q.1 < ((b : ℝ) + 1) * precision := by
    intro q b
    rw [Finset.mem_range, cls_lt hp]
    push_cast
    rfl
  let vs : Nat → ℝ := fun b => ∑ i ∈ Finset.range (b + 1),
    (0 + (px.map (fun q => if cls precision q = i then q.2 else 0)).sum)
  let ns : Nat → Nat := fun b => ∑ i ∈ Finset.range (b + 1),
    (if i = 0 then 1 else 0 + (px.map (fun q => if cls precision q = i then 1 else 0)).sum)
  refine ⟨(List.range n).map (fun b => vs b / (ns b : ℝ)), ?_, ?_, ?_⟩
  · unfold profile
    rw [hz, hz', accumulate hp n hn, ok_bind]
    simp only
    rw [setR_map_range n hn, ok_bind, partialSum_map_range, partialSum_map_range, List.zipWith_map, List.zipWith_self]
    rfl
  · rw [List.length_map, List.length_range]
  · intro b hb
    rw [List.getElem?_map, List.getElem?_range hb, Option.map_some]
    refine congrArg some ?_
    congr 1
    · simp only [vs, zero_add]
      rw [sum_classes precision px (fun q => q.2)]
      refine Eq.trans ?_ (sum_map_filter px (fun q => Real.sqrt q.1 < (b + 1) * precision) id).symm
      refine congrArg List.sum (List.map_congr_left fun q _ => ?_)
      simp only [hle, id]
    · simp only [ns]
      rw [Finset.sum_range_succ' _ b]
      simp only [Nat.succ_ne_zero, if_false, if_true, zero_add]
      rw [Nat.cast_add, Nat.cast_one, Nat.cast_sum, add_comm]
      congr 1
      rw [← Finset.sum_image (s := Finset.range b) (g := (· + 1))
        (f := fun i => (((px.map (fun q => if cls precision q = i then 1 else 0)).sum : Nat) : ℝ))
        (by intro x _ y _ h; simpa using h), ← Nat.cast_sum, sum_classes precision px (fun _ => 1), sum_ones_filter]
      congr 2
      refine List.filter_congr fun q _ => ?_
      rw [decide_eq_decide, Finset.mem_image]
      constructor
      · rintro ⟨i, hi, e⟩
        rw [Finset.mem_range] at hi
        constructor
        · by_contra hc
          push Not at hc
          have := (cls_lt hp q 1).2 (by simpa using hc)
          omega
        · exact (hle q b).1 (Finset.mem_range.2 (by omega))
      · rintro ⟨h1, h2⟩
        have h3 := Finset.mem_range.1 ((hle q b).2 h2)
        have h4 : ¬ cls precision q < 1 := by
          intro h4
          have := (cls_lt hp q 1).1 h4
          rw [Nat.cast_one, one_mul] at this
          linarith
        exact ⟨cls precision q - 1, Finset.mem_range.2 (by omega), by omega⟩

open Classical in
theorem split_count (px : List (ℝ × ℝ)) (a b : ℝ) (hab : a ≤ b) :
    (px.filter (fun q => decide (Real.sqrt q.1 < b))).length =
      (px.filter (fun q => decide (a ≤ Real.sqrt q.1 ∧ Real.sqrt q.1 < b))).length +
      (px.filter (fun q => decide (Real.sqrt q.1 < a))).length := by
  induction px with
  | nil => rfl
  | cons q px ih =>
    by_cases h1 : Real.sqrt q.1 < a
    · have h2 : Real.sqrt q.1 < b := lt_of_lt_of_le h1 hab
      simp only [List.filter_cons, h1, h2, decide_true, if_true, not_le.2 h1, false_and, decide_false,
        Bool.false_eq_true, if_false, List.length_cons, ih]
      omega
    · by_cases h2 : Real.sqrt q.1 < b
      · simp only [List.filter_cons, h1, h2, decide_true, if_true, not_lt.1 h1, and_self, decide_false,
          Bool.false_eq_true, if_false, List.length_cons, ih]
        omega
      · simp only [List.filter_cons, h1, h2, and_false, decide_false, Bool.false_eq_true, if_false, ih]

open Classical in
/-- If exactly one pixel is in the first class, the profile is the mean intensity of the pixels closer than the
end of each class. -/
theorem C102_mean_partial (n : Nat) (hn : 0 < n) (precision : ℝ) (hp : 0 < precision) (px : List (ℝ × ℝ))
    (h1 : (px.filter (fun q => decide (Real.sqrt q.1 < precision))).length = 1) :
    ∃ val, profile n (n * precision) precision px = .ok val ∧ ∀ b < n, val[b]? = some (
      ((px.filter (fun q => decide (Real.sqrt q.1 < (b + 1) * precision))).map (fun q => q.2)).sum /
      ((px.filter (fun q => decide (Real.sqrt q.1 < (b + 1) * precision))).length : ℝ)) := by
  obtain ⟨val, e, -, h⟩ := C102_profile n hn precision hp px
  refine ⟨val, e, fun b hb => ?_⟩
  rw [h b hb, split_count px precision ((b + 1) * precision) (by nlinarith [Nat.cast_nonneg (α := ℝ) b]), h1]
  rw [Nat.cast_add, Nat.cast_one, add_comm (1 : ℝ)]

open Classical in
/-- In general the number of pixels of the first class is replaced by 1: if there is no pixel so close to the
center or more than one, and what is inside is not black, no class after has the mean intensity. -/
theorem C102_first_counterexample (n : Nat) (hn : 0 < n) (precision : ℝ) (hp : 0 < precision) (px : List (ℝ × ℝ))
    (h1 : (px.filter (fun q => decide (Real.sqrt q.1 < precision))).length ≠ 1) :
    ∃ val, profile n (n * precision) precision px = .ok val ∧ ∀ b < n,
      ((px.filter (fun q => decide (Real.sqrt q.1 < (b + 1) * precision))).map (fun q => q.2)).sum ≠ 0 →
      val[b]? ≠ some (
        ((px.filter (fun q => decide (Real.sqrt q.1 < (b + 1) * precision))).map (fun q => q.2)).sum /
        ((px.filter (fun q => decide (Real.sqrt q.1 < (b + 1) * precision))).length : ℝ)) := by
  obtain ⟨val, e, -, h⟩ := C102_profile n hn precision hp px
  refine ⟨val, e, fun b hb hne => ?_⟩
  rw [h b hb]
  intro hc
  have hc := Option.some.inj hc
  have hsplit := split_count px precision ((b + 1) * precision) (by nlinarith [Nat.cast_nonneg (α := ℝ) b])
  rw [div_eq_mul_inv, div_eq_mul_inv] at hc
  have hc := inv_injective (mul_left_cancel₀ hne hc)
  rw [hsplit] at hc
  have : 1 + (px.filter (fun q => decide (precision ≤ Real.sqrt q.1 ∧ Real.sqrt q.1 < (b + 1) * precision))).length =
    (px.filter (fun q => decide (precision ≤ Real.sqrt q.1 ∧ Real.sqrt q.1 < (b + 1) * precision))).length +
      (px.filter (fun q => decide (Real.sqrt q.1 < precision))).length := by exact_mod_cast hc
  omega

theorem addPixel_cases (rmax precision : ℝ) (n : Nat) (s : List ℝ × List Nat) (hs : s.1.length = n ∧ s.2.length = n)
    (q : ℝ × ℝ) :
    (addPixel rmax precision s q = .error .ub) ∨
    (∃ s', addPixel rmax precision s q = .ok s' ∧ s'.1.length = n ∧ s'.2.length = n ∧
      ¬ (q.1 < rmax ^ 2 ∧ n ≤ cls precision q)) := by
  unfold addPixel
  by_cases hd : q.1 < rmax ^ 2
  · rw [if_pos hd]
    by_cases hc : cls precision q < n
    · right
      have hc' := hc
      unfold cls at hc'
      refine ⟨(s.1.modify (cls precision q) (· + q.2), s.2.modify (cls precision q) (· + 1)), ?_, ?_, ?_, ?_⟩
      · unfold modifyR
        rw [if_pos (by rw [hs.1]; exact hc'), ok_bind, if_pos (by rw [hs.2]; exact hc'), ok_bind]
        rfl
      · simp [hs.1]
      · simp [hs.2]
      · omega
    · left
      unfold cls at hc
      unfold modifyR
      rw [if_neg (by rw [hs.1]; exact hc)]
      rfl
  · rw [if_neg hd]
    exact Or.inr ⟨s, rfl, hs.1, hs.2, fun h => hd h.1⟩

/-- If `rmax` is not a whole number of classes, a pixel after the last class is written out of bounds. -/
theorem C102_class_counterexample (rmax precision : ℝ) (hp : 0 < precision) (px : List (ℝ × ℝ)) (q : ℝ × ℝ)
    (hq : q ∈ px) (h1 : (classes rmax precision : ℝ) * precision ≤ Real.sqrt q.1) (h2 : Real.sqrt q.1 < rmax) :
    profile (classes rmax precision) rmax precision px = .error .ub := by
  have hbad : q.1 < rmax ^ 2 ∧ classes rmax precision ≤ cls precision q := by
    refine ⟨(Real.sqrt_lt' (lt_of_le_of_lt (Real.sqrt_nonneg _) h2)).1 h2, ?_⟩
    by_contra hc
    have := (cls_lt hp q _).1 (not_le.1 hc)
    linarith
  have key : ∀ (px : List (ℝ × ℝ)) (s : List ℝ × List Nat), s.1.length = classes rmax precision ∧
      s.2.length = classes rmax precision → q ∈ px → px.foldlM (addPixel rmax precision) s = .error .ub := by
    intro px
    induction px with
    | nil => intro s _ h; simp at h
    | cons a px ih =>
      intro s hs hm
      rw [List.foldlM_cons]
      rcases addPixel_cases rmax precision _ s hs a with h | ⟨s', h, l1, l2, hno⟩
      · rw [h]
        rfl
      · rw [h, ok_bind]
        rcases List.mem_cons.1 hm with e | e
        · exact absurd (e ▸ hbad) hno
        · exact ih s' ⟨l1, l2⟩ e
  unfold profile
  rw [key px _ ⟨List.length_replicate, List.length_replicate⟩ hq]
  rfl

/-- `rmax` 10 and precision 0.3: 33 classes, the last one ends at 9.9. -/
example : profile (classes 10 (3 / 10)) 10 (3 / 10) [(99, 7)] = .error .ub := by
  have hN : classes 10 (3 / 10) = 33 := by
    unfold classes
    rw [Nat.floor_eq_iff] <;> norm_num
  refine C102_class_counterexample 10 (3 / 10) (by norm_num) _ (99, 7) (by simp) ?_ ?_
  · rw [hN]
    exact Real.le_sqrt_of_sq_le (by norm_num)
  · rw [Real.sqrt_lt' (by norm_num)]
    norm_num

theorem leastFrom_spec (h : List ℝ) (a : Nat) : ∀ c i best, a ≤ best → best < i →
    (∀ m, a ≤ m → m < i → h.getD best 0 ≤ h.getD m 0) → (∀ m, a ≤ m → m < best → h.getD best 0 < h.getD m 0) →
    a ≤ leastFrom h c i best ∧ leastFrom h c i best < i + c ∧
    (∀ m, a ≤ m → m < i + c → h.getD (leastFrom h c i best) 0 ≤ h.getD m 0) ∧
    (∀ m, a ≤ m → m < leastFrom h c i best → h.getD (leastFrom h c i best) 0 < h.getD m 0) := by
  intro c
  induction c with
  | zero => intro i best h1 h2 h3 h4; exact ⟨h1, h2, h3, h4⟩
  | succ c ih =>
    intro i best h1 h2 h3 h4
    unfold leastFrom
    have e : i + (c + 1) = i + 1 + c := by omega
    rw [e]
    by_cases hc : h.getD i 0 < h.getD best 0
    · rw [if_pos hc]
      refine ih (i + 1) i (by omega) (by omega) ?_ ?_
      · intro m hm hm'
        rcases Nat.lt_succ_iff_lt_or_eq.1 hm' with hlt | heq
        · exact hc.le.trans (h3 m hm hlt)
        · rw [heq]
      · intro m hm hm'
        exact lt_of_lt_of_le hc (h3 m hm hm')
    · rw [if_neg hc]
      refine ih (i + 1) best h1 (by omega) ?_ h4
      intro m hm hm'
      rcases Nat.lt_succ_iff_lt_or_eq.1 hm' with hlt | heq
      · exact h3 m hm hlt
      · rw [heq]
        exact not_lt.1 hc

theorem adjacentDifference_getD (l : List ℝ) (m : Nat) (hm : m + 1 < l.length) :
    (adjacentDifference l).getD (m + 1) 0 = l.getD (m + 1) 0 - l.getD m 0 := by
  match l with
  | [] => simp at hm
  | x :: xs =>
    have h1 : m < xs.length := by simpa using hm
    have h2 : m < (x :: xs).length := by simp; omega
    unfold adjacentDifference
    simp only [List.getD_eq_getElem?_getD, List.getElem?_cons_succ, List.getElem?_zipWith,
      List.getElem?_eq_getElem h1, List.getElem?_eq_getElem h2, Option.getD_some]

/-- The radius is the one where the smoothed profile decreases the most, the smallest if there are several,
among those not less than `rmin` (rounded to the class below) and at least `rmin` before the end. -/
theorem C102_radius (n : Nat) (hn : 0 < n) (rmin precision : ℝ) (hp : 0 < precision) (hr : precision ≤ rmin)
    (hm : 2 * ⌊rmin / precision⌋₊ < n) (smooth : List ℝ → List ℝ) (hs : ∀ l, (smooth l).length = l.length)
    (px : List (ℝ × ℝ)) :
    ∃ val m, profile n (n * precision) precision px = .ok val ∧
      getRadius n (n * precision) rmin precision smooth px = .ok (precision * (m : Nat)) ∧
      rmin - precision < precision * m ∧ precision * m < n * precision - ⌊rmin / precision⌋₊ * precision ∧
      (∀ m', ⌊rmin / precision⌋₊ ≤ m' → m' < n - ⌊rmin / precision⌋₊ →
        (smooth val).getD m 0 - (smooth val).getD (m - 1) 0 ≤ (smooth val).getD m' 0 - (smooth val).getD (m' - 1) 0) ∧
      (∀ m', ⌊rmin / precision⌋₊ ≤ m' → m' < m →
        (smooth val).getD m 0 - (smooth val).getD (m - 1) 0 < (smooth val).getD m' 0 - (smooth val).getD (m' - 1) 0) := by
  obtain ⟨val, e, hlen, -⟩ := C102_profile n hn precision hp px
  have hfl := Nat.lt_floor_add_one (rmin / precision)
  have hk1 : 1 ≤ ⌊rmin / precision⌋₊ := Nat.le_floor (by rw [Nat.cast_one, le_div_iff₀ hp]; linarith)
  have hget : getRadius n (n * precision) rmin precision smooth px = .ok (precision *
      ((leastFrom (adjacentDifference (smooth val)) (n - ⌊rmin / precision⌋₊ - ⌊rmin / precision⌋₊ - 1)
        (⌊rmin / precision⌋₊ + 1) ⌊rmin / precision⌋₊ : Nat) : ℝ)) := by
    unfold getRadius
    rw [e, ok_bind]
    simp only
    rw [if_neg (by omega), if_pos (by omega)]
    rfl
  generalize ⌊rmin / precision⌋₊ = k at *
  have hd : ∀ m, 1 ≤ m → m < n → (adjacentDifference (smooth val)).getD m 0 =
      (smooth val).getD m 0 - (smooth val).getD (m - 1) 0 := by
    intro m h1 h2
    obtain ⟨m, rfl⟩ : ∃ m', m = m' + 1 := ⟨m - 1, by omega⟩
    rw [adjacentDifference_getD _ _ (by rw [hs, hlen]; exact h2), Nat.add_sub_cancel]
  obtain ⟨s1, s2, s3, s4⟩ := leastFrom_spec (adjacentDifference (smooth val)) k (n - k - k - 1) (k + 1) k (le_refl _)
    (by omega) (by intro m h1 h2; rw [show m = k by omega]) (by intro m h1 h2; omega)
  have hend : k + 1 + (n - k - k - 1) = n - k := by omega
  rw [hend] at s2 s3
  refine ⟨val, leastFrom (adjacentDifference (smooth val)) (n - k - k - 1) (k + 1) k, e, hget, ?_, ?_, ?_, ?_⟩
  · have : rmin < ((k : ℝ) + 1) * precision := (div_lt_iff₀ hp).1 hfl
    have h2 : (k : ℝ) ≤ (leastFrom (adjacentDifference (smooth val)) (n - k - k - 1) (k + 1) k : ℕ) := Nat.cast_le.2 s1
    nlinarith
  · have : ((leastFrom (adjacentDifference (smooth val)) (n - k - k - 1) (k + 1) k : ℕ) : ℝ) < ((n - k : Nat) : ℝ) :=
      Nat.cast_lt.2 s2
    rw [Nat.cast_sub (by omega)] at this
    nlinarith
  · intro m' h1 h2
    rw [← hd _ (by omega) (by omega), ← hd _ (by omega) (by omega)]
    exact s3 m' h1 h2
  · intro m' h1 h2
    rw [← hd _ (by omega) (by omega), ← hd _ (by omega) (by omega)]
    exact s4 m' h1 h2

/-- If twice the smallest radius is larger than the greatest one, the range where the minimum is searched ends
before its beginning. -/
theorem C102_margin_counterexample (n : Nat) (rmax rmin precision : ℝ) (hm : n < 2 * ⌊rmin / precision⌋₊)
    (smooth : List ℝ → List ℝ) (px : List (ℝ × ℝ)) (val : List ℝ) (h : profile n rmax precision px = .ok val) :
    getRadius n rmax rmin precision smooth px = .error .ub := by
  unfold getRadius
  rw [h, ok_bind]
  simp only
  rw [if_pos hm]
  rfl

/-- The default values: `rmin` 1, `rmax` 10, precision 0.1. -/
example : (1 / 10 : ℝ) ≤ 1 ∧ 2 * ⌊(1 : ℝ) / (1 / 10)⌋₊ < 100 ∧ ((100 : Nat) : ℝ) * (1 / 10) = 10 := by
  have : ⌊(1 : ℝ) / (1 / 10)⌋₊ = 10 := by rw [Nat.floor_eq_iff] <;> norm_num
  rw [this]
  norm_num

end Tracker
end Colloids
