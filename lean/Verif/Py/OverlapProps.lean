import Verif.Py.BondsProps

/-! # Particles that overlap, in python (C156) -/

namespace Colloids
namespace Py
namespace Bonds
open Linker (get_mapRange get_mapSet get_mapModify)
open Average (idx_some)

variable {d : Nat}

theorem zeroDist_eq (p q : Fin d → ℝ) : zeroDist p q = 0 := by
  unfold zeroDist
  have : ∀ l : List (ℝ × ℝ), l.foldl (fun _ x => (x.1 - x.1) ^ 2) (0 : ℝ) = 0 := by
    intro l
    induction l with
    | nil => rfl
    | cons a l ih => rw [List.foldl_cons]; simpa using ih
  exact this _

/-- The particles that remain after the loop for one of them. -/
def keepStep (near : Nat → List Nat) (g : Nat → Bool) (i : Nat) : Nat → Bool :=
  if g i then fun j => g j && !(decide (j ∈ near i) && decide (j ≠ i)) else g

theorem keepStep_true {near : Nat → List Nat} {g : Nat → Bool} {i : Nat} (h : g i = true) (j : Nat) :
    keepStep near g i j = (g j && !(decide (j ∈ near i) && decide (j ≠ i))) := by
  unfold keepStep
  rw [if_pos h]

theorem keepStep_false {near : Nat → List Nat} {g : Nat → Bool} {i : Nat} (h : g i = false) : keepStep near g i = g := by
  unfold keepStep
  rw [if_neg (by simp [h])]

theorem inner_run {limit : ℝ → ℝ → ℝ} {pos : List (Fin d → ℝ)} {radii : List ℝ} (hl : pos.length = radii.length)
    (hlim : ∀ r ∈ radii, ∀ s ∈ radii, 0 < limit s r) {i : Nat} {p : Fin d → ℝ} {r : ℝ} (hr : r ∈ radii) :
    ∀ (js : List Nat) (g : Nat → Bool), (∀ j ∈ js, j < pos.length) →
      js.foldlM (dropStep limit pos radii i p r) ((List.range pos.length).map g) =
        .ok ((List.range pos.length).map fun j => g j && !(decide (j ∈ js) && decide (j ≠ i))) := by
  intro js
  induction js with
  | nil => intro g _; simp
  | cons k js ih =>
    intro g hj
    have hk := hj k (by simp)
    have hstep : dropStep limit pos radii i p r ((List.range pos.length).map g) k =
        .ok ((List.range pos.length).map fun j => g j && !(decide (j = k) && decide (j ≠ i))) := by
      unfold dropStep
      rw [idx_some (a := g k) (by rw [get_mapRange, if_pos hk]), ok_bind]
      by_cases hc : k = i ∨ g k = false
      · rw [if_pos (by rcases hc with h | h <;> simp [h])]
        simp only [pure_eq_ok]
        congr 1
        apply List.map_congr_left
        intro j _
        by_cases hjk : j = k
        · subst hjk
          rcases hc with h | h <;> simp [h]
        · simp [hjk]
      · have hc' : k ≠ i ∧ g k = true := by
          rw [not_or] at hc
          exact ⟨hc.1, by simpa using hc.2⟩
        rw [if_neg (by simp [hc'.1, hc'.2]), idx_some (List.getElem?_eq_getElem hk), ok_bind,
          idx_some (List.getElem?_eq_getElem (hl ▸ hk)), ok_bind, zeroDist_eq,
          if_pos (pow_pos (hlim r hr _ (List.getElem_mem _)) 2)]
        unfold upd
        rw [if_pos (by simpa using hk), get_mapModify]
        congr 1
        apply List.map_congr_left
        intro j _
        by_cases hjk : j = k
        · subst hjk; simp [hc'.1]
        · simp [hjk]
    rw [List.foldlM_cons, hstep, ok_bind, ih _ (fun j h => hj j (List.mem_cons_of_mem _ h))]
    congr 1
    apply List.map_congr_left
    intro j _
    by_cases h1 : j = k
    · subst h1
      by_cases h3 : j = i <;> simp [h3]
    · simp [h1]

theorem nonOverlap_run {limit : ℝ → ℝ → ℝ} {ball : ℝ → Nat → List Nat} {pos : List (Fin d → ℝ)} {radii : List ℝ} {rmax : ℝ} (hb : IsBall ball pos)
    (hl : pos.length = radii.length) (hmax : maxOf radii = .ok rmax) (hlim : ∀ r ∈ radii, ∀ s ∈ radii, 0 < limit s r) :
    nonOverlap limit ball pos radii = .ok ((List.range pos.length).map
      ((List.range pos.length).foldl (keepStep fun i => ball (rmax + radii.getD i 0) i) fun _ => true)) := by
  unfold nonOverlap
  rw [if_neg (by simpa using hl), hmax]
  simp only [ok_bind, pure_eq_ok]
  have : ∀ (l : List Nat) (g : Nat → Bool), (∀ i ∈ l, i < pos.length) →
      l.foldlM (fun good i => do
        let p ← idx pos i
        let r ← idx radii i
        let g ← idx good i
        if !g then .ok good
        else (ball (rmax + r) i).foldlM (dropStep limit pos radii i p r) good) ((List.range pos.length).map g) =
      (.ok ((List.range pos.length).map (l.foldl (keepStep fun i => ball (rmax + radii.getD i 0) i) g)) : R (List Bool)) := by
    intro l
    induction l with
    | nil => intro g _; rfl
    | cons i l ih =>
      intro g h
      have hi := h i (by simp)
      have hi' : i < radii.length := hl ▸ hi
      have hD : radii.getD i 0 = radii[i] := by rw [List.getD_eq_getElem?_getD, List.getElem?_eq_getElem hi']; rfl
      rw [List.foldlM_cons, List.foldl_cons, idx_some (List.getElem?_eq_getElem hi), ok_bind, idx_some (List.getElem?_eq_getElem hi'), ok_bind,
        idx_some (a := g i) (by rw [get_mapRange, if_pos hi]), ok_bind]
      have hstep : (if (!g i) = true then .ok ((List.range pos.length).map g)
          else (ball (rmax + radii[i]) i).foldlM (dropStep limit pos radii i pos[i] radii[i]) ((List.range pos.length).map g) : R (List Bool)) =
          .ok ((List.range pos.length).map (keepStep (fun i => ball (rmax + radii.getD i 0) i) g i)) := by
        cases hg : g i
        · rw [keepStep_false hg]
          simp
        · simp only [Bool.not_true, Bool.false_eq_true, if_false]
          rw [inner_run hl hlim (List.getElem_mem hi')]
          · congr 1
            apply List.map_congr_left
            intro j _
            rw [keepStep_true hg]
            simp only [hD]
          intro j hj
          obtain ⟨_, q, _, hq, _⟩ := (hb.mem _ _ _).1 hj
          exact (List.getElem?_eq_some_iff.1 hq).1
      rw [hstep, ok_bind, ih _ (fun j hj => h j (List.mem_cons_of_mem _ hj))]
  exact this _ _ (fun i hi => List.mem_range.1 hi)

theorem keep_mono {near : Nat → List Nat} {g : Nat → Bool} {i j : Nat} (h : keepStep near g i j = true) : g j = true := by
  unfold keepStep at h
  split_ifs at h
  · simp only [Bool.and_eq_true] at h
    exact h.1
  · exact h

theorem keep_apart (near : Nat → List Nat) (n : Nat) : ∀ i j, i < n → i ≠ j → (List.range n).foldl (keepStep near) (fun _ => true) i = true →
    (List.range n).foldl (keepStep near) (fun _ => true) j = true → j ∉ near i := by
  induction n with
  | zero => intro i j hi; omega
  | succ n ih =>
    intro i j hi hij h1 h2
    rw [List.range_succ, List.foldl_append] at h1 h2
    simp only [List.foldl_cons, List.foldl_nil] at h1 h2
    rcases Nat.lt_succ_iff_lt_or_eq.1 hi with h | h
    · exact ih i j h hij (keep_mono h1) (keep_mono h2)
    · subst h
      have h3 := keep_mono h1
      rw [keepStep_true h3] at h2
      simp only [Bool.and_eq_true, Bool.not_eq_true', Bool.and_eq_false_iff, decide_eq_false_iff_not, not_not] at h2
      rcases h2.2 with h4 | h4
      · exact h4
      · exact absurd h4.symm hij

theorem keep_greedy {near : Nat → List Nat} (hs : ∀ i j, j ∈ near i → i ∈ near j) (n : Nat) : ∀ j,
    (List.range n).foldl (keepStep near) (fun _ => true) j = true ↔
      ∀ i, i < j → i < n → (List.range n).foldl (keepStep near) (fun _ => true) i = true → j ∉ near i := by
  have hstep : ∀ (n : Nat), (List.range (n + 1)).foldl (keepStep near) (fun _ => true) =
      keepStep near ((List.range n).foldl (keepStep near) (fun _ => true)) n := by
    intro n
    rw [List.range_succ, List.foldl_append]
    rfl
  induction n with
  | zero => intro j; simp
  | succ n ih =>
    -- a particle before `n`, or `n` itself, is not changed by the step `n`
    have hsame : ∀ i, i ≤ n → (List.range (n + 1)).foldl (keepStep near) (fun _ => true) i =
        (List.range n).foldl (keepStep near) (fun _ => true) i := by
      intro i hi
      rw [hstep]
      cases hn : (List.range n).foldl (keepStep near) (fun _ => true) n
      · rw [keepStep_false hn]
      · rw [keepStep_true hn]
        rcases Nat.lt_or_eq_of_le hi with h | h
        · cases hg : (List.range n).foldl (keepStep near) (fun _ => true) i
          · simp
          · have h1 := keep_apart near n i n h (by omega) hg hn
            have h2 : i ∉ near n := fun h3 => h1 (hs _ _ h3)
            simp [h2]
        · subst h
          simp
    intro j
    constructor
    · intro hj i hij hin hi
      exact keep_apart near (n + 1) i j hin (by omega) hi hj
    · intro h
      have hj : (List.range n).foldl (keepStep near) (fun _ => true) j = true := by
        rw [ih]
        intro i h1 h2 h3
        exact h i h1 (by omega) (by rw [hsame i (by omega)]; exact h3)
      rw [hstep]
      cases hn : (List.range n).foldl (keepStep near) (fun _ => true) n
      · rw [keepStep_false hn]
        exact hj
      · rw [keepStep_true hn]
        have h4 : j ∉ near n ∨ j = n := by
          rcases Nat.lt_trichotomy n j with h5 | h5 | h5
          · exact Or.inl (h n h5 (by omega) (by rw [hsame n (le_refl _)]; exact hn))
          · exact Or.inr h5.symm
          · left
            intro h6
            exact keep_apart near n j n h5 (by omega) hj hn (hs _ _ h6)
        simp only [hj, Bool.true_and, Bool.not_eq_true', Bool.and_eq_false_iff, decide_eq_false_iff_not, not_not]
        exact h4

theorem kept_far {limit : ℝ → ℝ → ℝ} {ball : ℝ → Nat → List Nat} {pos : List (Fin d → ℝ)} {radii : List ℝ} {rmax : ℝ} (hb : IsBall ball pos)
    (hl : pos.length = radii.length) (hmax : maxOf radii = .ok rmax) (hlim : ∀ r ∈ radii, ∀ s ∈ radii, 0 < limit s r) :
    ∃ good : List Bool, nonOverlap limit ball pos radii = .ok good ∧ good.length = pos.length ∧
      ∀ (i j : Nat) (p q : Fin d → ℝ) (r : ℝ), i ≠ j → good[i]? = some true → good[j]? = some true → pos[i]? = some p → pos[j]? = some q →
        radii[i]? = some r → rmax + r < gap p q := by
  refine ⟨_, nonOverlap_run hb hl hmax hlim, by simp, ?_⟩
  intro i j p q r hij hi hj hp hq hr
  rw [get_mapRange] at hi hj
  split_ifs at hi hj with h1 h2
  have h3 := keep_apart _ pos.length i j h1 hij (Option.some.inj hi) (Option.some.inj hj)
  rw [List.getD_eq_getElem?_getD, hr, Option.getD_some, hb.mem] at h3
  by_contra h
  exact h3 ⟨p, q, hp, hq, not_lt.1 h⟩

/-- C156: the particles kept by `non_overlapping` do not overlap, nor do they touch. -/
theorem C156_apart {ball : ℝ → Nat → List Nat} {pos : List (Fin d → ℝ)} {radii : List ℝ} (hb : IsBall ball pos) (hl : pos.length = radii.length)
    (hne : pos ≠ []) (hr : ∀ r ∈ radii, 0 < r) :
    ∃ good : List Bool, nonOverlapping ball pos radii = .ok good ∧ good.length = pos.length ∧
      ∀ (i j : Nat) (p q : Fin d → ℝ) (r s : ℝ), i ≠ j → good[i]? = some true → good[j]? = some true → pos[i]? = some p → pos[j]? = some q →
        radii[i]? = some r → radii[j]? = some s → r + s < gap p q := by
  have hne' : radii ≠ [] := by
    rintro rfl
    exact hne (List.length_eq_zero_iff.1 hl)
  obtain ⟨rmax, hmax⟩ := maxOf_some hne'
  obtain ⟨good, h1, h2, h3⟩ := kept_far (limit := (· + ·)) hb hl hmax (fun r h s h' => add_pos (hr s h') (hr r h))
  refine ⟨good, h1, h2, ?_⟩
  intro i j p q r s hij hi hj hp hq hri hsj
  have := h3 i j p q r hij hi hj hp hq hri
  have := maxOf_le hmax s (List.mem_of_getElem? hsj)
  linarith

/-- C156: the particles kept by `non_halfoverlapping` are further apart than the largest of their radii. -/
theorem C156_half_apart {ball : ℝ → Nat → List Nat} {pos : List (Fin d → ℝ)} {radii : List ℝ} (hb : IsBall ball pos) (hl : pos.length = radii.length)
    (hne : pos ≠ []) (hr : ∀ r ∈ radii, 0 < r) :
    ∃ good : List Bool, nonHalfOverlapping ball pos radii = .ok good ∧ good.length = pos.length ∧
      ∀ (i j : Nat) (p q : Fin d → ℝ) (r s : ℝ), i ≠ j → good[i]? = some true → good[j]? = some true → pos[i]? = some p → pos[j]? = some q →
        radii[i]? = some r → radii[j]? = some s → max r s < gap p q := by
  have hne' : radii ≠ [] := by
    rintro rfl
    exact hne (List.length_eq_zero_iff.1 hl)
  obtain ⟨rmax, hmax⟩ := maxOf_some hne'
  obtain ⟨good, h1, h2, h3⟩ := kept_far (limit := max) hb hl hmax (fun r h s h' => lt_max_of_lt_left (hr s h'))
  refine ⟨good, h1, h2, ?_⟩
  intro i j p q r s hij hi hj hp hq hri hsj
  have h4 := h3 i j p q r hij hi hj hp hq hri
  have h5 := maxOf_le hmax s (List.mem_of_getElem? hsj)
  have h6 := maxOf_le hmax r (List.mem_of_getElem? hri)
  have h7 := hr r (List.mem_of_getElem? hri)
  exact max_lt (by linarith) (by linarith)

example : IsBall (scan line) line ∧ line.length = [(1 : ℝ), 2, 1].length ∧ line ≠ [] ∧ ∀ r ∈ [(1 : ℝ), 2, 1], 0 < r :=
  ⟨scan_ball _, rfl, by simp [line], by simp⟩

/-- C156: when all the radii are the same, `non_overlapping` keeps exactly the particles that are further than a diameter from all the particles kept
before them. Missing: different radii (see the counterexamples). -/
theorem C156_early_partial {ball : ℝ → Nat → List Nat} {pos : List (Fin d → ℝ)} {radii : List ℝ} {r : ℝ} (hb : IsBall ball pos)
    (hl : pos.length = radii.length) (hne : pos ≠ []) (h0 : 0 < r) (hr : ∀ s ∈ radii, s = r) :
    ∃ good : List Bool, nonOverlapping ball pos radii = .ok good ∧ good.length = pos.length ∧
      ∀ (j : Nat) (q : Fin d → ℝ), pos[j]? = some q → (good[j]? = some true ↔
        ∀ (i : Nat) (p : Fin d → ℝ), i < j → good[i]? = some true → pos[i]? = some p → r + r < gap p q) := by
  have hne' : radii ≠ [] := by
    rintro rfl
    exact hne (List.length_eq_zero_iff.1 hl)
  obtain ⟨rmax, hmax⟩ := maxOf_some hne'
  have hrm := hr _ (maxOf_mem hmax)
  subst hrm
  refine ⟨_, nonOverlap_run hb hl hmax (fun s h t h' => by rw [hr s h, hr t h']; linarith), by simp, ?_⟩
  intro j q hq
  have hj := (List.getElem?_eq_some_iff.1 hq).1
  have hD : ∀ i, i < pos.length → radii.getD i 0 = rmax := by
    intro i hi
    rw [List.getD_eq_getElem?_getD, List.getElem?_eq_getElem (hl ▸ hi), Option.getD_some]
    exact hr _ (List.getElem_mem _)
  have hsym : ∀ i j, j ∈ ball (rmax + radii.getD i 0) i → i ∈ ball (rmax + radii.getD j 0) j := by
    intro i j h
    obtain ⟨p, q, hp, hq, h1⟩ := (hb.mem _ _ _).1 h
    rw [hD i (List.getElem?_eq_some_iff.1 hp).1] at h1
    rw [hD j (List.getElem?_eq_some_iff.1 hq).1]
    exact (hb.mem _ _ _).2 ⟨q, p, hq, hp, by rw [gap_comm]; exact h1⟩
  rw [get_mapRange, if_pos hj, Option.some.injEq, keep_greedy hsym]
  constructor
  · intro h i p hij hi hp
    rw [get_mapRange, if_pos (by omega), Option.some.injEq] at hi
    have := h i hij (by omega) hi
    rw [hb.mem, hD i (by omega)] at this
    by_contra h'
    exact this ⟨p, q, hp, hq, not_lt.1 h'⟩
  · intro h i hij hin hi hm
    rw [hD i hin] at hm
    obtain ⟨p, q', hp, hq', h1⟩ := (hb.mem _ _ _).1 hm
    rw [hq] at hq'
    cases hq'
    exact absurd h1 (not_le.2 (h i p hij (by rw [get_mapRange, if_pos hin, hi]) hp))

example : IsBall (scan line) line ∧ line.length = [(1 : ℝ), 1, 1].length ∧ line ≠ [] ∧ (0 : ℝ) < 1 ∧ ∀ s ∈ [(1 : ℝ), 1, 1], s = 1 :=
  ⟨scan_ball _, rfl, by simp [line], one_pos, by simp⟩

theorem gap_line (x y : ℝ) : gap (fun _ => x : Fin 1 → ℝ) (fun _ => y) = |x - y| := by
  simp [gap, sqd, Real.sqrt_sq_eq_abs]

/-- C156: with different radii, `non_overlapping` can remove the first particle although no two particles overlap. -/
theorem C156_early_counterexample : ∃ (pos : List (Fin 1 → ℝ)) (radii : List ℝ), pos.length = radii.length ∧
    (∀ (i j : Nat) (p q : Fin 1 → ℝ) (r s : ℝ), i ≠ j → pos[i]? = some p → pos[j]? = some q → radii[i]? = some r → radii[j]? = some s → r + s < gap p q) ∧
    ∀ ball : ℝ → Nat → List Nat, IsBall ball pos → nonOverlapping ball pos radii = .ok [false, true] := by
  refine ⟨[fun _ => 0, fun _ => 5], [1, 3], rfl, ?_, ?_⟩
  · intro i j p q r s hij hp hq hr hs
    have hi := (List.getElem?_eq_some_iff.1 hp).1
    have hj := (List.getElem?_eq_some_iff.1 hq).1
    simp only [List.length_cons, List.length_nil] at hi hj
    have : (i = 0 ∧ j = 1) ∨ (i = 1 ∧ j = 0) := by omega
    rcases this with ⟨rfl, rfl⟩ | ⟨rfl, rfl⟩
    · simp at hp hq hr hs
      subst hp hq hr hs
      rw [gap_line]
      norm_num
    · simp at hp hq hr hs
      subst hp hq hr hs
      rw [gap_line]
      norm_num
  · intro ball hb
    have hmax : maxOf [1, 3] = .ok 3 := by simp [maxOf]
    unfold nonOverlapping
    rw [nonOverlap_run hb rfl hmax (by
      intro r hr s hs
      simp only [List.mem_cons, List.not_mem_nil, or_false] at hr hs
      rcases hr with rfl | rfl <;> rcases hs with rfl | rfl <;> norm_num)]
    have h1 : 1 ∉ ball (3 + 1) 0 := by
      rw [hb.mem]
      rintro ⟨p, q, hp, hq, h⟩
      simp at hp hq
      subst hp hq
      rw [gap_line] at h
      norm_num at h
    have h2 : 0 ∈ ball (3 + 3) 1 := by
      rw [hb.mem]
      refine ⟨_, _, rfl, rfl, ?_⟩
      rw [gap_line]
      norm_num
    simp [List.range_succ, keepStep, h1, h2]

/-- C156: `non_halfoverlapping` can remove a particle although no two particles are half overlapping. -/
theorem C156_half_counterexample : ∃ (pos : List (Fin 1 → ℝ)) (radii : List ℝ), pos.length = radii.length ∧
    (∀ (i j : Nat) (p q : Fin 1 → ℝ) (r s : ℝ), i ≠ j → pos[i]? = some p → pos[j]? = some q → radii[i]? = some r → radii[j]? = some s → max r s < gap p q) ∧
    ∀ ball : ℝ → Nat → List Nat, IsBall ball pos → nonHalfOverlapping ball pos radii = .ok [true, false] := by
  refine ⟨[fun _ => 0, fun _ => 3], [2, 2], rfl, ?_, ?_⟩
  · intro i j p q r s hij hp hq hr hs
    have hi := (List.getElem?_eq_some_iff.1 hp).1
    have hj := (List.getElem?_eq_some_iff.1 hq).1
    simp only [List.length_cons, List.length_nil] at hi hj
    have : (i = 0 ∧ j = 1) ∨ (i = 1 ∧ j = 0) := by omega
    rcases this with ⟨rfl, rfl⟩ | ⟨rfl, rfl⟩
    · simp at hp hq hr hs
      subst hp hq hr hs
      rw [gap_line]
      norm_num
    · simp at hp hq hr hs
      subst hp hq hr hs
      rw [gap_line]
      norm_num
  · intro ball hb
    have hmax : maxOf [2, 2] = .ok 2 := by simp [maxOf]
    unfold nonHalfOverlapping
    rw [nonOverlap_run hb rfl hmax (by
      intro r hr s hs
      simp only [List.mem_cons, List.not_mem_nil, or_false] at hr hs
      rcases hr with rfl | rfl <;> rcases hs with rfl | rfl <;> norm_num)]
    have h1 : 1 ∈ ball (2 + 2) 0 := by
      rw [hb.mem]
      refine ⟨_, _, rfl, rfl, ?_⟩
      rw [gap_line]
      norm_num
    simp [List.range_succ, keepStep, h1]

end Bonds
end Py
end Colloids
