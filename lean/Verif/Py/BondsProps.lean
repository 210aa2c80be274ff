import Verif.Py.BondsModel
import Verif.Py.AverageProps

/-! # Bonds and lists of neighbours in python (C154) -/

namespace Colloids
namespace Py
namespace Bonds
open Linker (get_mapRange get_mapSet get_mapModify)
open Average (idx_some)
open TreeIndex (mapM_ok_of)

variable {d : Nat}

/-- What the search of neighbours is expected to give: the particles at most at the distance asked, each one once. -/
structure IsBall (ball : ℝ → Nat → List Nat) (pos : List (Fin d → ℝ)) : Prop where
  nodup : ∀ r i, (ball r i).Nodup
  mem : ∀ r i j, j ∈ ball r i ↔ ∃ p q, pos[i]? = some p ∧ pos[j]? = some q ∧ gap p q ≤ r

/-- A search that looks at every particle. -/
noncomputable def scan (pos : List (Fin d → ℝ)) (r : ℝ) (i : Nat) : List Nat :=
  open Classical in (List.range pos.length).filter fun j => decide (∃ p q, pos[i]? = some p ∧ pos[j]? = some q ∧ gap p q ≤ r)

theorem scan_ball (pos : List (Fin d → ℝ)) : IsBall (scan pos) pos := by
  constructor
  · intro r i
    exact List.Nodup.filter _ List.nodup_range
  · intro r i j
    simp only [scan, List.mem_filter, List.mem_range, decide_eq_true_eq, and_iff_right_iff_imp]
    rintro ⟨p, q, _, hq, _⟩
    exact (List.getElem?_eq_some_iff.1 hq).1

theorem sqd_nonneg (p q : Fin d → ℝ) : 0 ≤ sqd p q := Finset.sum_nonneg fun _ _ => sq_nonneg _

theorem sqd_comm (p q : Fin d → ℝ) : sqd p q = sqd q p := Finset.sum_congr rfl fun _ _ => by ring

theorem gap_comm (p q : Fin d → ℝ) : gap p q = gap q p := by unfold gap; rw [sqd_comm]

theorem gap_nonneg (p q : Fin d → ℝ) : 0 ≤ gap p q := Real.sqrt_nonneg _

theorem gap_sq (p q : Fin d → ℝ) : gap p q ^ 2 = sqd p q := Real.sq_sqrt (sqd_nonneg p q)

theorem gap_self (p : Fin d → ℝ) : gap p p = 0 := by simp [gap, sqd]

theorem maxOf_le {l : List ℝ} {m : ℝ} (h : maxOf l = .ok m) : ∀ x ∈ l, x ≤ m := by
  cases l with
  | nil => simp
  | cons a l =>
    simp only [maxOf, Except.ok.injEq] at h
    subst h
    have : ∀ (l : List ℝ) (b : ℝ), b ≤ l.foldl max b ∧ ∀ x ∈ l, x ≤ l.foldl max b := by
      intro l
      induction l with
      | nil => intro b; simp
      | cons c l ih =>
        intro b
        obtain ⟨h1, h2⟩ := ih (max b c)
        refine ⟨le_trans (le_max_left _ _) h1, ?_⟩
        intro x hx
        rcases List.mem_cons.1 hx with rfl | hx
        · exact le_trans (le_max_right _ _) h1
        · exact h2 x hx
    intro x hx
    rcases List.mem_cons.1 hx with rfl | hx
    · exact (this l x).1
    · exact (this l a).2 x hx

theorem maxOf_mem {l : List ℝ} {m : ℝ} (h : maxOf l = .ok m) : m ∈ l := by
  cases l with
  | nil => simp [maxOf] at h
  | cons a l =>
    simp only [maxOf, Except.ok.injEq] at h
    subst h
    have : ∀ (l : List ℝ) (b : ℝ), l.foldl max b = b ∨ l.foldl max b ∈ l := by
      intro l
      induction l with
      | nil => intro b; simp
      | cons c l ih =>
        intro b
        rcases ih (max b c) with h | h
        · rcases max_choice b c with h' | h'
          · left; simpa [h'] using h
          · right; simp only [List.foldl_cons, List.mem_cons]; left; rw [h, h']
        · right; simp [h]
    rcases this l a with h | h
    · rw [h]; simp
    · exact List.mem_cons_of_mem _ h

theorem maxOf_some {l : List ℝ} (h : l ≠ []) : ∃ m, maxOf l = .ok m := by
  cases l with
  | nil => exact absurd rfl h
  | cons a l => exact ⟨_, rfl⟩

/-- The order of the bonds. -/
def Before (a b : Nat × Nat) : Prop := a.1 < b.1 ∨ a.1 = b.1 ∧ a.2 < b.2

theorem pairs_sorted (f : Nat → List Nat) (hf : ∀ i, (f i).Nodup) : ∀ l : List Nat, l.Pairwise (· < ·) →
    (l.flatMap fun i => (((f i).mergeSort (· ≤ ·)).filter (i < ·)).map fun j => (i, j)).Pairwise Before := by
  intro l
  induction l with
  | nil => intro _; simp
  | cons i l ih =>
    intro h
    rw [List.pairwise_cons] at h
    rw [List.flatMap_cons, List.pairwise_append]
    refine ⟨?_, ih h.2, ?_⟩
    · rw [List.pairwise_map]
      apply List.Pairwise.filter
      have h1 : ((f i).mergeSort (· ≤ ·)).Pairwise (· ≤ ·) := by
        have := List.pairwise_mergeSort (le := fun a b : Nat => decide (a ≤ b)) (by simp; omega) (by simp; omega) (f i)
        simpa using this
      have h2 : ((f i).mergeSort (· ≤ ·)).Nodup := (List.mergeSort_perm _ _).nodup_iff.2 (hf i)
      refine (h1.and h2).imp ?_
      rintro a b ⟨h3, h4⟩
      exact Or.inr ⟨rfl, lt_of_le_of_ne h3 h4⟩
    · intro a ha b hb
      simp only [List.mem_map, List.mem_flatMap] at ha hb
      obtain ⟨_, _, rfl⟩ := ha
      obtain ⟨i', hi', _, _, rfl⟩ := hb
      exact Or.inl (h.1 i' hi')

/-- C154: `get_bonds` gives, in order and each one once, exactly the pairs of particles nearer than `maxdist` times the sum of their radii,
with their distances. -/
theorem C154_bonds {ball : ℝ → Nat → List Nat} {pos : List (Fin d → ℝ)} {radii : List ℝ} (maxdist : ℝ) (hb : IsBall ball pos)
    (hl : pos.length = radii.length) (hne : pos ≠ []) (hr : ∀ r ∈ radii, 0 ≤ r) :
    ∃ (bonds : List (Nat × Nat)) (ds : List ℝ), getBonds ball pos radii maxdist = .ok (bonds, ds) ∧ bonds.Pairwise Before ∧
      (∀ i j, (i, j) ∈ bonds ↔ i < j ∧ ∃ (p q : Fin d → ℝ) (r s : ℝ), pos[i]? = some p ∧ pos[j]? = some q ∧ radii[i]? = some r ∧ radii[j]? = some s ∧
        gap p q < maxdist * (r + s)) ∧
      List.Forall₂ (fun (b : Nat × Nat) (x : ℝ) => ∃ p q, pos[b.1]? = some p ∧ pos[b.2]? = some q ∧ x = gap p q) bonds ds := by
  have hne' : radii ≠ [] := by
    rintro rfl
    exact hne (List.length_eq_zero_iff.1 hl)
  obtain ⟨rmax, hmax⟩ := maxOf_some hne'
  let pairs := (List.range pos.length).flatMap fun i =>
    (((ball (2 * rmax * maxdist) i).mergeSort (· ≤ ·)).filter (i < ·)).map fun j => (i, j)
  have hmem : ∀ i j, (i, j) ∈ pairs ↔ i < j ∧ ∃ p q, pos[i]? = some p ∧ pos[j]? = some q ∧ gap p q ≤ 2 * rmax * maxdist := by
    intro i j
    simp only [pairs, List.mem_flatMap, List.mem_range, List.mem_map, List.mem_filter, List.mem_mergeSort, hb.mem, Prod.mk.injEq,
      decide_eq_true_eq]
    constructor
    · rintro ⟨i', hi', j', ⟨h1, h2⟩, rfl, rfl⟩
      exact ⟨h2, h1⟩
    · rintro ⟨h1, p, q, hp, hq, h2⟩
      exact ⟨i, (List.getElem?_eq_some_iff.1 hp).1, j, ⟨⟨p, q, hp, hq, h2⟩, h1⟩, rfl, rfl⟩
  let D : Nat → Fin d → ℝ := fun i => pos.getD i 0
  let rad : Nat → ℝ := fun i => radii.getD i 0
  let info : Nat × Nat → ℝ × ℝ := fun x => (sqd (D x.1) (D x.2), rad x.1 + rad x.2)
  have hD : ∀ {i : Nat} {p : Fin d → ℝ}, pos[i]? = some p → D i = p := by
    intro i p h; simp only [D, List.getD_eq_getElem?_getD, h, Option.getD_some]
  have hrad : ∀ {i : Nat} {r : ℝ}, radii[i]? = some r → rad i = r := by
    intro i p h; simp only [rad, List.getD_eq_getElem?_getD, h, Option.getD_some]
  have hget : ∀ {i : Nat} {p : Fin d → ℝ}, pos[i]? = some p → ∃ r, radii[i]? = some r := by
    intro i p h
    have := (List.getElem?_eq_some_iff.1 h).1
    exact ⟨radii[i]'(hl ▸ this), List.getElem?_eq_getElem _⟩
  have hinfo : pairs.mapM (pairInfo pos radii) = .ok (pairs.map info) := by
    apply mapM_ok_of
    rintro ⟨i, j⟩ hx
    obtain ⟨_, p, q, hp, hq, _⟩ := (hmem i j).1 hx
    obtain ⟨r, hr'⟩ := hget hp
    obtain ⟨s, hs'⟩ := hget hq
    simp only [pairInfo, idx_some hp, idx_some hq, idx_some hr', idx_some hs', ok_bind, pure_eq_ok, info, hD hp, hD hq, hrad hr', hrad hs']
  let keep : Nat × Nat → Bool := fun x => decide ((info x).1 < maxdist ^ 2 * (info x).2 ^ 2)
  have hgood : (pairs.zip (pairs.map info)).filter (fun x => decide (x.2.1 < maxdist ^ 2 * x.2.2 ^ 2)) =
      (pairs.filter keep).map fun x => (x, info x) := by
    have : pairs.zip (pairs.map info) = pairs.map fun x => (x, info x) := by
      rw [List.zip_map_right, List.zip_eq_zipWith, List.zipWith_self, List.map_map]
      rfl
    rw [this, List.filter_map]
    rfl
  refine ⟨pairs.filter keep, (pairs.filter keep).map fun x => Real.sqrt (info x).1, ?_, ?_, ?_, ?_⟩
  · unfold getBonds
    rw [if_neg (by simpa using hl), hmax]
    simp only [ok_bind, pure_eq_ok]
    change (pairs.mapM (pairInfo pos radii) >>= _) = _
    rw [hinfo]
    simp only [ok_bind]
    rw [hgood]
    simp [List.map_map, Function.comp_def]
  · exact (pairs_sorted _ (hb.nodup _) _ (List.pairwise_lt_range)).filter _
  · intro i j
    rw [List.mem_filter, hmem]
    have key : ∀ {p q r s}, pos[i]? = some p → pos[j]? = some q → radii[i]? = some r → radii[j]? = some s →
        (keep (i, j) = true ↔ gap p q < |maxdist| * (r + s)) := by
      intro p q r s hp hq h1 h2
      have h3 : 0 ≤ r + s := add_nonneg (hr r (List.mem_of_getElem? h1)) (hr s (List.mem_of_getElem? h2))
      simp only [keep, info, decide_eq_true_eq, hD hp, hD hq, hrad h1, hrad h2]
      rw [← gap_sq, ← sq_abs maxdist, ← mul_pow, sq_lt_sq₀ (gap_nonneg _ _) (mul_nonneg (abs_nonneg _) h3)]
    constructor
    · rintro ⟨⟨h1, p, q, hp, hq, h2⟩, h3⟩
      obtain ⟨r, hr'⟩ := hget hp
      obtain ⟨s, hs'⟩ := hget hq
      refine ⟨h1, p, q, r, s, hp, hq, hr', hs', ?_⟩
      have h4 := (key hp hq hr' hs').1 h3
      rcases le_or_gt 0 maxdist with h5 | h5
      · rwa [abs_of_nonneg h5] at h4
      · exfalso
        have h6 : 0 ≤ rmax := hr _ (maxOf_mem hmax)
        have h7 : rmax = 0 := by
          have := gap_nonneg p q
          by_contra h
          have : 0 < rmax := lt_of_le_of_ne h6 (Ne.symm h)
          nlinarith
        have h8 := maxOf_le hmax r (List.mem_of_getElem? hr')
        have h9 := maxOf_le hmax s (List.mem_of_getElem? hs')
        have h10 := hr r (List.mem_of_getElem? hr')
        have h11 := hr s (List.mem_of_getElem? hs')
        have h12 : r + s = 0 := by linarith
        rw [h12, mul_zero] at h4
        exact absurd h4 (not_lt.2 (gap_nonneg _ _))
    · rintro ⟨h1, p, q, r, s, hp, hq, hr', hs', h2⟩
      have h3 := hr r (List.mem_of_getElem? hr')
      have h4 := hr s (List.mem_of_getElem? hs')
      have h5 : 0 < maxdist := by
        by_contra h
        have := gap_nonneg p q
        nlinarith [mul_nonneg (neg_nonneg.2 (not_lt.1 h)) (add_nonneg h3 h4)]
      refine ⟨⟨h1, p, q, hp, hq, ?_⟩, (key hp hq hr' hs').2 (by rwa [abs_of_pos h5])⟩
      have h8 := maxOf_le hmax r (List.mem_of_getElem? hr')
      have h9 := maxOf_le hmax s (List.mem_of_getElem? hs')
      nlinarith [mul_le_mul_of_nonneg_left (add_le_add h8 h9) h5.le]
  · rw [List.forall₂_map_right_iff, List.forall₂_same]
    rintro ⟨i, j⟩ hx
    obtain ⟨_, p, q, hp, hq, _⟩ := (hmem i j).1 (List.mem_filter.1 hx).1
    exact ⟨p, q, hp, hq, by simp only [info, hD hp, hD hq]; rfl⟩

/-- A line of three particles. -/
def line : List (Fin 1 → ℝ) := [fun _ => 0, fun _ => 1, fun _ => 5]

example : IsBall (scan line) line ∧ line.length = [(1 : ℝ), 2, 1].length ∧ line ≠ [] ∧ ∀ r ∈ [(1 : ℝ), 2, 1], 0 ≤ r :=
  ⟨scan_ball _, rfl, by simp [line], by simp⟩

/-- C154: arrays of different lengths are refused. -/
theorem C154_lengths (ball : ℝ → Nat → List Nat) {pos : List (Fin d → ℝ)} {radii : List ℝ} (maxdist : ℝ) (h : pos.length ≠ radii.length) :
    getBonds ball pos radii maxdist = .error .logicError := by
  unfold getBonds
  rw [if_pos h]
  rfl

example : line.length ≠ [(1 : ℝ)].length := by simp [line]

/-- The other ends of the bonds of a particle, in the order of the bonds. -/
def ends (i : Nat) (bonds : List (Nat × Nat)) : List Nat :=
  bonds.flatMap fun x => (if x.1 = i then [x.2] else []) ++ if x.2 = i then [x.1] else []

theorem ends_append (i : Nat) (a b : List (Nat × Nat)) : ends i (a ++ b) = ends i a ++ ends i b := List.flatMap_append

theorem ends_one (i : Nat) (x : Nat × Nat) : ends i [x] = (if x.1 = i then [x.2] else []) ++ if x.2 = i then [x.1] else [] := by
  simp [ends]

theorem two_ends (i : Nat) (x : Nat × Nat) (l : List Nat) :
    (if i = x.2 then (if i = x.1 then l ++ [x.2] else l) ++ [x.1] else if i = x.1 then l ++ [x.2] else l) =
      l ++ ((if x.1 = i then [x.2] else []) ++ if x.2 = i then [x.1] else []) := by
  rw [if_congr (eq_comm (a := x.1)) rfl rfl, if_congr (eq_comm (a := x.2)) rfl rfl]
  split_ifs <;> simp

theorem mem_ends {i j : Nat} {bonds : List (Nat × Nat)} : j ∈ ends i bonds ↔ (i, j) ∈ bonds ∨ (j, i) ∈ bonds := by
  simp only [ends, List.mem_flatMap, List.mem_append]
  constructor
  · rintro ⟨⟨a, b⟩, hx, h | h⟩
    · split_ifs at h with h'
      · simp only [List.mem_singleton] at h; subst h h'; exact Or.inl hx
      · simp at h
    · split_ifs at h with h'
      · simp only [List.mem_singleton] at h; subst h h'; exact Or.inr hx
      · simp at h
  · rintro (h | h)
    · exact ⟨_, h, Or.inl (by simp)⟩
    · exact ⟨_, h, Or.inr (by simp)⟩

theorem list_fold (N : Nat) : ∀ (bonds done : List (Nat × Nat)), (∀ x ∈ bonds, x.1 < N ∧ x.2 < N) →
    bonds.foldlM (fun g x => do
      let g ← upd g x.1 (· ++ [x.2])
      upd g x.2 (· ++ [x.1])) ((List.range N).map fun i => ends i done) = (.ok ((List.range N).map fun i => ends i (done ++ bonds)) : R _) := by
  intro bonds
  induction bonds with
  | nil => intro done _; simp
  | cons x bonds ih =>
    intro done h
    obtain ⟨h1, h2⟩ := h x (by simp)
    have e1 : upd ((List.range N).map fun i => ends i done) x.1 (· ++ [x.2]) =
        .ok ((List.range N).map fun i => if i = x.1 then ends i done ++ [x.2] else ends i done) := by
      unfold upd; rw [if_pos (by simpa using h1), get_mapModify]
    have e2 : upd ((List.range N).map fun i => if i = x.1 then ends i done ++ [x.2] else ends i done) x.2 (· ++ [x.1]) =
        .ok ((List.range N).map fun i => ends i (done ++ [x])) := by
      unfold upd
      rw [if_pos (by simpa using h2), get_mapModify]
      congr 1
      apply List.map_congr_left
      intro i _
      rw [ends_append, ends_one, ← two_ends]
    rw [List.foldlM_cons, e1, ok_bind, e2, ok_bind, ih (done ++ [x]) (fun y hy => h y (List.mem_cons_of_mem _ hy))]
    simp

/-- C154: `bonds2ngbs_list` gives to each particle the other ends of its bonds, in the order of the bonds. -/
theorem C154_list {bonds : List (Nat × Nat)} {N : Nat} (h : ∀ x ∈ bonds, x.1 < N ∧ x.2 < N) :
    bonds2ngbsList bonds N = .ok ((List.range N).map fun i => ends i bonds) := by
  have := list_fold N bonds [] h
  simpa [bonds2ngbsList, ends] using this

example : ∀ x ∈ [(0, 1), (1, 2)], x.1 < 3 ∧ x.2 < 3 := by decide

theorem foldlM_error {α β : Type} {f : β → α → R β} (P : β → Prop) {l : List α} {x : α} (hx : x ∈ l)
    (hP : ∀ b a b', P b → f b a = .ok b' → P b') (hbad : ∀ b b', P b → f b x ≠ .ok b') : ∀ b b', P b → l.foldlM f b ≠ .ok b' := by
  induction l with
  | nil => simp at hx
  | cons a l ih =>
    intro b b' hb h
    rw [List.foldlM_cons, bind_ok] at h
    obtain ⟨b1, h1, h2⟩ := h
    rcases List.mem_cons.1 hx with rfl | hx
    · exact hbad b b1 hb h1
    · exact ih hx b1 b' (hP b a b1 hb h1) h2

theorem upd_length {α : Type} {l l' : List α} {i : Nat} {f : α → α} (h : upd l i f = .ok l') : i < l.length ∧ l'.length = l.length := by
  unfold upd at h
  split_ifs at h with h1
  cases h
  exact ⟨h1, by simp⟩

/-- C154: a bond of a particle that does not exist is refused. -/
theorem C154_list_outside {bonds : List (Nat × Nat)} {N : Nat} {x : Nat × Nat} (hx : x ∈ bonds) (h : N ≤ x.1 ∨ N ≤ x.2) (g : List (List Nat)) :
    bonds2ngbsList bonds N ≠ .ok g := by
  unfold bonds2ngbsList
  apply foldlM_error (fun g : List (List Nat) => g.length = N) hx
  · intro b a b' hb h1
    rw [bind_ok] at h1
    obtain ⟨c, h2, h3⟩ := h1
    rw [(upd_length h3).2, (upd_length h2).2, hb]
  · intro b b' hb h1
    rw [bind_ok] at h1
    obtain ⟨c, h2, h3⟩ := h1
    have h4 := upd_length h2
    have h5 := upd_length h3
    omega
  · simp

example : (0, 3) ∈ [(0, 1), (0, 3)] ∧ (3 ≤ (0, 3).1 ∨ 3 ≤ (0, 3).2) := by decide

/-! ## The array of neighbours -/

/-- A line of the array: the neighbours, and -1 in the other columns. -/
def padded (m : Nat) (l : List Nat) : List Int := l.map (fun j : Nat => (j : Int)) ++ List.replicate (m - l.length) (-1)

theorem findIdx_padded {m : Nat} {l : List Nat} (h : l.length < m) : (padded m l).findIdx? (· == -1) = some l.length := by
  rw [List.findIdx?_eq_some_iff_getElem]
  refine ⟨by simp [padded]; omega, ?_, ?_⟩
  · simp [padded, List.getElem_append_right]
  · intro j hj
    simp [padded, List.getElem_append_left, hj]

theorem set_padded {m : Nat} {l : List Nat} (b : Nat) (h : l.length < m) : (padded m l).set l.length b = padded m (l ++ [b]) := by
  obtain ⟨k, hk⟩ : ∃ k, m - l.length = k + 1 := ⟨m - l.length - 1, by omega⟩
  have : m - (l ++ [b]).length = k := by simp; omega
  unfold padded
  rw [hk, this, List.set_append_right _ _ (by simp)]
  simp [List.replicate_succ]

theorem place_eq {N m a : Nat} (f : Nat → List Nat) (b : Nat) (ha : a < N) (h : (f a).length < m) :
    place ((List.range N).map fun i => padded m (f i)) a b = .ok ((List.range N).map fun i => padded m (if i = a then f i ++ [b] else f i)) := by
  unfold place
  rw [idx_some (a := padded m (f a)) (by rw [get_mapRange, if_pos ha])]
  simp only [ok_bind]
  rw [findIdx_padded h]
  simp only [pure_eq_ok]
  rw [set_padded b h, get_mapSet]
  congr 1
  apply List.map_congr_left
  intro i _
  by_cases h1 : i = a
  · subst h1; simp
  · simp [h1]

theorem array_fold (N m : Nat) : ∀ (bonds done : List (Nat × Nat)), (∀ x ∈ bonds, x.1 < N ∧ x.2 < N) →
    (∀ i, i < N → (ends i (done ++ bonds)).length ≤ m) →
    bonds.foldlM (fun g x => do
      let g ← place g x.1 x.2
      place g x.2 x.1) ((List.range N).map fun i => padded m (ends i done)) =
      .ok ((List.range N).map fun i => padded m (ends i (done ++ bonds))) := by
  intro bonds
  induction bonds with
  | nil => intro done _ _; simp
  | cons x bonds ih =>
    intro done h hm
    obtain ⟨h1, h2⟩ := h x (by simp)
    have hm' : ∀ i, i < N → (ends i done).length + (ends i [x]).length ≤ m := by
      intro i hi
      have := hm i hi
      rw [show done ++ x :: bonds = done ++ ([x] ++ bonds) by simp, ends_append, ends_append] at this
      simp only [List.length_append] at this
      omega
    have e1 := place_eq (m := m) (fun i => ends i done) x.2 h1 (by
      have := hm' x.1 h1
      rw [ends_one] at this
      simp at this
      omega)
    have e2 := place_eq (m := m) (fun i => if i = x.1 then ends i done ++ [x.2] else ends i done) x.1 h2 (by
      have := hm' x.2 h2
      rw [ends_one] at this
      by_cases h3 : x.2 = x.1
      · simp [h3] at this ⊢; omega
      · simp [h3, Ne.symm h3] at this ⊢; omega)
    have e3 : (fun i => padded m (if i = x.2 then (if i = x.1 then ends i done ++ [x.2] else ends i done) ++ [x.1]
        else if i = x.1 then ends i done ++ [x.2] else ends i done)) = fun i => padded m (ends i (done ++ [x])) := by
      funext i
      rw [ends_append, ends_one, ← two_ends]
    rw [List.foldlM_cons, e1, ok_bind]
    rw [e2, ok_bind, e3, ih (done ++ [x]) (fun y hy => h y (List.mem_cons_of_mem _ hy)) (by simpa using hm)]
    simp

theorem count_ends (bonds : List (Nat × Nat)) (i : Nat) : (bonds.flatMap fun x => [x.1, x.2]).count i = (ends i bonds).length := by
  induction bonds with
  | nil => simp [ends]
  | cons x bonds ih =>
    rw [show x :: bonds = [x] ++ bonds by rfl, ends_append, ends_one, List.flatMap_append, List.count_append, ih, List.length_append]
    congr 1
    by_cases h1 : x.1 = i <;> by_cases h2 : x.2 = i <;> simp [h1, h2]

theorem foldl_max (l : List Nat) : (∀ x ∈ l, x ≤ l.foldl max 0) ∧ (l ≠ [] → l.foldl max 0 ∈ l) := by
  have : ∀ (l : List Nat) (b : Nat), (b ≤ l.foldl max b ∧ ∀ x ∈ l, x ≤ l.foldl max b) ∧ (l.foldl max b = b ∨ l.foldl max b ∈ l) := by
    intro l
    induction l with
    | nil => intro b; simp
    | cons c l ih =>
      intro b
      obtain ⟨⟨h1, h2⟩, h3⟩ := ih (max b c)
      refine ⟨⟨le_trans (le_max_left _ _) h1, ?_⟩, ?_⟩
      · intro x hx
        rcases List.mem_cons.1 hx with rfl | hx
        · exact le_trans (le_max_right _ _) h1
        · exact h2 x hx
      · rcases h3 with h | h
        · rcases max_choice b c with h' | h'
          · left; simpa [h'] using h
          · right; simp only [List.foldl_cons, List.mem_cons]; left; rw [h, h']
        · right; simp [h]
  refine ⟨(this l 0).1.2, fun hne => ?_⟩
  rcases (this l 0).2 with h | h
  · cases l with
    | nil => exact absurd rfl hne
    | cons a l =>
      have h1 := (this (a :: l) 0).1.2 a (by simp)
      rw [h] at h1 ⊢
      have : a = 0 := by omega
      simp [this]
  · exact h

/-- C154: `bonds2ngbs` gives an array with a line for each particle: the other ends of its bonds in the order of the bonds, then -1. There are as
many columns as the largest number of bonds of a particle. -/
theorem C154_array {bonds : List (Nat × Nat)} {N : Nat} (hN : 0 < N) (h : ∀ x ∈ bonds, x.1 < N ∧ x.2 < N) :
    ∃ m, bonds2ngbs bonds N = .ok ((List.range N).map fun i => (ends i bonds).map (fun j : Nat => (j : Int)) ++ List.replicate (m - (ends i bonds).length) (-1)) ∧
      (∀ i, i < N → (ends i bonds).length ≤ m) ∧ ∃ i, i < N ∧ (ends i bonds).length = m := by
  let l := (List.range N).map fun i => (bonds.flatMap fun x => [x.1, x.2]).count i + if i + 1 = N then (bonds.flatMap fun x => [x.1, x.2]).count N else 0
  have hz : (bonds.flatMap fun x => [x.1, x.2]).count N = 0 := by
    rw [List.count_eq_zero]
    simp only [List.mem_flatMap, not_exists, not_and]
    intro x hx
    have := h x hx
    simp; omega
  have hl : l = (List.range N).map fun i => (ends i bonds).length := by
    apply List.map_congr_left
    intro i _
    rw [hz, count_ends]
    simp
  have hm : histMax bonds N = .ok (l.foldl max 0) := by
    unfold histMax
    rw [if_neg (by omega)]
  obtain ⟨h1, h2⟩ := foldl_max l
  have h3 : ∀ i, i < N → (ends i bonds).length ≤ l.foldl max 0 := by
    intro i hi
    apply h1
    rw [hl]
    exact List.mem_map.2 ⟨i, List.mem_range.2 hi, rfl⟩
  refine ⟨l.foldl max 0, ?_, h3, ?_⟩
  · unfold bonds2ngbs
    rw [hm, ok_bind]
    have := array_fold N (l.foldl max 0) bonds [] h (by simpa using h3)
    simpa [ends, padded] using this
  · have := h2 (by simp [l]; omega)
    rw [hl] at this
    obtain ⟨i, hi, h4⟩ := List.mem_map.1 this
    rw [← hl] at h4
    exact ⟨i, List.mem_range.1 hi, h4⟩

example : 0 < 3 ∧ ∀ x ∈ [(0, 1), (1, 2)], x.1 < 3 ∧ x.2 < 3 := by decide

theorem place_length {g g' : List (List Int)} {a b : Nat} (h : place g a b = .ok g') : a < g.length ∧ g'.length = g.length := by
  unfold place at h
  rw [bind_ok] at h
  obtain ⟨row, h1, h2⟩ := h
  unfold idx at h1
  split at h1
  · rename_i r hr
    refine ⟨(List.getElem?_eq_some_iff.1 hr).1, ?_⟩
    split at h2
    · cases h2
    · cases h2; simp
  · cases h1

/-- C154: without particles, or with a bond of a particle that does not exist, there is no array. -/
theorem C154_array_outside {bonds : List (Nat × Nat)} {N : Nat} (h : N = 0 ∨ ∃ x ∈ bonds, N ≤ x.1 ∨ N ≤ x.2) (g : List (List Int)) :
    bonds2ngbs bonds N ≠ .ok g := by
  intro h1
  unfold bonds2ngbs at h1
  rw [bind_ok] at h1
  obtain ⟨m, h2, h3⟩ := h1
  rcases h with rfl | ⟨x, hx, h⟩
  · simp [histMax] at h2
  · revert h3
    apply foldlM_error (fun g : List (List Int) => g.length = N) hx
    · intro b a b' hb h1
      rw [bind_ok] at h1
      obtain ⟨c, h2, h3⟩ := h1
      rw [(place_length h3).2, (place_length h2).2, hb]
    · intro b b' hb h1
      rw [bind_ok] at h1
      obtain ⟨c, h2, h3⟩ := h1
      have h4 := place_length h2
      have h5 := place_length h3
      omega
    · simp

example : 3 = 0 ∨ ∃ x ∈ [(0, 1), (0, 3)], 3 ≤ x.1 ∨ 3 ≤ x.2 := by decide

/-! ## Neighbours by distance -/

theorem ends_sorted (i : Nat) {bonds : List (Nat × Nat)} (hs : bonds.Pairwise Before) (hlt : ∀ x ∈ bonds, x.1 < x.2) :
    (ends i bonds).Pairwise (· < ·) := by
  induction bonds with
  | nil => simp [ends]
  | cons x bonds ih =>
    rw [List.pairwise_cons] at hs
    rw [show x :: bonds = [x] ++ bonds by rfl, ends_append, ends_one, List.pairwise_append]
    have hx := hlt x (by simp)
    refine ⟨?_, ih hs.2 (fun y hy => hlt y (List.mem_cons_of_mem _ hy)), ?_⟩
    · by_cases h1 : x.1 = i <;> by_cases h2 : x.2 = i <;> simp [h1, h2]
      omega
    · intro a ha b hb
      rw [mem_ends] at hb
      have ha' : (x.1 = i ∧ a = x.2) ∨ (x.2 = i ∧ a = x.1) := by
        rw [List.mem_append] at ha
        rcases ha with h | h
        · split_ifs at h with h'
          · exact Or.inl ⟨h', by simpa using h⟩
          · simp at h
        · split_ifs at h with h'
          · exact Or.inr ⟨h', by simpa using h⟩
          · simp at h
      rcases hb with hb | hb
      · have h1 := hs.1 _ hb
        have h2 := hlt _ (List.mem_cons_of_mem _ hb)
        simp only [Before] at h1 h2
        omega
      · have h1 := hs.1 _ hb
        have h2 := hlt _ (List.mem_cons_of_mem _ hb)
        simp only [Before] at h1 h2
        omega

/-- C154: the bonds of `get_bonds` given to `bonds2ngbs_list`: each particle has the list, in increasing order, of the other particles that are
nearer than `maxdist` times the sum of the radii. -/
theorem C154_neighbours {ball : ℝ → Nat → List Nat} {pos : List (Fin d → ℝ)} {radii : List ℝ} (maxdist : ℝ) (hb : IsBall ball pos)
    (hl : pos.length = radii.length) (hne : pos ≠ []) (hr : ∀ r ∈ radii, 0 ≤ r) :
    ∃ ngbs : List (List Nat), (getBonds ball pos radii maxdist >>= fun b => bonds2ngbsList b.1 pos.length) = .ok ngbs ∧ ngbs.length = pos.length ∧
      ∀ (i : Nat) (l : List Nat), ngbs[i]? = some l → l.Pairwise (· < ·) ∧ ∀ j, j ∈ l ↔ j ≠ i ∧
        ∃ (p q : Fin d → ℝ) (r s : ℝ), pos[i]? = some p ∧ pos[j]? = some q ∧ radii[i]? = some r ∧ radii[j]? = some s ∧ gap p q < maxdist * (r + s) := by
  obtain ⟨bonds, ds, h1, h2, h3, -⟩ := C154_bonds maxdist hb hl hne hr
  have hin : ∀ x ∈ bonds, x.1 < pos.length ∧ x.2 < pos.length := by
    rintro ⟨i, j⟩ hx
    obtain ⟨_, p, q, r, s, hp, hq, _⟩ := (h3 i j).1 hx
    exact ⟨(List.getElem?_eq_some_iff.1 hp).1, (List.getElem?_eq_some_iff.1 hq).1⟩
  refine ⟨(List.range pos.length).map fun i => ends i bonds, ?_, by simp, ?_⟩
  · rw [h1, ok_bind, C154_list hin]
  · intro i l hi
    rw [get_mapRange] at hi
    split_ifs at hi
    cases hi
    refine ⟨ends_sorted i h2 (fun x hx => ((h3 x.1 x.2).1 hx).1), ?_⟩
    intro j
    rw [mem_ends, h3, h3]
    constructor
    · rintro (⟨h4, h5⟩ | ⟨h4, p, q, r, s, hp, hq, h6, h7, h8⟩)
      · exact ⟨by omega, h5⟩
      · exact ⟨by omega, q, p, s, r, hq, hp, h7, h6, by rw [gap_comm, add_comm]; exact h8⟩
    · rintro ⟨h4, p, q, r, s, hp, hq, h6, h7, h8⟩
      rcases Nat.lt_or_gt_of_ne h4 with h5 | h5
      · exact Or.inr ⟨h5, q, p, s, r, hq, hp, h7, h6, by rw [gap_comm, add_comm]; exact h8⟩
      · exact Or.inl ⟨h5, p, q, r, s, hp, hq, h6, h7, h8⟩

/-! ## Back to the bonds -/

/-- What iterating on a `set` is expected to give: each element once, in an order of its own. -/
def IsSet (order : List (Nat × Nat) → List (Nat × Nat)) : Prop := ∀ l, (order l).Nodup ∧ ∀ x, x ∈ order l ↔ x ∈ l

/-- C154: `ngbN2bonds` gives each pair of neighbours once, the smallest index first. The other lines of the array are taken into account: a
particle listed by another one is bonded to it even if it does not list it. -/
theorem C154_back {order : List (Nat × Nat) → List (Nat × Nat)} (ho : IsSet order) (ngbs : List (List Int)) :
    (ngbN2bonds order ngbs).Nodup ∧ ∀ a b : Nat, (a, b) ∈ ngbN2bonds order ngbs ↔ a ≤ b ∧
      ((∃ l : List Int, ngbs[a]? = some l ∧ (b : Int) ∈ l) ∨ ∃ l : List Int, ngbs[b]? = some l ∧ (a : Int) ∈ l) := by
  refine ⟨(ho _).1, ?_⟩
  intro a b
  unfold ngbN2bonds
  rw [(ho _).2]
  simp only [List.mem_flatMap, List.mem_map, List.mem_filter, decide_eq_true_eq, Prod.mk.injEq]
  constructor
  · rintro ⟨⟨l, i⟩, hx, n, ⟨hn, h0⟩, h1, h2⟩
    have hi := List.mk_mem_zipIdx_iff_getElem?.1 hx
    obtain ⟨k, rfl⟩ := Int.eq_ofNat_of_zero_le h0
    simp only [Int.toNat_natCast] at h1 h2
    refine ⟨by omega, ?_⟩
    rcases le_total i k with h | h
    · left
      rw [min_eq_left h] at h1
      rw [max_eq_right h] at h2
      subst h1 h2
      exact ⟨l, hi, hn⟩
    · right
      rw [min_eq_right h] at h1
      rw [max_eq_left h] at h2
      subst h1 h2
      exact ⟨l, hi, hn⟩
  · rintro ⟨hab, ⟨l, hl, hm⟩ | ⟨l, hl, hm⟩⟩
    · exact ⟨(l, a), List.mk_mem_zipIdx_iff_getElem?.2 hl, b, ⟨hm, by simp⟩, by simp; omega, by simp; omega⟩
    · exact ⟨(l, b), List.mk_mem_zipIdx_iff_getElem?.2 hl, a, ⟨hm, by simp⟩, by simp; omega, by simp; omega⟩

/-- C154: bonds made into an array of neighbours and back are the same bonds, maybe in another order. -/
theorem C154_round_trip {order : List (Nat × Nat) → List (Nat × Nat)} (ho : IsSet order) {bonds : List (Nat × Nat)} {N : Nat} (hN : 0 < N)
    (h : ∀ x ∈ bonds, x.1 < x.2 ∧ x.2 < N) (hd : bonds.Nodup) :
    ∃ ngbs : List (List Int), bonds2ngbs bonds N = .ok ngbs ∧ (ngbN2bonds order ngbs).Perm bonds := by
  obtain ⟨m, h1, -, -⟩ := C154_array hN (bonds := bonds) (fun x hx => by have := h x hx; omega)
  refine ⟨_, h1, ?_⟩
  obtain ⟨h2, h3⟩ := C154_back ho ((List.range N).map fun i => (ends i bonds).map (fun j : Nat => (j : Int)) ++ List.replicate (m - (ends i bonds).length) (-1))
  rw [List.perm_ext_iff_of_nodup h2 hd]
  rintro ⟨a, b⟩
  rw [h3]
  have key : ∀ a b : Nat, (∃ l : List Int, ((List.range N).map fun i => (ends i bonds).map (fun j : Nat => (j : Int)) ++
      List.replicate (m - (ends i bonds).length) (-1))[a]? = some l ∧ (b : Int) ∈ l) ↔ a < N ∧ ((a, b) ∈ bonds ∨ (b, a) ∈ bonds) := by
    intro a b
    rw [get_mapRange, ← mem_ends]
    constructor
    · rintro ⟨l, hl, hm⟩
      split_ifs at hl with ha
      cases hl
      refine ⟨ha, ?_⟩
      rw [List.mem_append, List.mem_map] at hm
      rcases hm with ⟨j, hj, hj'⟩ | hm
      · rw [← Int.natCast_inj.1 hj']; exact hj
      · have := List.eq_of_mem_replicate hm
        omega
    · rintro ⟨ha, hm⟩
      exact ⟨_, by rw [if_pos ha], List.mem_append_left _ (List.mem_map.2 ⟨b, hm, rfl⟩)⟩
  rw [key, key]
  constructor
  · rintro ⟨hab, (⟨-, h4 | h4⟩ | ⟨-, h4 | h4⟩)⟩
    · exact h4
    · have := h _ h4; simp at this; omega
    · have := h _ h4; simp at this; omega
    · exact h4
  · intro h4
    have := h _ h4
    simp at this
    exact ⟨by omega, Or.inl ⟨by omega, Or.inl h4⟩⟩

example : IsSet List.dedup := fun l => ⟨List.nodup_dedup l, fun _ => List.mem_dedup⟩

example : 0 < 3 ∧ (∀ x ∈ [(0, 1), (1, 2)], x.1 < x.2 ∧ x.2 < 3) ∧ [(0, 1), (1, 2)].Nodup := by decide

/-- C154: the array of bonds of `ngbN2bonds` is documented as sorted; it is not. -/
theorem C154_sorted_counterexample : ∃ (order : List (Nat × Nat) → List (Nat × Nat)) (ngbs : List (List Int)), IsSet order ∧
    ¬ (ngbN2bonds order ngbs).Pairwise Before := by
  refine ⟨fun l => l.dedup.reverse, [[1], [0, 2], [1]], ?_, ?_⟩
  · intro l
    exact ⟨List.nodup_reverse.2 (List.nodup_dedup l), by simp⟩
  · have : ngbN2bonds (fun l => l.dedup.reverse) [[1], [0, 2], [1]] = [(1, 2), (0, 1)] := by decide +kernel
    rw [this]
    simp [Before]

end Bonds
end Py
end Colloids
