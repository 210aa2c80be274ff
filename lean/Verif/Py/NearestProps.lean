import Verif.Py.BondsProps

/-! # The N first neighbours in python (C155) -/

namespace Colloids
namespace Py
namespace Bonds
open Linker (get_mapRange get_mapSet get_mapModify)
open Average (idx_some)
open TreeIndex (mapM_ok_of)

variable {d : Nat}

/-- What `np.argsort` is expected to give: the indices, in an order that sorts the values. -/
def IsArgsort (argsort : List ℝ → List Nat) : Prop :=
  ∀ l, (argsort l).Perm (List.range l.length) ∧ (argsort l).Pairwise fun a b => l.getD a 0 ≤ l.getD b 0

/-- The largest difference of coordinates with the lower corner. -/
noncomputable def widest (lo p : Fin (d + 1) → ℝ) : ℝ := Finset.univ.sup' ⟨0, Finset.mem_univ _⟩ fun a => p a - lo a

theorem widest_nonneg {lo p : Fin (d + 1) → ℝ} (h : ∀ a, lo a ≤ p a) : 0 ≤ widest lo p :=
  le_trans (sub_nonneg.2 (h 0)) (Finset.le_sup' (fun a => p a - lo a) (Finset.mem_univ 0))

theorem toEdge_eq {lo p : Fin (d + 1) → ℝ} (h : ∀ a, lo a ≤ p a) : toEdge lo p = widest lo p ^ 2 := by
  unfold toEdge
  have h1 : (Finset.univ.inf' ⟨0, Finset.mem_univ _⟩ fun a => lo a - p a) = - widest lo p := by
    apply le_antisymm
    · obtain ⟨a, _, ha⟩ := Finset.exists_mem_eq_sup' (⟨0, Finset.mem_univ _⟩ : (Finset.univ : Finset (Fin (d + 1))).Nonempty) fun a => p a - lo a
      have := Finset.inf'_le (fun a => lo a - p a) (Finset.mem_univ a)
      refine le_trans this ?_
      unfold widest
      rw [ha]
      linarith
    · apply Finset.le_inf'
      intro a _
      have := Finset.le_sup' (fun a => p a - lo a) (Finset.mem_univ a)
      unfold widest
      linarith
  have h2 : 0 ≤ Finset.univ.inf' ⟨0, Finset.mem_univ _⟩ fun a => p a - lo a := Finset.le_inf' _ _ fun a _ => sub_nonneg.2 (h a)
  rw [h1, min_eq_right (by linarith [widest_nonneg h])]
  ring

theorem mapM_range_spec {α : Type} {n : Nat} {f : Nat → R α} {P : Nat → α → Prop} (h : ∀ i, i < n → ∃ y, f i = .ok y ∧ P i y) :
    ∃ ys : List α, (List.range n).mapM f = .ok ys ∧ ys.length = n ∧ ∀ (i : Nat) (y : α), ys[i]? = some y → P i y := by
  have h' : ∀ i, ∃ y : Option α, i < n → ∃ z, y = some z ∧ f i = .ok z ∧ P i z := by
    intro i
    by_cases hi : i < n
    · obtain ⟨y, hy⟩ := h i hi
      exact ⟨some y, fun _ => ⟨y, rfl, hy⟩⟩
    · exact ⟨none, fun h => absurd h hi⟩
  rcases Nat.eq_zero_or_pos n with rfl | hn
  · exact ⟨[], rfl, rfl, by simp⟩
  obtain ⟨z0, _⟩ := h 0 hn
  choose g hg using h'
  refine ⟨(List.range n).map fun i => (g i).getD z0, ?_, by simp, ?_⟩
  · apply mapM_ok_of
    intro i hi
    obtain ⟨z, h1, h2, _⟩ := hg i (List.mem_range.1 hi)
    rw [h1]
    exact h2
  · intro i y hy
    rw [get_mapRange] at hy
    split_ifs at hy with hi
    obtain ⟨z, h1, h2, h3⟩ := hg i hi
    cases hy
    rw [h1]
    exact h3

/-- The particles of a list, sorted by distance to one of them. -/
structure Sorted (pos : List (Fin (d + 1) → ℝ)) (p : Fin (d + 1) → ℝ) (js S : List Nat) : Prop where
  perm : S.Perm js
  sorted : S.Pairwise fun a b => gap (pos.getD a 0) p ≤ gap (pos.getD b 0) p

theorem nRow_spec {argsort : List ℝ → List Nat} (ha : IsArgsort argsort) {pos : List (Fin (d + 1) → ℝ)} {N : Nat} (hN : 0 < N) {E : ℝ} (hE : 0 < E)
    {i : Nat} {p : Fin (d + 1) → ℝ} (hp : pos[i]? = some p) {js : List Nat} (hj : ∀ j ∈ js, j < pos.length) (hi : i ∈ js) :
    ∃ S, Sorted pos p js S ∧ ((∀ j ∈ S.take N, gap (pos.getD j 0) p < E) → nRow argsort pos N (E ^ 2) i js = .ok (fillRow N (S.take N), true)) ∧
      ((¬ ∀ j ∈ S.take N, gap (pos.getD j 0) p < E) → nRow argsort pos N (E ^ 2) i js = .ok (fillRow N (S.take 1), false)) := by
  let disq := js.map fun j => sqd (pos.getD j 0) p
  have hlen : disq.length = js.length := by simp [disq]
  obtain ⟨hperm, hsort⟩ := ha disq
  have hin : ∀ a ∈ argsort disq, a < js.length := by
    intro a h
    have := hperm.mem_iff.1 h
    rw [List.mem_range, hlen] at this
    exact this
  have hdisq : ∀ a, a < js.length → disq.getD a 0 = sqd (pos.getD (js.getD a 0) 0) p := by
    intro a h
    simp [disq, List.getD_eq_getElem?_getD, h]
  have hidisq : ∀ a, a < js.length → idx disq a = .ok (disq.getD a 0) := by
    intro a h
    apply idx_some
    rw [List.getD_eq_getElem?_getD, List.getElem?_eq_getElem (by omega)]
    rfl
  have hjs : ∀ a, a < js.length → idx js a = .ok (js.getD a 0) := by
    intro a h
    apply idx_some
    rw [List.getD_eq_getElem?_getD, List.getElem?_eq_getElem h]
    rfl
  let S := (argsort disq).map fun a => js.getD a 0
  have hS : Sorted pos p js S := by
    constructor
    · have h1 : S.Perm ((List.range js.length).map fun a => js.getD a 0) := by
        rw [← hlen]; exact hperm.map _
      have h2 : ((List.range js.length).map fun a => js.getD a 0) = js := by
        apply List.ext_getElem?
        intro k
        rw [get_mapRange]
        split_ifs with h
        · rw [List.getD_eq_getElem?_getD, List.getElem?_eq_getElem h]; rfl
        · rw [List.getElem?_eq_none (by omega)]
      rwa [h2] at h1
    · rw [List.pairwise_map]
      refine hsort.imp_of_mem ?_
      intro a b h1 h2 h3
      rw [hdisq a (hin a h1), hdisq b (hin b h2)] at h3
      exact Real.sqrt_le_sqrt h3
  have hqs : js.mapM (idx pos) = .ok (js.map fun j => pos.getD j 0) := by
    apply mapM_ok_of
    intro j h
    apply idx_some
    rw [List.getD_eq_getElem?_getD, List.getElem?_eq_getElem (hj j h)]
    rfl
  have hcmp : ∀ a, a < js.length → (disq.getD a 0 < E ^ 2 ↔ gap (pos.getD (js.getD a 0) 0) p < E) := by
    intro a h
    rw [hdisq a h, ← gap_sq, sq_lt_sq₀ (gap_nonneg _ _) hE.le]
  have hpos : 0 < js.length := List.length_pos_of_mem hi
  have hal : (argsort disq).length = js.length := by rw [hperm.length_eq, List.length_range, hlen]
  let ags := (argsort disq).take N
  have hne : ags ≠ [] := by
    intro h
    have := congrArg List.length h
    simp [ags] at this
    rcases this with h | h
    · omega
    · rw [h] at hal; simp at hal; omega
  have hags : ∀ a ∈ ags, a < js.length := fun a h => hin a (List.mem_of_mem_take h)
  have hlast : last ags = .ok (ags.getLast hne) := by
    unfold last
    rw [List.getLast?_eq_getLast_of_ne_nil hne]
  have hSt : S.take N = ags.map fun a => js.getD a 0 := by simp only [S, ags, List.map_take]
  have hall : (∀ j ∈ S.take N, gap (pos.getD j 0) p < E) ↔ disq.getD (ags.getLast hne) 0 < E ^ 2 := by
    have hm := List.getLast_mem hne
    rw [hcmp _ (hags _ hm), hSt]
    constructor
    · intro h
      exact h _ (List.mem_map.2 ⟨_, hm, rfl⟩)
    · intro h j hj'
      obtain ⟨a, ha', rfl⟩ := List.mem_map.1 hj'
      refine lt_of_le_of_lt ?_ h
      have hmemA := ha'
      have hpw : ags.Pairwise fun a b => disq.getD a 0 ≤ disq.getD b 0 := hsort.sublist (List.take_sublist _ _)
      have : disq.getD a 0 ≤ disq.getD (ags.getLast hne) 0 := by
        rw [← List.dropLast_append_getLast hne] at ha'
        rcases List.mem_append.1 ha' with h1 | h1
        · have h2 := hpw
          rw [← List.dropLast_append_getLast hne, List.pairwise_append] at h2
          exact h2.2.2 a h1 _ (by simp)
        · rw [List.mem_singleton.1 h1]
      rw [hdisq _ (hags a hmemA), hdisq _ (hags _ hm)] at this
      exact Real.sqrt_le_sqrt this
  have hrun : nRow argsort pos N (E ^ 2) i js = (if disq.getD (ags.getLast hne) 0 < E ^ 2 then do
      let ngbs ← ags.mapM (idx js)
      pure (fillRow N ngbs, true)
    else do
      let ds ← ags.mapM (idx disq)
      match ds.findIdx? (fun x => decide (x < E ^ 2)) with
      | none => throw .outOfRange
      | some k =>
        let ngbs ← (ags.take (k + 1)).mapM (idx js)
        pure (fillRow N ngbs, false) : R (List Int × Bool)) := by
    unfold nRow
    rw [idx_some hp, ok_bind, hqs, ok_bind]
    have h1 : ((js.map fun j => pos.getD j 0).map fun q => sqd q p) = disq := by simp [disq]
    simp only [h1]
    rw [show (argsort disq).take N = ags from rfl, hlast, ok_bind, hidisq _ (hags _ (List.getLast_mem hne)), ok_bind]
    rfl
  refine ⟨S, hS, ?_, ?_⟩
  · intro h
    rw [hrun, if_pos (hall.1 h), mapM_ok_of _ (fun a => js.getD a 0) _ (fun a h => hjs a (hags a h)), ok_bind, hSt]
    rfl
  · intro h
    rw [hrun, if_neg (fun h' => h (hall.2 h')), mapM_ok_of _ (fun a => disq.getD a 0) _ (fun a h => hidisq a (hags a h)), ok_bind]
    -- the first one is at distance zero
    obtain ⟨a0, as, has⟩ : ∃ a0 as, argsort disq = a0 :: as := by
      cases hc : argsort disq with
      | nil => rw [hc] at hal; simp at hal; omega
      | cons a l => exact ⟨a, l, rfl⟩
    have hzero : disq.getD a0 0 < E ^ 2 := by
      have hpi : pos.getD i 0 = p := by rw [List.getD_eq_getElem?_getD, hp]; rfl
      obtain ⟨k, hk, hk'⟩ := List.mem_iff_getElem.1 hi
      have h1 : k ∈ argsort disq := hperm.mem_iff.2 (by rw [List.mem_range]; omega)
      have h2 : disq.getD k 0 = 0 := by
        rw [hdisq k hk, List.getD_eq_getElem?_getD (l := js), List.getElem?_eq_getElem hk, Option.getD_some, hk', hpi]
        simp [sqd]
      have h3 : disq.getD a0 0 ≤ disq.getD k 0 := by
        rw [has] at h1 hsort
        rcases List.mem_cons.1 h1 with rfl | h1
        · exact le_refl _
        · exact (List.pairwise_cons.1 hsort).1 k h1
      rw [h2] at h3
      exact lt_of_le_of_lt h3 (by positivity)
    obtain ⟨M, rfl⟩ : ∃ M, N = M + 1 := ⟨N - 1, by omega⟩
    have hag : ags = a0 :: as.take M := by simp only [ags, has, List.take_succ_cons]
    have hfind : (ags.map fun a => disq.getD a 0).findIdx? (fun x => decide (x < E ^ 2)) = some 0 := by
      rw [hag, List.map_cons, List.findIdx?_cons, if_pos (by simpa using hzero)]
    rw [hfind]
    simp only
    have h1 : ags.take (0 + 1) = [a0] := by rw [hag]; rfl
    rw [h1, mapM_ok_of _ (fun a => js.getD a 0) _ (fun a h => hjs a (by
      rw [List.mem_singleton.1 h]; exact hags _ (by rw [hag]; simp))), ok_bind]
    have h2 : S.take 1 = [a0].map fun a => js.getD a 0 := by simp only [S, has, List.map_cons, List.take_succ_cons, List.take_zero, List.map_nil]
    rw [h2]
    rfl

theorem lowest_le {pos : List (Fin d → ℝ)} {lo : Fin d → ℝ} (h : lowest pos = .ok lo) : ∀ p ∈ pos, ∀ a, lo a ≤ p a := by
  cases pos with
  | nil => simp
  | cons q l =>
    simp only [lowest, Except.ok.injEq] at h
    subst h
    have : ∀ (l : List (Fin d → ℝ)) (b : Fin d → ℝ) (a : Fin d), l.foldl (fun m q a => min (m a) (q a)) b a ≤ b a ∧
        ∀ x ∈ l, l.foldl (fun m q a => min (m a) (q a)) b a ≤ x a := by
      intro l
      induction l with
      | nil => intro b a; simp
      | cons c l ih =>
        intro b a
        obtain ⟨h1, h2⟩ := ih (fun a => min (b a) (c a)) a
        refine ⟨le_trans h1 (min_le_left _ _), ?_⟩
        intro x hx
        rcases List.mem_cons.1 hx with rfl | hx
        · exact le_trans h1 (min_le_right _ _)
        · exact h2 x hx
    intro x hx a
    rcases List.mem_cons.1 hx with rfl | hx
    · exact (this l x a).1
    · exact (this l q a).2 x hx

/-- The lower corner used by `get_N_ngbs`: the one given, or the smallest coordinates. -/
noncomputable def corner (pos : List (Fin (d + 1) → ℝ)) : Option ((Fin (d + 1) → ℝ) × (Fin (d + 1) → ℝ)) → R (Fin (d + 1) → ℝ)
  | none => lowest pos
  | some e => .ok e.1

theorem getN_run {ball : ℝ → Nat → List Nat} {argsort : List ℝ → List Nat} {pos : List (Fin (d + 1) → ℝ)} {radii : List ℝ} {N : Nat} {maxdist rmax : ℝ}
    {edge : Option ((Fin (d + 1) → ℝ) × (Fin (d + 1) → ℝ))} {lo : Fin (d + 1) → ℝ} (hl : pos.length = radii.length)
    (hlo : corner pos edge = .ok lo) (hmax : maxOf radii = .ok rmax) :
    getNNgbs ball argsort pos radii N maxdist edge = (List.range pos.length).mapM (fun i => (do
      let p ← idx pos i
      nRow argsort pos N (toEdge lo p) i (ball (2 * rmax * maxdist) i))) := by
  unfold getNNgbs
  rw [if_neg (by simpa using hl)]
  cases edge with
  | none =>
    simp only [corner] at hlo
    simp only [hlo, ok_bind, hmax, pure_eq_ok]
  | some e =>
    simp only [corner, Except.ok.injEq] at hlo
    subst hlo
    simp only [ok_bind, hmax, pure_eq_ok]

/-- C155: the part of `get_N_ngbs` that holds. For particles above the lower corner of the field of view and not on this corner, each line contains
the N nearest particles within the distance (all of them if they are fewer), in order of distance, when they are nearer than the largest difference of
coordinates with the lower corner, and then the particle is inside; if they are not, the line contains only the nearest. Missing: the particle itself is
among its neighbours, and the distance is not the one to the edge (see the counterexamples). -/
theorem C155_nearest_partial {ball : ℝ → Nat → List Nat} {argsort : List ℝ → List Nat} {pos : List (Fin (d + 1) → ℝ)} {radii : List ℝ} {N : Nat}
    {maxdist rmax : ℝ} {edge : Option ((Fin (d + 1) → ℝ) × (Fin (d + 1) → ℝ))} {lo : Fin (d + 1) → ℝ} (hb : IsBall ball pos) (ha : IsArgsort argsort)
    (hl : pos.length = radii.length) (hN : 0 < N) (hlo : corner pos edge = .ok lo) (hmax : maxOf radii = .ok rmax) (hr : 0 ≤ rmax) (hd : 0 ≤ maxdist)
    (hin : ∀ p ∈ pos, (∀ a, lo a ≤ p a) ∧ p ≠ lo) :
    ∃ rows : List (List Int × Bool), getNNgbs ball argsort pos radii N maxdist edge = .ok rows ∧ rows.length = pos.length ∧
      ∀ (i : Nat) (row : List Int × Bool), rows[i]? = some row → ∃ (p : Fin (d + 1) → ℝ) (S : List Nat), pos[i]? = some p ∧ S.Nodup ∧
        (∀ j, j ∈ S ↔ ∃ q, pos[j]? = some q ∧ gap p q ≤ 2 * rmax * maxdist) ∧
        S.Pairwise (fun a b => gap (pos.getD a 0) p ≤ gap (pos.getD b 0) p) ∧
        (row.2 = true ↔ ∀ j ∈ S.take N, gap (pos.getD j 0) p < widest lo p) ∧
        row.1 = padded N (if row.2 then S.take N else S.take 1) := by
  rw [getN_run hl hlo hmax]
  apply mapM_range_spec
  intro i hi
  have hp : pos[i]? = some pos[i] := List.getElem?_eq_getElem hi
  obtain ⟨h1, h2⟩ := hin pos[i] (List.getElem_mem hi)
  have hE : 0 < widest lo pos[i] := by
    refine lt_of_le_of_ne (widest_nonneg h1) ?_
    intro h
    apply h2
    funext a
    have := Finset.le_sup' (fun a => pos[i] a - lo a) (Finset.mem_univ a)
    have h3 : pos[i] a - lo a ≤ 0 := by rw [h]; exact this
    linarith [h1 a]
  have hR : 0 ≤ 2 * rmax * maxdist := by positivity
  obtain ⟨S, hS, h3, h4⟩ := nRow_spec ha hN hE hp (js := ball (2 * rmax * maxdist) i)
    (by intro j hj
        obtain ⟨_, q, _, hq, _⟩ := (hb.mem _ _ _).1 hj
        exact (List.getElem?_eq_some_iff.1 hq).1)
    ((hb.mem _ _ _).2 ⟨_, _, hp, hp, by rw [gap_self]; exact hR⟩)
  have hmem : ∀ j, j ∈ S ↔ ∃ q, pos[j]? = some q ∧ gap pos[i] q ≤ 2 * rmax * maxdist := by
    intro j
    rw [hS.perm.mem_iff, hb.mem]
    constructor
    · rintro ⟨p, q, hp', hq, h⟩
      rw [hp] at hp'
      cases hp'
      exact ⟨q, hq, h⟩
    · rintro ⟨q, hq, h⟩
      exact ⟨_, q, hp, hq, h⟩
  rw [idx_some hp, ok_bind, toEdge_eq h1]
  by_cases hc : ∀ j ∈ S.take N, gap (pos.getD j 0) pos[i] < widest lo pos[i]
  · exact ⟨_, h3 hc, _, S, hp, hS.perm.nodup_iff.2 (hb.nodup _ _), hmem, hS.sorted, by simpa using hc, by simp [fillRow, padded]⟩
  · exact ⟨_, h4 hc, _, S, hp, hS.perm.nodup_iff.2 (hb.nodup _ _), hmem, hS.sorted, by simpa using hc, by simp [fillRow, padded]⟩

/-- C155: with distinct positions the first of the N neighbours of every particle is the particle itself: only N-1 are its neighbours. -/
theorem C155_self_counterexample {ball : ℝ → Nat → List Nat} {argsort : List ℝ → List Nat} {pos : List (Fin (d + 1) → ℝ)} {radii : List ℝ} {N : Nat}
    {maxdist rmax : ℝ} {edge : Option ((Fin (d + 1) → ℝ) × (Fin (d + 1) → ℝ))} {lo : Fin (d + 1) → ℝ} (hb : IsBall ball pos) (ha : IsArgsort argsort)
    (hl : pos.length = radii.length) (hN : 0 < N) (hlo : corner pos edge = .ok lo) (hmax : maxOf radii = .ok rmax) (hr : 0 ≤ rmax) (hd : 0 ≤ maxdist)
    (hin : ∀ p ∈ pos, (∀ a, lo a ≤ p a) ∧ p ≠ lo) (hn : pos.Nodup) :
    ∃ rows : List (List Int × Bool), getNNgbs ball argsort pos radii N maxdist edge = .ok rows ∧ rows.length = pos.length ∧
      ∀ (i : Nat) (row : List Int × Bool), rows[i]? = some row → row.1.head? = some (i : Int) := by
  obtain ⟨rows, h1, h2, h3⟩ := C155_nearest_partial hb ha hl hN hlo hmax hr hd hin
  refine ⟨rows, h1, h2, ?_⟩
  intro i row hrow
  obtain ⟨p, S, hp, _, hmem, hs, _, h5⟩ := h3 i row hrow
  have hiS : i ∈ S := (hmem i).2 ⟨p, hp, by rw [gap_self]; positivity⟩
  have hD : ∀ {j : Nat} {q : Fin (d + 1) → ℝ}, pos[j]? = some q → pos.getD j 0 = q := by
    intro j q h; rw [List.getD_eq_getElem?_getD, h]; rfl
  obtain ⟨k, S', rfl⟩ : ∃ k S', S = k :: S' := by
    cases S with
    | nil => simp at hiS
    | cons k S' => exact ⟨k, S', rfl⟩
  have hk : k = i := by
    rcases List.mem_cons.1 hiS with h | h
    · exact h.symm
    · exfalso
      have h6 := (List.pairwise_cons.1 hs).1 i h
      obtain ⟨q, hq, _⟩ := (hmem k).1 (by simp)
      rw [hD hp, hD hq, gap_self] at h6
      have h7 : gap q p = 0 := le_antisymm h6 (gap_nonneg _ _)
      have h8 : sqd q p = 0 := by rw [← gap_sq, h7]; ring
      have h9 : q = p := by
        funext a
        have := (Finset.sum_eq_zero_iff_of_nonneg (fun a _ => sq_nonneg (q a - p a))).1 h8 a (Finset.mem_univ a)
        have := pow_eq_zero_iff (two_ne_zero) |>.1 this
        linarith
      subst h9
      have hki := (List.getElem?_inj (List.getElem?_eq_some_iff.1 hq).1 hn).1 (hq.trans hp.symm)
      subst hki
      have hnd := ‹(k :: S').Nodup›
      exact (List.nodup_cons.1 hnd).1 h
  subst hk
  obtain ⟨M, rfl⟩ : ∃ M, N = M + 1 := ⟨N - 1, by omega⟩
  rw [h5]
  cases row.2 <;> simp [padded]

theorem nRow_corner {argsort : List ℝ → List Nat} (pos : List (Fin (d + 1) → ℝ)) (N i : Nat) (js : List Nat) (x : List Int × Bool) :
    nRow argsort pos N 0 i js ≠ .ok x := by
  intro h
  unfold nRow at h
  simp only [bind_ok] at h
  obtain ⟨p, h1, qs, h2, l, h3, far, h4, h5⟩ := h
  have hneg : ∀ (a : Nat) (y : ℝ), idx (qs.map fun q => sqd q p) a = .ok y → ¬ y < 0 := by
    intro a y hy
    unfold idx at hy
    split at hy
    · rename_i b hb
      cases hy
      obtain ⟨q, _, hq⟩ := List.mem_map.1 (List.mem_of_getElem? hb)
      rw [← hq]
      exact not_lt.2 (sqd_nonneg _ _)
    · cases hy
  rw [if_neg (hneg _ _ h4)] at h5
  simp only [bind_ok] at h5
  obtain ⟨ds, h6, h7⟩ := h5
  have hds : ∀ y ∈ ds, ¬ y < 0 := by
    have : ∀ (l : List Nat) (ds : List ℝ), l.mapM (idx (qs.map fun q => sqd q p)) = .ok ds → ∀ y ∈ ds, ¬ y < 0 := by
      intro l
      induction l with
      | nil => intro ds h; simp only [List.mapM_nil, pure_eq_ok, Except.ok.injEq] at h; subst h; simp
      | cons a l ih =>
        intro ds h
        rw [List.mapM_cons] at h
        simp only [bind_ok] at h
        obtain ⟨y, hy, ys, hys, h⟩ := h
        simp only [pure_eq_ok, Except.ok.injEq] at h
        subst h
        intro z hz
        rcases List.mem_cons.1 hz with rfl | hz
        · exact hneg _ _ hy
        · exact ih ys hys z hz
    exact this _ _ h6
  have hnone : ds.findIdx? (fun x => decide (x < 0)) = none := by
    rw [List.findIdx?_eq_none_iff]
    intro y hy
    simpa using hds y hy
  rw [hnone] at h7
  cases h7

theorem mapM_bad {α β : Type} {f : α → R β} {l : List α} {x : α} (hx : x ∈ l) (hbad : ∀ y, f x ≠ .ok y) : ∀ ys, l.mapM f ≠ .ok ys := by
  induction l with
  | nil => simp at hx
  | cons a l ih =>
    intro ys h
    rw [List.mapM_cons] at h
    simp only [bind_ok] at h
    obtain ⟨y, hy, ys', hys, _⟩ := h
    rcases List.mem_cons.1 hx with rfl | hx
    · exact hbad y hy
    · exact ih hx ys' hys

/-- C155: when a particle is on the lower corner of the field of view, the call fails for all the particles. -/
theorem C155_corner_counterexample {ball : ℝ → Nat → List Nat} {argsort : List ℝ → List Nat} {pos : List (Fin (d + 1) → ℝ)} {radii : List ℝ} {N : Nat}
    {maxdist : ℝ} {edge : Option ((Fin (d + 1) → ℝ) × (Fin (d + 1) → ℝ))} {lo : Fin (d + 1) → ℝ} (hlo : corner pos edge = .ok lo) (h : lo ∈ pos)
    (rows : List (List Int × Bool)) : getNNgbs ball argsort pos radii N maxdist edge ≠ .ok rows := by
  intro hrun
  by_cases hl : pos.length = radii.length
  · have hne : radii ≠ [] := by
      rintro rfl
      rw [List.length_eq_zero_iff.1 hl] at h
      simp at h
    obtain ⟨rmax, hmax⟩ := maxOf_some hne
    rw [getN_run hl hlo hmax] at hrun
    obtain ⟨i, hi, hi'⟩ := List.mem_iff_getElem.1 h
    refine mapM_bad (List.mem_range.2 hi) ?_ rows hrun
    intro y hy
    rw [idx_some (List.getElem?_eq_getElem hi), ok_bind, hi', toEdge_eq (fun a => le_refl _)] at hy
    have : widest lo lo = 0 := by
      unfold widest
      simp only [sub_self]
      exact Finset.sup'_const _ _
    rw [this] at hy
    norm_num at hy
    exact nRow_corner _ _ _ _ _ hy
  · unfold getNNgbs at hrun
    rw [if_pos hl] at hrun
    cases hrun

/-- C155: in particular a single particle has no result, and neither do particles on a line, with the default field of view. -/
theorem C155_line_counterexample (ball : ℝ → Nat → List Nat) (argsort : List ℝ → List Nat) (pos : List (Fin 1 → ℝ)) (radii : List ℝ) (N : Nat)
    (maxdist : ℝ) (rows : List (List Int × Bool)) : getNNgbs ball argsort pos radii N maxdist none ≠ .ok rows := by
  cases pos with
  | nil =>
    intro h
    unfold getNNgbs at h
    split_ifs at h
    · cases h
    · simp [lowest] at h
  | cons p l =>
    have hlow : ∀ (l : List (Fin 1 → ℝ)) (b : Fin 1 → ℝ), l.foldl (fun m q a => min (m a) (q a)) b = b ∨
        l.foldl (fun m q a => min (m a) (q a)) b ∈ l := by
      intro l
      induction l with
      | nil => intro b; simp
      | cons c l ih =>
        intro b
        rcases ih (fun a => min (b a) (c a)) with h | h
        · rcases min_choice (b 0) (c 0) with h' | h'
          · left
            rw [List.foldl_cons, h]
            funext a
            rw [Subsingleton.elim a 0]
            exact h'
          · right
            rw [List.foldl_cons, h, List.mem_cons]
            left
            funext a
            rw [Subsingleton.elim a 0]
            exact h'
        · right; exact List.mem_cons_of_mem _ h
    refine C155_corner_counterexample (edge := none) rfl ?_ rows
    rcases hlow l p with h | h
    · rw [h]; simp
    · exact List.mem_cons_of_mem _ h

/-- C155: the upper edge of the field of view is not used: a particle that is on it can be given as inside, with a neighbour that is further than this
edge. -/
theorem C155_edge_counterexample : ∃ (pos : List (Fin 1 → ℝ)) (radii : List ℝ) (lo hi : Fin 1 → ℝ), (∀ p ∈ pos, ∀ a, lo a ≤ p a ∧ p a ≤ hi a) ∧ hi ∈ pos ∧
    ∀ (ball : ℝ → Nat → List Nat) (argsort : List ℝ → List Nat), IsBall ball pos → IsArgsort argsort →
      ∃ rows : List (List Int × Bool), getNNgbs ball argsort pos radii 2 3 (some (lo, hi)) = .ok rows ∧ ∀ (i : Nat) (row : List Int × Bool),
        rows[i]? = some row → row.2 = true := by
  refine ⟨[fun _ => 0, fun _ => 1], [1, 1], fun _ => -10, fun _ => 1, ?_, by simp, ?_⟩
  · intro p hp a
    simp only [List.mem_cons, List.not_mem_nil, or_false] at hp
    rcases hp with rfl | rfl <;> norm_num
  · intro ball argsort hb ha
    have hpos : ∀ p ∈ ([fun _ => 0, fun _ => 1] : List (Fin 1 → ℝ)), p = (fun _ => 0) ∨ p = fun _ => 1 := by
      intro p hp
      simpa using hp
    obtain ⟨rows, h1, _, h3⟩ := C155_nearest_partial (edge := some ((fun _ => -10 : Fin 1 → ℝ), fun _ => 1)) (N := 2) (maxdist := 3) (rmax := 1)
      (radii := [1, 1]) hb ha rfl (by norm_num) rfl (by simp [maxOf]) (by norm_num) (by norm_num) (by
        intro p hp
        rcases hpos p hp with rfl | rfl
        · exact ⟨fun _ => by norm_num, fun h => by have := congrFun h 0; norm_num at this⟩
        · exact ⟨fun _ => by norm_num, fun h => by have := congrFun h 0; norm_num at this⟩)
    refine ⟨rows, h1, ?_⟩
    intro i row hrow
    obtain ⟨p, S, hp, _, hmem, _, h4, _⟩ := h3 i row hrow
    rw [h4]
    intro j hj
    obtain ⟨q, hq, _⟩ := (hmem j).1 (List.mem_of_mem_take hj)
    rw [List.getD_eq_getElem?_getD, hq, Option.getD_some]
    have hw : (10 : ℝ) ≤ widest (fun _ => -10 : Fin 1 → ℝ) p := by
      refine le_trans ?_ (Finset.le_sup' (fun a => p a - (-10)) (Finset.mem_univ 0))
      rcases hpos p (List.mem_of_getElem? hp) with rfl | rfl <;> norm_num
    refine lt_of_lt_of_le ?_ hw
    have : sqd q p ≤ 1 := by
      rcases hpos p (List.mem_of_getElem? hp) with rfl | rfl <;> rcases hpos q (List.mem_of_getElem? hq) with rfl | rfl <;> norm_num [sqd]
    calc gap q p ≤ 1 := Real.sqrt_le_one.2 this
      _ < 10 := by norm_num

/-- Two particles in a plane. -/
noncomputable def two : List (Fin 2 → ℝ) := [![0, 1], ![1, 0]]

/-- A sort by insertion of the indices. -/
noncomputable def sortIdx (l : List ℝ) : List Nat := (List.range l.length).insertionSort fun a b => l.getD a 0 ≤ l.getD b 0

example : IsArgsort sortIdx := by
  intro l
  have : IsTrans Nat (fun a b => l.getD a 0 ≤ l.getD b 0) := ⟨fun _ _ _ => le_trans⟩
  have : Std.Total (fun a b : Nat => l.getD a 0 ≤ l.getD b 0) := ⟨fun _ _ => le_total _ _⟩
  exact ⟨List.perm_insertionSort _ _, List.pairwise_insertionSort _ _⟩

example : IsBall (scan two) two ∧ two.length = [(1 : ℝ), 1].length ∧ corner two none = .ok (fun a => min (![(0 : ℝ), 1] a) (![(1 : ℝ), 0] a)) ∧
    maxOf [(1 : ℝ), 1] = .ok 1 ∧ two.Nodup ∧ ∀ p ∈ two, (∀ a, min (![(0 : ℝ), 1] a) (![(1 : ℝ), 0] a) ≤ p a) ∧
      p ≠ fun a => min (![(0 : ℝ), 1] a) (![(1 : ℝ), 0] a) := by
  refine ⟨scan_ball _, rfl, rfl, by simp [maxOf], ?_, ?_⟩
  · simp only [two, List.nodup_cons, List.mem_singleton, List.not_mem_nil, not_false_eq_true, List.nodup_nil, and_true]
    intro h
    have := congrFun h 0
    norm_num at this
  · intro p hp
    simp only [two, List.mem_cons, List.not_mem_nil, or_false] at hp
    rcases hp with rfl | rfl
    · refine ⟨fun a => min_le_left _ _, fun h => ?_⟩
      have := congrFun h 1
      norm_num at this
    · refine ⟨fun a => min_le_right _ _, fun h => ?_⟩
      have := congrFun h 0
      norm_num at this

example : corner line none = .ok (fun _ => 0) ∧ (fun _ => 0) ∈ line := by
  constructor
  · simp only [corner, line, lowest, List.foldl_cons, List.foldl_nil]
    norm_num
  · simp [line]

end Bonds
end Py
end Colloids
