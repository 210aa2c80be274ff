import Verif.Parallel.Lemmas
import Mathlib.Algebra.BigOperators.Group.Finset.Piecewise

/-! # Parallel loops on shared sums: what the additions of several threads can give -/

namespace Colloids

namespace Parallel

variable {κ V : Type} [DecidableEq κ]

/-- The sum of what a list of additions adds to a cell. -/
def sumAt [AddCommMonoid V] (c : κ) (l : List (κ × V)) : V := (l.map (fun x => if x.1 = c then x.2 else 0)).sum

section sums

variable [AddCommMonoid V]

@[simp] theorem sumAt_nil (c : κ) : sumAt c ([] : List (κ × V)) = 0 := rfl

@[simp] theorem sumAt_cons (c : κ) (x : κ × V) (l : List (κ × V)) :
    sumAt c (x :: l) = (if x.1 = c then x.2 else 0) + sumAt c l := by simp [sumAt]

theorem sumAt_append (c : κ) (l l' : List (κ × V)) : sumAt c (l ++ l') = sumAt c l + sumAt c l' := by simp [sumAt]

theorem sumAt_flatten (c : κ) (l : List (List (κ × V))) : sumAt c l.flatten = (l.map (sumAt c)).sum := by
  induction l with
  | nil => rfl
  | cons a l ih => simp [sumAt_append, ih]

theorem sumAt_of_not_mem (c : κ) (l : List (κ × V)) (h : ∀ x ∈ l, x.1 ≠ c) : sumAt c l = 0 := by
  induction l with
  | nil => rfl
  | cons a l ih => simp [h a (by simp), ih (fun x hx => h x (by simp [hx]))]

theorem incrs_cons (x : κ × V) (l : List (κ × V)) :
    incrs (x :: l) = .load x.1 (fun v _ => v) :: .store x.1 (fun r => r + x.2) :: incrs l := rfl

theorem incrs_append (l l' : List (κ × V)) : incrs (l ++ l') = incrs l ++ incrs l' := by simp [incrs]

theorem incrs_flatten (l : List (List (κ × V))) : incrs l.flatten = (l.map incrs).flatten := by
  induction l with
  | nil => rfl
  | cons a l ih => simp [incrs_append, ih]

/-- Without another thread a cell gets the sum. -/
theorem execAll_incrs (l : List (κ × V)) (m : κ → V) (r : V) (c : κ) :
    (execAll (incrs l) (m, r)).1 c = m c + sumAt c l := by
  induction l generalizing m r with
  | nil => simp [incrs, execAll]
  | cons x l ih =>
    show (execAll (incrs l) (Function.update m x.1 (m x.1 + x.2), m x.1)).1 c = _
    rw [ih, sumAt_cons]
    by_cases h : x.1 = c
    · subst h; simp [add_assoc]
    · rw [Function.update_of_ne (Ne.symm h), if_neg h, zero_add]

omit [DecidableEq κ] in
theorem share_map {α β : Type} (f : α → β) (assign : Nat → Nat) (k : Nat) (l : List α) :
    share assign k (l.map f) = (share assign k l).map f := by
  unfold share
  rw [List.zipIdx_map, List.filter_map, List.map_map, List.map_map]
  rfl

/-- The shares of the threads make the whole. -/
theorem sum_share {α : Type} (f : α → V) (assign : Nat → Nat) (n : Nat) (l : List α)
    (h : ∀ p < l.length, assign p < n) :
    ∑ k ∈ Finset.range n, ((share assign k l).map f).sum = (l.map f).sum := by
  have key : ∀ (l : List α) (i : Nat), (∀ p < l.length, assign (i + p) < n) →
      ∑ k ∈ Finset.range n,
        ((((l.zipIdx i).filter (fun x => decide (assign x.2 = k))).map Prod.fst).map f).sum = (l.map f).sum := by
    intro l
    induction l with
    | nil => intro i _; simp
    | cons a l ih =>
      intro i hi
      have h0 : assign i < n := by simpa using hi 0 (by simp)
      have := ih (i + 1) (fun p hp => by have := hi (p + 1) (by simpa using hp); rwa [Nat.add_right_comm, Nat.add_assoc])
      have hfa : f a = ∑ k ∈ Finset.range n, if assign i = k then f a else 0 := by simp [h0]
      rw [List.map_cons, List.sum_cons, ← this, hfa, ← Finset.sum_add_distrib]
      apply Finset.sum_congr rfl
      intro k _
      rw [List.zipIdx_cons, List.filter_cons]
      by_cases e : assign i = k
      · simp [e]
      · simp [e]
  simpa [share] using key l 0 (by simpa using h)

theorem mem_share {α : Type} (assign : Nat → Nat) (k : Nat) (l : List α) (a : α) :
    a ∈ share assign k l ↔ ∃ p, l[p]? = some a ∧ assign p = k := by
  unfold share
  simp only [List.mem_map, List.mem_filter, decide_eq_true_eq, Prod.exists, exists_and_right, exists_eq_right,
    List.mem_zipIdx_iff_getElem?]

theorem share_length_all {α : Type} (l : List α) : share (fun _ => 0) 0 l = l := by
  unfold share
  simp

end sums

/-- The threads of a loop of additions: `g k` remains for the thread `k`, of which the first addition has been loaded in
`reg k` when `h k`. -/
def Rep [Add V] (s : State κ V V) (n : Nat) (reg : Nat → V) (h : Nat → Bool) (g : Nat → List (κ × V)) : Prop :=
  s.threads = (List.range n).map (fun k => ⟨reg k, (incrs (g k)).drop (if h k then 1 else 0)⟩) ∧
    ∀ k, h k = true → g k ≠ []

omit [DecidableEq κ] in
theorem rep_start [Add V] (n : Nat) (assign : Nat → Nat) (r : V) (iters : List (List (κ × V))) (mem : κ → V)
    (hf : ∀ l : List (List (κ × V)), incrs l.flatten = (l.map incrs).flatten) :
    Rep (start n assign r (iters.map incrs) mem) n (fun _ => r) (fun _ => false)
      (fun k => (share assign k iters).flatten) := by
  refine ⟨?_, fun k h => by simp at h⟩
  unfold start
  simp [share_map, hf]

omit [DecidableEq κ] in
theorem set_range_map {α : Type} (n k : Nat) (f : Nat → α) (a : α) :
    ((List.range n).map f).set k a = (List.range n).map (Function.update f k a) := by
  apply List.ext_getElem?
  intro i
  by_cases hi : i < n
  · by_cases e : i = k
    · subst e; simp [hi]
    · rw [List.getElem?_set_ne (Ne.symm e)]
      simp [hi, e]
  · rw [List.getElem?_eq_none (by simp; omega), List.getElem?_eq_none (by simp; omega)]

/-- The steps of a loop of additions. -/
theorem rep_step [Add V] {s : State κ V V} {n : Nat} {reg : Nat → V} {h : Nat → Bool} {g : Nat → List (κ × V)}
    (hr : Rep s n reg h g) (k : Nat) :
    step s k = s ∨
    (k < n ∧ ∃ c v l, g k = (c, v) :: l ∧ h k = false ∧ (step s k).mem = s.mem ∧
      Rep (step s k) n (Function.update reg k (s.mem c)) (Function.update h k true) g) ∨
    (k < n ∧ ∃ c v l, g k = (c, v) :: l ∧ h k = true ∧ (step s k).mem = Function.update s.mem c (reg k + v) ∧
      Rep (step s k) n reg (Function.update h k false) (Function.update g k l)) := by
  obtain ⟨hth, hne⟩ := hr
  by_cases hk : k < n
  · have hget : s.threads[k]? = some ⟨reg k, (incrs (g k)).drop (if h k then 1 else 0)⟩ := by rw [hth]; simp [hk]
    cases hg : g k with
    | nil =>
      left
      unfold step
      rw [hget, hg]
      simp [incrs]
    | cons x l =>
      right
      obtain ⟨c, v⟩ := x
      cases hh : h k with
      | false =>
        left
        have hstep : step s k = ⟨s.mem, s.threads.set k ⟨s.mem c, .store c (fun r => r + v) :: incrs l⟩⟩ := by
          unfold step
          rw [hget, hg, hh]
          simp only [Bool.false_eq_true, if_false, List.drop_zero]
          rfl
        refine ⟨hk, c, v, l, rfl, rfl, by rw [hstep], ?_, ?_⟩
        · rw [hstep]
          simp only
          rw [hth, set_range_map]
          apply List.map_congr_left
          intro j _
          by_cases e : j = k
          · subst e
            simp [hg, incrs, incr]
          · simp [e]
        · intro j hj
          by_cases e : j = k
          · subst e; simp [hg]
          · exact hne j (by simpa [e] using hj)
      | true =>
        right
        have hstep : step s k = ⟨Function.update s.mem c (reg k + v), s.threads.set k ⟨reg k, incrs l⟩⟩ := by
          unfold step
          rw [hget, hg, hh]
          rfl
        refine ⟨hk, c, v, l, rfl, rfl, by rw [hstep], ?_, ?_⟩
        · rw [hstep]
          simp only
          rw [hth, set_range_map]
          apply List.map_congr_left
          intro j _
          by_cases e : j = k
          · subst e
            simp
          · simp [e]
        · intro j hj
          by_cases e : j = k
          · subst e; simp at hj
          · simpa [e] using hne j (by simpa [e] using hj)
  · left
    unfold step
    rw [List.getElem?_eq_none (by rw [hth]; simp; omega)]

omit [DecidableEq κ] in
theorem sum_update {M : Type} [AddCommMonoid M] (n k : Nat) (hk : k < n) (f : List (κ × V) → M)
    (g : Nat → List (κ × V)) (l : List (κ × V)) (x : M) (hx : f (g k) = x + f l) :
    ∑ j ∈ Finset.range n, f (g j) = x + ∑ j ∈ Finset.range n, f (Function.update g k l j) := by
  have hmem : k ∈ Finset.range n := Finset.mem_range.2 hk
  rw [← Finset.add_sum_erase _ _ hmem, ← Finset.add_sum_erase (Finset.range n) (fun j => f (Function.update g k l j)) hmem,
    hx, Function.update_self, add_assoc]
  congr 2
  apply Finset.sum_congr rfl
  intro j hj
  rw [Function.update_of_ne (Finset.ne_of_mem_erase hj)]

omit [DecidableEq κ] in
theorem done_rep [Add V] {s : State κ V V} {n : Nat} {reg : Nat → V} {h : Nat → Bool} {g : Nat → List (κ × V)}
    (hr : Rep s n reg h g) (hd : Done s) (k : Nat) (hk : k < n) : g k = [] := by
  have hm : (⟨reg k, (incrs (g k)).drop (if h k then 1 else 0)⟩ : Thread κ V V) ∈ s.threads := by
    rw [hr.1]
    exact List.mem_map.2 ⟨k, by simpa using hk, rfl⟩
  have := hd _ hm
  cases hg : g k with
  | nil => rfl
  | cons x l =>
    simp only [hg] at this
    rw [List.drop_eq_nil_iff] at this
    split at this <;> simp [incrs, incr] at this

section order

variable [AddCommMonoid V] [PartialOrder V] [IsOrderedAddMonoid V]

/-- The additions of non negative numbers: whatever the threads do, a cell does not get more than the sum; it gets at
least one of the terms. -/
theorem race_bounds (r : V) (iters : List (List (κ × V))) (hpos : ∀ l ∈ iters, ∀ x ∈ l, 0 ≤ x.2) (mem mem' : κ → V)
    (he : Ends r (iters.map incrs) mem mem') (c : κ) :
    mem' c ≤ mem c + (iters.map (sumAt c)).sum ∧ mem c ≤ mem' c ∧
      ((∃ l ∈ iters, ∃ x ∈ l, x.1 = c) → ∃ l ∈ iters, ∃ x ∈ l, x.1 = c ∧ mem c + x.2 ≤ mem' c) := by
  obtain ⟨n, assign, sched, ha, hd, rfl⟩ := he
  rw [List.length_map] at ha
  let B := mem c + (iters.map (sumAt c)).sum
  let I : State κ V V → Prop := fun s => ∃ reg h g, Rep s n reg h g ∧
    (∀ k < n, ∀ x ∈ g k, ∃ l ∈ iters, x ∈ l) ∧
    s.mem c + ∑ j ∈ Finset.range n, sumAt c (g j) ≤ B ∧
    (∀ k v l, k < n → h k = true → g k = (c, v) :: l → reg k + ∑ j ∈ Finset.range n, sumAt c (g j) ≤ B) ∧
    mem c ≤ s.mem c ∧ (∀ k v l, k < n → h k = true → g k = (c, v) :: l → mem c ≤ reg k) ∧
    ((∃ l ∈ iters, ∃ x ∈ l, x.1 = c) →
      (∃ k < n, ∃ x ∈ g k, x.1 = c) ∨ ∃ l ∈ iters, ∃ x ∈ l, x.1 = c ∧ mem c + x.2 ≤ s.mem c)
  have hI : I (run sched (start n assign r (iters.map incrs) mem)) := by
    apply run_induction
    · rintro s k ⟨reg, h, g, hr, h0, h1, h2, h3, h4, h5⟩
      rcases rep_step hr k with e | ⟨hk, c', v, l, hg, hh, hm, hr'⟩ | ⟨hk, c', v, l, hg, hh, hm, hr'⟩
      · rw [e]; exact ⟨reg, h, g, hr, h0, h1, h2, h3, h4, h5⟩
      · refine ⟨_, _, _, hr', h0, by rw [hm]; exact h1, ?_, by rw [hm]; exact h3, ?_, by rw [hm]; exact h5⟩
        · intro j v' l' hj hh' hg'
          by_cases e : j = k
          · subst e
            rw [hg] at hg'
            cases hg'
            rw [Function.update_self]
            exact h1
          · rw [Function.update_of_ne e] at hh' ⊢
            exact h2 j v' l' hj hh' hg'
        · intro j v' l' hj hh' hg'
          by_cases e : j = k
          · subst e
            rw [hg] at hg'
            cases hg'
            rw [Function.update_self]
            exact h3
          · rw [Function.update_of_ne e] at hh' ⊢
            exact h4 j v' l' hj hh' hg'
      · obtain ⟨l0, hl0, hxl0⟩ := h0 k hk (c', v) (by simp [hg])
        have hv : 0 ≤ v := hpos l0 hl0 _ hxl0
        have hsum := sum_update n k hk (sumAt c) g l (if c' = c then v else 0) (by rw [hg, sumAt_cons])
        have hle : ∑ j ∈ Finset.range n, sumAt c (Function.update g k l j) ≤ ∑ j ∈ Finset.range n, sumAt c (g j) := by
          rw [hsum]
          apply le_add_of_nonneg_left
          split
          · exact hv
          · exact le_refl _
        refine ⟨_, _, _, hr', ?_, ?_, ?_, ?_, ?_, ?_⟩
        · intro j hj x hx
          by_cases e : j = k
          · subst e
            rw [Function.update_self] at hx
            exact h0 j hj x (by simp [hg, hx])
          · rw [Function.update_of_ne e] at hx
            exact h0 j hj x hx
        · rw [hm]
          by_cases e : c' = c
          · subst e
            rw [Function.update_self]
            have := h2 k v l hk hh hg
            rw [hsum, if_pos rfl, ← add_assoc] at this
            exact this
          · rw [Function.update_of_ne (Ne.symm e)]
            rw [hsum, if_neg e, zero_add] at h1
            exact h1
        · intro j v' l' hj hh' hg'
          by_cases e : j = k
          · subst e
            simp at hh'
          · rw [Function.update_of_ne e] at hh' hg'
            exact (add_le_add_right hle _).trans (h2 j v' l' hj hh' hg')
        · rw [hm]
          by_cases e : c' = c
          · subst e
            rw [Function.update_self]
            exact (h4 k v l hk hh hg).trans (le_add_of_nonneg_right hv)
          · rw [Function.update_of_ne (Ne.symm e)]
            exact h3
        · intro j v' l' hj hh' hg'
          by_cases e : j = k
          · subst e
            simp at hh'
          · rw [Function.update_of_ne e] at hh' hg'
            exact h4 j v' l' hj hh' hg'
        · intro hc
          by_cases e : c' = c
          · subst e
            right
            refine ⟨l0, hl0, _, hxl0, rfl, ?_⟩
            rw [hm, Function.update_self]
            exact add_le_add_left (h4 k v l hk hh hg) v
          · rcases h5 hc with ⟨j, hj, x, hx, hxc⟩ | hdone
            · left
              refine ⟨j, hj, x, ?_, hxc⟩
              by_cases ej : j = k
              · subst ej
                rw [Function.update_self]
                rw [hg] at hx
                rcases List.mem_cons.1 hx with rfl | hx
                · exact absurd hxc e
                · exact hx
              · rw [Function.update_of_ne ej]
                exact hx
            · right
              rw [hm, Function.update_of_ne (Ne.symm e)]
              exact hdone
    · refine ⟨_, _, _, rep_start n assign r iters mem incrs_flatten, ?_, ?_, ?_, le_refl _, ?_, ?_⟩
      · intro k _ x hx
        obtain ⟨l, hl, hx⟩ := List.mem_flatten.1 hx
        obtain ⟨p, hp, -⟩ := (mem_share assign k iters l).1 hl
        exact ⟨l, List.mem_of_getElem? hp, hx⟩
      · simp only [sumAt_flatten]
        rw [sum_share (sumAt c) assign n iters ha]
        exact le_refl _
      · intro k v l _ hh _
        simp at hh
      · intro k v l _ hh _
        simp at hh
      · rintro ⟨l, hl, x, hx, hxc⟩
        obtain ⟨p, hp⟩ := List.getElem?_of_mem hl
        exact Or.inl ⟨assign p, ha p (List.getElem?_eq_some_iff.1 hp).1, x,
          List.mem_flatten.2 ⟨l, (mem_share _ _ _ _).2 ⟨p, hp, rfl⟩, hx⟩, hxc⟩
  obtain ⟨reg, h, g, hr, h0, h1, -, h3, -, h5⟩ := hI
  have hnil := done_rep hr hd
  refine ⟨?_, h3, ?_⟩
  · rw [Finset.sum_eq_zero (fun k hk => by rw [hnil k (Finset.mem_range.1 hk)]; rfl), add_zero] at h1
    exact h1
  · intro hc
    rcases h5 hc with ⟨k, hk, x, hx, -⟩ | h
    · rw [hnil k hk] at hx
      exact absurd hx (by simp)
    · exact h

end order

section lost

variable [AddCommMonoid V]

/-- A cell that only one iteration adds to gets its sum, whatever the others do elsewhere. -/
theorem race_single (r : V) (iters : List (List (κ × V))) (mem mem' : κ → V) (he : Ends r (iters.map incrs) mem mem')
    (c : κ) (p : Nat) (l : List (κ × V)) (hp : iters[p]? = some l)
    (hoth : ∀ q l', q ≠ p → iters[q]? = some l' → ∀ x ∈ l', x.1 ≠ c) : mem' c = mem c + sumAt c l := by
  obtain ⟨n, assign, sched, ha, hd, rfl⟩ := he
  rw [List.length_map] at ha
  have hpl : p < iters.length := (List.getElem?_eq_some_iff.1 hp).1
  have hshare : ∀ k, k ≠ assign p → ∀ x ∈ (share assign k iters).flatten, x.1 ≠ c := by
    intro k hk x hx
    obtain ⟨l', hl', hx⟩ := List.mem_flatten.1 hx
    obtain ⟨q, hq, hqk⟩ := (mem_share assign k iters l').1 hl'
    exact hoth q l' (by rintro rfl; exact hk hqk.symm) hq x hx
  have hzero : ∀ k, k ≠ assign p → sumAt c (share assign k iters).flatten = 0 :=
    fun k hk => sumAt_of_not_mem c _ (hshare k hk)
  have htot : sumAt c (share assign (assign p) iters).flatten = sumAt c l := by
    have h1 := sum_share (sumAt c) assign n iters ha
    rw [Finset.sum_eq_single_of_mem (assign p) (Finset.mem_range.2 (ha p hpl))
      (fun k _ hk => by rw [← sumAt_flatten]; exact hzero k hk), ← sumAt_flatten] at h1
    rw [h1]
    have key : ∀ (it : List (List (κ × V))) (i : Nat), it[i]? = some l →
        (∀ q l', q ≠ i → it[q]? = some l' → sumAt c l' = 0) → (it.map (sumAt c)).sum = sumAt c l := by
      intro it
      induction it with
      | nil => intro i hi; simp at hi
      | cons a it ih =>
        intro i hi hz
        cases i with
        | zero =>
          simp only [List.getElem?_cons_zero, Option.some.injEq] at hi
          subst hi
          rw [List.map_cons, List.sum_cons, List.sum_eq_zero, add_zero]
          intro y hy
          obtain ⟨l', hl', rfl⟩ := List.mem_map.1 hy
          obtain ⟨q, hq⟩ := List.getElem?_of_mem hl'
          exact hz (q + 1) l' (by omega) (by simpa using hq)
        | succ i =>
          rw [List.map_cons, List.sum_cons, hz 0 a (by omega) (by simp), zero_add]
          exact ih i (by simpa using hi) (fun q l' hq hl' => hz (q + 1) l' (by omega) (by simpa using hl'))
    exact key iters p hp (fun q l' hq hl' => sumAt_of_not_mem c l' (hoth q l' hq hl'))
  let I : State κ V V → Prop := fun s => ∃ reg h g, Rep s n reg h g ∧
    (∀ k, k ≠ assign p → ∀ x ∈ g k, x.1 ≠ c) ∧
    s.mem c + sumAt c (g (assign p)) = mem c + sumAt c l ∧
    (∀ v t, h (assign p) = true → g (assign p) = (c, v) :: t → reg (assign p) = s.mem c)
  have hI : I (run sched (start n assign r (iters.map incrs) mem)) := by
    apply run_induction
    · rintro s k ⟨reg, h, g, hr, h0, h1, h2⟩
      rcases rep_step hr k with e | ⟨hk, c', v, t, hg, hh, hm, hr'⟩ | ⟨hk, c', v, t, hg, hh, hm, hr'⟩
      · rw [e]; exact ⟨reg, h, g, hr, h0, h1, h2⟩
      · refine ⟨_, _, _, hr', h0, by rw [hm]; exact h1, ?_⟩
        intro v' t' hh' hg'
        rw [hm]
        by_cases e : assign p = k
        · rw [e] at hg' ⊢
          rw [hg] at hg'
          cases hg'
          rw [Function.update_self]
        · rw [Function.update_of_ne e] at hh' ⊢
          exact h2 v' t' hh' hg'
      · by_cases e : assign p = k
        · subst e
          refine ⟨_, _, _, hr', ?_, ?_, ?_⟩
          · intro j hj x hx
            rw [Function.update_of_ne hj] at hx
            exact h0 j hj x hx
          · rw [hm, Function.update_self, ← h1, hg, sumAt_cons]
            by_cases ec : c' = c
            · subst ec
              rw [Function.update_self, if_pos rfl, h2 v t hh hg, add_assoc]
            · rw [Function.update_of_ne (Ne.symm ec), if_neg ec, zero_add]
          · intro v' t' hh' _
            simp at hh'
        · have hne : c' ≠ c := h0 k (Ne.symm e) (c', v) (by simp [hg])
          refine ⟨_, _, _, hr', ?_, ?_, ?_⟩
          · intro j hj x hx
            by_cases ej : j = k
            · subst ej
              rw [Function.update_self] at hx
              exact h0 j hj x (by simp [hg, hx])
            · rw [Function.update_of_ne ej] at hx
              exact h0 j hj x hx
          · rw [hm, Function.update_of_ne (Ne.symm hne), Function.update_of_ne e]
            exact h1
          · intro v' t' hh' hg'
            rw [Function.update_of_ne e] at hh' hg'
            rw [hm, Function.update_of_ne (Ne.symm hne)]
            exact h2 v' t' hh' hg'
    · refine ⟨_, _, _, rep_start n assign r iters mem incrs_flatten, hshare, ?_, ?_⟩
      · show mem c + _ = _
        rw [htot]
      · intro v t hh _
        simp at hh
  obtain ⟨reg, h, g, hr, -, h1, -⟩ := hI
  rw [done_rep hr hd (assign p) (ha p hpl), sumAt_nil, add_zero] at h1
  exact h1

omit [AddCommMonoid V] in
theorem first_at (c : κ) (l : List (κ × V)) (h : ∃ x ∈ l, x.1 = c) :
    ∃ pre v post, l = pre ++ (c, v) :: post ∧ ∀ x ∈ pre, x.1 ≠ c := by
  induction l with
  | nil => obtain ⟨x, hx, -⟩ := h; simp at hx
  | cons a l ih =>
    by_cases e : a.1 = c
    · exact ⟨[], a.2, l, by rw [← e]; rfl, by simp⟩
    · obtain ⟨x, hx, hxc⟩ := h
      rcases List.mem_cons.1 hx with rfl | hx
      · exact absurd hxc e
      · obtain ⟨pre, v, post, rfl, h2⟩ := ih ⟨x, hx, hxc⟩
        refine ⟨a :: pre, v, post, rfl, ?_⟩
        intro y hy
        rcases List.mem_cons.1 hy with rfl | hy
        · exact e
        · exact h2 y hy

/-- One thread: the sum. -/
theorem ends_sum (r : V) (iters : List (List (κ × V))) (mem : κ → V) :
    Ends r (iters.map incrs) mem (fun c => mem c + (iters.map (sumAt c)).sum) := by
  refine ⟨1, fun _ => 0, List.replicate (incrs iters.flatten).length 0, fun _ _ => Nat.one_pos, ?_⟩
  have hst : start 1 (fun _ => 0) r (iters.map incrs) mem = ⟨mem, [⟨r, incrs iters.flatten⟩]⟩ := by
    simp [start, share_length_all, incrs_flatten]
  have := run_alone (incrs iters.flatten) [] 0 r (start 1 (fun _ => 0) r (iters.map incrs) mem)
    (by rw [hst]; simp)
  rw [this, hst]
  refine ⟨by simp [Done], ?_⟩
  funext c
  simp only
  rw [execAll_incrs, sumAt_flatten]

/-- Two threads: a cell can get only what the first thread adds, everything of the second being lost, as soon as the
first adds something to it; the other cells get everything. -/
theorem ends_lost (r : V) (iters : List (List (κ × V))) (mem : κ → V) (c : κ) (keep : Nat → Bool) (p : Nat)
    (l : List (κ × V)) (hp : iters[p]? = some l) (hk : keep p = true) (hc : ∃ x ∈ l, x.1 = c) :
    ∃ mem', Ends r (iters.map incrs) mem mem' ∧
      mem' c = mem c + ((share (fun q => if keep q then 0 else 1) 0 iters).map (sumAt c)).sum ∧
      ∀ d, d ≠ c → mem' d = mem d + (iters.map (sumAt d)).sum := by
  set assign : Nat → Nat := fun q => if keep q then 0 else 1 with hassign
  set A := (share assign 0 iters).flatten with hA
  set B := (share assign 1 iters).flatten with hB
  have hcA : ∃ x ∈ A, x.1 = c := by
    obtain ⟨x, hx, hxc⟩ := hc
    exact ⟨x, List.mem_flatten.2 ⟨l, (mem_share _ _ _ _).2 ⟨p, hp, by simp [hassign, hk]⟩, hx⟩, hxc⟩
  obtain ⟨pre, v, post, hsplit, hpre⟩ := first_at c A hcA
  have hst : start 2 assign r (iters.map incrs) mem = ⟨mem, [⟨r, incrs A⟩, ⟨r, incrs B⟩]⟩ := by
    simp [start, share_map, hA, hB, incrs_flatten, List.range_succ]
  let a1 : List (Instr κ V V) := incrs pre ++ [.load c (fun v _ => v)]
  let a2 : List (Instr κ V V) := .store c (fun r => r + v) :: incrs post
  have hAsplit : incrs A = a1 ++ a2 := by
    rw [hsplit, incrs_append, incrs_cons]
    simp [a1, a2]
  -- the first thread stops after it has loaded the cell
  let x1 := execAll a1 (mem, r)
  have hx1 : x1.2 = mem c := by
    show (execAll (incrs pre ++ [_]) (mem, r)).2 = _
    unfold execAll
    rw [List.foldl_append]
    show (execAll (incrs pre) (mem, r)).1 c = mem c
    rw [execAll_incrs, sumAt_of_not_mem c pre hpre, add_zero]
  let x2 := execAll (incrs B) (x1.1, r)
  let x3 := execAll a2 (x2.1, x1.2)
  have hx3 : x3.1 c = mem c + sumAt c A := by
    show (execAll (incrs post) (Function.update x2.1 c (x1.2 + v), x1.2)).1 c = _
    rw [execAll_incrs, Function.update_self, hx1, hsplit, sumAt_append, sumAt_of_not_mem c pre hpre, sumAt_cons,
      if_pos rfl, zero_add, add_assoc]
  have hx3' : ∀ d, d ≠ c → x3.1 d = mem d + (sumAt d A + sumAt d B) := by
    intro d hd
    have e1 : x1.1 d = mem d + sumAt d pre := by
      show (execAll (incrs pre ++ [_]) (mem, r)).1 d = _
      unfold execAll
      rw [List.foldl_append]
      exact execAll_incrs pre mem r d
    have e2 : x2.1 d = mem d + sumAt d pre + sumAt d B := by
      show (execAll (incrs B) (x1.1, r)).1 d = _
      rw [execAll_incrs, e1]
    show (execAll (incrs post) (Function.update x2.1 c (x1.2 + v), x1.2)).1 d = _
    rw [execAll_incrs, Function.update_of_ne hd, e2, hsplit, sumAt_append, sumAt_cons, if_neg (Ne.symm hd), zero_add]
    abel
  have hrun : run (List.replicate a1.length 0 ++ (List.replicate (incrs B).length 1 ++ List.replicate a2.length 0))
      (start 2 assign r (iters.map incrs) mem) = ⟨x3.1, [⟨x3.2, []⟩, ⟨x2.2, []⟩]⟩ := by
    rw [hst, hAsplit, run_append, run_append]
    rw [run_alone a1 a2 0 r _ (by simp)]
    show run (List.replicate a2.length 0) (run (List.replicate (incrs B).length 1)
      ⟨x1.1, [⟨x1.2, a2⟩, ⟨r, incrs B⟩]⟩) = _
    rw [run_alone (incrs B) [] 1 r _ (by simp)]
    show run (List.replicate a2.length 0) ⟨x2.1, [⟨x1.2, a2⟩, ⟨x2.2, []⟩]⟩ = _
    rw [run_alone a2 [] 0 x1.2 _ (by simp)]
    rfl
  have hlt : ∀ q, assign q < 2 := by
    intro q
    show (if keep q then 0 else 1) < 2
    split <;> omega
  refine ⟨x3.1, ⟨2, assign, _, ?_, ?_, by rw [hrun]⟩, ?_, ?_⟩
  · exact fun q _ => hlt q
  · rw [hrun]
    intro th hth
    simp only [List.mem_cons, List.not_mem_nil, or_false] at hth
    rcases hth with rfl | rfl <;> rfl
  · rw [hx3, hA, sumAt_flatten]
  · intro d hd
    rw [hx3' d hd, ← sum_share (sumAt d) assign 2 iters (fun q _ => hlt q), Finset.sum_range_succ, Finset.sum_range_one,
      hA, hB, sumAt_flatten, sumAt_flatten]

/-- The share of a thread that runs only the iteration `p`. -/
theorem share_single {α : Type} (l : List α) (p : Nat) (a : α) (hp : l[p]? = some a) :
    share (fun q => if decide (q = p) then 0 else 1) 0 l = [a] := by
  have key : ∀ (l : List α) (i : Nat),
      (((l.zipIdx i).filter (fun x => decide ((if decide (x.2 = p) then 0 else 1) = 0))).map Prod.fst)
        = if i ≤ p then (l[p - i]?).toList else [] := by
    intro l
    induction l with
    | nil => intro i; simp
    | cons a l ih =>
      intro i
      rw [List.zipIdx_cons, List.filter_cons]
      by_cases e : i = p
      · subst e
        simp only [decide_true, if_true, List.map_cons]
        rw [ih]
        simp
      · rw [if_neg (by simp [e]), ih]
        by_cases hi : i ≤ p
        · rw [if_pos (by omega), if_pos hi, show p - i = (p - (i + 1)) + 1 by omega, List.getElem?_cons_succ]
        · rw [if_neg (by omega), if_neg hi]
  have := key l 0
  rw [Nat.sub_zero, hp] at this
  simpa [share] using this

end lost

end Parallel

end Colloids
