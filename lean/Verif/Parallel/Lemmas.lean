import Verif.Parallel.Model
import Mathlib.Algebra.BigOperators.Group.Finset.Basic
import Mathlib.Algebra.BigOperators.Group.List.Basic
import Mathlib.Algebra.Order.BigOperators.Group.Finset
import Mathlib.Tactic.Abel

/-! # Parallel loops: what holds for every interleaving -/

namespace Colloids

namespace Parallel

variable {κ L V : Type} [DecidableEq κ]

theorem run_append (a b : List Nat) (s : State κ L V) : run (a ++ b) s = run b (run a s) := by
  simp [run]

/-- A thread that runs without the others. -/
theorem run_alone (pre rest : List (Instr κ L V)) (k : Nat) (r : L) (s : State κ L V)
    (h : s.threads[k]? = some ⟨r, pre ++ rest⟩) :
    run (List.replicate pre.length k) s
      = ⟨(execAll pre (s.mem, r)).1, s.threads.set k ⟨(execAll pre (s.mem, r)).2, rest⟩⟩ := by
  induction pre generalizing s r with
  | nil =>
    obtain ⟨mem, th⟩ := s
    simp only [List.nil_append] at h
    have := List.getElem?_eq_some_iff.1 h
    obtain ⟨hk, he⟩ := this
    simp only [run, List.length_nil, List.replicate_zero, List.foldl_nil, execAll, ← he, List.set_getElem_self]
  | cons i pre ih =>
    have hk : k < s.threads.length := (List.getElem?_eq_some_iff.1 h).1
    have h1 : step s k = ⟨(exec (s.mem, r) i).1, s.threads.set k ⟨(exec (s.mem, r) i).2, pre ++ rest⟩⟩ := by
      unfold step
      rw [h]
      rfl
    have := ih (exec (s.mem, r) i).2 (step s k) (by rw [h1]; simp [hk])
    rw [List.length_cons, List.replicate_succ]
    show run (List.replicate pre.length k) (step s k) = _
    rw [this, h1]
    simp [execAll]

/-- Instructions on the same cells give the same result. -/
theorem execAll_congr (l : List (Instr κ L V)) (m m' : κ → V) (r : L) (h : ∀ i ∈ l, m i.cell = m' i.cell) :
    (execAll l (m, r)).2 = (execAll l (m', r)).2 ∧
      ∀ c, m c = m' c → (execAll l (m, r)).1 c = (execAll l (m', r)).1 c := by
  induction l generalizing m m' r with
  | nil => exact ⟨rfl, fun c h => h⟩
  | cons i l ih =>
    have hi := h i (by simp)
    cases i with
    | load c put =>
      have hc : m c = m' c := hi
      have := ih m m' (put (m c) r) (fun i hi => h i (by simp [hi]))
      refine ⟨?_, fun d hd => ?_⟩
      · show (execAll l (m, put (m c) r)).2 = (execAll l (m', put (m' c) r)).2
        rw [← hc]
        exact this.1
      · show (execAll l (m, put (m c) r)).1 d = (execAll l (m', put (m' c) r)).1 d
        rw [← hc]
        exact this.2 d hd
    | store c get =>
      have hup : ∀ d, m d = m' d → Function.update m c (get r) d = Function.update m' c (get r) d := by
        intro d hd
        by_cases e : d = c
        · subst e; simp
        · simp [e, hd]
      have := ih (Function.update m c (get r)) (Function.update m' c (get r)) r
        (fun i hi => hup _ (h i (by simp [hi])))
      exact ⟨this.1, fun d hd => this.2 d (hup d hd)⟩

theorem execAll_other (l : List (Instr κ L V)) (m : κ → V) (r : L) (c : κ) (h : ∀ i ∈ l, i.cell ≠ c) :
    (execAll l (m, r)).1 c = m c := by
  induction l generalizing m r with
  | nil => rfl
  | cons i l ih =>
    show (execAll l (exec (m, r) i)).1 c = m c
    rw [show exec (m, r) i = ((exec (m, r) i).1, (exec (m, r) i).2) from rfl, ih _ _ (fun i hi => h i (by simp [hi]))]
    cases i with
    | load d put => rfl
    | store d get =>
      have : d ≠ c := h (.store d get) (by simp)
      simp [exec, Ne.symm this]

theorem step_length (s : State κ L V) (k : Nat) : (step s k).threads.length = s.threads.length := by
  unfold step
  split <;> simp

/-- A step is nothing or the next instruction of a thread. -/
theorem step_cases (s : State κ L V) (k : Nat) : step s k = s ∨ ∃ r i todo, s.threads[k]? = some ⟨r, i :: todo⟩ ∧
    step s k = ⟨(exec (s.mem, r) i).1, s.threads.set k ⟨(exec (s.mem, r) i).2, todo⟩⟩ := by
  cases h : s.threads[k]? with
  | none => left; unfold step; rw [h]
  | some th =>
    obtain ⟨r, todo⟩ := th
    cases todo with
    | nil => left; unfold step; rw [h]
    | cons i todo => exact Or.inr ⟨r, i, todo, rfl, by unfold step; rw [h]⟩

theorem run_induction {I : State κ L V → Prop} (hstep : ∀ s k, I s → I (step s k)) (sched : List Nat)
    (s : State κ L V) (h : I s) : I (run sched s) := by
  induction sched generalizing s with
  | nil => exact h
  | cons k sched ih => exact ih _ (hstep s k h)

/-- What a thread sees of the memory does not depend on the others if they do not use its cells. -/
theorem private_inv (T0 : List (Thread κ L V)) (m0 : κ → V) (k : Nat) (own : κ → Prop)
    (hown : ∀ th, T0[k]? = some th → ∀ i ∈ th.todo, own i.cell)
    (hoth : ∀ j th, j ≠ k → T0[j]? = some th → ∀ i ∈ th.todo, ¬ own i.cell) (th0 : Thread κ L V)
    (hk : T0[k]? = some th0) (sched : List Nat) :
    ∃ th, (run sched ⟨m0, T0⟩).threads[k]? = some th ∧
      (execAll th.todo ((run sched ⟨m0, T0⟩).mem, th.reg)).2 = (execAll th0.todo (m0, th0.reg)).2 ∧
      ∀ c, own c →
        (execAll th.todo ((run sched ⟨m0, T0⟩).mem, th.reg)).1 c = (execAll th0.todo (m0, th0.reg)).1 c := by
  let I : State κ L V → Prop := fun s =>
    (∀ j th, j ≠ k → s.threads[j]? = some th → ∀ i ∈ th.todo, ¬ own i.cell) ∧
    ∃ th, s.threads[k]? = some th ∧ (∀ i ∈ th.todo, own i.cell) ∧
      (execAll th.todo (s.mem, th.reg)).2 = (execAll th0.todo (m0, th0.reg)).2 ∧
      ∀ c, own c → (execAll th.todo (s.mem, th.reg)).1 c = (execAll th0.todo (m0, th0.reg)).1 c
  suffices h : I (run sched ⟨m0, T0⟩) by
    obtain ⟨-, th, h1, -, h2, h3⟩ := h
    exact ⟨th, h1, h2, h3⟩
  apply run_induction
  · rintro s j ⟨h1, th, h2, h3, h4, h5⟩
    rcases step_cases s j with e | ⟨r, i, todo, hj, e⟩
    · rw [e]
      exact ⟨h1, th, h2, h3, h4, h5⟩
    · have hjl : j < s.threads.length := (List.getElem?_eq_some_iff.1 hj).1
      by_cases hjk : j = k
      · subst hjk
        rw [hj] at h2
        cases h2
        rw [e]
        refine ⟨?_, ⟨(exec (s.mem, r) i).2, todo⟩, by simp [hjl], fun i' hi' => h3 i' (by simp [hi']), h4, h5⟩
        intro j' th' hj' hth'
        simp only at hth'
        rw [List.getElem?_set_ne (Ne.symm hj')] at hth'
        exact h1 j' th' hj' hth'
      · have hc : ¬ own i.cell := h1 j _ hjk hj i (by simp)
        have hmem : ∀ c, own c → (exec (s.mem, r) i).1 c = s.mem c := by
          intro c hc'
          exact execAll_other [i] s.mem r c (by
            intro i' hi'
            simp only [List.mem_singleton] at hi'
            subst hi'
            rintro rfl
            exact hc hc')
        rw [e]
        have hco := execAll_congr th.todo (exec (s.mem, r) i).1 s.mem th.reg (fun i' hi' => hmem _ (h3 i' hi'))
        refine ⟨?_, th, ?_, h3, ?_, ?_⟩
        · intro j' th' hj' hth'
          simp only at hth'
          by_cases ej : j' = j
          · subst ej
            rw [List.getElem?_set_self hjl] at hth'
            cases hth'
            exact fun i' hi' => h1 j' _ hj' hj i' (by simp [hi'])
          · rw [List.getElem?_set_ne (Ne.symm ej)] at hth'
            exact h1 j' th' hj' hth'
        · simp only
          rw [List.getElem?_set_ne hjk]
          exact h2
        · exact hco.1.trans h4
        · intro c hc'
          exact (hco.2 c (hmem c hc')).trans (h5 c hc')
  · exact ⟨hoth, th0, hk, hown th0 hk, rfl, fun _ _ => rfl⟩

/-- The memory of a cell that only a thread uses. -/
theorem private_cell (T0 : List (Thread κ L V)) (m0 : κ → V) (k : Nat) (own : κ → Prop)
    (hown : ∀ th, T0[k]? = some th → ∀ i ∈ th.todo, own i.cell)
    (hoth : ∀ j th, j ≠ k → T0[j]? = some th → ∀ i ∈ th.todo, ¬ own i.cell) (th0 : Thread κ L V)
    (hk : T0[k]? = some th0) (sched : List Nat) (hd : Done (run sched ⟨m0, T0⟩)) (c : κ) (hc : own c) :
    (run sched ⟨m0, T0⟩).mem c = (execAll th0.todo (m0, th0.reg)).1 c := by
  obtain ⟨th, h1, -, h2⟩ := private_inv T0 m0 k own hown hoth th0 hk sched
  have := h2 c hc
  rw [hd th (List.mem_of_getElem? h1)] at this
  exact this

/-- A cell that no thread uses. -/
theorem unused_cell (s : State κ L V) (c : κ) (h : ∀ th ∈ s.threads, ∀ i ∈ th.todo, i.cell ≠ c) (sched : List Nat) :
    (run sched s).mem c = s.mem c := by
  let I : State κ L V → Prop := fun s' => (∀ th ∈ s'.threads, ∀ i ∈ th.todo, i.cell ≠ c) ∧ s'.mem c = s.mem c
  suffices hI : I (run sched s) from hI.2
  apply run_induction
  · rintro s' k ⟨h1, h2⟩
    rcases step_cases s' k with e | ⟨r, i, todo, hk, e⟩
    · rw [e]; exact ⟨h1, h2⟩
    · have hm := List.mem_of_getElem? hk
      rw [e]
      refine ⟨?_, ?_⟩
      · intro th hth j hj
        rcases List.mem_or_eq_of_mem_set hth with hth | rfl
        · exact h1 th hth j hj
        · exact h1 _ hm j (by simp [hj])
      · rw [← h2]
        exact execAll_other [i] s'.mem r c (fun j hj => by
          simp only [List.mem_singleton] at hj
          subst hj
          exact h1 _ hm j (by simp))
  · exact ⟨h, rfl⟩

/-- Blocks of instructions on disjoint cells, one after the other. -/
theorem execAll_blocks (own : Nat → κ → Prop) (hdisj : ∀ p q c, own p c → own q c → p = q) (r0 : L)
    (bs : List (List (Instr κ L V) × Nat)) (hnd : (bs.map Prod.snd).Nodup)
    (hcell : ∀ b ∈ bs, ∀ i ∈ b.1, own b.2 i.cell)
    (hreg : ∀ b ∈ bs, ∀ m r c, own b.2 c → (execAll b.1 (m, r)).1 c = (execAll b.1 (m, r0)).1 c) (m : κ → V) (r : L)
    (b : List (Instr κ L V) × Nat) (hb : b ∈ bs) (c : κ) (hc : own b.2 c) :
    (execAll (bs.map Prod.fst).flatten (m, r)).1 c = (execAll b.1 (m, r0)).1 c := by
  induction bs generalizing m r with
  | nil => simp at hb
  | cons a bs ih =>
    rw [List.map_cons, List.nodup_cons] at hnd
    have happ : execAll (List.map Prod.fst (a :: bs)).flatten (m, r)
        = execAll (bs.map Prod.fst).flatten ((execAll a.1 (m, r)).1, (execAll a.1 (m, r)).2) := by
      simp [execAll]
    rw [happ]
    by_cases hab : b = a
    · subst hab
      rw [execAll_other]
      · exact hreg b (by simp) m r c hc
      · intro i hi hic
        obtain ⟨l, hl, hi⟩ := List.mem_flatten.1 hi
        obtain ⟨b', hb', rfl⟩ := List.mem_map.1 hl
        have hown := hcell b' (by simp [hb']) i hi
        rw [hic] at hown
        exact hnd.1 (List.mem_map.2 ⟨b', hb', hdisj _ _ c hown hc⟩)
    · have hb' : b ∈ bs := by simpa [hab] using hb
      have hne : b.2 ≠ a.2 := fun e => hnd.1 (List.mem_map.2 ⟨b, hb', e⟩)
      rw [ih hnd.2 (fun b' h => hcell b' (by simp [h])) (fun b' h => hreg b' (by simp [h])) _ _ hb']
      have hsame : ∀ d, own b.2 d → (execAll a.1 (m, r)).1 d = m d := fun d hd => execAll_other a.1 m r d (by
        intro i hi hid
        have := hcell a (by simp) i hi
        rw [hid] at this
        exact hne (hdisj _ _ d hd this))
      exact (execAll_congr b.1 _ m r0 (fun i hi => hsame _ (hcell b hb i hi))).2 c (hsame c hc)

/-- A parallel loop of which the iterations use disjoint cells: the cells of an iteration are what it makes of them,
whatever the number of threads, the distribution and the interleaving. -/
theorem ends_private (r : L) (iters : List (List (Instr κ L V))) (own : Nat → κ → Prop)
    (hdisj : ∀ p q c, own p c → own q c → p = q)
    (hcell : ∀ p l, iters[p]? = some l → ∀ i ∈ l, own p i.cell)
    (hreg : ∀ p l, iters[p]? = some l → ∀ m r' c, own p c → (execAll l (m, r')).1 c = (execAll l (m, r)).1 c)
    (mem mem' : κ → V) (he : Ends r iters mem mem') :
    (∀ p l, iters[p]? = some l → ∀ c, own p c → mem' c = (execAll l (mem, r)).1 c) ∧
      ∀ c, (∀ p < iters.length, ¬ own p c) → mem' c = mem c := by
  obtain ⟨n, assign, sched, ha, hd, rfl⟩ := he
  constructor
  · intro p l hp c hc
    have hpl : p < iters.length := (List.getElem?_eq_some_iff.1 hp).1
    set T0 : List (Thread κ L V) := (List.range n).map (fun k => ⟨r, (share assign k iters).flatten⟩) with hT
    have hget : ∀ (j : Nat) (th : Thread κ L V), T0[j]? = some th → th = ⟨r, (share assign j iters).flatten⟩ := by
      intro j th hj
      by_cases hjn : j < n
      · have : T0[j]? = some ⟨r, (share assign j iters).flatten⟩ := by rw [hT]; simp [hjn]
        rw [this] at hj
        cases hj
        rfl
      · rw [List.getElem?_eq_none (by rw [hT]; simp; omega)] at hj
        cases hj
    have hin : ∀ j i, i ∈ (share assign j iters).flatten → ∃ q, assign q = j ∧ own q i.cell := by
      intro j i hi
      obtain ⟨l', hl', hi⟩ := List.mem_flatten.1 hi
      unfold share at hl'
      obtain ⟨x, hx, rfl⟩ := List.mem_map.1 hl'
      rw [List.mem_filter] at hx
      exact ⟨x.2, by simpa using hx.2, hcell x.2 x.1 (List.mem_zipIdx_iff_getElem?.1 hx.1) i hi⟩
    have h1 := private_cell T0 mem (assign p) (fun c => ∃ q, assign q = assign p ∧ own q c)
      (fun th hth i hi => by
        rw [hget _ th hth] at hi
        exact hin _ i hi)
      (fun j th hj hth i hi => by
        rw [hget _ th hth] at hi
        rintro ⟨q, hq, hqo⟩
        obtain ⟨q', hq', hqo'⟩ := hin _ i hi
        rw [hdisj q q' _ hqo hqo'] at hq
        exact hj (hq'.symm.trans hq))
      ⟨r, (share assign (assign p) iters).flatten⟩ (by rw [hT]; simp [ha p hpl]) sched hd c ⟨p, rfl, hc⟩
    show (run sched ⟨mem, T0⟩).mem c = _
    rw [h1]
    unfold share
    apply execAll_blocks own hdisj r _ _ _ _ mem r (l, p) _ c hc
    · have : ((iters.zipIdx).map Prod.snd).Nodup := by
        rw [List.zipIdx_map_snd]
        exact List.nodup_range'
      exact this.sublist (List.filter_sublist.map _)
    · intro b hb i hi
      rw [List.mem_filter] at hb
      exact hcell b.2 b.1 (List.mem_zipIdx_iff_getElem?.1 hb.1) i hi
    · intro b hb m r' c' hc'
      rw [List.mem_filter] at hb
      exact hreg b.2 b.1 (List.mem_zipIdx_iff_getElem?.1 hb.1) m r' c' hc'
    · rw [List.mem_filter]
      exact ⟨List.mem_zipIdx_iff_getElem?.2 hp, by simp⟩
  · intro c hc
    refine unused_cell (start n assign r iters mem) c ?_ sched
    intro th hth i hi hic
    unfold start at hth
    obtain ⟨k, -, rfl⟩ := List.mem_map.1 hth
    obtain ⟨l', hl', hi⟩ := List.mem_flatten.1 hi
    unfold share at hl'
    obtain ⟨x, hx, rfl⟩ := List.mem_map.1 hl'
    rw [List.mem_filter] at hx
    have hg := List.mem_zipIdx_iff_getElem?.1 hx.1
    have := hcell x.2 x.1 hg i hi
    rw [hic] at this
    exact hc x.2 (List.getElem?_eq_some_iff.1 hg).1 this

end Parallel

end Colloids
