import Verif.Parallel.BinnerModel
import Verif.Parallel.Incr
import Verif.Rdf.Props

/-! # Properties of the radial distribution function with several threads -/

namespace Colloids

namespace Parallel

open Particles Rdf

theorem mem_mapM {α β : Type} (f : α → R β) (l : List α) (l' : List β) (h : l.mapM f = .ok l') (b : β) (hb : b ∈ l') :
    ∃ a, f a = .ok b := by
  induction l generalizing l' with
  | nil =>
    rw [List.mapM_nil, pure_eq_ok] at h
    cases h
    simp at hb
  | cons a l ih =>
    rw [List.mapM_cons] at h
    obtain ⟨b', hb', h⟩ := bind_ok.1 h
    obtain ⟨l'', hl'', h⟩ := bind_ok.1 h
    cases h
    rcases List.mem_cons.1 hb with rfl | hb
    · exact ⟨a, hb'⟩
    · exact ih l'' hl'' hb

theorem bin_ops (ps : Particles ℝ) (scale : ℝ) (n p q : Nat) (f : Nat → Nat) (c : Nat) :
    bin ps scale (tab n f, c) p q = (binOps ps scale n p q).map (fun ops =>
      (tab n (fun b => f b + sumAt (.bin b) ops), c + sumAt .count ops)) := by
  unfold bin binOps
  cases hy : ps.at_ q with
  | error e => rfl
  | ok y =>
    cases hx : ps.at_ p with
    | error e => rfl
    | ok x =>
      rw [ok_bind, ok_bind, ok_bind, ok_bind]
      simp only
      by_cases h : ⌊√(dot3 (y - x) (y - x)) * scale⌋₊ < n
      · rw [if_pos h, Boo.modifyR_tab _ h, ok_bind, pure_eq_ok, pure_eq_ok]
        show _ = Except.ok _
        congr 2
        apply tab_congr
        intro b _
        by_cases e : b = ⌊√(dot3 (y - x) (y - x)) * scale⌋₊
        · rw [if_pos e, ← e]
          simp
        · rw [if_neg e]
          simp [Ne.symm e]
      · rw [if_neg h]
        unfold modifyR
        rw [if_neg (by rw [tab_length]; exact h)]
        rfl

theorem row_ops (ps : Particles ℝ) (scale : ℝ) (n p : Nat) (around : List Nat) (f : Nat → Nat) (c : Nat) :
    around.foldlM (fun s q => bin ps scale s p q) (tab n f, c) = (around.mapM (binOps ps scale n p)).map (fun ops =>
      (tab n (fun b => f b + sumAt (.bin b) ops.flatten), c + sumAt .count ops.flatten)) := by
  induction around generalizing f c with
  | nil => simp [pure_eq_ok, Except.map]
  | cons q around ih =>
    rw [List.foldlM_cons, bin_ops, List.mapM_cons]
    cases hq : binOps ps scale n p q with
    | error e => rfl
    | ok o =>
      show (around.foldlM _ (_, _)) = _
      rw [ih, ok_bind]
      cases hr : around.mapM (binOps ps scale n p) with
      | error e => rfl
      | ok ops =>
        rw [ok_bind, pure_eq_ok]
        simp only [Except.map, List.flatten_cons, sumAt_append, Nat.add_assoc]

theorem fill_ops (ps : Particles ℝ) (cutoff scale : ℝ) (n : Nat) (selection : List Nat) (f : Nat → Nat) (c : Nat) :
    fill ps cutoff scale selection (tab n f, c) = (fillIters ps cutoff scale n selection).map (fun iters =>
      (tab n (fun b => f b + (iters.map (sumAt (.bin b))).sum), c + (iters.map (sumAt .count)).sum)) := by
  induction selection generalizing f c with
  | nil => simp [fill, fillIters, pure_eq_ok, Except.map]
  | cons p selection ih =>
    unfold fill fillIters at ih ⊢
    rw [List.foldlM_cons, List.mapM_cons]
    unfold fillIter at ih ⊢
    cases hN : getEuclidianNeighboursOf geometry ps p cutoff with
    | error e => rfl
    | ok N =>
      rw [ok_bind, row_ops]
      cases ho : N.mapM (binOps ps scale n p) with
      | error e =>
        rw [ok_bind, ho]
        rfl
      | ok ops =>
        rw [ok_bind, ho, ok_bind, pure_eq_ok, ok_bind]
        show (selection.foldlM _ (_, _)) = _
        rw [ih]
        cases hr : selection.mapM (fun p => (do
            let around ← getEuclidianNeighboursOf geometry ps p cutoff
            let ops ← around.mapM (binOps ps scale n p)
            pure ops.flatten : R _)) with
        | error e => rfl
        | ok its =>
          rw [ok_bind, pure_eq_ok]
          simp only [Except.map, List.map_cons, List.sum_cons, Nat.add_assoc]

/-- The increments of an iteration are the pairs of the particle. -/
theorem iter_pairs {P : RParams ℝ} {H : Heur 3 ℝ} (hP : P.Valid) (hH : H.Valid P) {ps : Particles ℝ}
    (hps : Indexed P H ps) (cutoff : ℝ) (n : Nat) (hn : 0 < n) (p : Nat) (hp : p < ps.pos.length) :
    ∃ l, fillIter ps cutoff (n / cutoff) n p = .ok l ∧ (∀ x ∈ l, 0 < x.2) ∧
      ∀ b < n, sumAt (.bin b) l = pairsInShell ps [p] cutoff (b * cutoff / n) ((b + 1) * cutoff / n) := by
  obtain ⟨c', hc⟩ := fill_eq hP hH hps cutoff n hn [p] (by simpa using hp) (fun _ => 0) 0
  rw [fill_ops] at hc
  unfold fillIters at hc
  rw [List.mapM_cons, List.mapM_nil] at hc
  cases hl : fillIter ps cutoff (n / cutoff) n p with
  | error e => rw [hl] at hc; cases hc
  | ok l =>
    rw [hl, ok_bind, pure_eq_ok, ok_bind, pure_eq_ok] at hc
    refine ⟨l, rfl, ?_, ?_⟩
    · -- every increment is one
      unfold fillIter at hl
      obtain ⟨N, -, hl⟩ := bind_ok.1 hl
      obtain ⟨ops, hops, hl⟩ := bind_ok.1 hl
      cases hl
      intro x hx
      obtain ⟨o, ho, hx⟩ := List.mem_flatten.1 hx
      have := mem_mapM _ N ops hops o ho
      obtain ⟨q, hq⟩ := this
      unfold binOps at hq
      obtain ⟨y, -, hq⟩ := bind_ok.1 hq
      obtain ⟨x', -, hq⟩ := bind_ok.1 hq
      simp only at hq
      split at hq
      · cases hq
        simp only [List.mem_cons, List.not_mem_nil, or_false] at hx
        rcases hx with rfl | rfl <;> exact Nat.one_pos
      · cases hq
    · intro b hb
      have := congrArg (fun r => match r with | Except.ok (g, _) => g[b]? | _ => none) hc
      simpa [Except.map, tab, hb] using this

theorem iters_pairs {P : RParams ℝ} {H : Heur 3 ℝ} (hP : P.Valid) (hH : H.Valid P) {ps : Particles ℝ}
    (hps : Indexed P H ps) (cutoff : ℝ) (n : Nat) (hn : 0 < n) (selection : List Nat)
    (hsel : ∀ p ∈ selection, p < ps.pos.length) :
    ∃ iters, fillIters ps cutoff (n / cutoff) n selection = .ok iters ∧ (∀ l ∈ iters, ∀ x ∈ l, 0 < x.2) ∧
      iters.length = selection.length ∧
      (∀ (i p : Nat), selection[i]? = some p → ∃ l, iters[i]? = some l ∧
        ∀ b < n, sumAt (.bin b) l = pairsInShell ps [p] cutoff (b * cutoff / n) ((b + 1) * cutoff / n)) ∧
      ∀ b < n, (iters.map (sumAt (.bin b))).sum
        = pairsInShell ps selection cutoff (b * cutoff / n) ((b + 1) * cutoff / n) := by
  induction selection with
  | nil => exact ⟨[], rfl, by simp, rfl, by simp, by simp [pairsInShell]⟩
  | cons p selection ih =>
    obtain ⟨l, h1, h2, h3⟩ := iter_pairs hP hH hps cutoff n hn p (hsel p (by simp))
    obtain ⟨iters, h4, h5, h5', h6, h7⟩ := ih (fun q hq => hsel q (by simp [hq]))
    refine ⟨l :: iters, ?_, ?_, by simp [h5'], ?_, ?_⟩
    · unfold fillIters at h4 ⊢
      rw [List.mapM_cons, h1, ok_bind, h4, ok_bind, pure_eq_ok]
    · intro l' hl'
      rcases List.mem_cons.1 hl' with rfl | hl'
      · exact h2
      · exact h5 l' hl'
    · intro i q hi
      cases i with
      | zero =>
        simp only [List.getElem?_cons_zero, Option.some.injEq] at hi
        subst hi
        exact ⟨l, rfl, h3⟩
      | succ i => exact h6 i q (by simpa using hi)
    · intro b hb
      rw [List.map_cons, List.sum_cons, h3 b hb, h7 b hb]
      simp [pairsInShell]

/-- **C134** (the sequential loop is the loop with one thread): the result of the model of C50 is the sum of the
increments of the iterations, or the same fault. -/
theorem C134_sequential (ps : Particles ℝ) (cutoff scale : ℝ) (n : Nat) (selection : List Nat) :
    match fillIters ps cutoff scale n selection with
    | .error e => fill ps cutoff scale selection (List.replicate n 0, 0) = .error e
    | .ok iters => ∃ g h c, fill ps cutoff scale selection (List.replicate n 0, 0) = .ok (g, c) ∧
        FillEnds iters (fun _ => 0) h ∧ g.length = n ∧ ∀ b < n, g[b]? = some (h b) := by
  have h := fill_ops ps cutoff scale n selection (fun _ => 0) 0
  rw [← replicate_eq_tab] at h
  cases hi : fillIters ps cutoff scale n selection with
  | error e => rw [hi] at h; exact h
  | ok iters =>
    rw [hi] at h
    refine ⟨_, fun b => 0 + (iters.map (sumAt (.bin b))).sum, _, h,
      ⟨fun _ => 0, _, ends_sum 0 iters (fun _ => 0), fun _ => rfl, fun _ => rfl⟩, tab_length _ _, ?_⟩
    intro b hb
    simp [tab, hb]

/-- **C134** (bounds): whatever the number of threads, the distribution of the particles of the selection and the
interleaving, a bin never counts more than its pairs, and counts at least one if it has one. -/
theorem C134_bounds_partial {P : RParams ℝ} {H : Heur 3 ℝ} (hP : P.Valid) (hH : H.Valid P) {ps : Particles ℝ}
    (hps : Indexed P H ps) (cutoff : ℝ) (n : Nat) (hn : 0 < n) (selection : List Nat)
    (hsel : ∀ p ∈ selection, p < ps.pos.length) :
    ∃ iters, fillIters ps cutoff (n / cutoff) n selection = .ok iters ∧ ∀ g h, FillEnds iters g h → ∀ b < n,
      h b ≤ g b + pairsInShell ps selection cutoff (b * cutoff / n) ((b + 1) * cutoff / n) ∧
      (0 < pairsInShell ps selection cutoff (b * cutoff / n) ((b + 1) * cutoff / n) → g b < h b) := by
  obtain ⟨iters, h1, h2, -, -, h3⟩ := iters_pairs hP hH hps cutoff n hn selection hsel
  refine ⟨iters, h1, ?_⟩
  rintro g h ⟨mem, mem', he, hg, hh⟩ b hb
  obtain ⟨h4, h5, h6⟩ := race_bounds 0 iters (fun l hl x hx => Nat.zero_le _) mem mem' he (.bin b)
  rw [hg, hh, h3 b hb] at h4
  refine ⟨h4, fun hpos => ?_⟩
  rw [← h3 b hb] at hpos
  have hex : ∃ l ∈ iters, ∃ x ∈ l, x.1 = Cell.bin b := by
    by_contra hno
    push Not at hno
    rw [List.sum_eq_zero] at hpos
    · exact absurd hpos (lt_irrefl _)
    · intro x hx
      obtain ⟨l, hl, rfl⟩ := List.mem_map.1 hx
      exact sumAt_of_not_mem _ _ (hno l hl)
  obtain ⟨l, hl, x, hx, -, hle⟩ := h6 hex
  have := h2 l hl x hx
  rw [hg, hh] at hle
  omega

/-- **C134** (counterexample): with two threads, a bin can count only the pairs of one particle of the selection,
whichever it is; the pairs of all the others are lost. -/
theorem C134_lost_counterexample {P : RParams ℝ} {H : Heur 3 ℝ} (hP : P.Valid) (hH : H.Valid P) {ps : Particles ℝ}
    (hps : Indexed P H ps) (cutoff : ℝ) (n : Nat) (hn : 0 < n) (selection : List Nat)
    (hsel : ∀ p ∈ selection, p < ps.pos.length) (p : Nat) (hp : p ∈ selection) (b : Nat) (hb : b < n)
    (hpair : 0 < pairsInShell ps [p] cutoff (b * cutoff / n) ((b + 1) * cutoff / n)) :
    ∃ iters, fillIters ps cutoff (n / cutoff) n selection = .ok iters ∧ ∀ g, ∃ h, FillEnds iters g h ∧
      h b = g b + pairsInShell ps [p] cutoff (b * cutoff / n) ((b + 1) * cutoff / n) := by
  obtain ⟨iters, h1, -, -, h2, -⟩ := iters_pairs hP hH hps cutoff n hn selection hsel
  refine ⟨iters, h1, fun g => ?_⟩
  obtain ⟨i, hi⟩ := List.getElem?_of_mem hp
  obtain ⟨l, hl, hs⟩ := h2 i p hi
  have hex : ∃ x ∈ l, x.1 = Cell.bin b := by
    by_contra hno
    push Not at hno
    rw [← hs b hb, sumAt_of_not_mem _ _ hno] at hpair
    exact absurd hpair (lt_irrefl _)
  obtain ⟨mem', he, hm, -⟩ := ends_lost 0 iters (fun c => match c with | .bin r => g r | .count => 0) (.bin b)
    (fun q => decide (q = i)) i l hl (by simp) hex
  refine ⟨fun r => mem' (.bin r), ⟨_, mem', he, fun _ => rfl, fun _ => rfl⟩, ?_⟩
  show mem' (.bin b) = _
  rw [hm, share_single iters i l hl]
  simp [hs b hb]

/-- **C134** (exact bins): a bin whose pairs are all those of one particle of the selection is exact, whatever the
threads do. -/
theorem C134_single {P : RParams ℝ} {H : Heur 3 ℝ} (hP : P.Valid) (hH : H.Valid P) {ps : Particles ℝ}
    (hps : Indexed P H ps) (cutoff : ℝ) (n : Nat) (hn : 0 < n) (selection : List Nat) (hnd : selection.Nodup)
    (hsel : ∀ p ∈ selection, p < ps.pos.length) (p : Nat) (hp : p ∈ selection) (b : Nat) (hb : b < n)
    (hone : ∀ q ∈ selection, q ≠ p → pairsInShell ps [q] cutoff (b * cutoff / n) ((b + 1) * cutoff / n) = 0) :
    ∃ iters, fillIters ps cutoff (n / cutoff) n selection = .ok iters ∧ ∀ g h, FillEnds iters g h →
      h b = g b + pairsInShell ps selection cutoff (b * cutoff / n) ((b + 1) * cutoff / n) := by
  obtain ⟨iters, h1, h2, h3, h4, h5⟩ := iters_pairs hP hH hps cutoff n hn selection hsel
  refine ⟨iters, h1, ?_⟩
  rintro g h ⟨mem, mem', he, hg, hh⟩
  obtain ⟨i, hi⟩ := List.getElem?_of_mem hp
  obtain ⟨l, hl, hs⟩ := h4 i p hi
  have hoth : ∀ q l', q ≠ i → iters[q]? = some l' → ∀ x ∈ l', x.1 ≠ Cell.bin b := by
    intro q l' hq hl' x hx hxb
    have hql : q < selection.length := by rw [← h3]; exact (List.getElem?_eq_some_iff.1 hl').1
    obtain ⟨l'', hl'', hs'⟩ := h4 q selection[q] (by simp [hql])
    rw [hl'] at hl''
    cases hl''
    have hne : selection[q] ≠ p := by
      intro e
      have hil : i < selection.length := (List.getElem?_eq_some_iff.1 hi).1
      have hip : selection[i] = p := (List.getElem?_eq_some_iff.1 hi).2
      exact hq ((List.Nodup.getElem_inj_iff hnd).1 (e.trans hip.symm))
    have h0 := hone selection[q] (by simp) hne
    rw [← hs' b hb] at h0
    have hpos := h2 l' (List.mem_of_getElem? hl') x hx
    unfold sumAt at h0
    have := List.sum_eq_zero_iff.1 h0 x.2 (List.mem_map.2 ⟨x, hx, by rw [if_pos hxb]⟩)
    omega
  have := race_single 0 iters mem mem' he (.bin b) i l hl hoth
  rw [hg, hh] at this
  rw [this, ← h5 b hb]
  congr 1
  have hz : ∀ (it : List (List (Cell × Nat))) (j : Nat), it[j]? = some l →
      (∀ q l', q ≠ j → it[q]? = some l' → sumAt (.bin b) l' = 0) →
      sumAt (.bin b) l = (it.map (sumAt (.bin b))).sum := by
    intro it
    induction it with
    | nil => intro j hj; simp at hj
    | cons a it ih =>
      intro j hj hz
      cases j with
      | zero =>
        simp only [List.getElem?_cons_zero, Option.some.injEq] at hj
        subst hj
        rw [List.map_cons, List.sum_cons, List.sum_eq_zero (l := it.map _), add_zero]
        intro y hy
        obtain ⟨l', hl', rfl⟩ := List.mem_map.1 hy
        obtain ⟨q, hq⟩ := List.getElem?_of_mem hl'
        exact hz (q + 1) l' (by omega) (by simpa using hq)
      | succ j =>
        rw [List.map_cons, List.sum_cons, hz 0 a (by omega) (by simp), zero_add]
        exact ih j (by simpa using hj) (fun q l' hq hl' => hz (q + 1) l' (by omega) (by simpa using hl'))
  exact hz iters i hl (fun q l' hq hl' => sumAt_of_not_mem _ _ (hoth q l' hq hl'))

/-- Two particles at distance 1, both in the selection: the bin has two pairs and can count one. -/
example : ∃ (P : RParams ℝ) (H : Heur 3 ℝ) (ps : Particles ℝ), P.Valid ∧ H.Valid P ∧ Indexed P H ps ∧ ∃ iters h, fillIters ps 2 ((2 : Nat) / 2) 2 [0, 1] = .ok iters ∧ FillEnds iters (fun _ => 0) h ∧ h 1 = 1 ∧
      pairsInShell ps [0, 1] 2 1 2 = 2 := by
  have hP := stdParams_valid (1000 : ℝ) (1 / 1000)
  have hH := exHeur_valid (d := 3) hP
  obtain ⟨ps, hps, hpos, -⟩ := indexed_exists hP hH [![0, 0, 0], ![1, 0, 0]] ⟨fun _ => 0, fun _ => 10⟩ 1
  refine ⟨_, _, ps, hP, hH, hps, ?_⟩
  have hd : Rdf.dist (![0, 0, 0] : Coord ℝ) ![1, 0, 0] = 1 := by simp [Rdf.dist, sqDist, Fin.sum_univ_three]
  have hd' : Rdf.dist (![1, 0, 0] : Coord ℝ) ![0, 0, 0] = 1 := by simp [Rdf.dist, sqDist, Fin.sum_univ_three]
  have h01 : InShell ps 2 1 2 0 1 := ⟨by decide, _, _, by rw [hpos]; rfl, by rw [hpos]; rfl, by rw [hd]; norm_num,
    by rw [hd], by rw [hd]; norm_num⟩
  have h10 : InShell ps 2 1 2 1 0 := ⟨by decide, _, _, by rw [hpos]; rfl, by rw [hpos]; rfl, by rw [hd']; norm_num,
    by rw [hd'], by rw [hd']; norm_num⟩
  have h00 : ¬ InShell ps 2 1 2 0 0 := fun h => h.1 rfl
  have h11 : ¬ InShell ps 2 1 2 1 1 := fun h => h.1 rfl
  have e0 : pairsInShell ps [0] 2 1 2 = 1 := by
    simp [pairsInShell, hpos, List.range_succ, h00, h01]
  have e1 : pairsInShell ps [1] 2 1 2 = 1 := by
    simp [pairsInShell, hpos, List.range_succ, h10, h11]
  have e2 : pairsInShell ps [0, 1] 2 1 2 = 2 := by
    simp [pairsInShell, hpos, List.range_succ, h10, h11, h00, h01]
  have c1 : (((1 : Nat) : ℝ) * 2 / ((2 : Nat) : ℝ)) = 1 := by norm_num
  have c2 : ((((1 : Nat) : ℝ) + 1) * 2 / ((2 : Nat) : ℝ)) = 2 := by norm_num
  obtain ⟨iters, h1, h2⟩ := C134_lost_counterexample hP hH hps 2 2 (by norm_num) [0, 1] (by simp [hpos]) 0 (by simp) 1
    (by norm_num) (by rw [c1, c2, e0]; norm_num)
  obtain ⟨h, h3, h4⟩ := h2 (fun _ => 0)
  rw [c1, c2, e0] at h4
  exact ⟨iters, h, h1, h3, by simpa using h4, e2⟩

/-- A particle with a neighbour and a particle far from both in the selection: the bin is exact. -/
example : ∃ (P : RParams ℝ) (H : Heur 3 ℝ) (ps : Particles ℝ), P.Valid ∧ H.Valid P ∧ Indexed P H ps ∧
    ∃ iters, fillIters ps 2 ((2 : Nat) / 2) 2 [0, 1] = .ok iters ∧ ∀ h, FillEnds iters (fun _ => 0) h → h 1 = 1 := by
  have hP := stdParams_valid (1000 : ℝ) (1 / 1000)
  have hH := exHeur_valid (d := 3) hP
  obtain ⟨ps, hps, hpos, -⟩ := indexed_exists hP hH [![0, 0, 0], ![100, 0, 0], ![1, 0, 0]]
    ⟨fun _ => 0, fun _ => 10⟩ 1
  refine ⟨_, _, ps, hP, hH, hps, ?_⟩
  have hd : Rdf.dist (![0, 0, 0] : Coord ℝ) ![1, 0, 0] = 1 := by simp [Rdf.dist, sqDist, Fin.sum_univ_three]
  have hd1 : Rdf.dist (![100, 0, 0] : Coord ℝ) ![0, 0, 0] = 100 := by
    simp only [Rdf.dist, sqDist, Fin.sum_univ_three]
    rw [show (√_ : ℝ) = √(100 ^ 2) by congr 1; simp]
    exact Real.sqrt_sq (by norm_num)
  have hd2 : Rdf.dist (![100, 0, 0] : Coord ℝ) ![1, 0, 0] = 99 := by
    simp only [Rdf.dist, sqDist, Fin.sum_univ_three]
    rw [show (√_ : ℝ) = √(99 ^ 2) by congr 1; simp; norm_num]
    exact Real.sqrt_sq (by norm_num)
  have hd3 : Rdf.dist (![0, 0, 0] : Coord ℝ) ![100, 0, 0] = 100 := by
    simp only [Rdf.dist, sqDist, Fin.sum_univ_three]
    rw [show (√_ : ℝ) = √(100 ^ 2) by congr 1; simp]
    exact Real.sqrt_sq (by norm_num)
  have h02 : InShell ps 2 1 2 0 2 := ⟨by decide, _, _, by rw [hpos]; rfl, by rw [hpos]; rfl, by rw [hd]; norm_num,
    by rw [hd], by rw [hd]; norm_num⟩
  have h00 : ¬ InShell ps 2 1 2 0 0 := fun h => h.1 rfl
  have h11 : ¬ InShell ps 2 1 2 1 1 := fun h => h.1 rfl
  have h10 : ¬ InShell ps 2 1 2 1 0 := by
    rintro ⟨-, x, y, hx, hy, h, -⟩
    rw [hpos] at hx hy
    cases hx; cases hy
    rw [hd1] at h
    norm_num at h
  have h12 : ¬ InShell ps 2 1 2 1 2 := by
    rintro ⟨-, x, y, hx, hy, h, -⟩
    rw [hpos] at hx hy
    cases hx; cases hy
    rw [hd2] at h
    norm_num at h
  have h01 : ¬ InShell ps 2 1 2 0 1 := by
    rintro ⟨-, x, y, hx, hy, h, -⟩
    rw [hpos] at hx hy
    cases hx; cases hy
    rw [hd3] at h
    norm_num at h
  have e1 : pairsInShell ps [1] 2 1 2 = 0 := by simp [pairsInShell, hpos, List.range_succ, h10, h11, h12]
  have e2 : pairsInShell ps [0, 1] 2 1 2 = 1 := by
    simp [pairsInShell, hpos, List.range_succ, h10, h11, h12, h00, h01, h02]
  have c1 : (((1 : Nat) : ℝ) * 2 / ((2 : Nat) : ℝ)) = 1 := by norm_num
  have c2 : ((((1 : Nat) : ℝ) + 1) * 2 / ((2 : Nat) : ℝ)) = 2 := by norm_num
  obtain ⟨iters, h1, h2⟩ := C134_single hP hH hps 2 2 (by norm_num) [0, 1] (by decide) (by simp [hpos]) 0 (by simp) 1
    (by norm_num) (by
      intro q hq hq0
      simp only [List.mem_cons, List.not_mem_nil, or_false] at hq
      rcases hq with rfl | rfl
      · exact absurd rfl hq0
      · rw [c1, c2, e1])
  refine ⟨iters, h1, fun h hh => ?_⟩
  rw [h2 _ h hh, c1, c2, e2]

end Parallel

end Colloids
