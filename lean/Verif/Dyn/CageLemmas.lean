import Verif.Dyn.CageModel
import Verif.Dyn.Lemmas
import Verif.Traj.Props

/-! # Lemmas on cages -/

namespace Colloids
namespace Dyn

theorem argmaxFrom_spec : ∀ (l pre : List ℝ) (best : Nat) (m : ℝ), pre[best]? = some m → (∀ x ∈ pre, x ≤ m) →
    ∃ y, (pre ++ l)[argmaxFrom best m pre.length l]? = some y ∧ ∀ x ∈ pre ++ l, x ≤ y := by
  intro l
  induction l with
  | nil =>
    intro pre best m h1 h2
    refine ⟨m, ?_, by simpa using h2⟩
    simpa [argmaxFrom] using h1
  | cons x l ih =>
    intro pre best m h1 h2
    have key : ∀ b y, (pre ++ [x])[b]? = some y → (∀ z ∈ pre ++ [x], z ≤ y) →
        ∃ y', (pre ++ x :: l)[argmaxFrom b y (pre.length + 1) l]? = some y' ∧ ∀ z ∈ pre ++ x :: l, z ≤ y' := by
      intro b y e1 e2
      have := ih (pre ++ [x]) b y e1 e2
      simpa using this
    unfold argmaxFrom
    by_cases h : m < x
    · rw [if_pos h]
      apply key _ _ (by simp)
      intro z hz
      rcases List.mem_append.1 hz with hz | hz
      · exact le_trans (h2 z hz) h.le
      · simp at hz; exact hz.le
    · rw [if_neg h]
      apply key
      · have hb := (List.getElem?_eq_some_iff.1 h1).1
        rw [List.getElem?_append_left hb]; exact h1
      · intro z hz
        rcases List.mem_append.1 hz with hz | hz
        · exact h2 z hz
        · simp at hz; rw [hz]; exact not_lt.1 h

theorem argmax_spec {l : List ℝ} (h : l ≠ []) : ∃ y, l[argmax l]? = some y ∧ ∀ x ∈ l, x ≤ y := by
  cases l with
  | nil => exact absurd rfl h
  | cons x l =>
    have := argmaxFrom_spec l [x] 0 x rfl (by simp)
    simpa [argmax] using this

theorem mapM_getR_range' {α : Type} {l : List α} (a n : Nat) (h : a + n ≤ l.length) :
    (List.range' a n).mapM (getR l) = .ok ((l.drop a).take n) := by
  induction n generalizing a with
  | zero => simp [pure_eq_ok]
  | succ n ih =>
    rw [List.range'_succ, List.mapM_cons, getR_of_lt (by omega), ok_bind, ih (a + 1) (by omega), ok_bind, pure_eq_ok,
      List.drop_eq_getElem_cons (i := a) (l := l) (by omega), List.take_succ_cons]

theorem separationAt_ok {pos : List (Coord ℝ)} {first second t : Nat} (h1 : first ≤ t) (h2 : t < second)
    (h3 : second < pos.length) : ∃ y, separationAt pos first second t = .ok y ∧ (t = first → y = 0) := by
  unfold separationAt
  rw [mapM_getR_range' _ _ (by omega), ok_bind, mapM_getR_range' _ _ (by omega), ok_bind]
  refine ⟨_, rfl, ?_⟩
  intro h
  subst h
  simp

/-- With a positive threshold the recursion ends, and the jumps are distinct and strictly inside the
interval. -/
theorem split_spec {pos : List (Coord ℝ)} {threshold : ℝ} (ht : 0 < threshold) (resolution : Nat) :
    ∀ (fuel first second : Nat), first ≤ second → second < pos.length → second - first < fuel →
    ∃ l, splitByCageJump pos threshold resolution fuel first second = .ok l ∧ l.Nodup ∧
      ∀ j ∈ l, first < j ∧ j < second := by
  intro fuel
  induction fuel with
  | zero => intro first second _ _ h; omega
  | succ fuel ih =>
    intro first second h1 h2 h3
    have hex : ∀ t ∈ List.range' first (second - first), ∃ y, separationAt pos first second t = .ok y ∧
        (t = first → y = 0) := by
      intro t hmem
      rw [List.mem_range'_1] at hmem
      exact separationAt_ok hmem.1 (by omega) h2
    choose! f hf1 hf2 using hex
    unfold splitByCageJump
    rw [if_neg (by omega), TreeIndex.mapM_ok_of _ f _ hf1, ok_bind]
    simp only
    set sep := (List.range' first (second - first)).map f ++ [0] with hsep
    obtain ⟨m, hm1, hm2⟩ := argmax_spec (l := sep) (by simp [hsep])
    set tc := argmax sep with htc
    rw [show tc + first - first = tc by omega, getR_ok.2 hm1, ok_bind]
    by_cases hth : threshold ≤ m
    · rw [if_pos hth]
      have hmp : 0 < m := lt_of_lt_of_le ht hth
      have hlen : sep.length = second - first + 1 := by simp [hsep]
      have htl : tc < second - first := by
        have hlt := (List.getElem?_eq_some_iff.1 hm1).1
        by_contra hc
        have he : tc = second - first := by omega
        rw [he, hsep, List.getElem?_append_right (by simp)] at hm1
        simp at hm1
        linarith
      have htp : 0 < tc := by
        by_contra hc
        have he : tc = 0 := by omega
        rw [he, hsep, List.getElem?_append_left (by simp; omega)] at hm1
        simp only [List.getElem?_map] at hm1
        rw [List.getElem?_range' (by omega)] at hm1
        simp only [Nat.mul_zero, Nat.add_zero, Option.map_some, Option.some.injEq] at hm1
        rw [hf2 first (by rw [List.mem_range'_1]; omega) rfl] at hm1
        linarith
      have g1 : ∃ l1, (if tc + first - first > resolution then splitByCageJump pos threshold resolution fuel first (tc + first)
          else pure []) = .ok l1 ∧ l1.Nodup ∧ ∀ j ∈ l1, first < j ∧ j < tc + first := by
        by_cases hr : tc + first - first > resolution
        · rw [if_pos hr]
          exact ih first (tc + first) (by omega) (by omega) (by omega)
        · rw [if_neg hr]; exact ⟨[], rfl, by simp, by simp⟩
      have g2 : ∃ l2, (if second < tc + first + 1 ∨ second - (tc + first + 1) > resolution then
          splitByCageJump pos threshold resolution fuel (tc + first + 1) second else pure []) = .ok l2 ∧ l2.Nodup ∧
          ∀ j ∈ l2, tc + first + 1 < j ∧ j < second := by
        by_cases hr : second < tc + first + 1 ∨ second - (tc + first + 1) > resolution
        · rw [if_pos hr]
          exact ih (tc + first + 1) second (by omega) (by omega) (by omega)
        · rw [if_neg hr]; exact ⟨[], rfl, by simp, by simp⟩
      rw [show tc + first - first = tc by omega] at g1
      obtain ⟨l1, e1, e2, e3⟩ := g1
      obtain ⟨l2, e4, e5, e6⟩ := g2
      rw [e1, ok_bind, e4, ok_bind]
      refine ⟨_, rfl, ?_, ?_⟩
      · rw [List.nodup_cons, List.nodup_append']
        refine ⟨?_, e2, e5, ?_⟩
        · intro hmem
          rcases List.mem_append.1 hmem with hmem | hmem
          · have := e3 _ hmem; omega
          · have := e6 _ hmem; omega
        · intro j hj1 hj2
          have := e3 _ hj1
          have := e6 _ hj2
          omega
      · intro j hj
        rcases List.mem_cons.1 hj with rfl | hj
        · omega
        · rcases List.mem_append.1 hj with hj | hj
          · have := e3 _ hj; omega
          · have := e6 _ hj; omega
    · rw [if_neg hth]
      exact ⟨[], rfl, by simp, by simp⟩

/-- What `subtraj` copies. -/
theorem subtraj_eq {T : Traj} (hne : T.steps ≠ []) (hb : T.start + T.steps.length ≤ 2 ^ 64) {i j : Nat}
    (hij : i < j) (hj : j ≤ T.steps.length) :
    T.subtraj (i + T.start) (j + T.start - 1) = .ok ⟨i + T.start, (T.steps.drop i).take (j - i)⟩ := by
  have hb' : T.start + T.steps.length ≤ szMod := by simpa [szMod] using hb
  have hspan : T.span (i + T.start) (j + T.start - 1) = true := by
    rw [((C05_queries_partial T hne hb).2.2.2 _ _ (by omega))]
    intro t h1 h2
    rw [(C05_queries_partial T hne hb).2.1]
    omega
  obtain ⟨sub, h1, h2, h3, h4⟩ := C05_subtraj T hne hb _ _ (by omega) hspan
  rw [h1]
  have hsl : sub.steps.length = j - i := by omega
  have hsne : sub.steps ≠ [] := by
    intro h; rw [h] at hsl; simp at hsl; omega
  have hsb : sub.start + sub.steps.length ≤ szMod := by rw [h2]; omega
  congr 1
  cases sub with
  | mk s l =>
    simp only at h2 hsl hsne hsb
    subst h2
    congr 1
    apply List.ext_getElem (by simp; omega)
    intro k hk1 hk2
    have hk := h4 (i + T.start + k) (by omega) (by omega)
    have a1 : T.at_ (i + T.start + k) = .ok (T.steps[i + k]'(by omega)) := by
      rw [at_eq hne hb']
      refine ⟨by omega, ?_⟩
      rw [show i + T.start + k - T.start = i + k by omega]
      simp
    rw [a1, at_eq hsne hsb] at hk
    have := hk.2
    simp only at this
    rw [show i + T.start + k - (i + T.start) = k by omega, List.getElem?_eq_getElem hk1] at this
    have := Option.some.inj this
    rw [this]
    simp

/-- Each trajectory starts when the previous one ends. -/
def Chain : Nat → List Traj → Prop
  | _, [] => True
  | s, c :: l => c.start = s ∧ Chain (s + c.steps.length) l

theorem cutAt_spec {T : Traj} (hne : T.steps ≠ []) (hb : T.start + T.steps.length ≤ 2 ^ 64) :
    ∀ (l : List Nat) (i n : Nat), (i :: (l ++ [n])).Pairwise (· < ·) → n ≤ T.steps.length →
    ∃ r, cutAt T (i :: (l ++ [n])) = .ok r ∧ Chain (i + T.start) r ∧ (∀ c ∈ r, c.steps ≠ []) ∧ 0 < r.length ∧
      r.flatMap Traj.steps = (T.steps.drop i).take (n - i) := by
  intro l
  induction l with
  | nil =>
    intro i n hp hn
    have hin : i < n := by simpa using hp
    refine ⟨[⟨i + T.start, (T.steps.drop i).take (n - i)⟩], ?_, ⟨rfl, trivial⟩, ?_, by simp, by simp⟩
    · rw [List.nil_append, cutAt, subtraj_eq hne hb hin hn, ok_bind]
      rfl
    · simp only [List.mem_singleton, forall_eq, ne_eq]
      intro h
      have := congrArg List.length h
      simp at this
      omega
  | cons j l ih =>
    intro i n hp hn
    rw [List.cons_append, List.pairwise_cons] at hp
    obtain ⟨hp1, hp2⟩ := hp
    have hij : i < j := hp1 j (by simp)
    have hjn : j < n := (List.pairwise_cons.1 hp2).1 n (by simp)
    obtain ⟨r, h1, h2, h3, h4, h5⟩ := ih j n hp2 hn
    have hl : ((T.steps.drop i).take (j - i)).length = j - i := by simp; omega
    refine ⟨⟨i + T.start, (T.steps.drop i).take (j - i)⟩ :: r, ?_, ⟨rfl, ?_⟩, ?_, by simp, ?_⟩
    · rw [List.cons_append, cutAt, subtraj_eq hne hb hij (by omega), ok_bind, h1, ok_bind]
      rfl
    · simp only [hl]
      rw [show i + T.start + (j - i) = j + T.start by omega]
      exact h2
    · intro c hc
      rcases List.mem_cons.1 hc with rfl | hc
      · intro h
        have h : (T.steps.drop i).take (j - i) = [] := h
        rw [h] at hl
        simp at hl
        omega
      · exact h3 c hc
    · rw [List.flatMap_cons, h5]
      simp only
      rw [show n - i = (j - i) + (n - j) by omega, List.take_add, List.drop_drop, show i + (j - i) = j by omega]

/-- How a trajectory is cut into cages. -/
structure IsCut (T : Traj) (l : List Traj) : Prop where
  nonempty : l ≠ []
  chain : Chain T.start l
  steps : ∀ c ∈ l, c.steps ≠ []
  whole : l.length = 1 → l = [T]
  cut : 1 < l.length → l.flatMap Traj.steps = T.steps.dropLast

theorem cutTraj_spec {T : Traj} (hne : T.steps ≠ []) (hb : T.start + T.steps.length ≤ 2 ^ 64) {jumps : List Nat}
    (hn : jumps.Nodup) (hj : ∀ j ∈ jumps, 0 < j ∧ j < T.steps.length - 1) :
    ∃ l, cutTraj T T.steps.length jumps = .ok l ∧ IsCut T l ∧ (jumps = [] ↔ l.length = 1) := by
  unfold cutTraj
  have hperm := List.mergeSort_perm jumps (fun a b => decide (a ≤ b))
  have hle : (jumps.mergeSort).Pairwise (· ≤ ·) := by
    have := List.pairwise_mergeSort (le := fun a b : Nat => decide (a ≤ b))
      (by intro a b c; simp; omega) (by intro a b; simp; omega) jumps
    simpa using this
  have hnd : (jumps.mergeSort).Nodup := hperm.nodup_iff.2 hn
  have hlt : (jumps.mergeSort).Pairwise (· < ·) := by
    have := List.Pairwise.and hle hnd
    exact this.imp (by intro a b h; omega)
  cases hs : jumps.mergeSort with
  | nil =>
    rw [hs] at hperm
    have : jumps = [] := hperm.symm.eq_nil
    exact ⟨[T], rfl, ⟨by simp, ⟨rfl, trivial⟩, by simpa using hne, fun _ => rfl, by simp⟩, by simp [this]⟩
  | cons j l =>
    rw [hs] at hlt hperm
    simp only
    have hmem : ∀ k ∈ j :: l, 0 < k ∧ k < T.steps.length - 1 := fun k hk => hj k (hperm.mem_iff.1 hk)
    have hj0 := hmem j (by simp)
    have hpw : (j :: (l ++ [T.steps.length - 1])).Pairwise (· < ·) := by
      rw [← List.cons_append, List.pairwise_append]
      refine ⟨hlt, by simp, ?_⟩
      intro a ha b hbm
      simp only [List.mem_singleton] at hbm
      subst hbm
      exact (hmem a ha).2
    obtain ⟨r, h1, h2, h3, h4, h5⟩ := cutAt_spec hne hb l j (T.steps.length - 1) hpw (by omega)
    have hfirst := subtraj_eq hne hb (i := 0) (j := j) hj0.1 (by omega)
    rw [Nat.zero_add] at hfirst
    rw [hfirst, ok_bind, List.cons_append, h1, ok_bind]
    have hl : ((T.steps.drop 0).take (j - 0)).length = j := by simp; omega
    refine ⟨_, rfl, ⟨by simp, ⟨rfl, ?_⟩, ?_, ?_, ?_⟩, ?_⟩
    · simp only [hl]
      rw [Nat.add_comm]
      exact h2
    · intro c hc
      rcases List.mem_cons.1 hc with rfl | hc
      · intro h
        have h : (T.steps.drop 0).take (j - 0) = [] := h
        rw [h] at hl
        simp at hl
        omega
      · exact h3 c hc
    · intro h
      simp only [List.length_cons] at h
      omega
    · intro _
      rw [List.flatMap_cons, h5, List.dropLast_eq_take, List.drop_zero, Nat.sub_zero]
      conv_rhs => rw [show T.steps.length - 1 = j + (T.steps.length - 1 - j) by omega, List.take_add]
    · constructor
      · intro h
        rw [h] at hperm
        exact absurd hperm.eq_nil (by simp)
      · intro h
        simp only [List.length_cons] at h
        omega

/-! ## The inverse of any set of trajectories -/

/-- Trajectory `T` holds position `p` of frame `t`. -/
def HoldsAt (T : Traj) (t p : Nat) : Prop := T.start ≤ t ∧ T.steps[t - T.start]? = some p

/-- The value in the inverse index. -/
def look (inv : List (List Nat)) (t p : Nat) : Option Nat := inv[t]?.bind (fun (r : List Nat) => r[p]?)

theorem write_one {T : Traj} (hne : T.steps ≠ []) (hb : T.start + T.steps.length ≤ szMod) {sizes : List Nat}
    (hsz : ∀ t p, HoldsAt T t p → ∃ n, sizes[t]? = some n ∧ p < n) (i : Nat) :
    ∀ (l : List Nat), (∀ t ∈ l, T.start ≤ t ∧ t < T.start + T.steps.length) → ∀ inv, inv.map List.length = sizes →
    ∃ inv', l.foldlM (fun inv t => do
        let row ← getR inv t
        let p ← T.at_ t
        let row' ← setR row p i
        setR inv t row') inv = .ok inv' ∧ inv'.map List.length = sizes ∧
      ∀ t p, (t ∈ l ∧ HoldsAt T t p → look inv' t p = some i) ∧
        (¬ (t ∈ l ∧ HoldsAt T t p) → look inv' t p = look inv t p) := by
  intro l
  induction l using List.reverseRecOn with
  | nil => intro _ inv hinv; exact ⟨inv, rfl, hinv, by simp⟩
  | append_singleton l s ih =>
    intro hl inv hinv
    obtain ⟨inv1, h1, h2, h3⟩ := ih (fun t ht => hl t (by simp [ht])) inv hinv
    obtain ⟨hs1, hs2⟩ := hl s (by simp)
    have hstep : T.steps[s - T.start]? = some (T.steps[s - T.start]'(by omega)) := by
      simp [show s - T.start < T.steps.length by omega]
    set q := T.steps[s - T.start]'(by omega) with hq
    obtain ⟨n, hn1, hn2⟩ := hsz s q ⟨hs1, hstep⟩
    have hrow0 : (inv1.map List.length)[s]? = some n := by rw [h2]; exact hn1
    rw [List.getElem?_map] at hrow0
    obtain ⟨row, hrow, hrl⟩ := Option.map_eq_some_iff.1 hrow0
    have hsl := (List.getElem?_eq_some_iff.1 hrow).1
    refine ⟨inv1.set s (row.set q i), ?_, ?_, ?_⟩
    · rw [foldlM_append_ok]
      refine ⟨inv1, h1, ?_⟩
      simp only [List.foldlM_cons, List.foldlM_nil]
      rw [getR_ok.2 hrow, ok_bind, (at_eq hne hb).2 ⟨hs1, hstep⟩, ok_bind, setR_ok.2 ⟨by omega, rfl⟩, ok_bind,
        setR_ok.2 ⟨hsl, rfl⟩, ok_bind]
      rfl
    · rw [List.map_set, List.length_set, hrl, h2]
      apply List.ext_getElem?
      intro k
      rw [List.getElem?_set]
      split
      · rename_i hk
        subst hk
        rw [hn1]
        simp [(List.getElem?_eq_some_iff.1 hn1).1]
      · rfl
    · have hset : ∀ t p, look (inv1.set s (row.set q i)) t p = if t = s ∧ p = q then some i else look inv1 t p := by
        intro t p
        unfold look
        rw [List.getElem?_set]
        by_cases hts : s = t
        · subst hts
          rw [if_pos rfl, if_pos hsl, hrow]
          simp only [Option.bind_some, true_and, List.getElem?_set]
          by_cases hpq : q = p
          · subst hpq
            rw [if_pos rfl, if_pos (by omega), if_pos rfl]
          · rw [if_neg hpq, if_neg (fun h => hpq h.symm)]
        · rw [if_neg hts, if_neg (fun h => hts h.1.symm)]
      intro t p
      rw [hset]
      constructor
      · rintro ⟨ht, hh⟩
        by_cases hc : t = s ∧ p = q
        · rw [if_pos hc]
        · rw [if_neg hc]
          rcases List.mem_append.1 ht with ht | ht
          · exact (h3 t p).1 ⟨ht, hh⟩
          · simp only [List.mem_singleton] at ht
            subst ht
            have := hh.2
            rw [hstep] at this
            exact absurd ⟨rfl, (Option.some.inj this).symm⟩ hc
      · intro h
        have hc : ¬ (t = s ∧ p = q) := by
          rintro ⟨rfl, rfl⟩
          exact h ⟨by simp, hs1, hstep⟩
        rw [if_neg hc]
        apply (h3 t p).2
        rintro ⟨ht, hh⟩
        exact h ⟨by simp [ht], hh⟩

/-- `makeInverse` on trajectories that share no position: each position that a trajectory holds is given that
trajectory, the others are given trajectory 0. -/
theorem makeInverse_spec {ts : List Traj} {sizes : List Nat} (hne : ∀ T ∈ ts, T.steps ≠ [])
    (hb : ∀ T ∈ ts, T.start + T.steps.length ≤ szMod)
    (hsz : ∀ T ∈ ts, ∀ t p, HoldsAt T t p → ∃ n, sizes[t]? = some n ∧ p < n)
    (hd : ts.Pairwise (fun T T' => ∀ t p, ¬ (HoldsAt T t p ∧ HoldsAt T' t p))) :
    ∃ inv, TrajIndex.makeInverse ts sizes = .ok inv ∧ inv.map List.length = sizes ∧
      (∀ k T t p, ts[k]? = some T → HoldsAt T t p → look inv t p = some k) ∧
      (∀ t p n, sizes[t]? = some n → p < n → (∀ T ∈ ts, ¬ HoldsAt T t p) → look inv t p = some 0) := by
  have loop : ∀ m, m ≤ ts.length → ∃ inv,
      (List.range m).foldlM (fun inv i => do
        let tr ← getR ts i
        (TrajIndex.times tr).foldlM (fun inv t => do
          let row ← getR inv t
          let p ← tr.at_ t
          let row' ← setR row p i
          setR inv t row') inv)
      (sizes.map fun n => List.replicate n 0) = .ok inv ∧ inv.map List.length = sizes ∧
      (∀ k T t p, k < m → ts[k]? = some T → HoldsAt T t p → look inv t p = some k) ∧
      (∀ t p n, sizes[t]? = some n → p < n → (∀ T ∈ ts, ¬ HoldsAt T t p) → look inv t p = some 0) := by
    intro m
    induction m with
    | zero =>
      intro _
      refine ⟨sizes.map fun n => List.replicate n 0, by simp [pure_eq_ok], ?_, by intro k T t p h; omega, ?_⟩
      · rw [List.map_map]
        conv_rhs => rw [← List.map_id sizes]
        apply List.map_congr_left
        intro n _
        simp
      · intro t p n hn hp _
        unfold look
        rw [List.getElem?_map, hn]
        simp [hp]
    | succ m ih =>
      intro hm
      obtain ⟨inv, h1, h2, h3, h4⟩ := ih (by omega)
      have hT : ts[m]? = some ts[m] := by simp
      have hmem : ts[m] ∈ ts := List.getElem_mem _
      obtain ⟨inv', w1, w2, w3⟩ := write_one (hne _ hmem) (hb _ hmem) (hsz _ hmem) m (TrajIndex.times ts[m])
        (by intro t ht; rw [times_eq (hne _ hmem) (hb _ hmem), List.mem_range'_1] at ht; exact ht) inv h2
      refine ⟨inv', ?_, w2, ?_, ?_⟩
      · rw [List.range_succ, foldlM_append_ok]
        refine ⟨inv, h1, ?_⟩
        simp only [List.foldlM_cons, List.foldlM_nil]
        rw [getR_ok.2 hT, ok_bind, w1, ok_bind]
        rfl
      · intro k T t p hk hkT hh
        by_cases hkm : k = m
        · subst hkm
          rw [hT] at hkT
          cases hkT
          apply (w3 t p).1
          refine ⟨?_, hh⟩
          rw [times_eq (hne _ hmem) (hb _ hmem), List.mem_range'_1]
          have := (List.getElem?_eq_some_iff.1 hh.2).1
          have := hh.1
          omega
        · rw [(w3 t p).2]
          · exact h3 k T t p (by omega) hkT hh
          · rintro ⟨-, hh'⟩
            obtain ⟨hkl, rfl⟩ := List.getElem?_eq_some_iff.1 hkT
            exact List.pairwise_iff_getElem.1 hd k m hkl (by omega) (by omega) t p ⟨hh, hh'⟩
      · intro t p n hn hp hno
        rw [(w3 t p).2]
        · exact h4 t p n hn hp hno
        · rintro ⟨-, hh'⟩
          exact hno _ hmem hh'
  obtain ⟨inv, h1, h2, h3, h4⟩ := loop ts.length (le_refl _)
  refine ⟨inv, h1, h2, ?_, h4⟩
  intro k T t p hk hh
  exact h3 k T t p (List.getElem?_eq_some_iff.1 hk).1 hk hh

end Dyn
end Colloids
