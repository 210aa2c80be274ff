import Verif.Particles.Lemmas

/-! # Lemmas on nearest neighbours, `cut`, `removeShortRange` and `selectInside_noindex` -/

namespace Colloids
namespace Particles
variable {G : Type} [Field G] [LinearOrder G] [IsStrictOrderedRing G]

/-! ## Nearest neighbour -/

theorem nearestRange_ok {g : Geometry G} {ps : Particles G} {c : Coord G} {dist : Nat → G}
    (hs : Searches g ps c dist) (hnn : ∀ p < ps.pos.length, 0 ≤ dist p) :
    ∀ (n : Nat) (r : G), 0 < r → (∃ p < ps.pos.length, Closer (dist p) (r * (11 / 10) ^ n)) →
      ∀ fuel, n < fuel → ∃ rg N, nearestRange g ps c fuel r = .ok (rg, N) ∧ 0 < rg ∧ N ≠ [] ∧
        N.Pairwise (· < ·) ∧ ∀ p, p ∈ N ↔ p < ps.pos.length ∧ Closer (dist p) rg := by
  intro n
  induction n with
  | zero =>
    rintro r hr ⟨p, hp, hd⟩ fuel hf
    obtain ⟨fuel, rfl⟩ : ∃ f, fuel = f + 1 := ⟨fuel - 1, by omega⟩
    obtain ⟨N, h1, h2, h3⟩ := neighbours_ok hs hnn r
    have hne : N ≠ [] := List.ne_nil_of_mem ((h3 p).2 ⟨hp, by simpa using hd⟩)
    refine ⟨r, N, ?_, hr, hne, h2, h3⟩
    rw [nearestRange, h1, ok_bind, if_neg (by simpa using hne), pure_eq_ok]
  | succ n ih =>
    rintro r hr ⟨p, hp, hd⟩ fuel hf
    obtain ⟨fuel, rfl⟩ : ∃ f, fuel = f + 1 := ⟨fuel - 1, by omega⟩
    obtain ⟨N, h1, h2, h3⟩ := neighbours_ok hs hnn r
    rw [nearestRange, h1, ok_bind]
    by_cases hne : N = []
    · rw [if_pos (by simp [hne])]
      refine ih (r * (11 / 10)) (by positivity) ⟨p, hp, ?_⟩ fuel (by omega)
      rw [pow_succ'] at hd
      rwa [mul_assoc]
    · rw [if_neg (by simpa using hne), pure_eq_ok]
      exact ⟨r, N, rfl, hr, hne, h2, h3⟩

theorem nearestRange_diverge {g : Geometry G} {ps : Particles G} {c : Coord G} {dist : Nat → G}
    (hs : Searches g ps c dist) (hnn : ∀ p < ps.pos.length, 0 ≤ dist p) :
    ∀ (fuel : Nat) (r : G), (ps.pos = [] ∨ r ≤ 0) → nearestRange g ps c fuel r = .error .diverge := by
  intro fuel
  induction fuel with
  | zero => intro r _; rfl
  | succ fuel ih =>
    intro r hr
    obtain ⟨N, h1, h2, h3⟩ := neighbours_ok hs hnn r
    have hN : N = [] := by
      rw [List.eq_nil_iff_forall_not_mem]
      intro p hp
      obtain ⟨k1, k2, k3⟩ := (h3 p).1 hp
      rcases hr with hr | hr
      · rw [hr] at k1; simp at k1
      · exact absurd k2 (not_lt.2 hr)
    rw [nearestRange, h1, ok_bind, if_pos (by simp [hN])]
    refine ih _ (hr.imp_right fun h => ?_)
    nlinarith

omit [IsStrictOrderedRing G] in
theorem scan_ok {g : Geometry G} {ps : Particles G} {c : Coord G} {dist : Nat → G} :
    ∀ (L : List Nat) (m : G) (i : Nat),
      (∀ p ∈ L, ∃ v, g.getDiff ps c p = .ok v ∧ dot3 v v = dist p) → L.Pairwise (· < ·) →
      ∃ s, L.foldlM (fun (s : G × Nat) p => do
          let diff ← g.getDiff ps c p
          (return if dot3 diff diff < s.1 then (dot3 diff diff, p) else s : R _)) (m, i) = .ok s ∧
        ((s = (m, i) ∧ ∀ p ∈ L, m ≤ dist p) ∨
          (s.2 ∈ L ∧ s.1 = dist s.2 ∧ s.1 < m ∧ (∀ p ∈ L, s.1 ≤ dist p) ∧
            ∀ p ∈ L, p < s.2 → s.1 < dist p)) := by
  intro L
  induction L with
  | nil => intro m i _ _; exact ⟨(m, i), rfl, .inl ⟨rfl, by simp⟩⟩
  | cons p L ih =>
    intro m i h hsorted
    obtain ⟨v, hv, hd⟩ := h p (by simp)
    rw [List.pairwise_cons] at hsorted
    rw [List.foldlM_cons, hv, ok_bind, pure_eq_ok, ok_bind, hd]
    by_cases hlt : dist p < m
    · rw [if_pos hlt]
      obtain ⟨s, h1, h2⟩ := ih (dist p) p (fun q hq => h q (by simp [hq])) hsorted.2
      refine ⟨s, h1, .inr ?_⟩
      rcases h2 with ⟨rfl, h2⟩ | ⟨h2, h3, h4, h5, h6⟩
      · refine ⟨by simp, rfl, hlt, ?_, ?_⟩
        · intro q hq
          rcases List.mem_cons.1 hq with rfl | hq
          · exact le_refl _
          · exact h2 q hq
        · intro q hq hqp
          rcases List.mem_cons.1 hq with rfl | hq
          · exact absurd hqp (lt_irrefl _)
          · exact absurd hqp (not_lt.2 (hsorted.1 q hq).le)
      · refine ⟨by simp [h2], h3, h4.trans hlt, ?_, ?_⟩
        · intro q hq
          rcases List.mem_cons.1 hq with rfl | hq
          · exact h4.le
          · exact h5 q hq
        · intro q hq hqs
          rcases List.mem_cons.1 hq with rfl | hq
          · exact h4
          · exact h6 q hq hqs
    · rw [if_neg hlt]
      obtain ⟨s, h1, h2⟩ := ih m i (fun q hq => h q (by simp [hq])) hsorted.2
      refine ⟨s, h1, ?_⟩
      rcases h2 with ⟨h2, h3⟩ | ⟨h2, h3, h4, h5, h6⟩
      · refine .inl ⟨h2, ?_⟩
        intro q hq
        rcases List.mem_cons.1 hq with rfl | hq
        · exact not_lt.1 hlt
        · exact h3 q hq
      · refine .inr ⟨by simp [h2], h3, h4, ?_, ?_⟩
        · intro q hq
          rcases List.mem_cons.1 hq with rfl | hq
          · exact h4.le.trans (not_lt.1 hlt)
          · exact h5 q hq
        · intro q hq hqs
          rcases List.mem_cons.1 hq with rfl | hq
          · exact lt_of_lt_of_le h4 (not_lt.1 hlt)
          · exact h6 q hq hqs

theorem nearest_ok [Archimedean G] {g : Geometry G} {ps : Particles G} {c : Coord G} {dist : Nat → G}
    (hs : Searches g ps c dist) (hnn : ∀ p < ps.pos.length, 0 ≤ dist p) (hne : ps.pos ≠ [])
    (r : G) (hr : 0 < r) :
    ∃ n i, (∀ fuel, n ≤ fuel → getNearestNeighbour fuel g ps c r = .ok i) ∧ i < ps.pos.length ∧
      ∀ p < ps.pos.length, dist i ≤ dist p ∧ (p < i → dist i < dist p) := by
  have hlen : 0 < ps.pos.length := List.length_pos_iff.2 hne
  obtain ⟨n, hn⟩ := pow_unbounded_of_one_lt ((dist 0 + 1) / r) (by norm_num : (1 : G) < 11 / 10)
  have hclose : Closer (dist 0) (r * (11 / 10) ^ n) := by
    have h0 := hnn 0 hlen
    have : dist 0 + 1 < r * (11 / 10) ^ n := by rwa [div_lt_iff₀' hr] at hn
    refine ⟨by positivity, ?_⟩
    nlinarith
  have hfin : ∀ fuel, n + 1 ≤ fuel → ∃ i, getNearestNeighbour fuel g ps c r = .ok i ∧ i < ps.pos.length ∧
      ∀ p < ps.pos.length, dist i ≤ dist p ∧ (p < i → dist i < dist p) := by
    intro fuel hf
    obtain ⟨rg, N, h1, h2, h3, h4, h5⟩ := nearestRange_ok hs hnn n r hr ⟨0, hlen, hclose⟩ fuel (by omega)
    have hfar : ∀ p < ps.pos.length, p ∉ N → rg * rg ≤ dist p := by
      intro p hp hpN
      by_contra hlt
      exact hpN ((h5 p).2 ⟨hp, h2, not_le.1 hlt⟩)
    unfold getNearestNeighbour
    rw [h1, ok_bind]
    dsimp only
    by_cases hone : N.length = 1
    · rw [if_pos hone]
      obtain ⟨i, rfl⟩ := List.length_eq_one_iff.1 hone
      obtain ⟨k1, k2, k3⟩ := (h5 i).1 (by simp)
      refine ⟨i, by simp [getR], k1, ?_⟩
      intro p hp
      by_cases hpi : p = i
      · subst hpi; exact ⟨le_refl _, fun h => absurd h (lt_irrefl _)⟩
      · have := hfar p hp (by simpa using hpi)
        exact ⟨(k3.trans_le this).le, fun _ => k3.trans_le this⟩
    · rw [if_neg hone]
      obtain ⟨s, k1, k2⟩ := scan_ok N (rg * rg) ps.pos.length
        (fun p hp => hs.diff p ((h5 p).1 hp).1) h4
      rw [k1, ok_bind, pure_eq_ok]
      refine ⟨s.2, rfl, ?_⟩
      rcases k2 with ⟨-, k2⟩ | ⟨k2, k3, k4, k5, k6⟩
      · exfalso
        obtain ⟨p, hp⟩ := List.exists_mem_of_ne_nil N h3
        exact absurd ((h5 p).1 hp).2.2 (not_lt.2 (k2 p hp))
      · rw [k3] at k4 k5 k6
        refine ⟨((h5 _).1 k2).1, ?_⟩
        intro p hp
        by_cases hpN : p ∈ N
        · exact ⟨k5 p hpN, k6 p hpN⟩
        · have := k4.trans_le (hfar p hp hpN)
          exact ⟨this.le, fun _ => this⟩
  obtain ⟨i, hi, hi2, hi3⟩ := hfin (n + 1) (le_refl _)
  refine ⟨n + 1, i, ?_, hi2, hi3⟩
  intro fuel hf
  obtain ⟨j, hj, hj2, hj3⟩ := hfin fuel hf
  rw [hj]
  rcases lt_trichotomy i j with h | h | h
  · exact absurd ((hj3 i hi2).2 h) (not_lt.2 (hi3 j hj2).1)
  · rw [h]
  · exact absurd ((hi3 j hj2).2 h) (not_lt.2 (hj3 i hi2).1)

/-! ## cut -/

omit [LinearOrder G] [IsStrictOrderedRing G] in
theorem dot3_sub_comm (x y : Coord G) : dot3 (x - y) (x - y) = dot3 (y - x) (y - x) := by
  simp only [dot3, Pi.sub_apply]; ring

/-- Invariant of the loop of `cut` once the first `m` particles have been examined. -/
structure CutInv (P : RParams G) (H : Heur 3 G) (ps : Particles G) (sep : G) (m : Nat)
    (out : Particles G) (K : List Nat) : Prop where
  coh : Coherent P H out
  pos : out.pos.map some = K.map fun i => ps.pos[i]?
  bb : out.bb = ps.bb
  sorted : K.Pairwise (· < ·)
  lt : ∀ i ∈ K, i < m
  apart : ∀ i ∈ K, ∀ j ∈ K, i ≠ j → ∀ x y, ps.pos[i]? = some x → ps.pos[j]? = some y →
    ¬ Closer (dot3 (x - y) (x - y)) sep
  near : ∀ i < m, i ∉ K → ∃ j ∈ K, j < i ∧ ∃ x y, ps.pos[i]? = some x ∧ ps.pos[j]? = some y ∧
    Closer (dot3 (x - y) (x - y)) sep

omit [IsStrictOrderedRing G] in
theorem CutInv.mem {P : RParams G} {H : Heur 3 G} {ps out : Particles G} {sep : G} {m : Nat}
    {K : List Nat} (hI : CutInv P H ps sep m out K) {p : Nat} {y : Coord G} (hp : out.pos[p]? = some y) :
    ∃ j ∈ K, ps.pos[j]? = some y := by
  have h := congrArg (fun l => l[p]?) hI.pos
  simp only [List.getElem?_map, hp, Option.map_some] at h
  cases hk : K[p]? with
  | none => rw [hk] at h; simp at h
  | some j =>
    rw [hk] at h
    exact ⟨j, List.mem_of_getElem? hk, by simpa using h.symm⟩

omit [IsStrictOrderedRing G] in
theorem CutInv.idx {P : RParams G} {H : Heur 3 G} {ps out : Particles G} {sep : G} {m : Nat}
    {K : List Nat} (hI : CutInv P H ps sep m out K) {j : Nat} {y : Coord G} (hj : j ∈ K)
    (hy : ps.pos[j]? = some y) : ∃ p : Nat, out.pos[p]? = some y := by
  obtain ⟨p, hp⟩ := List.mem_iff_getElem?.1 hj
  have h := congrArg (fun l => l[p]?) hI.pos
  simp only [List.getElem?_map, hp, Option.map_some, hy] at h
  cases hk : out.pos[p]? with
  | none => rw [hk] at h; simp at h
  | some z =>
    rw [hk] at h
    exact ⟨p, by simpa [hk] using h⟩

theorem cut_step {P : RParams G} {H : Heur 3 G} (hP : P.Valid) (hH : H.Valid P) {ps : Particles G}
    {sep : G} {m : Nat} {out : Particles G} {K : List Nat} (hI : CutInv P H ps sep m out K)
    {x : Coord G} (hx : ps.pos[m]? = some x) :
    ∃ out' K', (do
      let ngb ← getEuclidianNeighbours geometry out x sep
      if ngb.isEmpty then pushBack P H out x else return out : R (Particles G)) = .ok out' ∧
      CutInv P H ps sep (m + 1) out' K' := by
  obtain ⟨N, h1, h2, h3⟩ := neighbours_ok (searches_plain hP hH hI.coh x) (fun p _ => distSq_nonneg _ _ p) sep
  rw [h1, ok_bind]
  have hm : m ∉ K := fun h => absurd (hI.lt m h) (lt_irrefl _)
  by_cases hN : N = []
  · rw [if_pos (by simp [hN])]
    obtain ⟨out', k1, k2, k3, k4, -⟩ := pushBack_ok hP hH hI.coh x
    refine ⟨out', K ++ [m], k1, k2, ?_, ?_, ?_, ?_, ?_, ?_⟩
    · rw [k3, List.map_append, List.map_append, hI.pos]; simp [hx]
    · rw [k4, hI.bb]
    · rw [List.pairwise_append]
      refine ⟨hI.sorted, by simp, ?_⟩
      intro a ha b hb
      rw [List.mem_singleton.1 hb]; exact hI.lt a ha
    · intro i hi
      rcases List.mem_append.1 hi with hi | hi
      · have := hI.lt i hi; omega
      · rw [List.mem_singleton.1 hi]; omega
    · have hnew : ∀ j ∈ K, ∀ y, ps.pos[j]? = some y → ¬ Closer (dot3 (y - x) (y - x)) sep := by
        intro j hj y hy hcl
        obtain ⟨p, hp⟩ := hI.idx hj hy
        have : p ∈ N := (h3 p).2 ⟨(List.getElem?_eq_some_iff.1 hp).1, by rw [distSq_eq hp]; exact hcl⟩
        rw [hN] at this; cases this
      intro i hi j hj hij y z hy hz
      rcases List.mem_append.1 hi with hi | hi <;> rcases List.mem_append.1 hj with hj | hj
      · exact hI.apart i hi j hj hij y z hy hz
      · rw [List.mem_singleton.1 hj, hx] at hz
        injection hz with hz
        subst hz
        exact hnew i hi y hy
      · rw [List.mem_singleton.1 hi, hx] at hy
        injection hy with hy
        subst hy
        rw [dot3_sub_comm]
        exact hnew j hj z hz
      · rw [List.mem_singleton.1 hi, List.mem_singleton.1 hj] at hij
        exact absurd rfl hij
    · intro i hi hiK
      have hne : i ≠ m := fun h => hiK (by simp [h])
      obtain ⟨j, hj, h⟩ := hI.near i (by omega) (fun h => hiK (by simp [h]))
      exact ⟨j, by simp [hj], h⟩
  · rw [if_neg (by simpa using hN), pure_eq_ok]
    refine ⟨out, K, rfl, hI.coh, hI.pos, hI.bb, hI.sorted, ?_, hI.apart, ?_⟩
    · intro i hi; have := hI.lt i hi; omega
    · intro i hi hiK
      by_cases him : i = m
      · subst him
        obtain ⟨p, hp⟩ := List.exists_mem_of_ne_nil N hN
        obtain ⟨k1, k2⟩ := (h3 p).1 hp
        have hp' : out.pos[p]? = some out.pos[p] := by simp [k1]
        rw [distSq_eq hp'] at k2
        obtain ⟨j, hj, hy⟩ := hI.mem hp'
        exact ⟨j, hj, hI.lt j hj, x, _, hx, hy, by rw [dot3_sub_comm]; exact k2⟩
      · exact hI.near i (by omega) hiK

theorem cut_ok {P : RParams G} {H : Heur 3 G} (hP : P.Valid) (hH : H.Valid P) (ps : Particles G) (sep : G) :
    ∃ out K, cut P H ps sep = .ok out ∧ CutInv P H ps sep ps.pos.length out K := by
  have key : ∀ (todo pre : List (Coord G)) (out : Particles G) (K : List Nat), pre ++ todo = ps.pos →
      CutInv P H ps sep pre.length out K → ∃ out' K', todo.foldlM (fun out x => do
        let ngb ← getEuclidianNeighbours geometry out x sep
        if ngb.isEmpty then pushBack P H out x else return out) out = .ok out' ∧
        CutInv P H ps sep ps.pos.length out' K' := by
    intro todo
    induction todo with
    | nil =>
      intro pre out K hd hI
      rw [List.append_nil] at hd
      subst hd
      exact ⟨out, K, rfl, hI⟩
    | cons x todo ih =>
      intro pre out K hd hI
      obtain ⟨out1, K1, h1, h2⟩ := cut_step hP hH hI (x := x) (by rw [← hd]; simp)
      rw [List.foldlM_cons, h1, ok_bind]
      exact ih (pre ++ [x]) out1 K1 (by simpa using hd) (by simpa using h2)
  unfold cut
  have h0 : RStarIndex.ofBoxes P H [] = .ok (RTree.empty : RStarIndex G) := rfl
  rw [h0, ok_bind]
  refine key ps.pos [] _ [] rfl ⟨⟨RTree.empty, rfl, .empty, ?_⟩, rfl, rfl, by simp, by simp, by simp, by simp⟩
  simp [RTree.content, RTree.empty, pointLeaves]

/-! ## removeShortRange -/

theorem removeShortRange_ok {g : Geometry G} {P : RParams G} {H : Heur 3 G} {ps : Particles G}
    {dist : Coord G → Nat → G} (hidx : ps.index.isSome)
    (hs : ∀ c, Searches g ps c (dist c)) (hnn : ∀ c p, 0 ≤ dist c p) (sep : G) :
    ∃ (out : Particles G) (K : List Nat), removeShortRange P H g ps sep = .ok out ∧ out.bb = ps.bb ∧ out.index = none ∧
      K.Pairwise (· < ·) ∧ out.pos.map some = (K.map fun i => ps.pos[i]?) ∧
      ∀ i, i ∈ K ↔ ∃ x, ps.pos[i]? = some x ∧ ∀ j < ps.pos.length, j ≠ i → ¬ Closer (dist x j) sep := by
  obtain ⟨t, ht⟩ := Option.isSome_iff_exists.1 hidx
  unfold removeShortRange
  rw [ht]
  dsimp only
  have key : ∀ n ≤ ps.pos.length, ∃ (out : Particles G) (K : List Nat), (List.range n).foldlM (fun out p => do
      let ngb ← getEuclidianNeighboursOf g ps p sep
      if ngb.isEmpty then do
        let x ← getR ps.pos p
        pushBack P H out x
      else return out) ⟨[], ps.bb, 1, none⟩ = .ok out ∧ out.bb = ps.bb ∧ out.index = none ∧
      K.Pairwise (· < ·) ∧ out.pos.map some = (K.map fun i => ps.pos[i]?) ∧
      ∀ i, i ∈ K ↔ i < n ∧ ∃ x, ps.pos[i]? = some x ∧
        ∀ j < ps.pos.length, j ≠ i → ¬ Closer (dist x j) sep := by
    intro n
    induction n with
    | zero => intro _; exact ⟨_, [], rfl, rfl, rfl, by simp, rfl, by simp⟩
    | succ n ih =>
      intro hn
      obtain ⟨out, K, h1, h2, h3, h4, h5, h6⟩ := ih (by omega)
      have hx : ps.pos[n]? = some ps.pos[n] := by simp
      obtain ⟨N, k1, k2, k3⟩ := neighboursOf_ok hx (hs ps.pos[n]) (fun p _ => hnn _ p) sep
      rw [List.range_succ, List.foldlM_append, h1, ok_bind, List.foldlM_cons, k1, ok_bind]
      by_cases hN : N = []
      · rw [if_pos (by simp [hN]), getR_ok.2 hx, ok_bind]
        have hpb : pushBack P H out ps.pos[n] = .ok { out with pos := out.pos ++ [ps.pos[n]] } := by
          unfold pushBack; rw [h3]
        rw [hpb, ok_bind]
        refine ⟨_, K ++ [n], rfl, h2, h3, ?_, ?_, ?_⟩
        · rw [List.pairwise_append]
          refine ⟨h4, by simp, ?_⟩
          intro a ha b hb
          rw [List.mem_singleton.1 hb]; exact ((h6 a).1 ha).1
        · dsimp only
          rw [List.map_append, List.map_append, h5]; simp
        · intro i
          rw [List.mem_append, h6, List.mem_singleton]
          constructor
          · rintro (⟨a, b⟩ | rfl)
            · exact ⟨by omega, b⟩
            · refine ⟨by omega, _, hx, ?_⟩
              intro j hj hji hcl
              have := (k3 j).2 ⟨hj, hji, hcl⟩
              rw [hN] at this; cases this
          · rintro ⟨a, b⟩
            by_cases hin : i = n
            · exact .inr hin
            · exact .inl ⟨by omega, b⟩
      · rw [if_neg (by simpa using hN), pure_eq_ok, ok_bind]
        refine ⟨out, K, rfl, h2, h3, h4, h5, ?_⟩
        intro i
        rw [h6]
        constructor
        · rintro ⟨a, b⟩; exact ⟨by omega, b⟩
        · rintro ⟨a, x, hxx, b⟩
          refine ⟨?_, x, hxx, b⟩
          by_contra hc
          have hin : i = n := by omega
          subst hin
          rw [hx] at hxx
          injection hxx with hxx
          obtain ⟨p, hp⟩ := List.exists_mem_of_ne_nil N hN
          obtain ⟨q1, q2, q3⟩ := (k3 p).1 hp
          rw [hxx] at q3
          exact b p q1 q2 q3
  obtain ⟨out, K, h1, h2, h3, h4, h5, h6⟩ := key ps.pos.length (le_refl _)
  refine ⟨out, K, h1, h2, h3, h4, h5, ?_⟩
  intro i
  rw [h6]
  constructor
  · rintro ⟨-, h⟩; exact h
  · rintro ⟨x, hx, h⟩
    exact ⟨(List.getElem?_eq_some_iff.1 hx).1, x, hx, h⟩

/-! ## makeNgbList -/

theorem makeNgbList_ok {g : Geometry G} {ps : Particles G} {dist : Coord G → Nat → G}
    (hs : ∀ c, Searches g ps c (dist c)) (hnn : ∀ c p, 0 ≤ dist c p) (b : G) :
    ∃ ngb, makeNgbList g ps b = .ok ngb ∧ ngb.length = ps.pos.length ∧
      (∀ row ∈ ngb, row.Pairwise (· < ·)) ∧
      ∀ p row, ngb[p]? = some row → ∃ x, ps.pos[p]? = some x ∧
        ∀ q, q ∈ row ↔ q < ps.pos.length ∧ q ≠ p ∧ Closer (dist x q) (2 * b * ps.radius) := by
  have hex : ∀ p, ∃ N, p < ps.pos.length → getEuclidianNeighboursOf g ps p (2 * b * ps.radius) = .ok N ∧
      N.Pairwise (· < ·) ∧ ∃ x, ps.pos[p]? = some x ∧
        ∀ q, q ∈ N ↔ q < ps.pos.length ∧ q ≠ p ∧ Closer (dist x q) (2 * b * ps.radius) := by
    intro p
    by_cases hp : p < ps.pos.length
    · have hx : ps.pos[p]? = some ps.pos[p] := by simp [hp]
      obtain ⟨N, h1, h2, h3⟩ := neighboursOf_ok hx (hs ps.pos[p]) (fun p _ => hnn _ p) (2 * b * ps.radius)
      exact ⟨N, fun _ => ⟨h1, h2, _, hx, h3⟩⟩
    · exact ⟨[], fun h => absurd h hp⟩
  choose N hN using hex
  refine ⟨(List.range ps.pos.length).map N, ?_, by simp, ?_, ?_⟩
  · unfold makeNgbList
    exact TreeIndex.mapM_ok_of _ N _ (fun p hp => (hN p (List.mem_range.1 hp)).1)
  · intro row hrow
    obtain ⟨p, hp, rfl⟩ := List.mem_map.1 hrow
    exact (hN p (List.mem_range.1 hp)).2.1
  · intro p row hrow
    rw [List.getElem?_map] at hrow
    have hp : p < ps.pos.length := by
      by_contra h
      rw [List.getElem?_eq_none (by simp; omega)] at hrow
      cases hrow
    rw [List.getElem?_range hp] at hrow
    simp only [Option.map_some, Option.some.injEq] at hrow
    subst hrow
    exact (hN p hp).2.2

end Particles
end Colloids
