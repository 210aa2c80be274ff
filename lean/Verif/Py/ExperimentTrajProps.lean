import Verif.Py.ExperimentModel
import Verif.Py.AverageProps
import Verif.Traj.Props

/-! # From positions to trajectories in python -/

namespace Colloids
namespace Py
namespace Exp

/-- An element of a list of lists. -/
def get2 {α : Type} (m : List (List α)) (t p : Nat) : Option α := m[t]?.bind fun row => row[p]?

theorem get2_lt {α : Type} {m : List (List α)} {t p : Nat} {n : Nat} (h : (m.map List.length)[t]? = some n) : p < n ↔ ∃ v, get2 m t p = some v := by
  rw [List.getElem?_map, Option.map_eq_some_iff] at h
  obtain ⟨row, h1, rfl⟩ := h
  unfold get2
  rw [h1]
  simp only [Option.bind_some]
  constructor
  · intro hp; exact ⟨_, List.getElem?_eq_getElem hp⟩
  · rintro ⟨v, hv⟩; exact (List.getElem?_eq_some_iff.1 hv).1

theorem put_ok {α : Type} {m : List (List α)} {t p n : Nat} (v : α) (h : (m.map List.length)[t]? = some n) (hp : p < n) :
    ∃ m', put m t p v = .ok m' ∧ m'.map List.length = m.map List.length
      ∧ ∀ t' p', get2 m' t' p' = if t' = t ∧ p' = p then some v else get2 m t' p' := by
  rw [List.getElem?_map, Option.map_eq_some_iff] at h
  obtain ⟨row, h1, rfl⟩ := h
  obtain ⟨ht, hrow⟩ := List.getElem?_eq_some_iff.1 h1
  refine ⟨m.set t (row.modify p fun _ => v), ?_, ?_, ?_⟩
  · unfold put
    rw [Average.idx_some h1, ok_bind]
    unfold upd
    rw [if_pos hp]
    rfl
  · apply List.ext_getElem?
    intro i
    rw [List.getElem?_map, List.getElem?_map, List.getElem?_set]
    by_cases hi : t = i
    · subst hi
      rw [if_pos rfl, if_pos ht, h1]
      simp
    · rw [if_neg hi]
  · intro t' p'
    unfold get2
    rw [List.getElem?_set]
    by_cases hi : t = t'
    · subst hi
      rw [if_pos rfl, if_pos ht, h1]
      simp only [Option.bind_some, true_and]
      rw [List.getElem?_modify]
      by_cases hq : p = p'
      · subst hq
        simp [hp]
      · rw [if_neg (fun e => hq e.symm)]
        cases row[p']? <;> simp [hq]
    · rw [if_neg hi, if_neg (fun e => hi e.1.symm)]

/-- A list of writes. -/
def putAll {α : Type} (m : List (List α)) (w : List (Nat × Nat × α)) : R (List (List α)) := w.foldlM (fun m x => put m x.1 x.2.1 x.2.2) m

/-- What a list of writes does when each place is written with one value only. -/
theorem putAll_ok {α : Type} (w : List (Nat × Nat × α)) (m : List (List α))
    (hin : ∀ x ∈ w, ∃ n, (m.map List.length)[x.1]? = some n ∧ x.2.1 < n)
    (hone : ∀ x ∈ w, ∀ y ∈ w, x.1 = y.1 → x.2.1 = y.2.1 → x.2.2 = y.2.2) :
    ∃ m', putAll m w = .ok m' ∧ m'.map List.length = m.map List.length ∧ (∀ x ∈ w, get2 m' x.1 x.2.1 = some x.2.2)
      ∧ ∀ t p, (∀ x ∈ w, ¬ (x.1 = t ∧ x.2.1 = p)) → get2 m' t p = get2 m t p := by
  induction w generalizing m with
  | nil => exact ⟨m, rfl, rfl, by simp, fun _ _ _ => rfl⟩
  | cons x w ih =>
    obtain ⟨n, h1, h2⟩ := hin x (by simp)
    obtain ⟨m1, p1, p2, p3⟩ := put_ok x.2.2 h1 h2
    obtain ⟨m', q1, q2, q3, q4⟩ := ih m1 (fun y hy => by rw [p2]; exact hin y (by simp [hy]))
      (fun y hy z hz => hone y (by simp [hy]) z (by simp [hz]))
    refine ⟨m', ?_, q2.trans p2, ?_, ?_⟩
    · unfold putAll
      rw [List.foldlM_cons, p1, ok_bind]
      exact q1
    · intro y hy
      rcases List.mem_cons.1 hy with rfl | hy
      · by_cases h : ∃ z ∈ w, z.1 = y.1 ∧ z.2.1 = y.2.1
        · obtain ⟨z, hz, e1, e2⟩ := h
          rw [← e1, ← e2, q3 z hz, hone z (by simp [hz]) y (by simp) e1 e2]
        · push Not at h
          rw [q4 _ _ (fun z hz e => h z hz e.1 e.2), p3, if_pos ⟨rfl, rfl⟩]
      · exact q3 y hy
    · intro t p h
      rw [q4 t p (fun z hz => h z (by simp [hz])), p3, if_neg]
      intro e
      exact h x (by simp) ⟨e.1.symm, e.2.symm⟩

/-- The writes of all the trajectories. -/
def writesOf (trajs : List (Nat × List Nat)) : List (Nat × Nat × Nat) :=
  trajs.zipIdx.flatMap fun x => x.1.2.zipIdx.map fun y => (x.1.1 + y.2, y.1, x.2)

theorem foldlM_flatMap {α β γ : Type} (f : γ → β → R γ) (g : α → List β) (l : List α) (s : γ) :
    (l.flatMap g).foldlM f s = l.foldlM (fun s x => (g x).foldlM f s) s := by
  induction l generalizing s with
  | nil => rfl
  | cons x l ih =>
    rw [List.flatMap_cons, List.foldlM_append, List.foldlM_cons]
    congr 1
    funext s'
    exact ih s'

theorem pos2tr_writes (nb : List Nat) (trajs : List (Nat × List Nat)) :
    pos2tr nb trajs = putAll (nb.map fun n => List.replicate n 0) (writesOf trajs) := by
  unfold pos2tr putAll writesOf
  rw [foldlM_flatMap]
  congr 1
  funext m x
  unfold putTraj
  rw [List.foldlM_map]

theorem mem_writesOf {trajs : List (Nat × List Nat)} {w : Nat × Nat × Nat} :
    w ∈ writesOf trajs ↔ ∃ T dt, trajs[w.2.2]? = some T ∧ T.2[dt]? = some w.2.1 ∧ w.1 = T.1 + dt := by
  obtain ⟨t, p, tr⟩ := w
  unfold writesOf
  simp only [List.mem_flatMap, List.mem_map, Prod.mk.injEq]
  constructor
  · rintro ⟨⟨T, i⟩, h1, ⟨q, dt⟩, h2, rfl, rfl, rfl⟩
    exact ⟨T, dt, by simpa [List.mem_zipIdx_iff_getElem?] using h1, by simpa [List.mem_zipIdx_iff_getElem?] using h2, rfl⟩
  · rintro ⟨T, dt, h1, h2, h3⟩
    exact ⟨(T, tr), by simpa [List.mem_zipIdx_iff_getElem?] using h1, (p, dt), by simpa [List.mem_zipIdx_iff_getElem?] using h2, h3.symm, rfl, rfl⟩

/-- The trajectory `tr` is at the position `p` at the time step `t`. -/
def At (trajs : List (Nat × List Nat)) (t p tr : Nat) : Prop := ∃ T dt, trajs[tr]? = some T ∧ T.2[dt]? = some p ∧ t = T.1 + dt

/-- Trajectories of an experiment: all the positions exist, and no position is in two trajectories. -/
structure Consistent (nb : List Nat) (trajs : List (Nat × List Nat)) : Prop where
  exists_ : ∀ t p tr, At trajs t p tr → ∃ n, nb[t]? = some n ∧ p < n
  one : ∀ t p tr tr', At trajs t p tr → At trajs t p tr' → tr = tr'

theorem lengths_zero (nb : List Nat) : ((nb.map fun n => List.replicate n 0).map List.length) = nb := by
  rw [List.map_map]
  simp [Function.comp_def]

/-- What `p2tr` gives for all the times. -/
theorem pos2tr_ok {nb : List Nat} {trajs : List (Nat × List Nat)} (hc : Consistent nb trajs) :
    ∃ m, pos2tr nb trajs = .ok m ∧ m.map List.length = nb ∧ (∀ t p tr, At trajs t p tr → get2 m t p = some tr)
      ∧ ∀ t p n, nb[t]? = some n → p < n → (∀ tr, ¬ At trajs t p tr) → get2 m t p = some 0 := by
  obtain ⟨m, h1, h2, h3, h4⟩ := putAll_ok (writesOf trajs) (nb.map fun n => List.replicate n 0) (by
      intro x hx
      rw [lengths_zero]
      obtain ⟨T, dt, k1, k2, k3⟩ := mem_writesOf.1 hx
      exact hc.exists_ x.1 x.2.1 x.2.2 ⟨T, dt, k1, k2, k3⟩) (by
      intro x hx y hy e1 e2
      have hx := mem_writesOf.1 hx
      have hy := mem_writesOf.1 hy
      rw [← e1, ← e2] at hy
      exact hc.one _ _ _ _ hx hy)
  refine ⟨m, by rw [pos2tr_writes, h1], by rw [h2, lengths_zero], ?_, ?_⟩
  · intro t p tr ha
    exact h3 (t, p, tr) (mem_writesOf.2 ha)
  · intro t p n hn hp hno
    rw [h4 t p]
    · unfold get2
      rw [List.getElem?_map, hn]
      simp [List.getElem?_replicate, hp]
    · rintro ⟨t', p', tr⟩ hx ⟨rfl, rfl⟩
      exact hno tr (mem_writesOf.1 hx)

/-- C164. When all the positions of the trajectories exist and no position is in two trajectories, `p2tr` gives for each time of the
experiment as many numbers as there are positions, and the number of a position that is in a trajectory is that of the trajectory. -/
theorem C164_p2tr_partial (offset : Nat) {nb : List Nat} {trajs : List (Nat × List Nat)} (hc : Consistent nb trajs) (t n : Nat) (hn : nb[t]? = some n) :
    ∃ a, p2tr offset nb trajs (offset + t) = .ok a ∧ a.length = n ∧ ∀ p tr, At trajs t p tr → a[p]? = some tr := by
  obtain ⟨m, h1, h2, h3, -⟩ := pos2tr_ok hc
  have hm : ∃ a, m[t]? = some a ∧ a.length = n := by
    rw [← h2, List.getElem?_map, Option.map_eq_some_iff] at hn
    exact hn
  obtain ⟨a, ha, hl⟩ := hm
  refine ⟨a, ?_, hl, ?_⟩
  · unfold p2tr
    rw [h1, ok_bind, if_neg (by omega), Nat.add_sub_cancel_left, ha]
    rfl
  · intro p tr hat
    have := h3 t p tr hat
    unfold get2 at this
    rwa [ha] at this

/-- C164. For a map of trajectories built by the C++ code, `p2tr` gives exactly the trajectory of each position, as the inverse index does. -/
theorem C164_same_as_cpp {D : Type} [LinearOrder D] (n : Nat) (hist : List (Followers D × Nat)) (tm : TrajMap) (h : TrajMap.run n hist = .ok tm)
    (hlen : hist.length + 1 ≤ szMod) (offset : Nat) :
    ∃ ti, TrajIndex.ofMap tm = .ok ti ∧ ∀ t p tr,
      ((p2tr offset tm.getFrameSizes (ti.trajs.map fun T => (T.start, T.steps)) (offset + t)).toOption.bind fun a => a[p]?) = some tr ↔ ti.invert t p = .ok tr := by
  obtain ⟨ti, h1, h2, h3, h4, h5⟩ := C03_index_inverse n hist tm h hlen
  obtain ⟨c1, c2, c3, c4, c5⟩ := C01_one_to_one n hist tm h
  obtain ⟨ti', h1', -, hA, -, -, h6, h7⟩ := index_facts h hlen
  rw [h1] at h1'
  cases h1'
  have hat : ∀ t p tr, At (ti.trajs.map fun T => (T.start, T.steps)) t p tr ↔ Linked tm t p tr := by
    intro t p tr
    unfold At
    simp only [List.getElem?_map, Option.map_eq_some_iff]
    constructor
    · rintro ⟨_, dt, ⟨T, hT, rfl⟩, hp, rfl⟩
      obtain ⟨-, -, k3⟩ := agree_traj hA h7 hT
      refine linked_iff.2 ((k3 _ _).1 ⟨by simp, ?_⟩)
      simpa using hp
    · intro hl
      have htr : tr < ti.trajs.length := by rw [h2]; exact (c5 tr).2 ⟨t, p, hl⟩
      obtain ⟨-, -, k3⟩ := agree_traj hA h7 (List.getElem?_eq_getElem htr)
      obtain ⟨a, b⟩ := (k3 t p).2 (linked_iff.1 hl)
      exact ⟨_, t - ti.trajs[tr].start, ⟨_, List.getElem?_eq_getElem htr, rfl⟩, b, by simp; omega⟩
  have hc : Consistent tm.getFrameSizes (ti.trajs.map fun T => (T.start, T.steps)) := by
    constructor
    · intro t p tr ha
      rw [c1]
      exact c3 t p tr ((hat t p tr).1 ha)
    · intro t p tr tr' ha ha'
      have l1 := (hat t p tr).1 ha
      have l2 := (hat t p tr').1 ha'
      obtain ⟨size, s1, s2⟩ := c3 t p tr l1
      obtain ⟨u, -, hu⟩ := c2 t size s1 p s2
      rw [hu tr l1, hu tr' l2]
  refine ⟨ti, h1, ?_⟩
  intro t p tr
  rw [h4]
  cases hn : tm.getFrameSizes[t]? with
  | none =>
    constructor
    · intro hh
      exfalso
      obtain ⟨m, q1, q2, -, -⟩ := pos2tr_ok hc
      have : m[t]? = none := by
        rw [List.getElem?_eq_none_iff]
        rw [List.getElem?_eq_none_iff, ← q2, List.length_map] at hn
        exact hn
      unfold p2tr at hh
      rw [q1, ok_bind, if_neg (by omega), Nat.add_sub_cancel_left, this] at hh
      simp [Except.toOption] at hh
    · intro hl
      obtain ⟨size, s1, s2⟩ := c3 t p tr hl
      rw [c1] at hn
      rw [hn] at s1
      cases s1
  | some size =>
    obtain ⟨a, a1, a2, a3⟩ := C164_p2tr_partial offset hc t size hn
    rw [a1]
    simp only [Except.toOption, Option.bind_some]
    constructor
    · intro hp
      obtain ⟨hlt, -⟩ := List.getElem?_eq_some_iff.1 hp
      obtain ⟨u, hu, -⟩ := c2 t size (by rw [← c1]; exact hn) p (by omega)
      have := a3 p u ((hat t p u).2 hu)
      rw [hp] at this
      cases this
      exact hu
    · intro hl
      exact a3 p tr ((hat t p tr).2 hl)

/-- C164 fails for a position that is in no trajectory: `p2tr` says that it is in the first one. -/
theorem C164_unlinked_counterexample (offset : Nat) {nb : List Nat} {trajs : List (Nat × List Nat)} (hc : Consistent nb trajs) (t n p : Nat)
    (hn : nb[t]? = some n) (hp : p < n) (hno : ∀ tr, ¬ At trajs t p tr) : ∃ a, p2tr offset nb trajs (offset + t) = .ok a ∧ a[p]? = some 0 := by
  obtain ⟨m, h1, h2, -, h4⟩ := pos2tr_ok hc
  have hm : ∃ a, m[t]? = some a ∧ a.length = n := by
    rw [← h2, List.getElem?_map, Option.map_eq_some_iff] at hn
    exact hn
  obtain ⟨a, ha, hl⟩ := hm
  refine ⟨a, ?_, ?_⟩
  · unfold p2tr
    rw [h1, ok_bind, if_neg (by omega), Nat.add_sub_cancel_left, ha]
    rfl
  · have := h4 t p n hn hp hno
    unfold get2 at this
    rwa [ha] at this

/-- Two positions, one of them in a trajectory. -/
example : Consistent [2] [(0, [1])] ∧ ∀ tr, ¬ At [(0, [1])] 0 0 tr := by
  have key : ∀ t p tr, At [(0, [1])] t p tr → t = 0 ∧ p = 1 ∧ tr = 0 := by
    rintro t p tr ⟨T, dt, h1, h2, rfl⟩
    obtain ⟨h, rfl⟩ := List.getElem?_eq_some_iff.1 h1
    obtain rfl : tr = 0 := by simpa using h
    obtain ⟨h', h2⟩ := List.getElem?_eq_some_iff.1 h2
    obtain rfl : dt = 0 := by simpa using h'
    exact ⟨rfl, by simpa using h2.symm, rfl⟩
  refine ⟨⟨?_, ?_⟩, ?_⟩
  · intro t p tr h
    obtain ⟨rfl, rfl, rfl⟩ := key t p tr h
    exact ⟨2, rfl, by decide⟩
  · intro t p tr tr' h h'
    rw [(key t p tr h).2.2, (key t p tr' h').2.2]
  · intro tr h
    exact absurd (key 0 0 tr h).2.1 (by decide)

example : p2tr 5 [2, 3] [(0, [1, 0]), (1, [2])] 6 = .ok [0, 0, 1] := by decide +kernel

theorem put_error {α : Type} (m : List (List α)) (t p : Nat) (v : α) (e : Fault) (h : put m t p v = .error e) : e = .outOfRange := by
  unfold put idx upd at h
  cases hm : m[t]? with
  | none =>
    rw [hm, error_bind] at h
    exact (Except.error.inj h).symm
  | some row =>
    rw [hm, ok_bind] at h
    split_ifs at h
    · cases h
    · rw [error_bind] at h
      exact (Except.error.inj h).symm

/-- A loop fails when one of its steps fails whatever happened before. -/
theorem fold_fails {α β : Type} (f : β → α → R β) (I : β → Prop) (e : Fault) (hI : ∀ s x s', I s → f s x = .ok s' → I s')
    (he : ∀ s x e', I s → f s x = .error e' → e' = e) (l : List α) (x : α) (hx : x ∈ l) (hf : ∀ s, I s → f s x = .error e) (s : β) (hs : I s) :
    l.foldlM f s = .error e := by
  induction l generalizing s with
  | nil => cases hx
  | cons y l ih =>
    rw [List.foldlM_cons]
    rcases List.mem_cons.1 hx with rfl | hx
    · rw [hf s hs]; rfl
    · cases hy : f s y with
      | error e' => rw [he s y e' hs hy]; rfl
      | ok s' => rw [ok_bind]; exact ih hx s' (hI s y s' hs hy)

theorem put_lengths {α : Type} {m m' : List (List α)} {t p : Nat} {v : α} (h : put m t p v = .ok m') :
    m'.map List.length = m.map List.length := by
  unfold put idx at h
  cases hm : m[t]? with
  | none => rw [hm, error_bind] at h; cases h
  | some row =>
    by_cases hp : p < row.length
    · obtain ⟨m1, q1, q2, -⟩ := put_ok (m := m) (t := t) (p := p) (n := row.length) v (by rw [List.getElem?_map, hm]; rfl) hp
      have : put m t p v = .ok m' := by unfold put idx; rw [hm]; rw [hm] at h; exact h
      rw [this] at q1
      cases q1
      exact q2
    · rw [hm, ok_bind] at h
      unfold upd at h
      rw [if_neg hp, error_bind] at h
      cases h

/-- C164. A trajectory with a position that does not exist is refused. -/
theorem C164_refused (offset : Nat) (nb : List Nat) (trajs : List (Nat × List Nat)) (t p tr : Nat) (ha : At trajs t p tr)
    (hno : ∀ n, nb[t]? = some n → n ≤ p) (t' : Nat) : p2tr offset nb trajs t' = .error .outOfRange := by
  unfold p2tr
  have : pos2tr nb trajs = .error .outOfRange := by
    rw [pos2tr_writes]
    refine fold_fails _ (fun m => m.map List.length = nb) _ ?_ ?_ _ (t, p, tr) (mem_writesOf.2 ha) ?_ _ (lengths_zero nb)
    · intro s x s' hs h
      rw [put_lengths h, hs]
    · intro s x e' _ h
      exact put_error _ _ _ _ _ h
    · intro m hm
      unfold put idx upd
      cases h : m[t]? with
      | none => rfl
      | some row =>
        have := hno row.length (by rw [← hm, List.getElem?_map, h]; rfl)
        rw [ok_bind, if_neg (by simpa using this)]
        rfl
  rw [this]
  rfl

example : At [(0, [1, 0]), (1, [2])] 1 2 1 := ⟨(1, [2]), 0, rfl, rfl, rfl⟩

end Exp
end Py
end Colloids
