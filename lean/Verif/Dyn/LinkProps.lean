import Verif.Dyn.Lemmas
import Verif.Traj.Props
import Verif.Particles.Props

/-! # C64: linking the positions into trajectories -/

namespace Colloids
namespace Dyn

open Particles

variable {G : Type} [Field G] [LinearOrder G] [IsStrictOrderedRing G]

/-- The past of a map of trajectories is not changed by what is appended. -/
theorem run_prefix {D : Type} [LinearOrder D] {n : Nat} (pre post : List (Followers D × Nat)) {tm : TrajMap}
    (h : TrajMap.run n (pre ++ post) = .ok tm) :
    ∃ tm1, TrajMap.run n pre = .ok tm1 ∧
      ∀ s p tr, s < tm1.bm.length → (Linked tm s p tr ↔ Linked tm1 s p tr) := by
  induction post using List.reverseRecOn generalizing tm with
  | nil => exact ⟨tm, by simpa using h, fun _ _ _ _ => Iff.rfl⟩
  | append_singleton l x ih =>
    rw [← List.append_assoc] at h
    have h' := h
    unfold TrajMap.run at h'
    rw [List.foldlM_append] at h'
    obtain ⟨tm2, h2, h3⟩ := bind_ok.1 h'
    simp only [List.foldlM_cons, List.foldlM_nil] at h3
    obtain ⟨tm3, h3, h4⟩ := bind_ok.1 h3
    cases h4
    obtain ⟨tm1, k1, k2⟩ := ih h2
    refine ⟨tm1, k1, ?_⟩
    intro s p tr hs
    have hle : tm1.bm.length ≤ tm2.bm.length := by
      have a := (TrajMap.run_inv k1).len
      have b := (TrajMap.run_inv h2).len
      simp only [List.length_cons, List.length_map, List.length_append] at a b
      omega
    have := (C02_stable_greedy n _ tm2 tm x.1 x.2 h2 h3).1 s p tr (by omega)
    rw [this, k2 s p tr hs]

omit [IsStrictOrderedRing G] in
theorem linkHist_cons2 (range : G) (a b : Particles G) (l : List (Particles G)) :
    linkHist range (a :: b :: l) = (do
      let fol ← a.pos.mapM (fun x => getEuclidianNeighboursBySqDist geometry b x range)
      let rest ← linkHist range (b :: l)
      pure ((fol, b.pos.length) :: rest)) := by
  rw [linkHist]

/-- The candidate tables hold exactly the pairs of positions of consecutive frames nearer than the range. -/
theorem linkHist_ok {P : RParams G} {H : Heur 3 G} (hP : P.Valid) (hH : H.Valid P) (range : G) :
    ∀ (frames : List (Particles G)) (a : Particles G), (∀ ps ∈ a :: frames, Indexed P H ps) →
    ∃ hist, linkHist range (a :: frames) = .ok hist ∧ hist.map Prod.snd = frames.map (fun ps => ps.pos.length) ∧
      ValidHist a.pos.length hist ∧
      ∀ (t : Nat) (ps ps' : Particles G), (a :: frames)[t]? = some ps → frames[t]? = some ps' → ∃ fol, hist[t]? = some (fol, ps'.pos.length) ∧
        ∀ p d q, Candidate fol p d q ↔ ∃ x y, ps.pos[p]? = some x ∧ ps'.pos[q]? = some y ∧ d = sqDist y x ∧
          NearerThan y x range := by
  intro frames
  induction frames with
  | nil => intro a _; exact ⟨[], rfl, rfl, trivial, by simp⟩
  | cons b l ih =>
    intro a ha
    obtain ⟨rest, h1, h2, h3, h4⟩ := ih b (fun ps hps => ha ps (by simp at hps ⊢; tauto))
    have hb : Indexed P H b := ha b (by simp)
    have hall := fun x => C19_by_distance hP hH hb x range
    choose M hM1 hM2 hM3 hM4 using hall
    have hcand : ∀ p d q, Candidate (a.pos.map M) p d q ↔ ∃ x y, a.pos[p]? = some x ∧ b.pos[q]? = some y ∧
        d = sqDist y x ∧ NearerThan y x range := by
      intro p d q
      unfold Candidate
      rw [List.getElem?_map]
      constructor
      · rintro ⟨row, hr, hm⟩
        cases hx : a.pos[p]? with
        | none => rw [hx] at hr; cases hr
        | some x =>
          rw [hx] at hr
          cases hr
          obtain ⟨y, k1, k2, k3⟩ := (hM4 x d q).1 hm
          exact ⟨x, y, rfl, k1, k2, k3⟩
      · rintro ⟨x, y, hx, k1, k2, k3⟩
        exact ⟨M x, by rw [hx]; rfl, (hM4 x d q).2 ⟨y, k1, k2, k3⟩⟩
    refine ⟨(a.pos.map M, b.pos.length) :: rest, ?_, ?_, ?_, ?_⟩
    · rw [linkHist_cons2, TreeIndex.mapM_ok_of _ M _ (fun x _ => hM1 x), ok_bind, h1, ok_bind]
      rfl
    · simp [h2]
    · refine ⟨by simp, ?_, h3⟩
      intro p d q hc
      obtain ⟨x, y, -, hy, -⟩ := (hcand p d q).1 hc
      exact (List.getElem?_eq_some_iff.1 hy).1
    · intro t ps ps' hps hps'
      cases t with
      | zero =>
        simp only [List.getElem?_cons_zero, Option.some.injEq] at hps hps'
        subst hps hps'
        exact ⟨_, rfl, hcand⟩
      | succ t =>
        simp only [List.getElem?_cons_succ] at hps hps'
        obtain ⟨fol, k1, k2⟩ := h4 t ps ps' hps hps'
        exact ⟨fol, by simpa using k1, k2⟩

/-- Indexing the frames does not move the particles. -/
theorem indexAll_ok {P : RParams G} {H : Heur 3 G} (hP : P.Valid) (hH : H.Valid P) (positions : List (Particles G))
    (hi : ∀ ps ∈ positions, ps.index = none ∨ Indexed P H ps) :
    ∃ l, indexAll P H positions = .ok l ∧ l.map (fun ps => ps.pos) = positions.map (fun ps => ps.pos) ∧
      ∀ ps ∈ l, Indexed P H ps := by
  have hall : ∀ ps ∈ positions, ∃ ps' : Particles G, (match ps.index with
      | none => makeRTreeIndex P H ps
      | some _ => pure ps : R (Particles G)) = .ok ps' ∧ ps'.pos = ps.pos ∧ Indexed P H ps' := by
    intro ps hps
    cases hix : ps.index with
    | none =>
      obtain ⟨ps', h1, -, h2, -⟩ := makeRTreeIndex_ok hP hH ps
      exact ⟨ps', h1, h2, .make h1⟩
    | some t =>
      rcases hi ps hps with h | h
      · rw [hix] at h; cases h
      · exact ⟨ps, rfl, rfl, h⟩
  choose! f h1 h2 h3 using hall
  refine ⟨positions.map f, TreeIndex.mapM_ok_of _ _ _ h1, ?_, ?_⟩
  · rw [List.map_map]
    apply List.map_congr_left
    intro ps hps
    exact h2 ps hps
  · intro ps hps
    obtain ⟨ps', hps', rfl⟩ := List.mem_map.1 hps
    exact h3 ps' hps'

/-- C64. `link` works on any frames, provided there is at least one. It does not move the particles, and the
trajectories it makes satisfy the invariant of the class. -/
theorem C64_link {P : RParams G} {H : Heur 3 G} (hP : P.Valid) (hH : H.Valid P) (D : DynParts G)
    (hne : D.positions ≠ []) (hlen : D.positions.length ≤ 2 ^ 64)
    (hi : ∀ ps ∈ D.positions, ps.index = none ∨ Indexed P H ps) :
    ∃ D', link P H D = .ok D' ∧ Wf D' ∧ D'.radius = D.radius ∧
      D'.positions.map (fun ps => ps.pos) = D.positions.map (fun ps => ps.pos) ∧
      (∀ tr t p t' p', D'.trajectories.convert t tr = .ok p → D'.trajectories.convert t' tr = .ok p' → t' = t + 1 →
        ∃ ps ps' x y, D'.positions[t]? = some ps ∧ D'.positions[t + 1]? = some ps' ∧ ps.pos[p]? = some x ∧
          ps'.pos[p']? = some y ∧ NearerThan y x (2 * D.radius)) ∧
      (∀ (t : Nat) (ps ps' : Particles G) (p q : Nat) (x y : Fin 3 → G) (tr : Nat), D'.positions[t]? = some ps → D'.positions[t + 1]? = some ps' →
        ps.pos[p]? = some x → ps'.pos[q]? = some y → NearerThan y x (2 * D.radius) →
        D'.trajectories.convert t tr = .ok p →
        ∃ p' q' x' y' tr', ps.pos[p']? = some x' ∧ ps'.pos[q']? = some y' ∧
          D'.trajectories.convert t tr' = .ok p' ∧ D'.trajectories.convert (t + 1) tr' = .ok q' ∧
          sqDist y' x' ≤ sqDist y x ∧ (q' = q ∨ p' = p)) := by
  obtain ⟨pos', h1, h2, h3⟩ := indexAll_ok hP hH D.positions hi
  have hl : pos'.length = D.positions.length := by
    have := congrArg List.length h2
    simpa using this
  obtain ⟨a, frames, rfl⟩ : ∃ a frames, pos' = a :: frames := by
    cases pos' with
    | nil => exact absurd (List.length_eq_zero_iff.1 hl.symm) hne
    | cons a l => exact ⟨a, l, rfl⟩
  obtain ⟨hist, k1, k2, k3, k4⟩ := linkHist_ok hP hH (D.radius * 2) frames a h3
  obtain ⟨tm, hrun⟩ := C01_total a.pos.length hist k3
  have hhl : hist.length = frames.length := by
    have := congrArg List.length k2
    simpa using this
  have hsz : hist.length + 1 ≤ szMod := by
    simp only [szMod, List.length_cons] at *
    omega
  obtain ⟨ti, i1, i2, i3, i4, i5, i6, i7⟩ := index_facts hrun hsz
  obtain ⟨ti', j1, -, j2, j3, -⟩ := C03_index_inverse _ hist tm hrun hsz
  rw [i1] at j1
  cases j1
  obtain ⟨c1, c2, c3, c4, c5⟩ := C01_one_to_one _ hist tm hrun
  have hbm : tm.bm.length = hist.length + 1 := by
    have := (TrajMap.run_inv hrun).len
    simpa using this
  let D' : DynParts G := { D with positions := a :: frames, trajectories := ti }
  have hlink : link P H D = .ok D' := by
    unfold link
    rw [h1, ok_bind, show getR (a :: frames) 0 = .ok a from rfl, ok_bind, k1, ok_bind, hrun, ok_bind, i1, ok_bind]
    rfl
  have hT : ∀ T ∈ ti.trajs, T.steps ≠ [] ∧ T.start + T.steps.length ≤ tm.bm.length := by
    intro T hT
    obtain ⟨tr, htr⟩ := List.mem_iff_getElem?.1 hT
    obtain ⟨e1, e2, -⟩ := agree_traj i3 i7 htr
    exact ⟨e1, e2⟩
  have hw : Wf D' := by
    refine ⟨fun T h => (hT T h).1, ?_, ?_, ?_, ?_⟩
    · intro T h
      have := (hT T h).2
      show _ ≤ (a :: frames).length
      simp only [List.length_cons]
      omega
    · show (a :: frames).length ≤ _
      rw [hl]; exact hlen
    · show ti.inverse.map List.length = (a :: frames).map (fun ps => ps.pos.length)
      rw [i4, c1, k2]
      rfl
    · intro t p tr
      show ti.invert t p = .ok tr ↔ ti.convert t tr = .ok p
      rw [j2, j3]
  -- one step of the run
  have hstep : ∀ (t : Nat) (ps ps' : Particles G), (a :: frames)[t]? = some ps → frames[t]? = some ps' → ∃ fol tm1 tm2,
      (∀ p d q, Candidate fol p d q ↔ ∃ x y, ps.pos[p]? = some x ∧ ps'.pos[q]? = some y ∧ d = sqDist y x ∧
          NearerThan y x (D.radius * 2)) ∧
      TrajMap.run a.pos.length (hist.take t) = .ok tm1 ∧ tm1.pushBack fol ps'.pos.length = .ok tm2 ∧
      tm1.bm.length = t + 1 ∧ tm2.bm.length = t + 2 ∧
      (∀ p tr, Linked tm t p tr ↔ Linked tm1 t p tr) ∧ (∀ p tr, Linked tm (t + 1) p tr ↔ Linked tm2 (t + 1) p tr) := by
    intro t ps ps' hps hps'
    obtain ⟨fol, f1, f2⟩ := k4 t ps ps' hps hps'
    have hlt := (List.getElem?_eq_some_iff.1 f1).1
    have hsplit : hist = (hist.take t ++ [(fol, ps'.pos.length)]) ++ hist.drop (t + 1) := by
      obtain ⟨_, he⟩ := List.getElem?_eq_some_iff.1 f1
      rw [← he, List.append_assoc, List.singleton_append, List.getElem_cons_drop, List.take_append_drop]
    rw [hsplit] at hrun
    obtain ⟨tm2, g1, g2⟩ := run_prefix _ _ hrun
    have g1' := g1
    obtain ⟨tm1, g3, g4⟩ := run_prefix _ _ g1
    unfold TrajMap.run at g1'
    rw [List.foldlM_append] at g1'
    obtain ⟨tm1', e1, e2⟩ := bind_ok.1 g1'
    have : tm1' = tm1 := by
      unfold TrajMap.run at g3
      rw [g3] at e1
      exact (Except.ok.inj e1).symm
    subst this
    simp only [List.foldlM_cons, List.foldlM_nil] at e2
    obtain ⟨tm3, e3, e4⟩ := bind_ok.1 e2
    cases e4
    have l1 : tm1'.bm.length = t + 1 := by
      have := (TrajMap.run_inv g3).len
      simp only [List.length_cons, List.length_map, List.length_take] at this
      omega
    have l2 : tm2.bm.length = t + 2 := by
      have := (TrajMap.run_inv g1).len
      simp only [List.length_cons, List.length_map, List.length_append, List.length_take, List.length_nil] at this
      omega
    refine ⟨fol, tm1', tm2, f2, g3, e3, l1, l2, ?_, ?_⟩
    · intro p tr
      rw [g2 t p tr (by omega), g4 t p tr (by omega)]
    · intro p tr
      rw [g2 (t + 1) p tr (by omega)]
  have hmul : D.radius * 2 = 2 * D.radius := mul_comm _ _
  refine ⟨D', hlink, hw, rfl, h2, ?_, ?_⟩
  · intro tr t p t' p' hp hp' ht'
    subst ht'
    have hp : Linked tm t p tr := (j2 t p tr).1 hp
    have hp' : Linked tm (t + 1) p' tr := (j2 (t + 1) p' tr).1 hp'
    have hlt : t + 1 < tm.bm.length := (linked_iff.1 hp').1
    have e1 : (a :: frames)[t]? = some ((a :: frames)[t]'(by simp; omega)) := by simp
    have e2 : frames[t]? = some (frames[t]'(by omega)) := by simp
    obtain ⟨fol, tm1, tm2, f1, f2, f3, l1, l2, f4, f5⟩ := hstep t _ _ e1 e2
    obtain ⟨-, -, -, s1, -⟩ := C02_stable_greedy _ _ tm1 tm2 fol _ f2 f3
    rw [l1] at s1
    have hp1 := (f4 p tr).1 hp
    obtain ⟨p0, d, g1, g2⟩ := s1 p' tr ((f5 p' tr).1 hp')
      (((C01_one_to_one _ _ tm1 f2).2.2.2.2 tr).2 ⟨t, p, hp1⟩)
    have : p0 = p := (C01_one_to_one _ _ tm1 f2).2.2.2.1 t p0 p tr g1 hp1
    subst this
    obtain ⟨x, y, hx, hy, -, hn⟩ := (f1 p0 d p').1 g2
    rw [hmul] at hn
    exact ⟨_, _, x, y, e1, by show (a :: frames)[t + 1]? = _; rw [List.getElem?_cons_succ]; exact e2, hx, hy, hn⟩
  · intro t ps ps' p q x y tr hps hps' hx hy hn hp
    have hps : (a :: frames)[t]? = some ps := hps
    have hps' : frames[t]? = some ps' := by
      have : (a :: frames)[t + 1]? = some ps' := hps'
      simpa using this
    obtain ⟨fol, tm1, tm2, f1, f2, f3, l1, l2, f4, f5⟩ := hstep t ps ps' hps hps'
    obtain ⟨-, -, -, -, s2, -⟩ := C02_stable_greedy _ _ tm1 tm2 fol _ f2 f3
    rw [l1] at s2
    have hp1 := (f4 p tr).1 ((j2 t p tr).1 hp)
    obtain ⟨p', tr', d', q', g1, g2, g3, g4, g5⟩ := s2 p tr (sqDist y x) q hp1
      ((f1 p _ q).2 ⟨x, y, hx, hy, rfl, by rw [hmul]; exact hn⟩)
    obtain ⟨x', y', hx', hy', hd', -⟩ := (f1 p' d' q').1 g2
    refine ⟨p', q', x', y', tr', hx', hy', (j2 _ _ _).2 ((f4 _ _).2 g1), (j2 _ _ _).2 ((f5 _ _).2 g3), ?_, ?_⟩
    · rw [← hd']; exact g4
    · rcases g5 with g5 | g5
      · exact .inl g5
      · subst g5
        exact .inr ((C01_one_to_one _ _ tm1 f2).2.2.2.1 t p' p tr' g1 hp1)

omit [IsStrictOrderedRing G] in
/-- C64. Without any frame, `link` reads a frame that does not exist. -/
theorem C64_no_frame (P : RParams G) (H : Heur 3 G) (D : DynParts G) (h : D.positions = []) :
    link P H D = .error .ub := by
  unfold link indexAll
  rw [h]
  rfl

example : ∃ (P : RParams ℚ) (H : Heur 3 ℚ) (D : DynParts ℚ), P.Valid ∧ H.Valid P ∧ D.positions.length = 2 ∧
    ∀ ps ∈ D.positions, ps.index = none ∨ Indexed P H ps := by
  have hP := stdParams_valid (1000 : ℚ) (1 / 1000)
  refine ⟨_, _, ⟨[⟨[![0, 0, 0]], ⟨fun _ => 0, fun _ => 10⟩, 1, none⟩,
    ⟨[![1, 0, 0]], ⟨fun _ => 0, fun _ => 10⟩, 1, none⟩], ⟨[], []⟩, 1, none, []⟩, hP, exHeur_valid hP, rfl, ?_⟩
  simp

end Dyn
end Colloids
