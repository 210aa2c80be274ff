import Verif.Dyn.BooTimeModel
import Verif.Dyn.AvgProps
import Verif.Dyn.IsfProps
import Verif.Dyn.DriftProps
import Verif.Particles.Props
import Mathlib.Algebra.Order.BigOperators.Group.List

/-! # C128: bond order in a film -/

namespace Colloids
namespace Dyn

open Particles

variable {G : Type} [Field G] [LinearOrder G] {V : Type} [AddCommGroup V] [Module G V]

/-- `p` is the place at time `t` of a trajectory of the selection. -/
def SeenAt (D : DynParts G) (sel : List Nat) (t p : Nat) : Prop := ∃ tr ∈ sel, D.trajectories.convert t tr = .ok p

omit [Field G] [LinearOrder G] in
theorem step_cases {D : DynParts G} (hw : Wf D) {tr : Nat} (htr : tr < D.trajectories.trajs.length) (t : Nat) :
    ∃ T, getR D.trajectories.trajs tr = .ok T ∧
      ((T.exist t = true ∧ ∃ p, T.at_ t = .ok p ∧ D.trajectories.convert t tr = .ok p) ∨
        (T.exist t = false ∧ ∀ p, D.trajectories.convert t tr ≠ .ok p)) := by
  have hT : D.trajectories.trajs[tr]? = some D.trajectories.trajs[tr] := by simp [htr]
  refine ⟨D.trajectories.trajs[tr], getR_ok.2 hT, ?_⟩
  have hm := List.mem_of_getElem? hT
  have hne := hw.nonempty _ hm
  have hf := hw.fits' hm
  by_cases he : (D.trajectories.trajs[tr]).exist t = true
  · left
    refine ⟨he, ?_⟩
    have h1 := (exist_iff hne hf t).1 he
    have h2 : t - (D.trajectories.trajs[tr]).start < (D.trajectories.trajs[tr]).steps.length := by omega
    refine ⟨(D.trajectories.trajs[tr]).steps[t - (D.trajectories.trajs[tr]).start], ?_, ?_⟩
    · rw [at_eq hne hf]; exact ⟨h1.1, by simp [h2]⟩
    · rw [convert_ok hw]; exact ⟨_, hT, h1.1, by simp [h2]⟩
  · right
    refine ⟨by simpa using he, ?_⟩
    intro p hp
    rw [convert_ok hw] at hp
    obtain ⟨T, h1, h2, h3⟩ := hp
    rw [hT] at h1; injection h1 with h1; subst h1
    have := (List.getElem?_eq_some_iff.1 h3).1
    exact he ((exist_iff hne hf t).2 (by omega))

omit [Field G] [LinearOrder G] [AddCommGroup V] [Module G V] in
/-- `makeBoo` fills the map with the bond order of the places at time `t` of the trajectories of the selection, once each,
and of nothing else. -/
theorem C128_boo {D : DynParts G} (hw : Wf D) {boo : Nat → R V} {B : Nat → V} {t : Nat} {sel : List Nat}
    (hsel : ∀ tr ∈ sel, tr < D.trajectories.trajs.length) (hb : ∀ p, SeenAt D sel t p → boo p = .ok (B p)) :
    ∃ m, makeBoo D boo t sel = .ok m ∧ ∀ p v, m.lookup p = some v ↔ SeenAt D sel t p ∧ v = B p := by
  have key : ∀ (l seen : List Nat) (m : List (Nat × V)), (∀ tr ∈ seen ++ l, tr ∈ sel) →
      (∀ p v, m.lookup p = some v ↔ SeenAt D seen t p ∧ v = B p) →
      ∃ m', l.foldlM (fun m tr => do
        let T ← getR D.trajectories.trajs tr
        if T.exist t then do
          let p ← T.at_ t
          let b ← boo p
          pure (match m.lookup p with
            | some _ => m
            | none => mapSet p b m)
        else pure m) m = (.ok m' : R _) ∧
        ∀ p v, m'.lookup p = some v ↔ SeenAt D (seen ++ l) t p ∧ v = B p := by
    intro l
    induction l with
    | nil => intro seen m _ hm; exact ⟨m, rfl, by simpa using hm⟩
    | cons a l ih =>
      intro seen m hs hm
      have ha : a ∈ sel := hs a (by simp)
      obtain ⟨T, h1, h2⟩ := step_cases hw (hsel a ha) t
      rw [List.foldlM_cons]
      have e : seen ++ a :: l = (seen ++ [a]) ++ l := by simp
      rcases h2 with ⟨he, p, h3, h4⟩ | ⟨he, h3⟩
      · have hbp := hb p ⟨a, ha, h4⟩
        simp only [h1, ok_bind, he, if_true, h3, hbp, pure_eq_ok]
        rw [e]
        refine ih (seen ++ [a]) _ (by rwa [← e]) ?_
        intro q v
        have hseen : SeenAt D (seen ++ [a]) t q ↔ SeenAt D seen t q ∨ q = p := by
          unfold SeenAt
          simp only [List.mem_append, List.mem_singleton]
          constructor
          · rintro ⟨tr, h | rfl, h'⟩
            · exact .inl ⟨tr, h, h'⟩
            · rw [h4] at h'; injection h' with h'; exact .inr h'.symm
          · rintro (⟨tr, h, h'⟩ | rfl)
            · exact ⟨tr, .inl h, h'⟩
            · exact ⟨a, .inr rfl, h4⟩
        rw [hseen]
        cases hl : m.lookup p with
        | some v0 =>
          have := (hm p v0).1 hl
          dsimp only
          rw [hm]
          constructor
          · rintro ⟨h, h'⟩; exact ⟨.inl h, h'⟩
          · rintro ⟨h | rfl, h'⟩
            · exact ⟨h, h'⟩
            · exact ⟨this.1, h'⟩
        | none =>
          dsimp only
          rw [lookup_mapSet]
          by_cases hq : q = p
          · subst hq; simp [eq_comm]
          · rw [if_neg hq, hm]; simp [hq]
      · simp only [h1, ok_bind, he, Bool.false_eq_true, if_false, pure_eq_ok]
        rw [e]
        refine ih (seen ++ [a]) _ (by rwa [← e]) ?_
        intro q v
        rw [hm]
        have hseen : SeenAt D (seen ++ [a]) t q ↔ SeenAt D seen t q := by
          unfold SeenAt
          simp only [List.mem_append, List.mem_singleton]
          constructor
          · rintro ⟨tr, h | rfl, h'⟩
            · exact ⟨tr, h, h'⟩
            · exact absurd h' (h3 q)
          · rintro ⟨tr, h, h'⟩; exact ⟨tr, .inl h, h'⟩
        rw [hseen]
  obtain ⟨m, h1, h2⟩ := key sel [] [] (by simp) (by simp [SeenAt])
  exact ⟨m, h1, by simpa using h2⟩

example : ∃ (D : DynParts ℚ) (sel : List Nat), Wf D ∧ (∀ tr ∈ sel, tr < D.trajectories.trajs.length) ∧
    SeenAt D sel 1 0 ∧ SeenAt D sel 1 1 :=
  ⟨exTwo, [0, 1], exTwo_wf, by decide, ⟨1, by simp, (convert_ok exTwo_wf).2 ⟨_, rfl, by decide, rfl⟩⟩,
    ⟨0, by simp, (convert_ok exTwo_wf).2 ⟨_, rfl, by decide, rfl⟩⟩⟩

theorem addBoos_ok {allBoo : List (Nat × V)} {B : Nat → V} (ns : List Nat) (h : ∀ q ∈ ns, allBoo.lookup q = some (B q))
    (v0 : V) : addBoos allBoo ns v0 = .ok (v0 + (ns.map B).sum) := by
  unfold addBoos
  induction ns generalizing v0 with
  | nil => simp [pure_eq_ok]
  | cons q ns ih =>
    rw [List.foldlM_cons, h q (by simp)]
    exact (ih (fun q hq => h q (by simp [hq])) (v0 + B q)).trans (by simp [add_assoc])

omit [Field G] [LinearOrder G] in
theorem place_of {D : DynParts G} (hw : Wf D) {t tr p : Nat} (h : D.trajectories.convert t tr = .ok p) {ps : Particles G}
    (hps : D.positions[t]? = some ps) : ∃ x, ps.pos[p]? = some x := by
  have h1 := (hw.inverse t p tr).2 h
  rw [invert_ok] at h1
  obtain ⟨row, h2, h3⟩ := h1
  have h4 := congrArg (fun l => l[t]?) hw.frames
  simp only [List.getElem?_map, h2, hps, Option.map_some, Option.some.injEq] at h4
  have := (List.getElem?_eq_some_iff.1 h3).1
  rw [h4] at this
  exact ⟨ps.pos[p], by simp [this]⟩

variable [IsStrictOrderedRing G]

/-- The neighbours that `makeSBoo` averages over: the particles nearer than 2.6 radii, the particle with them. -/
theorem booNgb_ok {P : RParams G} {H : Heur 3 G} (hP : P.Valid) (hH : H.Valid P) {D : DynParts G} {t : Nat}
    {ps : Particles G} (hps : D.positions[t]? = some ps) (hix : Indexed P H ps) (hr : 0 < D.radius) {p : Nat} {x : Coord G}
    (hx : ps.pos[p]? = some x) :
    ∃ N, booNgb D t p = .ok N ∧ N.Nodup ∧ p ∈ N ∧
      ∀ q, q ∈ N ↔ ∃ y, ps.pos[q]? = some y ∧ sqDist y x < (13 / 5 * D.radius) ^ 2 := by
  obtain ⟨N, h1, h2, h3⟩ := C19_position hP hH hix x (13 / 10 * 2 * D.radius)
  have hpos : (0 : G) < 13 / 10 * 2 * D.radius := by positivity
  have e : (13 / 10 * 2 * D.radius : G) = 13 / 5 * D.radius := by ring
  have h4 : ∀ q, q ∈ N ↔ ∃ y, ps.pos[q]? = some y ∧ sqDist y x < (13 / 5 * D.radius) ^ 2 := by
    intro q
    rw [h3, ← e]
    simp only [NearerThan, hpos, true_and]
  refine ⟨N, ?_, h2.imp (fun h => Nat.ne_of_lt h), ?_, h4⟩
  · unfold booNgb
    rw [getR_ok.2 hps, ok_bind, getR_ok.2 hx, ok_bind, h1]
  · rw [h4]
    refine ⟨x, hx, ?_⟩
    rw [← e]
    have : sqDist x x = 0 := by simp [sqDist]
    rw [this]; positivity

/-- `makeSBoo` gives to each place of the selection, and to nothing else, the mean bond order of the particles nearer
than 2.6 radii, the particle with them. The part proved: no trajectory is selected twice and the bond order of all
these neighbours was computed. -/
theorem C128_sboo_partial {P : RParams G} {H : Heur 3 G} (hP : P.Valid) (hH : H.Valid P) {D : DynParts G} (hw : Wf D)
    {t : Nat} {ps : Particles G} (hps : D.positions[t]? = some ps) (hix : Indexed P H ps) (hr : 0 < D.radius)
    {sel : List Nat} (hsel : ∀ tr ∈ sel, tr < D.trajectories.trajs.length) (hnd : sel.Nodup)
    {allBoo : List (Nat × V)} {B : Nat → V}
    (hall : ∀ p x q y, SeenAt D sel t p → ps.pos[p]? = some x → ps.pos[q]? = some y →
      sqDist y x < (13 / 5 * D.radius) ^ 2 → allBoo.lookup q = some (B q)) :
    ∃ m, makeSBoo D t sel allBoo = .ok m ∧ (∀ p, ¬ SeenAt D sel t p → m.lookup p = none) ∧
      ∀ p x, SeenAt D sel t p → ps.pos[p]? = some x → ∃ N : List Nat, N.Nodup ∧ p ∈ N ∧
        (∀ q, q ∈ N ↔ ∃ y, ps.pos[q]? = some y ∧ sqDist y x < (13 / 5 * D.radius) ^ 2) ∧
        m.lookup p = some ((N.length : G)⁻¹ • (N.map B).sum) := by
  have key : ∀ (l seen : List Nat) (m : List (Nat × V)), (∀ tr ∈ seen ++ l, tr ∈ sel) → (seen ++ l).Nodup →
      (∀ p, ¬ SeenAt D seen t p → m.lookup p = none) →
      (∀ p, SeenAt D seen t p → ∃ N, booNgb D t p = .ok N ∧ m.lookup p = some ((N.length : G)⁻¹ • (N.map B).sum)) →
      ∃ m', l.foldlM (sbooStep D t allBoo) m = .ok m' ∧
        (∀ p, ¬ SeenAt D (seen ++ l) t p → m'.lookup p = none) ∧
        (∀ p, SeenAt D (seen ++ l) t p → ∃ N, booNgb D t p = .ok N ∧
          m'.lookup p = some ((N.length : G)⁻¹ • (N.map B).sum)) := by
    intro l
    induction l with
    | nil => intro seen m _ _ h1 h2; exact ⟨m, rfl, by simpa using h1, by simpa using h2⟩
    | cons a l ih =>
      intro seen m hs hd hm1 hm2
      have ha : a ∈ sel := hs a (by simp)
      obtain ⟨T, h1, h2⟩ := step_cases hw (hsel a ha) t
      rw [List.foldlM_cons]
      have e : seen ++ a :: l = (seen ++ [a]) ++ l := by simp
      rw [e] at hs hd ⊢
      rcases h2 with ⟨he, p, h3, h4⟩ | ⟨he, h3⟩
      · obtain ⟨x, hx⟩ := place_of hw h4 hps
        obtain ⟨N, n1, n2, n3, n4⟩ := booNgb_ok hP hH hps hix hr hx
        have hnew : ¬ SeenAt D seen t p := by
          rintro ⟨tr, htr, h⟩
          have i1 := (hw.inverse t p tr).2 h
          have i2 := (hw.inverse t p a).2 h4
          rw [i1] at i2; injection i2 with i2
          subst i2
          have := (List.nodup_append.1 (List.nodup_append.1 hd).1).2.2
          exact this tr htr tr (by simp) rfl
        have hN : ∀ q ∈ N, allBoo.lookup q = some (B q) := by
          intro q hq
          obtain ⟨y, hy, hyx⟩ := (n4 q).1 hq
          exact hall p x q y ⟨a, ha, h4⟩ hx hy hyx
        have hstep : sbooStep D t allBoo m a = .ok (mapSet p ((N.length : G)⁻¹ • (N.map B).sum) m) := by
          unfold sbooStep
          simp only [h1, ok_bind, he, if_true, h3, n1, hm1 p hnew, Option.getD_none, addBoos_ok N hN, zero_add, pure_eq_ok]
        rw [hstep, ok_bind]
        have hseen : ∀ q, SeenAt D (seen ++ [a]) t q ↔ SeenAt D seen t q ∨ q = p := by
          intro q
          unfold SeenAt
          simp only [List.mem_append, List.mem_singleton]
          constructor
          · rintro ⟨tr, h | rfl, h'⟩
            · exact .inl ⟨tr, h, h'⟩
            · rw [h4] at h'; injection h' with h'; exact .inr h'.symm
          · rintro (⟨tr, h, h'⟩ | rfl)
            · exact ⟨tr, .inl h, h'⟩
            · exact ⟨a, .inr rfl, h4⟩
        refine ih (seen ++ [a]) _ hs hd ?_ ?_
        · intro q hq
          rw [hseen, not_or] at hq
          rw [lookup_mapSet, if_neg hq.2]; exact hm1 q hq.1
        · intro q hq
          rw [hseen] at hq
          by_cases hqp : q = p
          · subst hqp; exact ⟨N, n1, by rw [lookup_mapSet, if_pos rfl]⟩
          · rw [lookup_mapSet, if_neg hqp]; exact hm2 q (hq.resolve_right hqp)
      · have hstep : sbooStep D t allBoo m a = .ok m := by
          unfold sbooStep
          simp only [h1, ok_bind, he, Bool.false_eq_true, if_false, pure_eq_ok]
        rw [hstep, ok_bind]
        have hseen : ∀ q, SeenAt D (seen ++ [a]) t q ↔ SeenAt D seen t q := by
          intro q
          unfold SeenAt
          simp only [List.mem_append, List.mem_singleton]
          constructor
          · rintro ⟨tr, h | rfl, h'⟩
            · exact ⟨tr, h, h'⟩
            · exact absurd h' (h3 q)
          · rintro ⟨tr, h, h'⟩; exact ⟨tr, .inl h, h'⟩
        refine ih (seen ++ [a]) _ hs hd ?_ ?_
        · intro q hq; rw [hseen] at hq; exact hm1 q hq
        · intro q hq; rw [hseen] at hq; exact hm2 q hq
  obtain ⟨m, h1, h2, h3⟩ := key sel [] [] (by simp) (by simpa using hnd) (by simp) (by simp [SeenAt])
  refine ⟨m, h1, by simpa using h2, ?_⟩
  intro p x hp hx
  obtain ⟨N, n1, n2⟩ := h3 p (by simpa using hp)
  obtain ⟨N', m1, m2, m3, m4⟩ := booNgb_ok hP hH hps hix hr hx
  rw [n1] at m1; injection m1 with m1; subst m1
  exact ⟨N, m2, m3, m4, n2⟩

/-- A particle near a selected one whose bond order was not computed, because no trajectory of the selection goes through
it: the behaviour is undefined. -/
theorem C128_outside_counterexample {P : RParams G} {H : Heur 3 G} (hP : P.Valid) (hH : H.Valid P) {D : DynParts G}
    (hw : Wf D) {t : Nat} {ps : Particles G} (hps : D.positions[t]? = some ps) (hix : Indexed P H ps) (hr : 0 < D.radius)
    {sel : List Nat} (hsel : ∀ tr ∈ sel, tr < D.trajectories.trajs.length) {boo : Nat → R V} {B : Nat → V}
    (hb : ∀ p, SeenAt D sel t p → boo p = .ok (B p)) {p q : Nat} {x y : Coord G} (hp : SeenAt D sel t p)
    (hx : ps.pos[p]? = some x) (hy : ps.pos[q]? = some y) (hyx : sqDist y x < (13 / 5 * D.radius) ^ 2)
    (hq : ¬ SeenAt D sel t q) :
    ∃ m, makeBoo D boo t sel = .ok m ∧ makeSBoo D t sel m = .error .ub := by
  obtain ⟨m, h1, h2⟩ := C128_boo hw hsel hb
  refine ⟨m, h1, ?_⟩
  have hadd : ∀ (ns : List Nat) (v0 : V), (∃ s, addBoos m ns v0 = .ok s) ∨ addBoos m ns v0 = .error .ub := by
    intro ns
    unfold addBoos
    induction ns with
    | nil => intro v0; exact .inl ⟨v0, rfl⟩
    | cons a ns ih =>
      intro v0
      rw [List.foldlM_cons]
      cases m.lookup a with
      | none => right; rfl
      | some b => exact ih (v0 + b)
  have hbad : ∀ (ns : List Nat) (v0 : V), q ∈ ns → addBoos m ns v0 = .error .ub := by
    have hl : m.lookup q = none := by
      cases h : m.lookup q with
      | none => rfl
      | some v => exact absurd ((h2 q v).1 h).1 hq
    intro ns v0 hqn
    unfold addBoos
    refine foldlM_ub _ (fun _ => True) ns v0 trivial ?_ ⟨q, hqn, ?_⟩
    · intro s a _ _
      cases m.lookup a with
      | none => left; rfl
      | some b => exact .inr ⟨s + b, rfl, trivial⟩
    · intro s _; rw [hl]; rfl
  unfold makeSBoo
  refine foldlM_ub _ (fun _ => True) sel [] trivial ?_ ?_
  · intro s a ha _
    obtain ⟨T, k1, k2⟩ := step_cases hw (hsel a ha) t
    unfold sbooStep
    rcases k2 with ⟨he, p', k3, k4⟩ | ⟨he, -⟩
    · obtain ⟨x', hx'⟩ := place_of hw k4 hps
      obtain ⟨N, n1, -, -, -⟩ := booNgb_ok hP hH hps hix hr hx'
      simp only [k1, ok_bind, he, if_true, k3, n1]
      rcases hadd N ((s.lookup p').getD 0) with ⟨v, hv⟩ | hv
      · rw [hv]; exact .inr ⟨_, rfl, trivial⟩
      · rw [hv]; exact .inl rfl
    · simp only [k1, ok_bind, he, Bool.false_eq_true, if_false, pure_eq_ok]
      exact .inr ⟨s, rfl, trivial⟩
  · obtain ⟨a, ha, hc⟩ := hp
    refine ⟨a, ha, ?_⟩
    intro s _
    obtain ⟨T, k1, k2⟩ := step_cases hw (hsel a ha) t
    rcases k2 with ⟨he, p', k3, k4⟩ | ⟨-, k3⟩
    · rw [hc] at k4; injection k4 with k4; subst k4
      obtain ⟨N, n1, n2, n3, n4⟩ := booNgb_ok hP hH hps hix hr hx
      unfold sbooStep
      simp only [k1, ok_bind, he, if_true, k3, n1]
      rw [hbad N _ ((n4 q).2 ⟨y, hy, hyx⟩)]
      rfl
    · exact absurd hc (k3 p)

/-- A trajectory given twice gets its mean, plus this mean divided by the number of neighbours. -/
theorem C128_twice_counterexample {P : RParams G} {H : Heur 3 G} (hP : P.Valid) (hH : H.Valid P) {D : DynParts G}
    (hw : Wf D) {t : Nat} {ps : Particles G} (hps : D.positions[t]? = some ps) (hix : Indexed P H ps) (hr : 0 < D.radius)
    {tr p : Nat} (htr : tr < D.trajectories.trajs.length) (hp : D.trajectories.convert t tr = .ok p)
    {allBoo : List (Nat × V)} {B : Nat → V} (hall : ∀ q, allBoo.lookup q = some (B q) ∨ ps.pos[q]? = none) :
    ∃ m m' M N, makeSBoo D t [tr] allBoo = .ok m ∧ m.lookup p = some M ∧ makeSBoo D t [tr, tr] allBoo = .ok m' ∧
      booNgb D t p = .ok N ∧ m'.lookup p = some (M + (N.length : G)⁻¹ • M) := by
  obtain ⟨x, hx⟩ := place_of hw hp hps
  obtain ⟨N, n1, n2, n3, n4⟩ := booNgb_ok hP hH hps hix hr hx
  have hN : ∀ q ∈ N, allBoo.lookup q = some (B q) := by
    intro q hq
    obtain ⟨y, hy, -⟩ := (n4 q).1 hq
    exact (hall q).resolve_right (by simp [hy])
  obtain ⟨T, k1, k2⟩ := step_cases hw htr t
  have hstep : ∀ m, sbooStep D t allBoo m tr =
      .ok (mapSet p ((N.length : G)⁻¹ • ((m.lookup p).getD 0 + (N.map B).sum)) m) := by
    intro m
    rcases k2 with ⟨he, p', k3, k4⟩ | ⟨-, k3⟩
    · rw [hp] at k4; injection k4 with k4; subst k4
      unfold sbooStep
      simp only [k1, ok_bind, he, if_true, k3, n1, addBoos_ok N hN, pure_eq_ok]
    · exact absurd hp (k3 p)
  let M : V := (N.length : G)⁻¹ • (0 + (N.map B).sum)
  refine ⟨mapSet p M [], mapSet p ((N.length : G)⁻¹ • (((mapSet p M []).lookup p).getD 0 + (N.map B).sum)) (mapSet p M []),
    M, N, ?_, ?_, ?_, n1, ?_⟩
  · unfold makeSBoo
    rw [List.foldlM_cons, hstep, ok_bind]; rfl
  · rw [lookup_mapSet, if_pos rfl]
  · unfold makeSBoo
    rw [List.foldlM_cons, hstep, ok_bind, List.foldlM_cons, hstep, ok_bind]; rfl
  · rw [lookup_mapSet, if_pos rfl, lookup_mapSet, if_pos rfl]
    simp only [Option.getD_some, M, zero_add]
    rw [smul_add]
    exact congrArg some (add_comm _ _)

/-- A film where the hypotheses hold: two particles that exchange their places in the list. -/
theorem exSboo : ∃ (P : RParams ℚ) (H : Heur 3 ℚ) (D : DynParts ℚ) (ps : Particles ℚ), P.Valid ∧ H.Valid P ∧ Wf D ∧
    D.positions[0]? = some ps ∧ Indexed P H ps ∧ 0 < D.radius ∧ D.trajectories.trajs.length = 2 ∧
    ps.pos.length = 2 ∧
    D.trajectories.convert 0 0 = .ok 0 ∧ D.trajectories.convert 0 1 = .ok 1 ∧
    ∃ x y, ps.pos[0]? = some x ∧ ps.pos[1]? = some y ∧ sqDist y x < (13 / 5 * D.radius) ^ 2 := by
  have hP := stdParams_valid (1000 : ℚ) (1 / 1000)
  have hH := exHeur_valid (d := 3) hP
  obtain ⟨ps, h1, h2, h3, h4⟩ := indexed_exists hP hH [![0, 0, 0], ![0, 5, 0]] ⟨fun _ => 0, fun _ => 10⟩ 1
  have hlen : ps.pos.length = 2 := by rw [h2]; rfl
  have hw : Wf ({ exTwo with positions := ps :: exTwo.positions.tail, radius := 3 } : DynParts ℚ) := by
    have := exTwo_wf
    refine ⟨this.nonempty, this.fits, this.size, ?_, this.inverse⟩
    show exTwo.trajectories.inverse.map List.length = _
    rw [List.map_cons, hlen]
    rfl
  refine ⟨_, _, _, ps, hP, hH, hw, rfl, h1, by norm_num, rfl, hlen, (convert_ok hw).2 ⟨_, rfl, by decide, rfl⟩,
    (convert_ok hw).2 ⟨_, rfl, by decide, rfl⟩, ![0, 0, 0], ![0, 5, 0], by rw [h2]; rfl, by rw [h2]; rfl, ?_⟩
  simp [sqDist]
  norm_num

/-- C128 on it: with both trajectories all is computed; with the first one only, the neighbour is missing. -/
example : ∃ (P : RParams ℚ) (H : Heur 3 ℚ) (D : DynParts ℚ) (ps : Particles ℚ) (allBoo : List (Nat × ℚ)) (B : Nat → ℚ),
    P.Valid ∧ H.Valid P ∧ Wf D ∧ D.positions[0]? = some ps ∧ Indexed P H ps ∧ 0 < D.radius ∧
    (∀ tr ∈ [0, 1], tr < D.trajectories.trajs.length) ∧ SeenAt D [0, 1] 0 1 ∧
    (∀ q, allBoo.lookup q = some (B q) ∨ ps.pos[q]? = none) ∧
    SeenAt D [0] 0 0 ∧ ¬ SeenAt D [0] 0 1 ∧
    ∃ x y, ps.pos[0]? = some x ∧ ps.pos[1]? = some y ∧ sqDist y x < (13 / 5 * D.radius) ^ 2 := by
  obtain ⟨P, H, D, ps, h1, h2, h3, h4, h5, h6, h7, hlen, h8, h9, x, y, hx, hy, hxy⟩ := exSboo
  refine ⟨P, H, D, ps, [(0, 4), (1, 6)], fun q => if q = 0 then 4 else 6, h1, h2, h3, h4, h5, h6,
    by simp [h7], ⟨1, by simp, h9⟩, ?_, ⟨0, by simp, h8⟩, ?_, x, y, hx, hy, hxy⟩
  · intro q
    match q with
    | 0 => left; rfl
    | 1 => left; rfl
    | q + 2 => right; simp; omega
  · rintro ⟨tr, htr, h⟩
    simp only [List.mem_singleton] at htr
    subst htr
    rw [h8] at h; simp at h

end Dyn
end Colloids
