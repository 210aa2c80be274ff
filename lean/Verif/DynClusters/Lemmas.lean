import Verif.DynClusters.Model
import Verif.Clusters.Props
import Verif.Dyn.NgbProps
import Verif.Dyn.DriftProps
import Verif.Traj.Props
import Verif.Index.Lemmas

/-! # Lemmas on the members of the clusters -/

namespace Colloids
namespace DynClusters
open Dyn Clusters

variable {G : Type} [Field G] [LinearOrder G]

/-- Well formed data: consistent trajectories, symmetric neighbour lists at each time, and a population
that is a set of existing trajectory numbers. -/
structure Good (D : DynParts G) (pop : List Nat) : Prop where
  wf : Wf D
  ngb : ∀ t < D.positions.length, NgbWf D t
  symm : ∀ t a b, Bonded D a b t → Bonded D b a t
  sorted : pop.Pairwise (· < ·)
  known : ∀ tr ∈ pop, tr < D.trajectories.trajs.length

/-- `a` and `b` are in the population and bonded at time `t`. -/
def PopBond (D : DynParts G) (pop : List Nat) (t a b : Nat) : Prop :=
  a ∈ pop ∧ b ∈ pop ∧ Bonded D a b t

omit [Field G] [LinearOrder G] in
theorem convert_inj {D : DynParts G} (h : Wf D) {t a b p : Nat}
    (ha : D.trajectories.convert t a = .ok p) (hb : D.trajectories.convert t b = .ok p) : a = b := by
  have ha' := (h.inverse t p a).2 ha
  have hb' := (h.inverse t p b).2 hb
  rw [ha'] at hb'
  exact Except.ok.inj hb'

theorem populAt_ok {D : DynParts G} {pop : List Nat} (h : Good D pop) (t : Nat) :
    ∃ l, populAt D pop t = .ok l ∧ l.Pairwise (· < ·) ∧
      ∀ p, p ∈ l ↔ ∃ tr ∈ pop, D.trajectories.convert t tr = .ok p := by
  unfold populAt
  have key : ∀ (pop : List Nat) (acc : List Nat), (∀ tr ∈ pop, tr < D.trajectories.trajs.length) →
      acc.Pairwise (· < ·) → ∃ l, pop.foldlM (fun (acc : List Nat) (tr : Nat) => do
        let T ← getR D.trajectories.trajs tr
        if T.exist t then do
          let p ← T.at_ t
          pure (setInsert p acc)
        else pure acc) acc = .ok l ∧ l.Pairwise (· < ·) ∧
      ∀ p, p ∈ l ↔ p ∈ acc ∨ ∃ tr ∈ pop, D.trajectories.convert t tr = .ok p := by
    intro pop
    induction pop with
    | nil => intro acc _ hs; exact ⟨acc, rfl, hs, by simp⟩
    | cons tr pop ih =>
      intro acc hk hs
      have htr := hk tr (by simp)
      rw [List.foldlM_cons]
      beta_reduce
      rw [getR_of_lt htr, ok_bind]
      have hm : D.trajectories.trajs[tr] ∈ D.trajectories.trajs := List.getElem_mem htr
      have hex := exist_iff (h.wf.nonempty _ hm) (h.wf.fits' hm) t
      have hc : D.trajectories.convert t tr = D.trajectories.trajs[tr].at_ t := by
        unfold TrajIndex.convert
        rw [getR_of_lt htr, ok_bind]
      by_cases he : D.trajectories.trajs[tr].exist t
      · obtain ⟨p, hp⟩ := (exists_iff_convert h.wf).1 ⟨_, List.getElem?_eq_getElem htr, hex.1 he⟩
        rw [if_pos he, ← hc, hp, ok_bind, pure_eq_ok, ok_bind]
        obtain ⟨l, e, hl, hml⟩ := ih (setInsert p acc) (fun x hx => hk x (by simp [hx]))
          (setInsert_sorted hs)
        refine ⟨l, e, hl, ?_⟩
        intro q
        rw [hml, mem_setInsert]
        constructor
        · rintro ((rfl | h1) | ⟨x, hx, h1⟩)
          · exact Or.inr ⟨tr, by simp, hp⟩
          · exact Or.inl h1
          · exact Or.inr ⟨x, by simp [hx], h1⟩
        · rintro (h1 | ⟨x, hx, h1⟩)
          · exact Or.inl (Or.inr h1)
          · rcases List.mem_cons.1 hx with rfl | hx
            · rw [hp] at h1
              exact Or.inl (Or.inl (Except.ok.inj h1).symm)
            · exact Or.inr ⟨x, hx, h1⟩
      · rw [if_neg he, pure_eq_ok, ok_bind]
        obtain ⟨l, e, hl, hml⟩ := ih acc (fun x hx => hk x (by simp [hx])) hs
        refine ⟨l, e, hl, ?_⟩
        intro q
        rw [hml]
        constructor
        · rintro (h1 | ⟨x, hx, h1⟩)
          · exact Or.inl h1
          · exact Or.inr ⟨x, by simp [hx], h1⟩
        · rintro (h1 | ⟨x, hx, h1⟩)
          · exact Or.inl h1
          · rcases List.mem_cons.1 hx with rfl | hx
            · exfalso
              obtain ⟨T, hT, h2⟩ := (exists_iff_convert h.wf).2 ⟨q, h1⟩
              have : D.trajectories.trajs[x] = T := by
                rw [List.getElem?_eq_getElem htr] at hT
                exact Option.some.inj hT
              exact he (hex.2 (this ▸ h2))
            · exact Or.inr ⟨x, hx, h1⟩
  obtain ⟨l, e, hl, hm⟩ := key pop [] h.known List.Pairwise.nil
  exact ⟨l, e, hl, by simpa using hm⟩

omit [Field G] [LinearOrder G] in
theorem toTrajs_ok {D : DynParts G} (hw : Wf D) {t : Nat} (k : List Nat)
    (hk : ∀ p ∈ k, ∃ tr, D.trajectories.convert t tr = .ok p) :
    ∃ s, toTrajs D t k = .ok s ∧ s.Pairwise (· < ·) ∧
      ∀ tr, tr ∈ s ↔ ∃ p ∈ k, D.trajectories.convert t tr = .ok p := by
  unfold toTrajs
  have key : ∀ (k acc : List Nat), (∀ p ∈ k, ∃ tr, D.trajectories.convert t tr = .ok p) →
      acc.Pairwise (· < ·) → ∃ s, k.foldlM (fun (acc : List Nat) (p : Nat) => do
        let tr ← D.trajectories.invert t p
        pure (setInsert tr acc)) acc = .ok s ∧ s.Pairwise (· < ·) ∧
      ∀ tr, tr ∈ s ↔ tr ∈ acc ∨ ∃ p ∈ k, D.trajectories.convert t tr = .ok p := by
    intro k
    induction k with
    | nil => intro acc _ hs; exact ⟨acc, rfl, hs, by simp⟩
    | cons p k ih =>
      intro acc hk hs
      obtain ⟨tr, htr⟩ := hk p (by simp)
      rw [List.foldlM_cons]
      rw [(hw.inverse t p tr).2 htr, ok_bind, pure_eq_ok, ok_bind]
      obtain ⟨s, e, h1, h2⟩ := ih (setInsert tr acc) (fun x hx => hk x (by simp [hx]))
        (setInsert_sorted hs)
      refine ⟨s, e, h1, ?_⟩
      intro x
      rw [h2, mem_setInsert]
      constructor
      · rintro ((rfl | h3) | ⟨q, hq, h3⟩)
        · exact Or.inr ⟨p, by simp, htr⟩
        · exact Or.inl h3
        · exact Or.inr ⟨q, by simp [hq], h3⟩
      · rintro (h3 | ⟨q, hq, h3⟩)
        · exact Or.inl (Or.inr h3)
        · rcases List.mem_cons.1 hq with rfl | hq
          · exact Or.inl (Or.inl (convert_inj hw h3 htr))
          · exact Or.inr ⟨q, hq, h3⟩
  obtain ⟨s, e, h1, h2⟩ := key k [] hk List.Pairwise.nil
  exact ⟨s, e, h1, by simpa using h2⟩

theorem two_le_length {α : Type} {l : List α} {a b : α} (ha : a ∈ l) (hb : b ∈ l) (hab : a ≠ b) :
    2 ≤ l.length := by
  match l, ha, hb with
  | [x], ha, hb =>
    rw [List.mem_singleton] at ha hb
    exact absurd (ha.trans hb.symm) hab
  | _ :: _ :: _, _, _ => simp

theorem exists_two {α : Type} {l : List α} (h : l.Nodup) (hl : 1 < l.length) :
    ∃ a b, a ∈ l ∧ b ∈ l ∧ a ≠ b := by
  match l, hl with
  | a :: b :: l, _ =>
    refine ⟨a, b, by simp, by simp, ?_⟩
    rintro rfl
    simp at h

/-- What the members at time `t` are: the connected parts of at least two trajectories of the
population. -/
structure IsMembers (D : DynParts G) (pop : List Nat) (t : Nat) (ms : List (List Nat)) : Prop where
  sorted : ∀ C ∈ ms, C.Pairwise (· < ·)
  two : ∀ C ∈ ms, 2 ≤ C.length
  disjoint : ms.Pairwise (fun C E => ∀ x ∈ C, x ∉ E)
  conn : ∀ a b, a ≠ b → ((∃ C ∈ ms, a ∈ C ∧ b ∈ C) ↔ Relation.ReflTransGen (PopBond D pop t) a b)

omit [Field G] [LinearOrder G] in
theorem translate_eq {D : DynParts G} {t : Nat} (f : List Nat → List Nat) :
    ∀ (ks ms : List (List Nat)), (∀ k ∈ ks, toTrajs D t k = .ok (f k)) →
      translate D t ks ms = .ok (ms ++ (ks.filter (fun k => decide (1 < k.length))).map f) := by
  unfold translate
  intro ks
  induction ks with
  | nil => intro ms _; simp
  | cons k ks ih =>
    intro ms hf
    rw [List.foldlM_cons]
    by_cases hk : 1 < k.length
    · rw [if_pos hk, hf k (by simp), ok_bind, pure_eq_ok, ok_bind,
        ih _ (fun x hx => hf x (by simp [hx]))]
      simp [hk]
    · rw [if_neg hk, pure_eq_ok, ok_bind, ih _ (fun x hx => hf x (by simp [hx]))]
      simp [hk]

theorem members_at {D : DynParts G} {pop : List Nat} (h : Good D pop) {t : Nat}
    (ht : t < D.positions.length) : ∃ ks fresh, clustersAt D pop t = .ok ks ∧
      (∀ ms, translate D t ks ms = .ok (ms ++ fresh)) ∧ IsMembers D pop t fresh := by
  obtain ⟨l, e, hl, hm⟩ := populAt_ok h t
  obtain ⟨N, ps, hN, hps, hlen, hrow⟩ := h.ngb t ht
  have hin : ∀ p ∈ l, p < N.length := by
    intro p hp
    obtain ⟨tr, _, hc⟩ := (hm p).1 hp
    obtain ⟨ps', x, h1, h2, _⟩ := at_of_convert h.wf hc
    rw [hps] at h1
    cases h1
    rw [hlen]
    exact (List.getElem?_eq_some_iff.1 h2).1
  have hb : ∀ a b p q, D.trajectories.convert t a = .ok p → D.trajectories.convert t b = .ok q →
      (Bonded D a b t ↔ Ngb N p q) := by
    intro a b p q ha hb
    constructor
    · rintro ⟨N', p', row, q', h1, h2, h3, h4, h5⟩
      rw [hN] at h1
      rw [ha] at h2
      rw [hb] at h5
      cases h1
      cases h2
      cases h5
      exact ⟨row, h3, h4⟩
    · rintro ⟨row, h3, h4⟩
      exact ⟨N, p, row, q, hN, ha, h3, h4, hb⟩
  have hsym : ∀ a b, a ∈ l → b ∈ l → Ngb N a b → Ngb N b a := by
    intro p q hp hq hn
    obtain ⟨a, _, ha⟩ := (hm p).1 hp
    obtain ⟨b, _, hb'⟩ := (hm q).1 hq
    exact (hb _ _ _ _ hb' ha).1 (h.symm t a b ((hb _ _ _ _ ha hb').2 hn))
  have hnd : l.Nodup := hl.imp (fun h => Nat.ne_of_lt h)
  obtain ⟨cs, e1, hc1, hc2, hc3⟩ := C09_partition l [] N hnd hin
  obtain ⟨cs', e1', hc4⟩ := C09_components l [] N hnd hin hsym
  rw [e1] at e1'
  have : cs = cs' := by simpa using e1'
  subst this
  rw [List.nil_append] at e1
  have hall : ∀ k ∈ cs, ∃ s, toTrajs D t k = .ok s ∧ s.Pairwise (· < ·) ∧
      ∀ tr, tr ∈ s ↔ ∃ p ∈ k, D.trajectories.convert t tr = .ok p := by
    intro k hk
    apply toTrajs_ok h.wf
    intro p hp
    obtain ⟨tr, _, hc⟩ := (hm p).1 ((hc3 p).2 ⟨k, hk, hp⟩)
    exact ⟨tr, hc⟩
  choose! f hf1 hf2 hf3 using hall
  have hgrp : ∀ k ∈ cs, ∀ p ∈ k, ∃ tr ∈ pop, D.trajectories.convert t tr = .ok p := fun k hk p hp =>
    (hm p).1 ((hc3 p).2 ⟨k, hk, hp⟩)
  -- paths of trajectories and of positions
  have path1 : ∀ p q, Relation.ReflTransGen (Edge N l) p q → ∀ a, a ∈ pop →
      D.trajectories.convert t a = .ok p → ∃ b ∈ pop, D.trajectories.convert t b = .ok q ∧
        Relation.ReflTransGen (PopBond D pop t) a b := by
    intro p q hr a hap ha
    induction hr with
    | refl => exact ⟨a, hap, ha, .refl⟩
    | tail _ he ih =>
      obtain ⟨b, hbp, hb1, hb2⟩ := ih
      obtain ⟨c, hcp, hc⟩ := (hm _).1 he.2.1
      exact ⟨c, hcp, hc, hb2.tail ⟨hbp, hcp, (hb _ _ _ _ hb1 hc).2 he.2.2⟩⟩
  have path2 : ∀ a b, Relation.ReflTransGen (PopBond D pop t) a b → ∀ p, a ∈ pop →
      D.trajectories.convert t a = .ok p → ∃ q, D.trajectories.convert t b = .ok q ∧ b ∈ pop ∧
        Relation.ReflTransGen (Edge N l) p q := by
    intro a b hr p hap ha
    induction hr with
    | refl => exact ⟨p, ha, hap, .refl⟩
    | tail _ he ih =>
      obtain ⟨q, hq1, hqp, hq2⟩ := ih
      obtain ⟨h1, h2, h3⟩ := he
      obtain ⟨N', p', row, q', k1, k2, k3, k4, k5⟩ := id h3
      refine ⟨q', k5, h2, hq2.tail ⟨(hm _).2 ⟨_, h1, hq1⟩, (hm _).2 ⟨_, h2, k5⟩, (hb _ _ _ _ hq1 k5).1 h3⟩⟩
  refine ⟨cs, (cs.filter (fun k => decide (1 < k.length))).map f, ?_, fun ms => translate_eq f cs ms hf1, ?_⟩
  · unfold clustersAt
    rw [e, ok_bind, getR_ok.2 hN, ok_bind, e1]
  have hmemf : ∀ C, C ∈ (cs.filter (fun k => decide (1 < k.length))).map f ↔
      ∃ k ∈ cs, 1 < k.length ∧ f k = C := by
    intro C
    rw [List.mem_map]
    constructor
    · rintro ⟨k, hk, rfl⟩
      rw [List.mem_filter] at hk
      exact ⟨k, hk.1, by simpa using hk.2, rfl⟩
    · rintro ⟨k, hk, h1, rfl⟩
      exact ⟨k, List.mem_filter.2 ⟨hk, by simpa using h1⟩, rfl⟩
  refine ⟨?_, ?_, ?_, ?_⟩
  · intro C hC
    obtain ⟨k, hk, _, rfl⟩ := (hmemf C).1 hC
    exact hf2 k hk
  · intro C hC
    obtain ⟨k, hk, h1, rfl⟩ := (hmemf C).1 hC
    obtain ⟨p, q, hp, hq, hpq⟩ := exists_two ((hc1 k hk).2.imp (fun h => Nat.ne_of_lt h)) h1
    obtain ⟨a, _, ha⟩ := hgrp k hk p hp
    obtain ⟨b, _, hb'⟩ := hgrp k hk q hq
    refine two_le_length ((hf3 k hk a).2 ⟨p, hp, ha⟩) ((hf3 k hk b).2 ⟨q, hq, hb'⟩) ?_
    rintro rfl
    rw [ha] at hb'
    exact hpq (Except.ok.inj hb')
  · rw [List.pairwise_map]
    have := hc2.sublist (List.filter_sublist (p := fun k => decide (1 < k.length)))
    refine List.Pairwise.imp_of_mem ?_ this
    intro C E hC hE hd x hx hx'
    have hC' := (List.mem_filter.1 hC).1
    have hE' := (List.mem_filter.1 hE).1
    obtain ⟨p, hp, h1⟩ := (hf3 C hC' x).1 hx
    obtain ⟨q, hq, h2⟩ := (hf3 E hE' x).1 hx'
    rw [h1] at h2
    cases h2
    exact hd p hp hq
  · intro a b hab
    constructor
    · rintro ⟨C, hC, ha, hb'⟩
      obtain ⟨k, hk, _, rfl⟩ := (hmemf C).1 hC
      obtain ⟨p, hp, h1⟩ := (hf3 k hk a).1 ha
      obtain ⟨q, hq, h2⟩ := (hf3 k hk b).1 hb'
      have hpl := (hc3 p).2 ⟨k, hk, hp⟩
      have hql := (hc3 q).2 ⟨k, hk, hq⟩
      obtain ⟨a', ha', ha2⟩ := hgrp k hk p hp
      have := convert_inj h.wf h1 ha2
      subst this
      obtain ⟨b', hb1, hb2, hb3⟩ := path1 p q ((hc4 p q hpl hql).1 ⟨k, hk, hp, hq⟩) a ha' h1
      have := convert_inj h.wf h2 hb2
      subst this
      exact hb3
    · intro hr
      rcases Relation.ReflTransGen.cases_head hr with rfl | ⟨c, hc, _⟩
      · exact absurd rfl hab
      · obtain ⟨N', p, row, q', k1, k2, k3, k4, k5⟩ := hc.2.2
        obtain ⟨q, hq, hbp, hpq⟩ := path2 a b hr p hc.1 k2
        have hpl : p ∈ l := (hm p).2 ⟨a, hc.1, k2⟩
        have hql : q ∈ l := (hm q).2 ⟨b, hbp, hq⟩
        obtain ⟨k, hk, h1, h2⟩ := (hc4 p q hpl hql).2 hpq
        have hne : p ≠ q := by
          rintro rfl
          exact hab (convert_inj h.wf k2 hq)
        exact ⟨f k, (hmemf _).2 ⟨k, hk, two_le_length h1 h2 hne, rfl⟩, (hf3 k hk a).2 ⟨p, h1, k2⟩,
          (hf3 k hk b).2 ⟨q, h2, hq⟩⟩

theorem resize_length (old : List (List (List Nat))) (n : Nat) : (resize old n).length = n := by
  unfold resize
  simp
  omega

theorem assignMembers_ok {D : DynParts G} {pop : List Nat} (h : Good D pop) :
    ∃ fresh : List (List (List Nat)), fresh.length = D.positions.length ∧
      (∀ t ms, fresh[t]? = some ms → IsMembers D pop t ms) ∧
      ∀ old, assignMembers D pop old = .ok (List.zipWith (· ++ ·) (resize old D.positions.length) fresh) := by
  have hall : ∀ t, t < D.positions.length → ∃ ks fresh, clustersAt D pop t = .ok ks ∧
      (∀ ms, translate D t ks ms = .ok (ms ++ fresh)) ∧ IsMembers D pop t fresh := fun t ht => members_at h ht
  choose! ks fr h1 h2 h3 using hall
  refine ⟨(List.range D.positions.length).map fr, by simp, ?_, ?_⟩
  · intro t ms ht
    rw [List.getElem?_map, Option.map_eq_some_iff] at ht
    obtain ⟨i, hi, rfl⟩ := ht
    obtain ⟨h4, rfl⟩ := List.getElem?_eq_some_iff.1 hi
    rw [List.getElem_range]
    exact h3 t (by simpa using h4)
  · intro old
    unfold assignMembers
    rw [TreeIndex.mapM_ok_of _ ks _ (fun t ht => h1 t (List.mem_range.1 ht)), ok_bind]
    rw [TreeIndex.mapM_ok_of _ (fun x => x.1.2 ++ fr x.2)]
    · refine congrArg Except.ok ?_
      apply List.ext_getElem
      · simp [resize_length]
      · intro i hi hi'
        simp
    · rintro ⟨⟨k, o⟩, t⟩ hx
      rw [List.mem_zipIdx_iff_getElem?] at hx
      simp only at hx ⊢
      obtain ⟨hlt, e⟩ := List.getElem?_eq_some_iff.1 hx
      simp only [List.length_zip, List.length_map, List.length_range, resize_length, Nat.min_self] at hlt
      rw [List.getElem_zip] at e
      simp only [List.getElem_map, List.getElem_range, Prod.mk.injEq] at e
      rw [← e.1]
      exact h2 t hlt o

end DynClusters
end Colloids
