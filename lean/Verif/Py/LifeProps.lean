import Mathlib.Order.Bounds.Basic
import Mathlib.Tactic.Linarith
import Verif.CommonLemmas
import Verif.Index.Lemmas
import Verif.Py.LifeModel

/-!
# Lives of bonds
-/

namespace Colloids
namespace Py
namespace Life

open Colloids.Py.Broken

/-- bond `k` is there at time `t`; `pairs` are the bonds of the successive times from `offset` -/
def Seen (offset : Nat) (pairs : List (List (Nat × Nat))) (k : Nat × Nat) (t : Nat) : Prop :=
  ∃ i ps, pairs[i]? = some ps ∧ k ∈ ps ∧ t = offset + i

theorem Seen_nil (offset : Nat) (k : Nat × Nat) (t : Nat) : ¬ Seen offset [] k t := by
  rintro ⟨i, ps, h, _⟩
  simp at h

theorem Seen_append (offset : Nat) (pairs : List (List (Nat × Nat))) (ps : List (Nat × Nat)) (k : Nat × Nat) (t : Nat) :
    Seen offset (pairs ++ [ps]) k t ↔ Seen offset pairs k t ∨ (k ∈ ps ∧ t = offset + pairs.length) := by
  constructor
  · rintro ⟨i, qs, h, hk, rfl⟩
    rcases Nat.lt_trichotomy i pairs.length with hi | hi | hi
    · rw [List.getElem?_append_left hi] at h
      exact Or.inl ⟨i, qs, h, hk, rfl⟩
    · subst hi
      rw [List.getElem?_append_right le_rfl] at h
      simp at h
      subst h
      exact Or.inr ⟨hk, rfl⟩
    · rw [List.getElem?_eq_none (by simp; omega)] at h
      cases h
  · rintro (⟨i, qs, h, hk, rfl⟩ | ⟨hk, rfl⟩)
    · refine ⟨i, qs, ?_, hk, rfl⟩
      rw [List.getElem?_append_left (List.getElem?_eq_some_iff.1 h).1]
      exact h
    · exact ⟨pairs.length, ps, by simp, hk, rfl⟩

theorem Seen_lt {offset : Nat} {pairs : List (List (Nat × Nat))} {k : Nat × Nat} {t : Nat} (h : Seen offset pairs k t) :
    t < offset + pairs.length := by
  obtain ⟨i, ps, h, _, rfl⟩ := h
  have := (List.getElem?_eq_some_iff.1 h).1
  omega

/-- **C207** The bonds of a time are those of its file, two lines or more, as sorted pairs of trajectories. -/
theorem C207_pairs (f : Broken.Frame) (h2 : 2 ≤ f.bonds.length) (hb : ∀ x ∈ f.bonds, x.1 < f.p2tr.length ∧ x.2 < f.p2tr.length) :
    framePairs f = .ok (f.bonds.map fun x =>
      (min (f.p2tr.getD x.1 0) (f.p2tr.getD x.2 0), max (f.p2tr.getD x.1 0) (f.p2tr.getD x.2 0))) := by
  unfold framePairs translate
  rw [if_neg (by omega), TreeIndex.mapM_ok_of _ (fun x => (f.p2tr.getD x.1 0, f.p2tr.getD x.2 0)) _ (by
    intro x hx
    obtain ⟨h1, h2⟩ := hb x hx
    unfold idx
    rw [List.getElem?_eq_getElem h1, List.getElem?_eq_getElem h2, List.getD_eq_getElem?_getD, List.getD_eq_getElem?_getD,
      List.getElem?_eq_getElem h1, List.getElem?_eq_getElem h2]
    rfl), ok_bind, List.map_map]
  rfl

/-- **C207** Counterexample: a time with a single bond is an error for both functions. -/
theorem C207_single_counterexample (offset persistence : Nat) (f : Broken.Frame) (h : f.bonds.length = 1) (rest : List Broken.Frame) :
    bondLife offset (f :: rest) = .error .invalidArgument ∧ bondLast persistence offset (f :: rest) = .error .invalidArgument := by
  have hf : framePairs f = .error .invalidArgument := by
    unfold framePairs
    rw [if_pos (by omega)]
  constructor
  · unfold bondLife
    rw [List.zipIdx_cons, List.foldlM_cons]
    unfold lifeFrame
    simp only [hf]
    rfl
  · unfold bondLast
    rw [List.zipIdx_cons, List.foldlM_cons]
    unfold lastFrame
    simp only [hf]
    rfl

/-! ### The matrices of scipy -/

theorem find_filter_ne (d : Dict) (k k' : Nat × Nat) (h : k' ≠ k) :
    (d.filter fun x => decide (x.1 ≠ k)).find? (fun x => x.1 == k') = d.find? fun x => x.1 == k' := by
  induction d with
  | nil => rfl
  | cons x d ih =>
    by_cases hx : x.1 = k
    · rw [List.filter_cons_of_neg (by simpa using hx), ih, List.find?_cons_of_neg (by rw [hx]; simpa using fun e => h e.symm)]
    · rw [List.filter_cons_of_pos (by simpa using hx)]
      by_cases hk : x.1 = k'
      · rw [List.find?_cons_of_pos (by simpa using hk), List.find?_cons_of_pos (by simpa using hk)]
      · rw [List.find?_cons_of_neg (by simpa using hk), List.find?_cons_of_neg (by simpa using hk), ih]

theorem find_filter_eq (d : Dict) (k : Nat × Nat) :
    (d.filter fun x => decide (x.1 ≠ k)).find? (fun x => x.1 == k) = none := by
  rw [List.find?_eq_none]
  intro x hx
  have := (List.mem_filter.1 hx).2
  simpa using this

theorem dokGet_set (d : Dict) (k k' : Nat × Nat) (v : Nat) : dokGet (dokSet d k v) k' = if k' = k then v else dokGet d k' := by
  unfold dokGet dokSet
  by_cases h : k' = k
  · subst h
    rw [if_pos rfl]
    by_cases hv : v = 0
    · rw [if_pos hv, Dict.pop, find_filter_eq, hv]
      rfl
    · rw [if_neg hv, Dict.put, List.find?_cons_of_pos (by simp)]
      rfl
  · rw [if_neg h]
    by_cases hv : v = 0
    · rw [if_pos hv, Dict.pop, find_filter_ne _ _ _ h]
    · rw [if_neg hv, Dict.put, List.find?_cons_of_neg (by simpa using fun e => h e.symm), find_filter_ne _ _ _ h]

/-- no null value is stored -/
def NonNull (d : Dict) : Prop := ∀ x ∈ d, x.2 ≠ 0

theorem NonNull_set (d : Dict) (k : Nat × Nat) (v : Nat) (h : NonNull d) : NonNull (dokSet d k v) := by
  unfold dokSet
  split
  · exact fun x hx => h x (List.mem_filter.1 hx).1
  · rename_i hv
    intro x hx
    rcases List.mem_cons.1 hx with rfl | hx
    · exact hv
    · exact h x (List.mem_filter.1 hx).1

theorem hasKey_iff (d : Dict) (k : Nat × Nat) (h : NonNull d) : hasKey d k = true ↔ dokGet d k ≠ 0 := by
  unfold hasKey dokGet
  rw [List.any_eq_true]
  cases hf : d.find? fun x => x.1 == k with
  | none =>
    rw [List.find?_eq_none] at hf
    simp only [Option.map_none, Option.getD_none, ne_eq, not_true, iff_false]
    rintro ⟨x, hx, hk⟩
    exact hf x hx hk
  | some x =>
    have h1 := List.mem_of_find?_eq_some hf
    have h2 := List.find?_some hf
    simp only [Option.map_some, Option.getD_some]
    exact ⟨fun _ => h x h1, fun _ => ⟨x, h1, h2⟩⟩

theorem life_fold (t : Nat) (ps : List (Nat × Nat)) (st : Dict × Dict) (h : NonNull st.1) :
    NonNull (ps.foldl (lifeOne t) st).1 ∧ ∀ k,
      dokGet (ps.foldl (lifeOne t) st).1 k = (if k ∈ ps ∧ dokGet st.1 k = 0 then t else dokGet st.1 k) ∧
      dokGet (ps.foldl (lifeOne t) st).2 k = (if k ∈ ps then t else dokGet st.2 k) := by
  induction ps generalizing st with
  | nil => exact ⟨h, fun k => by simp⟩
  | cons q ps ih =>
    have h' : NonNull (lifeOne t st q).1 := by
      unfold lifeOne
      dsimp only
      split
      · exact h
      · exact NonNull_set _ _ _ h
    obtain ⟨a1, a2⟩ := ih (lifeOne t st q) h'
    refine ⟨a1, fun k => ?_⟩
    obtain ⟨b1, b2⟩ := a2 k
    rw [List.foldl_cons, b1, b2]
    have g1 : dokGet (lifeOne t st q).1 k = if k = q ∧ dokGet st.1 k = 0 then t else dokGet st.1 k := by
      unfold lifeOne
      dsimp only
      by_cases hk : hasKey st.1 q = true
      · rw [if_pos hk]
        have := (hasKey_iff st.1 q h).1 hk
        split
        · rename_i e; rw [e.1] at e; exact absurd e.2 this
        · rfl
      · rw [if_neg hk, dokGet_set]
        have h0 : dokGet st.1 q = 0 := by
          by_contra hc
          exact hk ((hasKey_iff st.1 q h).2 hc)
        by_cases e : k = q
        · subst e; simp [h0]
        · simp [e]
    have g2 : dokGet (lifeOne t st q).2 k = if k = q then t else dokGet st.2 k := by
      unfold lifeOne
      dsimp only
      rw [dokGet_set]
    rw [g1, g2]
    constructor
    · by_cases e : k = q <;> by_cases e0 : dokGet st.1 k = 0 <;> by_cases em : k ∈ ps <;> simp [e, e0, em] <;> simp_all
    · by_cases e : k = q <;> by_cases em : k ∈ ps <;> simp [e, em]

theorem bondLife_eq (offset : Nat) (frames : List Broken.Frame) (pairs : List (List (Nat × Nat)))
    (h : List.Forall₂ (fun f ps => framePairs f = .ok ps) frames pairs) (st : Dict × Dict) :
    (frames.zipIdx offset).foldlM lifeFrame st = .ok ((pairs.zipIdx offset).foldl (fun st x => x.1.foldl (lifeOne x.2) st) st) := by
  induction h generalizing offset st with
  | nil => rfl
  | cons hf _ ih =>
    rw [List.zipIdx_cons, List.zipIdx_cons, List.foldlM_cons, List.foldl_cons]
    unfold lifeFrame at ih ⊢
    simp only [hf, ok_bind]
    exact ih (offset + 1) _

theorem life_inv (offset : Nat) (pairs : List (List (Nat × Nat))) :
    NonNull ((pairs.zipIdx offset).foldl (fun st x => x.1.foldl (lifeOne x.2) st) (([], []) : Dict × Dict)).1 ∧ ∀ k,
      (let s := dokGet ((pairs.zipIdx offset).foldl (fun st x => x.1.foldl (lifeOne x.2) st) (([], []) : Dict × Dict)).1 k
       (s = 0 ∧ ∀ t, Seen offset pairs k t → t = 0) ∨ IsLeast {t | 0 < t ∧ Seen offset pairs k t} s) ∧
      (let l := dokGet ((pairs.zipIdx offset).foldl (fun st x => x.1.foldl (lifeOne x.2) st) (([], []) : Dict × Dict)).2 k
       (l = 0 ∧ ∀ t, ¬ Seen offset pairs k t) ∨ IsGreatest {t | Seen offset pairs k t} l) := by
  induction pairs using List.reverseRecOn with
  | nil =>
    refine ⟨fun x hx => by simp at hx, fun k => ⟨Or.inl ⟨rfl, fun t h => absurd h (Seen_nil _ _ _)⟩, Or.inl ⟨rfl, fun t => Seen_nil _ _ _⟩⟩⟩
  | append_singleton pairs ps ih =>
    obtain ⟨n1, n2⟩ := ih
    rw [List.zipIdx_append, List.foldl_append]
    simp only [List.zipIdx_cons, List.zipIdx_nil, List.foldl_cons, List.foldl_nil]
    generalize (pairs.zipIdx offset).foldl (fun st x => x.1.foldl (lifeOne x.2) st) (([], []) : Dict × Dict) = st at n1 n2
    obtain ⟨f1, f2⟩ := life_fold (offset + pairs.length) ps st n1
    refine ⟨f1, fun k => ?_⟩
    obtain ⟨g1, g2⟩ := f2 k
    obtain ⟨m1, m2⟩ := n2 k
    dsimp only at m1 m2 ⊢
    rw [g1, g2]
    simp only [Seen_append]
    constructor
    · rcases m1 with ⟨z1, z2⟩ | hl
      · rw [z1]
        by_cases hk : k ∈ ps
        · rw [if_pos ⟨hk, rfl⟩]
          by_cases h0 : offset + pairs.length = 0
          · left
            refine ⟨h0, ?_⟩
            rintro t (h | ⟨_, h⟩)
            · exact z2 t h
            · omega
          · right
            refine ⟨⟨by omega, Or.inr ⟨hk, rfl⟩⟩, ?_⟩
            rintro t ⟨hp, h | ⟨_, h⟩⟩
            · have := z2 t h; omega
            · exact h.ge
        · rw [if_neg (fun h => hk h.1)]
          left
          refine ⟨rfl, ?_⟩
          rintro t (h | ⟨h, _⟩)
          · exact z2 t h
          · exact absurd h hk
      · have hpos : dokGet st.1 k ≠ 0 := Nat.pos_iff_ne_zero.1 hl.1.1
        rw [if_neg (fun h => hpos h.2)]
        right
        refine ⟨⟨hl.1.1, Or.inl hl.1.2⟩, ?_⟩
        rintro t ⟨hp, h | ⟨_, h⟩⟩
        · exact hl.2 ⟨hp, h⟩
        · have := Seen_lt hl.1.2
          omega
    · by_cases hk : k ∈ ps
      · rw [if_pos hk]
        right
        refine ⟨Or.inr ⟨hk, rfl⟩, ?_⟩
        rintro t (h | ⟨_, h⟩)
        · exact (Seen_lt h).le
        · exact h.le
      · rw [if_neg hk]
        rcases m2 with ⟨z1, z2⟩ | hg
        · left
          refine ⟨z1, ?_⟩
          rintro t (h | ⟨h, _⟩)
          · exact z2 t h
          · exact hk h
        · right
          refine ⟨Or.inl hg.1, ?_⟩
          rintro t (h | ⟨h, _⟩)
          · exact hg.2 h
          · exact absurd h hk

/-- **C207** `bond_life`, with times that begin at 1 or later: the first matrix has the first time of each bond and the second one its last time; bonds
that are never seen have zero in both. -/
theorem C207_life_partial (offset : Nat) (ho : 1 ≤ offset) (frames : List Broken.Frame) (pairs : List (List (Nat × Nat)))
    (h : List.Forall₂ (fun f ps => framePairs f = .ok ps) frames pairs) :
    ∃ s l, bondLife offset frames = .ok (s, l) ∧ ∀ k,
      ((∃ t, Seen offset pairs k t) → IsLeast {t | Seen offset pairs k t} (dokGet s k) ∧ IsGreatest {t | Seen offset pairs k t} (dokGet l k)) ∧
      ((¬ ∃ t, Seen offset pairs k t) → dokGet s k = 0 ∧ dokGet l k = 0) := by
  have hpos : ∀ k t, Seen offset pairs k t → 0 < t := by
    rintro k t ⟨i, ps, _, _, rfl⟩
    omega
  obtain ⟨_, n2⟩ := life_inv offset pairs
  refine ⟨_, _, bondLife_eq offset frames pairs h ([], []), fun k => ?_⟩
  obtain ⟨m1, m2⟩ := n2 k
  dsimp only at m1 m2
  constructor
  · rintro ⟨t, ht⟩
    constructor
    · rcases m1 with ⟨_, z⟩ | m1
      · have := z t ht
        have := hpos k t ht
        omega
      · exact ⟨m1.1.2, fun t ht => m1.2 ⟨hpos k t ht, ht⟩⟩
    · rcases m2 with ⟨_, z⟩ | m2
      · exact absurd ht (z t)
      · exact m2
  · intro hn
    constructor
    · rcases m1 with ⟨z, _⟩ | m1
      · exact z
      · exact absurd ⟨_, m1.1.2⟩ hn
    · rcases m2 with ⟨z, _⟩ | m2
      · exact z
      · exact absurd ⟨_, m2.1⟩ hn

/-- **C207** Counterexample: times that begin at 0.  The first time of a bond that is there at time 0 and also later is given as a later one: zeros are not stored. -/
theorem C207_zero_counterexample (frames : List Broken.Frame) (pairs : List (List (Nat × Nat)))
    (h : List.Forall₂ (fun f ps => framePairs f = .ok ps) frames pairs) (k : Nat × Nat) (h0 : Seen 0 pairs k 0) (t : Nat) (ht : 0 < t)
    (h1 : Seen 0 pairs k t) : IsLeast {t | Seen 0 pairs k t} 0 ∧ ∃ s l, bondLife 0 frames = .ok (s, l) ∧ 0 < dokGet s k := by
  obtain ⟨_, n2⟩ := life_inv 0 pairs
  refine ⟨⟨h0, fun t _ => Nat.zero_le t⟩, _, _, bondLife_eq 0 frames pairs h ([], []), ?_⟩
  obtain ⟨m1, _⟩ := n2 k
  dsimp only at m1
  rcases m1 with ⟨_, z⟩ | m1
  · have := z t h1
    omega
  · exact m1.1.1

/-! ### The generator -/

theorem put_fold (t : Nat) (ps : List (Nat × Nat)) (d : Dict) (k : Nat × Nat) (v : Nat) :
    (k, v) ∈ ps.foldl (fun d k => d.put k t) d ↔ if k ∈ ps then v = t else (k, v) ∈ d := by
  induction ps generalizing d with
  | nil => simp
  | cons q ps ih =>
    rw [List.foldl_cons, ih]
    by_cases hk : k ∈ ps
    · simp [hk]
    · rw [if_neg hk]
      unfold Dict.put
      by_cases e : k = q
      · subst e
        simp
      · simp [e, hk]

/-- the loop on bonds that are already sorted -/
def lastPure (p : Nat) (st : Dict × List Dict) (x : List (Nat × Nat) × Nat) : Dict × List Dict :=
  let b := x.1.foldl (fun d k => d.put k x.2) st.1
  (b.filter fun y => !decide (y.2 + p < x.2), st.2 ++ [b.filter fun y => decide (y.2 + p < x.2)])

theorem bondLast_eq (p offset : Nat) (frames : List Broken.Frame) (pairs : List (List (Nat × Nat)))
    (h : List.Forall₂ (fun f ps => framePairs f = .ok ps) frames pairs) (st : Dict × List Dict) :
    (frames.zipIdx offset).foldlM (fun (st : Dict × List Dict) x => do
      let q ← lastFrame p st.1 x
      .ok (q.1, st.2 ++ [q.2])) st = (.ok ((pairs.zipIdx offset).foldl (lastPure p) st) : R _) := by
  induction h generalizing offset st with
  | nil => rfl
  | cons hf _ ih =>
    rw [List.zipIdx_cons, List.zipIdx_cons, List.foldlM_cons, List.foldl_cons]
    unfold lastFrame at ih ⊢
    simp only [hf, ok_bind] at ih ⊢
    exact ih (offset + 1) _

theorem last_inv (p offset : Nat) (pairs : List (List (Nat × Nat))) :
    let st := (pairs.zipIdx offset).foldl (lastPure p) (([], []) : Dict × List Dict)
    st.2.length = pairs.length ∧
    (∀ i < pairs.length, ∃ d, st.2[i]? = some d ∧ ∀ k tf, (k, tf) ∈ d ↔
      Seen offset pairs k tf ∧ tf + p + 1 = offset + i ∧ ∀ t', Seen offset pairs k t' → tf < t' → offset + i < t') ∧
    ∀ k tf, (k, tf) ∈ st.1 ↔ IsGreatest {t | Seen offset pairs k t} tf ∧ offset + pairs.length ≤ tf + p + 1 := by
  induction pairs using List.reverseRecOn with
  | nil =>
    refine ⟨rfl, fun i hi => absurd hi (by simp), fun k tf => ?_⟩
    simp only [List.zipIdx_nil, List.foldl_nil, List.not_mem_nil, false_iff]
    rintro ⟨h, _⟩
    exact Seen_nil _ _ _ h.1
  | append_singleton pairs ps ih =>
    dsimp only at ih ⊢
    rw [List.zipIdx_append, List.foldl_append]
    simp only [List.zipIdx_cons, List.zipIdx_nil, List.foldl_cons, List.foldl_nil]
    generalize (pairs.zipIdx offset).foldl (lastPure p) (([], []) : Dict × List Dict) = st at ih
    obtain ⟨i1, i2, i3⟩ := ih
    unfold lastPure
    dsimp only
    -- what is in the dictionary after the new bonds
    have hb : ∀ k tf, (k, tf) ∈ ps.foldl (fun d k => d.put k (offset + pairs.length)) st.1 ↔
        IsGreatest {t | Seen offset (pairs ++ [ps]) k t} tf ∧ offset + pairs.length ≤ tf + p + 1 := by
      intro k tf
      rw [put_fold]
      by_cases hk : k ∈ ps
      · rw [if_pos hk]
        constructor
        · rintro rfl
          refine ⟨⟨(Seen_append _ _ _ _ _).2 (Or.inr ⟨hk, rfl⟩), ?_⟩, by omega⟩
          intro t ht
          have := Seen_lt ht
          simp at this
          omega
        · rintro ⟨hg, _⟩
          have h1 := hg.2 ((Seen_append _ _ _ _ _).2 (Or.inr ⟨hk, rfl⟩) : Seen offset (pairs ++ [ps]) k (offset + pairs.length))
          have h2 := Seen_lt hg.1
          simp at h2
          omega
      · rw [if_neg hk, i3]
        have : {t | Seen offset (pairs ++ [ps]) k t} = {t | Seen offset pairs k t} := by
          ext t
          simp [Seen_append, hk]
        rw [this]
    refine ⟨by simp [i1], ?_, ?_⟩
    · intro i hi
      rw [List.length_append, List.length_singleton] at hi
      rcases Nat.lt_or_ge i pairs.length with hlt | hge
      · obtain ⟨d, d1, d2⟩ := i2 i hlt
        refine ⟨d, ?_, ?_⟩
        · rw [List.getElem?_append_left (by omega)]
          exact d1
        · intro k tf
          rw [d2]
          constructor
          · rintro ⟨a1, a2, a3⟩
            refine ⟨(Seen_append _ _ _ _ _).2 (Or.inl a1), a2, ?_⟩
            intro t' ht' hlt'
            rcases (Seen_append _ _ _ _ _).1 ht' with h | ⟨_, h⟩
            · exact a3 t' h hlt'
            · omega
          · rintro ⟨a1, a2, a3⟩
            refine ⟨?_, a2, fun t' ht' hlt' => a3 t' ((Seen_append _ _ _ _ _).2 (Or.inl ht')) hlt'⟩
            rcases (Seen_append _ _ _ _ _).1 a1 with h | ⟨_, h⟩
            · exact h
            · omega
      · have : i = pairs.length := by omega
        subst this
        refine ⟨_, by rw [List.getElem?_append_right (by omega), i1, Nat.sub_self]; rfl, ?_⟩
        intro k tf
        rw [List.mem_filter, hb]
        simp only [decide_eq_true_eq]
        constructor
        · rintro ⟨⟨hg, h1⟩, h2⟩
          exact ⟨hg.1, by omega, fun t' ht' hlt => absurd (hg.2 ht') (by omega)⟩
        · rintro ⟨h1, h2, h3⟩
          refine ⟨⟨⟨h1, ?_⟩, by omega⟩, by omega⟩
          intro t' ht'
          by_contra hc
          have := h3 t' ht' (by omega)
          have := Seen_lt ht'
          simp at this
          omega
    · intro k tf
      rw [List.mem_filter, hb]
      simp only [Bool.not_eq_true', decide_eq_false_iff_not, List.length_append, List.length_singleton]
      constructor
      · rintro ⟨⟨h1, h2⟩, h3⟩
        exact ⟨h1, by omega⟩
      · rintro ⟨h1, h2⟩
        exact ⟨⟨h1, by omega⟩, by omega⟩

/-- **C207** `bond_last` yields at each time the bonds last seen `persistence + 1` times before and not since, and at the end those that are still waited for: the last
time of each bond, once for each absence of more than `persistence` times. -/
theorem C207_last (p offset : Nat) (frames : List Broken.Frame) (pairs : List (List (Nat × Nat)))
    (h : List.Forall₂ (fun f ps => framePairs f = .ok ps) frames pairs) :
    ∃ outs final, bondLast p offset frames = .ok (outs ++ [final]) ∧ outs.length = frames.length ∧
      (∀ i < frames.length, ∃ d, outs[i]? = some d ∧ ∀ k tf, (k, tf) ∈ d ↔
        Seen offset pairs k tf ∧ tf + p + 1 = offset + i ∧ ∀ t', Seen offset pairs k t' → tf < t' → offset + i < t') ∧
      ∀ k tf, (k, tf) ∈ final ↔ IsGreatest {t | Seen offset pairs k t} tf ∧ offset + frames.length ≤ tf + p + 1 := by
  have hl := h.length_eq
  obtain ⟨a1, a2, a3⟩ := last_inv p offset pairs
  unfold bondLast
  rw [bondLast_eq p offset frames pairs h, ok_bind, hl]
  exact ⟨_, _, rfl, a1, a2, a3⟩

/-- two times of two bonds, one of which is there at both -/
example : List.Forall₂ (fun f ps => framePairs f = .ok ps) [⟨[(0, 1), (1, 2)], [0, 1, 2]⟩, ⟨[(1, 0), (0, 2)], [0, 1, 2]⟩]
    [[(0, 1), (1, 2)], [(0, 1), (0, 2)]] ∧ Seen 0 [[(0, 1), (1, 2)], [(0, 1), (0, 2)]] (0, 1) 0 ∧
    Seen 0 [[(0, 1), (1, 2)], [(0, 1), (0, 2)]] (0, 1) 1 := by
  refine ⟨List.Forall₂.cons rfl (List.Forall₂.cons rfl List.Forall₂.nil), ⟨0, _, rfl, by simp, rfl⟩, ⟨1, _, rfl, by simp, rfl⟩⟩

end Life
end Py
end Colloids
