import Verif.Py.LinkerLemmas

/-! # What `addFrame` and `update` do to a linker -/

namespace Colloids
namespace Py
namespace Linker

/-- The linkers made frame by frame. -/
inductive Built : Linker → Prop
  | new (n : Nat) : Built (new n)
  | frame {l : Linker} {f : List Nat} : Built l → l.Loadable f → Built (ext l f)

theorem Built.good {l : Linker} (h : Built l) : l.Good := by
  induction h with
  | new n => exact new_good n
  | frame _ hf ih => exact ext_good ih hf

/-- Two links that share a position. -/
def Clash (x y : Nat × Nat) : Prop := x.1 = y.1 ∨ x.2 = y.2

instance (x y : Nat × Nat) : Decidable (Clash x y) := by unfold Clash; infer_instance

/-- Taking the links in order, without those that share a position with one already taken. -/
def picks (P : Nat → Nat × Nat) (order : List Nat) : List Nat :=
  order.foldl (fun M i => if ∃ j ∈ M, Clash (P j) (P i) then M else M ++ [i]) []

theorem picks_append (P : Nat → Nat × Nat) (o : List Nat) (i : Nat) :
    picks P (o ++ [i]) = if ∃ j ∈ picks P o, Clash (P j) (P i) then picks P o else picks P o ++ [i] := by
  unfold picks
  rw [List.foldl_append]
  rfl

theorem picks_sub (P : Nat → Nat × Nat) (o : List Nat) : ∀ i ∈ picks P o, i ∈ o := by
  induction o using List.reverseRecOn with
  | nil => simp [picks]
  | append_singleton o x ih =>
    rw [picks_append]
    split
    · intro i hi; simp [ih i hi]
    · intro i hi
      rcases List.mem_append.1 hi with h | h
      · simp [ih i h]
      · simp at h; simp [h]

theorem picks_pairwise (P : Nat → Nat × Nat) (o : List Nat) : (picks P o).Pairwise fun i j => ¬ Clash (P i) (P j) := by
  induction o using List.reverseRecOn with
  | nil => simp [picks]
  | append_singleton o x ih =>
    rw [picks_append]
    split
    · exact ih
    · rename_i h
      rw [List.pairwise_append]
      refine ⟨ih, by simp, ?_⟩
      intro i hi j hj hc
      have : j = x := by simpa using hj
      subst this
      exact h ⟨i, hi, hc⟩

theorem picks_max (P : Nat → Nat × Nat) (o : List Nat) (R : Nat → Nat → Prop) (ho : o.Pairwise R) :
    ∀ i ∈ o, i ∈ picks P o ∨ ∃ j ∈ picks P o, R j i ∧ Clash (P j) (P i) := by
  induction o using List.reverseRecOn with
  | nil => simp
  | append_singleton o x ih =>
    rw [List.pairwise_append] at ho
    have ih := ih ho.1
    rw [picks_append]
    intro i hi
    rcases List.mem_append.1 hi with h | h
    · split
      · exact ih i h
      · rcases ih i h with h1 | ⟨j, h1, h2, h3⟩
        · exact Or.inl (List.mem_append_left _ h1)
        · exact Or.inr ⟨j, List.mem_append_left _ h1, h2, h3⟩
    · have : i = x := by simpa using h
      subst this
      split
      · rename_i hc
        obtain ⟨j, hj, hcl⟩ := hc
        exact Or.inr ⟨j, hj, ho.2.2 j (picks_sub P o j hj) i (by simp), hcl⟩
      · left; simp

theorem pairwise_both {α : Type} {r : α → α → Prop} {l : List α} (h : l.Pairwise r) (hs : ∀ a b, r a b → r b a) {a b : α}
    (ha : a ∈ l) (hb : b ∈ l) (hne : a ≠ b) : r a b := by
  induction l with
  | nil => simp at ha
  | cons x l ih =>
    rw [List.pairwise_cons] at h
    rcases List.mem_cons.1 ha with rfl | ha' <;> rcases List.mem_cons.1 hb with rfl | hb'
    · exact absurd rfl hne
    · exact h.1 b hb'
    · exact hs _ _ (h.1 a ha')
    · exact ih h.2 ha' hb'

theorem picks_apart (P : Nat → Nat × Nat) (o : List Nat) {i j : Nat} (hi : i ∈ picks P o) (hj : j ∈ picks P o)
    (hc : Clash (P i) (P j)) : i = j := by
  by_contra hne
  refine pairwise_both (picks_pairwise P o) ?_ hi hj hne hc
  intro a b h hc
  exact h (by rcases hc with h | h; exact Or.inl h.symm; exact Or.inr h.symm)

theorem get_mapSet {α : Type} (n : Nat) (g : Nat → α) (i : Nat) (a : α) :
    ((List.range n).map g).set i a = (List.range n).map fun k => if k = i then a else g k := by
  apply List.ext_getElem?
  intro k
  rw [List.getElem?_set, get_mapRange]
  simp only [List.length_map, List.length_range, get_mapRange]
  by_cases h : k = i
  · subst h; by_cases h2 : k < n <;> simp [h2]
  · simp [h, Ne.symm h]

theorem get_mapModify {α : Type} (n : Nat) (g : Nat → α) (i : Nat) (u : α → α) :
    ((List.range n).map g).modify i u = (List.range n).map fun k => if k = i then u (g k) else g k := by
  apply List.ext_getElem?
  intro k
  rw [List.getElem?_modify, get_mapRange, get_mapRange]
  by_cases h : k = i
  · subst h; by_cases h2 : k < n <;> simp [h2]
  · by_cases h2 : k < n <;> simp [h, Ne.symm h, h2]

theorem get_mapR {α : Type} {n : Nat} {g : Nat → α} {i : Nat} (h : i < n) : getR ((List.range n).map g) i = .ok (g i) := by
  rw [getR_ok, get_mapRange, if_pos h]

/-- The state of the loop of `addFrame` once some links are taken. -/
def marks (P : Nat → Nat × Nat) (prev : List Nat) (size n : Nat) (tp : List (List Nat)) (M : List Nat) : Marks :=
  ⟨(List.range prev.length).map fun p => decide (∃ i ∈ M, (P i).1 = p),
   (List.range size).map fun q => decide (∃ i ∈ M, (P i).2 = q),
   (List.range size).map fun q => match M.find? (fun i => (P i).2 == q) with
     | some i => prev.getD (P i).1 0
     | none => 0,
   (List.range n).map fun tr => tp.getD tr [] ++ (M.filter fun i => prev.getD (P i).1 0 == tr).map fun i => (P i).2⟩

theorem replicate_map {α : Type} (n : Nat) (a : α) : List.replicate n a = (List.range n).map fun _ => a := by
  apply List.ext_getElem?
  intro i
  rw [get_mapRange, List.getElem?_replicate]

theorem getD_map {α : Type} (l : List α) (d : α) : (List.range l.length).map (fun i => l.getD i d) = l := by
  apply List.ext_getElem?
  intro i
  rw [get_mapRange]
  by_cases h : i < l.length <;> simp [h]

theorem link_fold (P : Nat → Nat × Nat) (prev : List Nat) (size n : Nat) (tp : List (List Nat)) (hn : tp.length = n)
    (hprev : ∀ tr ∈ prev, tr < n) (o : List Nat) (ho : ∀ i ∈ o, (P i).1 < prev.length ∧ (P i).2 < size) :
    (o.map P).foldlM (linkStep prev)
      ⟨List.replicate prev.length false, List.replicate size false, List.replicate size 0, tp⟩ =
      .ok (marks P prev size n tp (picks P o)) := by
  induction o using List.reverseRecOn with
  | nil =>
    simp only [List.map_nil, List.foldlM_nil, pure_eq_ok, picks, List.foldl_nil, marks, List.find?_nil, List.filter_nil, List.map_nil,
      List.append_nil, List.not_mem_nil, false_and, exists_false, decide_false, replicate_map]
    subst hn
    rw [getD_map]
  | append_singleton o x ih =>
    have ih := ih fun i hi => ho i (by simp [hi])
    obtain ⟨hx1, hx2⟩ := ho x (by simp)
    rw [List.map_append, List.foldlM_append, ih]
    simp only [List.map_cons, List.map_nil, List.foldlM_cons, List.foldlM_nil, ok_bind]
    unfold linkStep
    simp only [marks]
    rw [get_mapR hx1, get_mapR hx2]
    simp only [ok_bind]
    rw [picks_append]
    by_cases hc : ∃ j ∈ picks P o, Clash (P j) (P x)
    · rw [if_pos hc, if_pos]
      · rfl
      · obtain ⟨j, hj, hc⟩ := hc
        rw [Bool.or_eq_true, decide_eq_true_iff, decide_eq_true_iff]
        rcases hc with h | h
        · exact Or.inl ⟨j, hj, h⟩
        · exact Or.inr ⟨j, hj, h⟩
    · rw [if_neg hc, if_neg]
      · have hgp : getR prev (P x).1 = .ok (prev.getD (P x).1 0) := by
          rw [getR_of_lt hx1, List.getD_eq_getElem _ _ hx1]
        have htr : prev.getD (P x).1 0 < n := by
          rw [List.getD_eq_getElem _ _ hx1]; exact hprev _ (List.getElem_mem _)
        simp only [setR, List.length_map, List.length_range, hx1, hx2, if_true, ok_bind, hgp, upd, htr, pure_eq_ok,
          get_mapSet, get_mapModify]
        have hfind : (picks P o).find? (fun i => (P i).2 == (P x).2) = none := by
          rw [List.find?_eq_none]
          intro i hi h
          exact hc ⟨i, hi, Or.inr (by simpa using h)⟩
        congr 2
        · apply List.map_congr_left
          intro p _
          by_cases hp : p = (P x).1
          · subst hp; simp
          · simp [hp, Ne.symm hp]
        · apply List.map_congr_left
          intro q _
          by_cases hq : q = (P x).2
          · subst hq; simp
          · simp [hq, Ne.symm hq]
        · apply List.map_congr_left
          intro q _
          by_cases hq : q = (P x).2
          · subst hq
            rw [if_pos rfl, List.find?_append, hfind]
            simp
          · rw [if_neg hq, List.find?_append]
            have : List.find? (fun i => (P i).2 == q) [x] = none := by simp [Ne.symm hq]
            rw [this, Option.or_none]
        · apply List.map_congr_left
          intro tr _
          by_cases htx : tr = prev.getD (P x).1 0
          · subst htx
            rw [if_pos rfl, List.filter_append]
            simp
          · rw [if_neg htx, List.filter_append]
            have : ¬ prev.getD (P x).1 0 = tr := fun h => htx h.symm
            simp [-List.getD_eq_getElem?_getD, this]
      · rw [Bool.or_eq_true, decide_eq_true_iff, decide_eq_true_iff]
        rintro (⟨j, hj, h⟩ | ⟨j, hj, h⟩)
        · exact hc ⟨j, hj, Or.inl h⟩
        · exact hc ⟨j, hj, Or.inr h⟩

theorem arrange_ok (pairs : List (Nat × Nat)) (o : List Nat) (h : ∀ i ∈ o, i < pairs.length) :
    arrange o pairs = .ok (o.map fun i => pairs.getD i (0, 0)) := by
  unfold arrange
  induction o with
  | nil => rfl
  | cons a o ih =>
    rw [List.mapM_cons, ih fun i hi => h i (by simp [hi])]
    have ha := h a (by simp)
    simp only [idx, List.getElem?_eq_getElem ha, ok_bind, pure_eq_ok, List.map_cons]
    rw [List.getD_eq_getElem _ _ ha]

/-- Numbering positions. -/
theorem number_ok (first : Nat) (nu : List Nat) (f : List Nat) (hnd : nu.Nodup) (hlt : ∀ q ∈ nu, q < f.length) :
    ∃ g, number first nu f = .ok g ∧ g.length = f.length ∧ (∀ i q, nu[i]? = some q → g[q]? = some (first + i)) ∧
      ∀ q, q ∉ nu → g[q]? = f[q]? := by
  unfold number
  induction nu using List.reverseRecOn with
  | nil => exact ⟨f, rfl, rfl, by simp, by simp⟩
  | append_singleton nu x ih =>
    rw [List.nodup_append] at hnd
    obtain ⟨g, h1, h2, h3, h4⟩ := ih hnd.1 fun q hq => hlt q (by simp [hq])
    have hx : x < g.length := by rw [h2]; exact hlt x (by simp)
    refine ⟨g.modify x fun _ => nu.length + first, ?_, by simpa using h2, ?_, ?_⟩
    · rw [List.zipIdx_append, List.foldlM_append, h1]
      simp [upd, hx]
    · intro i q hq
      rw [List.getElem?_modify]
      by_cases hi : i < nu.length
      · rw [List.getElem?_append_left hi] at hq
        have hne : x ≠ q := fun h => hnd.2.2 q (List.mem_of_getElem? hq) x (by simp) h.symm
        simp [hne, h3 i q hq]
      · have : i = nu.length := by
          have := (List.getElem?_eq_some_iff.1 hq).1
          simp at this; omega
        subst this
        rw [List.getElem?_concat_length] at hq
        have : x = q := by simpa using hq
        subst this
        rw [List.getElem?_eq_getElem hx]
        simp [Nat.add_comm]
    · intro q hq
      have hne : x ≠ q := by rintro rfl; exact hq (by simp)
      rw [List.getElem?_modify, h4 q (fun h => hq (by simp [h]))]
      simp [hne]

theorem filter_nodup {f : List Nat} {n : Nat} (h : ∀ p q tr : Nat, tr < n → f[p]? = some tr → f[q]? = some tr → p = q) :
    (f.filter (· < n)).Nodup := by
  rw [List.nodup_iff_count_le_one]
  intro tr
  by_contra hc
  have hmem : tr ∈ f.filter (· < n) := List.count_pos_iff.1 (by omega)
  have htr : tr < n := by simpa using (List.mem_filter.1 hmem).2
  rw [List.count_filter (by simpa using htr)] at hc
  obtain ⟨a, b, hab, ha, hb⟩ := List.duplicate_iff_exists_distinct_get.1 (List.duplicate_iff_two_le_count.2 (by omega : 2 ≤ f.count tr))
  have := h a b tr htr (by rw [ha]; simp) (by rw [hb]; simp)
  have : a.val < b.val := hab
  omega

theorem small_eq {α : Type} {a b : List α} (ha : a.Nodup) (hb : b.Nodup) (h1 : ∀ x ∈ a, ∀ y ∈ a, x = y) (h : ∀ x, x ∈ a ↔ x ∈ b) : a = b := by
  cases a with
  | nil =>
    cases b with
    | nil => rfl
    | cons y b => exact absurd ((h y).2 (by simp)) (by simp)
  | cons x a =>
    cases a with
    | cons x' a =>
      have := h1 x (by simp) x' (by simp)
      subst this
      simp at ha
    | nil =>
      have hall : ∀ y ∈ b, y = x := fun y hy => by simpa using (h y).2 hy
      have hx : x ∈ b := (h x).1 (by simp)
      cases b with
      | nil => simp at hx
      | cons y b =>
        have := hall y (by simp)
        subst this
        cases b with
        | nil => rfl
        | cons z b =>
          have := hall z (by simp)
          subst this
          simp at hb

theorem Built.nonempty {l : Linker} (h : Built l) : ∃ prev, l.pos2tr.getLast? = some prev := by
  cases h with
  | new n => exact ⟨List.range n, by simp [Linker.new]⟩
  | frame hl hf => exact ⟨_, by simp [ext]; rfl⟩

theorem last_at {l : Linker} {prev : List Nat} (h : l.pos2tr.getLast? = some prev) {p tr : Nat} (hp : prev[p]? = some tr) :
    l.At (l.pos2tr.length - 1) p tr := ⟨prev, by rw [← List.getLast?_eq_getElem?]; exact h, hp⟩

theorem at_inj {l : Linker} (hl : l.Good) {t p q tr : Nat} (hp : l.At t p tr) (hq : l.At t q tr) : p = q := by
  obtain ⟨s, st, h1, h2, _, h3⟩ := (hl.inverse t p tr).1 hp
  obtain ⟨s', st', h1', h2', _, h3'⟩ := (hl.inverse t q tr).1 hq
  rw [h1] at h1'; rw [h2] at h2'; cases h1'; cases h2'
  rw [h3] at h3'
  exact Option.some.inj h3'

theorem at_lt {l : Linker} (hl : l.Good) {t p tr : Nat} (hp : l.At t p tr) : tr < l.trajstart.length := by
  obtain ⟨s, st, h1, _⟩ := (hl.inverse t p tr).1 hp
  exact (List.getElem?_eq_some_iff.1 h1).1

/-- A frame made of continued trajectories and of numbered new ones can be loaded. -/
theorem loadable_of {l : Linker} (hl : l.Good) {prev f nu : List Nat} (hprev : l.pos2tr.getLast? = some prev)
    (hnu : ∀ i q : Nat, nu[i]? = some q → f[q]? = some (l.trajstart.length + i))
    (hnew : newOf f l.trajstart.length = nu)
    (hold : ∀ q tr : Nat, f[q]? = some tr → tr < l.trajstart.length → ∃ p : Nat, prev[p]? = some tr)
    (honce : ∀ p q tr : Nat, tr < l.trajstart.length → f[p]? = some tr → f[q]? = some tr → p = q) : l.Loadable f := by
  refine ⟨filter_nodup honce, ?_, ?_⟩
  · intro tr htr hlt
    obtain ⟨q, hq⟩ := List.mem_iff_getElem?.1 htr
    obtain ⟨p, hp⟩ := hold q tr hq hlt
    exact ⟨prev, hprev, List.mem_of_getElem? hp⟩
  · rw [← newOf_map, hnew]
    apply List.ext_getElem?
    intro i
    rw [List.getElem?_map, List.length_map]
    by_cases hi : i < nu.length
    · rw [List.getElem?_range' hi, List.getElem?_eq_getElem hi]
      have := hnu i _ (List.getElem?_eq_getElem hi)
      simp [List.getD, this]
    · rw [List.getElem?_eq_none (by omega), List.getElem?_eq_none (by simp; omega)]
      rfl

theorem find_pick {P : Nat → Nat × Nat} {o : List Nat} {i : Nat} (hi : i ∈ picks P o) :
    (picks P o).find? (fun k => (P k).2 == (P i).2) = some i := by
  cases hf : (picks P o).find? (fun k => (P k).2 == (P i).2) with
  | none =>
    rw [List.find?_eq_none] at hf
    exact absurd (by simp) (hf i hi)
  | some k =>
    have h1 := List.find?_some hf
    have h2 := List.mem_of_find?_eq_some hf
    have : k = i := picks_apart P o h2 hi (Or.inr (by simpa using h1))
    rw [this]

theorem add_eq {G : Type} {argsort : List G → List Nat} {l : Linker} (hl : l.Good) {prev : List Nat}
    (hprev : l.pos2tr.getLast? = some prev) (size : Nat) {pairs : List (Nat × Nat)} {ds : List G} (hlen : pairs.length = ds.length)
    (hne : pairs ≠ []) (hord : ∀ i ∈ argsort ds, i < pairs.length)
    (hval : ∀ x ∈ pairs, x.1 < prev.length ∧ x.2 < size) :
    ∃ f, addFrame true argsort l size pairs ds = .ok (ext l f) ∧ l.Loadable f ∧ f.length = size ∧
      (∀ i ∈ picks (fun i => pairs.getD i (0, 0)) (argsort ds), f[(pairs.getD i (0, 0)).2]? = prev[(pairs.getD i (0, 0)).1]?) ∧
      ∀ q, q < size → (∀ i ∈ picks (fun i => pairs.getD i (0, 0)) (argsort ds), (pairs.getD i (0, 0)).2 ≠ q) →
        ∃ tr, f[q]? = some tr ∧ l.trajstart.length ≤ tr := by
  set P : Nat → Nat × Nat := fun i => pairs.getD i (0, 0) with hP
  set o := argsort ds with ho
  set M := picks P o with hM
  set n := l.trajstart.length with hn
  have hPo : ∀ i ∈ o, (P i).1 < prev.length ∧ (P i).2 < size := by
    intro i hi
    apply hval
    show pairs.getD i (0, 0) ∈ pairs
    rw [List.getD_eq_getElem _ _ (hord i hi)]
    exact List.getElem_mem _
  have hPM : ∀ i ∈ M, (P i).1 < prev.length ∧ (P i).2 < size := fun i hi => hPo i (picks_sub P o i hi)
  have hlt : ∀ tr ∈ prev, tr < n := by
    intro tr htr
    obtain ⟨p, hp⟩ := List.mem_iff_getElem?.1 htr
    exact at_lt hl (last_at hprev hp)
  have hpd : ∀ p, p < prev.length → prev[p]? = some (prev.getD p 0) := by
    intro p hp; rw [List.getElem?_eq_getElem hp, List.getD_eq_getElem _ _ hp]
  set s := marks P prev size n l.tr2pos M with hs
  set nu := notUsed s.toUsed with hnu
  have hnumem : ∀ q, q ∈ nu ↔ q < size ∧ ∀ i ∈ M, (P i).2 ≠ q := by
    intro q
    rw [hnu, notUsed, List.mem_filter, List.mem_range]
    have : s.toUsed = (List.range size).map fun q => decide (∃ i ∈ M, (P i).2 = q) := rfl
    rw [this, get_mapRange]
    simp only [List.length_map, List.length_range]
    constructor
    · rintro ⟨h1, h2⟩
      rw [if_pos h1] at h2
      refine ⟨h1, fun i hi h => ?_⟩
      have : (∃ i ∈ M, (P i).2 = q) := ⟨i, hi, h⟩
      simp [this] at h2
    · rintro ⟨h1, h2⟩
      refine ⟨h1, ?_⟩
      rw [if_pos h1]
      have : ¬ ∃ i ∈ M, (P i).2 = q := fun ⟨i, hi, h⟩ => h2 i hi h
      simp [this]
  have hnd : nu.Nodup := List.nodup_range.filter _
  have hnf : s.newframe.length = size := by simp [hs, marks]
  obtain ⟨f, hf1, hf2, hf3, hf4⟩ := number_ok n nu s.newframe hnd fun q hq => by rw [hnf]; exact ((hnumem q).1 hq).1
  rw [hnf] at hf2
  have hmatch : ∀ i ∈ M, f[(P i).2]? = some (prev.getD (P i).1 0) := by
    intro i hi
    rw [hf4 _ (fun h => ((hnumem _).1 h).2 i hi rfl)]
    have : s.newframe = (List.range size).map fun q => match M.find? (fun i => (P i).2 == q) with
      | some i => prev.getD (P i).1 0
      | none => 0 := rfl
    rw [this, get_mapRange, if_pos (hPM i hi).2, find_pick hi]
  have hnewq : ∀ q, q < size → (∀ i ∈ M, (P i).2 ≠ q) → ∃ tr, f[q]? = some tr ∧ n ≤ tr := by
    intro q hq hno
    obtain ⟨i, hi⟩ := List.mem_iff_getElem?.1 ((hnumem q).2 ⟨hq, hno⟩)
    exact ⟨n + i, hf3 i q hi, by omega⟩
  have hcase : ∀ q tr, f[q]? = some tr → (tr < n ∧ ∃ i ∈ M, (P i).2 = q ∧ prev.getD (P i).1 0 = tr) ∨ (n ≤ tr ∧ ∀ i ∈ M, (P i).2 ≠ q) := by
    intro q tr hq
    have hqs : q < size := by rw [← hf2]; exact (List.getElem?_eq_some_iff.1 hq).1
    by_cases h : ∃ i ∈ M, (P i).2 = q
    · obtain ⟨i, hi, rfl⟩ := h
      rw [hmatch i hi] at hq
      left
      have : prev.getD (P i).1 0 = tr := by simpa using hq
      refine ⟨?_, i, hi, rfl, this⟩
      rw [← this]
      exact hlt _ (List.mem_of_getElem? (hpd _ (hPM i hi).1))
    · have hno : ∀ i ∈ M, (P i).2 ≠ q := fun i hi h' => h ⟨i, hi, h'⟩
      obtain ⟨tr', h1, h2⟩ := hnewq q hqs hno
      rw [hq] at h1
      cases h1
      exact Or.inr ⟨h2, hno⟩
  have hprevinj : ∀ i ∈ M, ∀ j ∈ M, prev.getD (P i).1 0 = prev.getD (P j).1 0 → i = j := by
    intro i hi j hj h
    apply picks_apart P o hi hj
    left
    have h1 := hpd _ (hPM i hi).1
    have h2 := hpd _ (hPM j hj).1
    rw [h] at h1
    exact at_inj hl (last_at hprev h1) (last_at hprev h2)
  have honce : ∀ p q tr : Nat, tr < n → f[p]? = some tr → f[q]? = some tr → p = q := by
    intro p q tr htr hp hq
    rcases hcase p tr hp with ⟨_, i, hi, rfl, h1⟩ | ⟨h1, _⟩
    · rcases hcase q tr hq with ⟨_, j, hj, rfl, h2⟩ | ⟨h2, _⟩
      · rw [hprevinj i hi j hj (h1.trans h2.symm)]
      · omega
    · omega
  have hnewOf : newOf f n = nu := by
    rw [newOf, hf2, hnu, notUsed]
    have hto : s.toUsed = (List.range size).map fun q => decide (∃ i ∈ M, (P i).2 = q) := rfl
    rw [hto]
    simp only [List.length_map, List.length_range]
    apply List.filter_congr
    intro q hq
    have hqs := List.mem_range.1 hq
    rw [get_mapRange, if_pos hqs]
    obtain ⟨tr, htr⟩ : ∃ tr, f[q]? = some tr := ⟨_, List.getElem?_eq_getElem (by omega)⟩
    have hgd : f.getD q 0 = tr := by simp [List.getD, htr]
    rw [hgd]
    rcases hcase q tr htr with ⟨h1, i, hi, h2, _⟩ | ⟨h1, h2⟩
    · have : ∃ i ∈ M, (P i).2 = q := ⟨i, hi, h2⟩
      simp [this]; omega
    · have : ¬ ∃ i ∈ M, (P i).2 = q := fun ⟨i, hi, h⟩ => h2 i hi h
      simp [this, h1]
  have hload : l.Loadable f := by
    refine loadable_of hl hprev hf3 hnewOf ?_ honce
    intro q tr hq htr
    rcases hcase q tr hq with ⟨_, i, hi, _, h2⟩ | ⟨h1, _⟩
    · exact ⟨_, by rw [hpd _ (hPM i hi).1, h2]⟩
    · omega
  refine ⟨f, ?_, hload, hf2, fun i hi => by rw [hmatch i hi, hpd _ (hPM i hi).1], hnewq⟩
  have hall : (pairs.all fun x => decide (x.2 < size)) = true := by
    rw [List.all_eq_true]
    intro x hx
    simpa using (hval x hx).2
  have hnil : pairs.isEmpty = false := by
    cases pairs with
    | nil => exact absurd rfl hne
    | cons a r => rfl
  unfold addFrame
  rw [if_neg (by simpa using hlen), hnil, if_neg (by simp), hall, if_neg (by simp), ← ho, arrange_ok pairs o hord]
  simp only [last, hprev, ok_bind, Bool.not_true, Bool.false_eq_true, if_false]
  rw [link_fold P prev size n l.tr2pos hl.tr2pos hlt o hPo]
  simp only [ok_bind]
  have htp : (marks P prev size n l.tr2pos (picks P o)).tr2pos.length = n := by simp [marks]
  rw [htp]
  have hf1' : number n (notUsed (marks P prev size n l.tr2pos (picks P o)).toUsed)
      (marks P prev size n l.tr2pos (picks P o)).newframe = .ok f := hf1
  rw [hf1']
  simp only [ok_bind, pure_eq_ok]
  unfold ext
  dsimp only
  rw [← hn, hnewOf]
  have hlens : (l.trajstart ++ List.map (fun _ => l.pos2tr.length) nu).length = n + nu.length := by simp [hn]
  have htps : (marks P prev size n l.tr2pos (picks P o)).tr2pos = (List.range n).map fun tr => l.tr2pos.getD tr [] ++ posOf f tr := by
    show ((List.range n).map fun tr => l.tr2pos.getD tr [] ++ (M.filter fun i => prev.getD (P i).1 0 == tr).map fun i => (P i).2) = _
    apply List.map_congr_left
    intro tr htr
    have htr := List.mem_range.1 htr
    congr 1
    have huni : ∀ i ∈ M.filter (fun i => prev.getD (P i).1 0 == tr), ∀ j ∈ M.filter (fun i => prev.getD (P i).1 0 == tr), i = j := by
      intro i hi j hj
      rw [List.mem_filter] at hi hj
      apply hprevinj i hi.1 j hj.1
      have h1 := hi.2; have h2 := hj.2
      rw [beq_iff_eq] at h1 h2
      rw [h1, h2]
    have hMnd : M.Nodup := by
      refine (picks_pairwise P o).imp ?_
      intro a b h hab
      exact h (by rw [hab]; exact Or.inl rfl)
    apply small_eq
    · refine List.Nodup.map_on ?_ (hMnd.filter _)
      intro i hi j hj _
      exact huni i hi j hj
    · exact List.nodup_range.filter _
    · intro x hx y hy
      obtain ⟨i, hi, rfl⟩ := List.mem_map.1 hx
      obtain ⟨j, hj, rfl⟩ := List.mem_map.1 hy
      rw [huni i hi j hj]
    · intro q
      rw [mem_posOf, List.mem_map]
      constructor
      · rintro ⟨i, hi, rfl⟩
        rw [List.mem_filter] at hi
        rw [hmatch i hi.1]
        have h1 := hi.2
        rw [beq_iff_eq] at h1
        rw [h1]
      · intro hq
        rcases hcase q tr hq with ⟨_, i, hi, h2, h3⟩ | ⟨h1, _⟩
        · exact ⟨i, by rw [List.mem_filter, beq_iff_eq]; exact ⟨hi, h3⟩, h2⟩
        · omega
  rw [htps]
  have hnu' : notUsed (marks P prev size n l.tr2pos (picks P o)).toUsed = nu := rfl
  rw [hnu', hlens]

theorem add_none {G : Type} (argsort : List G → List Nat) (weave : Bool) {l : Linker} (hl : l.Good) {prev : List Nat}
    (hprev : l.pos2tr.getLast? = some prev) (size : Nat) :
    ∃ f, addFrame weave argsort l size [] [] = .ok (ext l f) ∧ l.Loadable f ∧ f.length = size ∧
      ∀ q, q < size → ∃ tr, f[q]? = some tr ∧ l.trajstart.length ≤ tr := by
  set n := l.trajstart.length with hn
  set f := (List.range size).map fun p => p + n with hf
  have hget : ∀ q, f[q]? = if q < size then some (q + n) else none := fun q => get_mapRange size _ q
  have hlen : f.length = size := by simp [hf]
  have hnew : newOf f n = List.range size := by
    rw [newOf, hlen, List.filter_eq_self]
    intro q hq
    have := List.mem_range.1 hq
    simp [List.getD, hget, this]
  have hpos : ∀ tr, tr < n → posOf f tr = [] := by
    intro tr htr
    apply posOf_nil
    intro h
    obtain ⟨q, hq⟩ := List.mem_iff_getElem?.1 h
    rw [hget] at hq
    split at hq
    · have : q + n = tr := by simpa using hq
      omega
    · simp at hq
  refine ⟨f, ?_, ?_, hlen, ?_⟩
  · unfold addFrame
    simp only [List.length_nil, ne_eq, not_true_eq_false, if_false, List.isEmpty_nil, if_true, last, hl.nbtrajs, ok_bind, pure_eq_ok]
    unfold ext
    dsimp only
    rw [← hn, hnew]
    have : (List.range n).map (fun tr => l.tr2pos.getD tr [] ++ posOf f tr) = l.tr2pos := by
      have h1 : (List.range n).map (fun tr => l.tr2pos.getD tr [] ++ posOf f tr) = (List.range n).map (fun tr => l.tr2pos.getD tr []) := by
        apply List.map_congr_left
        intro tr htr
        rw [hpos tr (List.mem_range.1 htr), List.append_nil]
      rw [h1, hn, ← hl.tr2pos, getD_map]
    rw [this]
    simp [hf, hn]
  · refine loadable_of hl hprev (nu := List.range size) ?_ hnew ?_ ?_
    · intro i q hq
      have hi : i < size := by simpa using (List.getElem?_eq_some_iff.1 hq).1
      rw [List.getElem?_range hi] at hq
      have : i = q := by simpa using hq
      subst this
      rw [hget, if_pos hi, Nat.add_comm]
    · intro q tr hq htr
      rw [hget] at hq
      split at hq
      · have : q + n = tr := by simpa using hq
        omega
      · simp at hq
    · intro p q tr htr hp
      rw [hget] at hp
      split at hp
      · have : p + n = tr := by simpa using hp
        omega
      · simp at hp
  · intro q hq
    exact ⟨q + n, by rw [hget, if_pos hq], by omega⟩

end Linker
end Py
end Colloids
