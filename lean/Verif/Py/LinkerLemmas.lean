import Verif.Py.LinkerModel
import Verif.CommonLemmas
import Mathlib.Data.List.GetD
import Mathlib.Data.List.Range
import Mathlib.Data.List.Nodup
import Mathlib.Data.List.NodupEquivFin
import Mathlib.Data.List.Perm.Basic
import Mathlib.Tactic.Common

/-! # Lemmas on the linker -/

namespace Colloids
namespace Py
namespace Linker

/-- The positions of a frame that have a trajectory. -/
def posOf (f : List Nat) (tr : Nat) : List Nat := (List.range f.length).filter fun q => f[q]? = some tr

/-- The positions of a frame whose trajectory is new. -/
def newOf (f : List Nat) (n : Nat) : List Nat := (List.range f.length).filter fun q => decide (n ≤ f.getD q 0)

/-- What a frame changes. -/
def ext (l : Linker) (f : List Nat) : Linker :=
  let n := l.trajstart.length
  ⟨((List.range n).map fun tr => l.tr2pos.getD tr [] ++ posOf f tr) ++ (newOf f n).map fun q => [q], l.pos2tr ++ [f],
    l.trajstart ++ (newOf f n).map fun _ => l.pos2tr.length, l.nbtrajs ++ [n + (newOf f n).length]⟩

/-- The lengths of the attributes agree. -/
structure Sized (l : Linker) : Prop where
  tr2pos : l.tr2pos.length = l.trajstart.length
  nbtrajs : l.nbtrajs.getLast? = some l.trajstart.length
  frames : l.nbtrajs.length = l.pos2tr.length

theorem new_sized (n : Nat) : (new n).Sized := by
  constructor <;> simp [new]

theorem ext_sized {l : Linker} (f : List Nat) (h : l.Sized) : (ext l f).Sized := by
  constructor <;> simp [ext, h.frames]

theorem get_mapRange {α : Type} (n : Nat) (g : Nat → α) (i : Nat) :
    ((List.range n).map g)[i]? = if i < n then some (g i) else none := by
  rw [List.getElem?_map]
  by_cases h : i < n
  · rw [List.getElem?_range h]; simp [h]
  · rw [List.getElem?_eq_none (by simp; omega)]; simp [h]

theorem modify_left {α : Type} (a b : List α) (i : Nat) (g : α → α) (h : i < a.length) :
    (a ++ b).modify i g = a.modify i g ++ b := by
  apply List.ext_getElem?
  intro j
  rw [List.getElem?_modify]
  by_cases hj : j < a.length
  · rw [List.getElem?_append_left hj, List.getElem?_append_left (by simpa using hj), List.getElem?_modify]
  · rw [List.getElem?_append_right (by omega), List.getElem?_append_right (by simp; omega), List.length_modify]
    simp [show i ≠ j by omega]

theorem posOf_append (f : List Nat) (x tr : Nat) :
    posOf (f ++ [x]) tr = posOf f tr ++ if x = tr then [f.length] else [] := by
  unfold posOf
  rw [List.length_append, List.length_singleton, List.range_succ, List.filter_append]
  congr 1
  · apply List.filter_congr
    intro q hq
    rw [List.getElem?_append_left (List.mem_range.1 hq)]
  · simp only [List.filter_cons, List.filter_nil, List.getElem?_concat_length]
    by_cases h : x = tr <;> simp [h]

theorem newOf_append (f : List Nat) (x n : Nat) :
    newOf (f ++ [x]) n = newOf f n ++ if n ≤ x then [f.length] else [] := by
  unfold newOf
  rw [List.length_append, List.length_singleton, List.range_succ, List.filter_append]
  congr 1
  · apply List.filter_congr
    intro q hq
    rw [List.getD_append _ _ _ _ (List.mem_range.1 hq)]
  · simp only [List.filter_cons, List.filter_nil]
    by_cases h : n ≤ x <;> simp [h, List.getD]

theorem load_fold (t n : Nat) (tp : List (List Nat)) (st : List Nat) (hn : tp.length = n) (f : List Nat) :
    f.zipIdx.foldlM (loadStep t n) (tp, st) = .ok
      (((List.range n).map fun tr => tp.getD tr [] ++ posOf f tr) ++ (newOf f n).map fun q => [q],
        st ++ (newOf f n).map fun _ => t) := by
  induction f using List.reverseRecOn with
  | nil =>
    subst hn
    simp only [List.zipIdx_nil, List.foldlM_nil, pure_eq_ok, posOf, newOf, List.length_nil, List.range_zero, List.filter_nil,
      List.append_nil, List.map_nil]
    congr 2
    apply List.ext_getElem?
    intro i
    rw [get_mapRange]
    by_cases h : i < tp.length
    · simp [h]
    · simp [h]
  | append_singleton f x ih =>
    rw [List.zipIdx_append, List.foldlM_append, ih]
    simp only [List.zipIdx_singleton, List.foldlM_cons, List.foldlM_nil, ok_bind, Nat.zero_add]
    unfold loadStep
    by_cases h : x < n
    · have hx : ¬ n ≤ x := by omega
      simp only [h, if_true, upd, newOf_append, hx, if_false, List.append_nil]
      rw [if_pos (by simp; omega)]
      simp only [ok_bind, pure_eq_ok]
      congr 2
      rw [modify_left _ _ _ _ (by simpa using h)]
      congr 1
      apply List.ext_getElem?
      intro i
      rw [List.getElem?_modify]
      simp only [get_mapRange, posOf_append]
      by_cases hi : i < n
      · by_cases hxi : x = i
        · simp [hi, hxi]
        · simp [hi, hxi]
      · simp [hi]
    · have hx : n ≤ x := by omega
      simp only [h, if_false, newOf_append, hx, if_true, ok_bind, pure_eq_ok, List.map_append, List.map_cons, List.map_nil,
        List.append_assoc]
      congr 3
      apply List.map_congr_left
      intro tr htr
      have : x ≠ tr := by have := List.mem_range.1 htr; omega
      simp [posOf_append, this]

theorem load_eq {l : Linker} (h : l.Sized) (f : List Nat) : l.loadFrame f = .ok (ext l f) := by
  unfold loadFrame
  simp only [last, h.nbtrajs, ok_bind]
  rw [load_fold _ _ _ _ h.tr2pos]
  simp [ext]

/-- A trajectory passes by a position at a time. -/
def Visits (l : Linker) (tr t p : Nat) : Prop :=
  ∃ s steps, l.trajstart[tr]? = some s ∧ l.tr2pos[tr]? = some steps ∧ s ≤ t ∧ steps[t - s]? = some p

/-- The trajectory of a position at a time. -/
def At (l : Linker) (t p tr : Nat) : Prop := ∃ f, l.pos2tr[t]? = some f ∧ f[p]? = some tr

/-- A linker whose two tables are inverse of each other. -/
structure Good (l : Linker) : Prop extends l.Sized where
  inverse : ∀ t p tr, l.At t p tr ↔ l.Visits tr t p
  ends : ∀ (tr s : Nat) (steps : List Nat), l.trajstart[tr]? = some s → l.tr2pos[tr]? = some steps → steps ≠ [] ∧ s + steps.length ≤ l.pos2tr.length
  atMost : ∀ t n : Nat, l.nbtrajs[t]? = some n → n ≤ l.trajstart.length
  counts : ∀ t n tr s : Nat, l.nbtrajs[t]? = some n → l.trajstart[tr]? = some s → (tr < n ↔ s ≤ t)

/-- A frame that continues trajectories of the last frame, once each, and numbers the new trajectories in order. -/
structure Loadable (l : Linker) (f : List Nat) : Prop where
  once : (f.filter (· < l.trajstart.length)).Nodup
  old : ∀ tr ∈ f, tr < l.trajstart.length → ∃ g, l.pos2tr.getLast? = some g ∧ tr ∈ g
  fresh : f.filter (l.trajstart.length ≤ ·) = List.range' l.trajstart.length (f.filter (l.trajstart.length ≤ ·)).length

theorem newOf_map (f : List Nat) (n : Nat) : (newOf f n).map (fun q => f.getD q 0) = f.filter (n ≤ ·) := by
  induction f using List.reverseRecOn with
  | nil => rfl
  | append_singleton f x ih =>
    rw [newOf_append, List.map_append, List.filter_append, ← ih]
    congr 1
    · apply List.map_congr_left
      intro q hq
      have : q < f.length := List.mem_range.1 (List.mem_filter.1 hq).1
      rw [List.getD_append _ _ _ _ this]
    · by_cases h : n ≤ x <;> simp [h, List.getD]

theorem newOf_length (f : List Nat) (n : Nat) : (newOf f n).length = (f.filter (n ≤ ·)).length := by
  rw [← newOf_map, List.length_map]

theorem newOf_get {f : List Nat} {n : Nat} (h : f.filter (n ≤ ·) = List.range' n (f.filter (n ≤ ·)).length) (i p : Nat) :
    (newOf f n)[i]? = some p ↔ f[p]? = some (n + i) := by
  have key : ∀ i p, (newOf f n)[i]? = some p → f[p]? = some (n + i) := by
    intro i p hp
    have hm : ((newOf f n).map fun q => f.getD q 0)[i]? = some (f.getD p 0) := by rw [List.getElem?_map, hp]; rfl
    rw [newOf_map, h] at hm
    have hlt : p < f.length := List.mem_range.1 (List.mem_filter.1 (List.mem_of_getElem? hp)).1
    have hi : i < (f.filter (n ≤ ·)).length := by
      rw [← newOf_length]; exact (List.getElem?_eq_some_iff.1 hp).1
    rw [List.getElem?_range' hi] at hm
    simp only [Nat.one_mul, Option.some.injEq] at hm
    rw [List.getElem?_eq_getElem hlt]
    rw [List.getD_eq_getElem _ _ hlt] at hm
    rw [← hm]
  refine ⟨key i p, fun hp => ?_⟩
  have hlt : p < f.length := (List.getElem?_eq_some_iff.1 hp).1
  have hmem : p ∈ newOf f n := by
    unfold newOf
    rw [List.mem_filter]
    refine ⟨List.mem_range.2 hlt, ?_⟩
    simp [List.getD, hp]
  obtain ⟨j, hj⟩ := List.mem_iff_getElem?.1 hmem
  have := key j p hj
  rw [hp] at this
  have : i = j := by simpa using this
  rw [this]; exact hj

theorem mem_posOf {f : List Nat} {tr p : Nat} : p ∈ posOf f tr ↔ f[p]? = some tr := by
  unfold posOf
  rw [List.mem_filter, List.mem_range]
  constructor
  · intro h; simpa using h.2
  · intro h; exact ⟨(List.getElem?_eq_some_iff.1 h).1, by simpa using h⟩

theorem posOf_unique {f : List Nat} {n tr p : Nat} (hn : (f.filter (· < n)).Nodup) (ht : tr < n) (h : f[p]? = some tr) :
    posOf f tr = [p] := by
  have huniq : ∀ q, f[q]? = some tr → q = p := by
    have hc : f.count tr ≤ 1 := by
      rw [← List.count_filter (p := fun x => decide (x < n)) (by simpa using ht)]
      exact List.nodup_iff_count_le_one.1 hn tr
    intro q hq
    by_contra hne
    obtain ⟨a, ha⟩ := List.getElem?_eq_some_iff.1 h
    obtain ⟨b, hb⟩ := List.getElem?_eq_some_iff.1 hq
    have : List.Duplicate tr f := by
      rw [List.duplicate_iff_exists_distinct_get]
      rcases lt_or_gt_of_ne hne with hl | hl
      · exact ⟨⟨q, b⟩, ⟨p, a⟩, hl, by simpa using hb.symm, by simpa using ha.symm⟩
      · exact ⟨⟨p, a⟩, ⟨q, b⟩, hl, by simpa using ha.symm, by simpa using hb.symm⟩
    have h2 := List.duplicate_iff_two_le_count.1 this
    omega
  have hnd : (posOf f tr).Nodup := List.nodup_range.filter _
  have hall : ∀ q ∈ posOf f tr, q = p := fun q hq => huniq q (mem_posOf.1 hq)
  have hp : p ∈ posOf f tr := mem_posOf.2 h
  cases hpo : posOf f tr with
  | nil => rw [hpo] at hp; simp at hp
  | cons a r =>
    rw [hpo] at hall hnd
    have ha : a = p := hall a (by simp)
    cases r with
    | nil => rw [ha]
    | cons b r =>
      have hb : b = p := hall b (by simp)
      rw [ha, hb] at hnd
      simp at hnd

theorem posOf_nil {f : List Nat} {tr : Nat} (h : tr ∉ f) : posOf f tr = [] := by
  rw [List.eq_nil_iff_forall_not_mem]
  intro p hp
  exact h (List.mem_of_getElem? (mem_posOf.1 hp))

theorem new_good (n : Nat) : (new n).Good := by
  refine { new_sized n with inverse := ?_, ends := ?_, atMost := ?_, counts := ?_ }
  · intro t p tr
    unfold At Visits new
    simp only [get_mapRange]
    constructor
    · rintro ⟨f, hf, hp⟩
      rcases t with _ | t
      · have : f = List.range n := by simpa using hf.symm
        subst this
        have hlt : p < n := by simpa using (List.getElem?_eq_some_iff.1 hp).1
        rw [List.getElem?_range hlt] at hp
        have hp : p = tr := by simpa using hp
        subst hp
        exact ⟨0, [p], by simp [hlt], by simp [hlt], le_refl _, by simp⟩
      · simp at hf
    · rintro ⟨s, steps, hs, hst, hle, hp⟩
      by_cases hlt : tr < n
      · simp only [hlt, if_true, Option.some.injEq] at hs hst
        subst hs; subst hst
        rcases t with _ | t
        · have : tr = p := by simpa using hp
          subst this
          exact ⟨List.range n, by simp, List.getElem?_range hlt⟩
        · simp at hp
      · simp [hlt] at hs
  · intro tr s steps hs hst
    unfold new at hs hst ⊢
    simp only [get_mapRange] at hs hst
    by_cases hlt : tr < n
    · simp only [hlt, if_true, Option.some.injEq] at hs hst
      subst hs; subst hst
      simp
    · simp [hlt] at hs
  · intro t m hm
    unfold new at hm ⊢
    rcases t with _ | t
    · have : m = n := by simpa using hm.symm
      simp [this]
    · simp at hm
  · intro t m tr s hm hs
    unfold new at hm hs
    simp only [get_mapRange] at hs
    by_cases hlt : tr < n
    · simp only [hlt, if_true, Option.some.injEq] at hs
      subst hs
      rcases t with _ | t
      · have : m = n := by simpa using hm.symm
        subst this
        simp [hlt]
      · simp at hm
    · simp [hlt] at hs

theorem ext_start (l : Linker) (f : List Nat) (tr : Nat) :
    (ext l f).trajstart[tr]? = if tr < l.trajstart.length then l.trajstart[tr]?
      else if tr - l.trajstart.length < (newOf f l.trajstart.length).length then some l.pos2tr.length else none := by
  unfold ext
  dsimp only
  by_cases h : tr < l.trajstart.length
  · rw [List.getElem?_append_left h, if_pos h]
  · rw [List.getElem?_append_right (by omega), if_neg h, List.getElem?_map]
    by_cases h2 : tr - l.trajstart.length < (newOf f l.trajstart.length).length
    · rw [if_pos h2, List.getElem?_eq_getElem h2]; rfl
    · rw [if_neg h2, List.getElem?_eq_none (by omega)]; rfl

theorem ext_steps (l : Linker) (f : List Nat) (tr : Nat) :
    (ext l f).tr2pos[tr]? = if tr < l.trajstart.length then some (l.tr2pos.getD tr [] ++ posOf f tr)
      else (newOf f l.trajstart.length)[tr - l.trajstart.length]?.map fun q => [q] := by
  unfold ext
  dsimp only
  by_cases h : tr < l.trajstart.length
  · rw [List.getElem?_append_left (by simpa using h), if_pos h, get_mapRange, if_pos h]
  · rw [List.getElem?_append_right (by simp; omega), if_neg h, List.getElem?_map]
    simp

/-- A trajectory of the last frame is as long as possible. -/
theorem last_full {l : Linker} (hl : l.Good) {tr s : Nat} {steps : List Nat} (hs : l.trajstart[tr]? = some s)
    (hst : l.tr2pos[tr]? = some steps) (h : ∃ g, l.pos2tr.getLast? = some g ∧ tr ∈ g) : s + steps.length = l.pos2tr.length := by
  obtain ⟨g, hg, hm⟩ := h
  obtain ⟨p, hp⟩ := List.mem_iff_getElem?.1 hm
  have hne : 0 < l.pos2tr.length := by
    cases hc : l.pos2tr with
    | nil => rw [hc] at hg; simp at hg
    | cons a r => simp
  rw [List.getLast?_eq_getElem?] at hg
  obtain ⟨s', st', h1, h2, h3, h4⟩ := (hl.inverse (l.pos2tr.length - 1) p tr).1 ⟨g, hg, hp⟩
  rw [hs] at h1; rw [hst] at h2
  cases h1; cases h2
  have := (List.getElem?_eq_some_iff.1 h4).1
  have := (hl.ends tr s steps hs hst).2
  omega

theorem ext_good {l : Linker} (hl : l.Good) {f : List Nat} (hf : l.Loadable f) : (ext l f).Good := by
  set n := l.trajstart.length with hn
  have hlen : (ext l f).pos2tr.length = l.pos2tr.length + 1 := by simp [ext]
  have hD : ∀ tr, tr < n → l.tr2pos[tr]? = some (l.tr2pos.getD tr []) := by
    intro tr h
    have h2 : tr < l.tr2pos.length := by rw [hl.tr2pos]; exact h
    rw [List.getElem?_eq_getElem h2, List.getD_eq_getElem _ _ h2]
  have hS : ∀ tr, tr < n → ∃ s, l.trajstart[tr]? = some s := fun tr h => ⟨_, List.getElem?_eq_getElem h⟩
  refine { ext_sized f hl.toSized with inverse := ?_, ends := ?_, atMost := ?_, counts := ?_ }
  · intro t p tr
    have hAt : (ext l f).At t p tr ↔ l.At t p tr ∨ (t = l.pos2tr.length ∧ f[p]? = some tr) := by
      unfold At ext
      dsimp only
      rcases lt_trichotomy t l.pos2tr.length with h | h | h
      · rw [List.getElem?_append_left h]
        constructor
        · intro h; exact Or.inl h
        · rintro (h' | h')
          · exact h'
          · omega
      · subst h
        rw [List.getElem?_concat_length]
        constructor
        · rintro ⟨g, hg, hp⟩
          cases hg
          exact Or.inr ⟨rfl, hp⟩
        · rintro (⟨g, hg, hp⟩ | ⟨_, hp⟩)
          · rw [List.getElem?_eq_none (by omega)] at hg; simp at hg
          · exact ⟨f, rfl, hp⟩
      · rw [List.getElem?_eq_none (by simp; omega), List.getElem?_eq_none (by omega)]
        simp; omega
    rw [hAt]
    unfold Visits
    rw [ext_start, ext_steps]
    by_cases htr : tr < n
    · obtain ⟨s, hs⟩ := hS tr htr
      rw [← hn, if_pos htr, if_pos htr, hs, hl.inverse]
      unfold Visits
      rw [hs, hD tr htr]
      set steps := l.tr2pos.getD tr [] with hsteps
      have hend := hl.ends tr s steps hs (hD tr htr)
      have ex : ∀ (P : Nat → List Nat → Prop) (a : Nat) (b : List Nat),
          (∃ x y, some a = some x ∧ some b = some y ∧ P x y) ↔ P a b := by
        intro P a b
        constructor
        · rintro ⟨x, y, h1, h2, h3⟩; cases h1; cases h2; exact h3
        · intro h; exact ⟨a, b, rfl, rfl, h⟩
      rw [ex (fun x y => x ≤ t ∧ y[t - x]? = some p), ex (fun x y => x ≤ t ∧ y[t - x]? = some p)]
      by_cases hmem : tr ∈ f
      · have hfull : s + steps.length = l.pos2tr.length := last_full hl hs (hD tr htr) (hf.old tr hmem htr)
        obtain ⟨q, hq⟩ := List.mem_iff_getElem?.1 hmem
        rw [posOf_unique hf.once htr hq]
        have hpq : f[p]? = some tr ↔ p = q := by
          constructor
          · intro h
            have h1 := posOf_unique hf.once htr hq
            have h2 := mem_posOf.2 h
            rw [h1] at h2
            simpa using h2
          · rintro rfl; exact hq
        rw [hpq]
        by_cases hlt : t - s < steps.length
        · rw [List.getElem?_append_left hlt]
          constructor
          · rintro (h | h)
            · exact h
            · omega
          · intro h; exact Or.inl h
        · rw [List.getElem?_append_right (by omega), List.getElem?_eq_none (l := steps) (by omega)]
          constructor
          · rintro (h | ⟨h, rfl⟩)
            · simp at h
            · exact ⟨by omega, by rw [show t - s - steps.length = 0 by omega]; rfl⟩
          · rintro ⟨h, h3⟩
            right
            have : t - s - steps.length = 0 := by
              by_contra hc
              rw [List.getElem?_eq_none (by simp; omega)] at h3
              simp at h3
            rw [this] at h3
            refine ⟨by omega, ?_⟩
            simpa using h3.symm
      · rw [posOf_nil hmem, List.append_nil]
        have : f[p]? ≠ some tr := fun h => hmem (List.mem_of_getElem? h)
        simp [this]
    · rw [← hn, if_neg htr, if_neg htr]
      have hno : ¬ l.At t p tr := by
        rw [hl.inverse]
        rintro ⟨s, steps, hs, _⟩
        rw [List.getElem?_eq_none (by omega)] at hs
        simp at hs
      have hget := newOf_get hf.fresh (tr - n) p
      rw [show l.trajstart.length + (tr - n) = tr by omega] at hget
      rw [← hget]
      constructor
      · rintro (h | ⟨rfl, h⟩)
        · exact absurd h hno
        · have := (List.getElem?_eq_some_iff.1 h).1
          exact ⟨l.pos2tr.length, [p], by rw [if_pos (by rw [hn]; exact this)], by rw [hn, h]; rfl, le_refl _, by simp⟩
      · rintro ⟨s, steps, hs, hst, hle, hp⟩
        right
        split at hs
        · rename_i hlt
          cases hs
          rw [List.getElem?_eq_getElem hlt] at hst
          simp only [Option.map_some, Option.some.injEq] at hst
          subst hst
          have h0 : t - l.pos2tr.length = 0 := by
            by_contra hc
            rw [List.getElem?_eq_none (by simp; omega)] at hp
            simp at hp
          rw [h0] at hp
          refine ⟨by omega, ?_⟩
          rw [← hn, List.getElem?_eq_getElem hlt]
          simpa using hp
        · simp at hs
  · intro tr s steps hs hst
    rw [ext_start] at hs
    rw [ext_steps] at hst
    rw [hlen]
    by_cases htr : tr < n
    · rw [← hn, if_pos htr] at hs hst
      have hst : l.tr2pos.getD tr [] ++ posOf f tr = steps := by simpa using hst
      have hend := hl.ends tr s _ hs (hD tr htr)
      subst hst
      refine ⟨fun h => hend.1 (List.append_eq_nil_iff.1 h).1, ?_⟩
      by_cases hmem : tr ∈ f
      · obtain ⟨q, hq⟩ := List.mem_iff_getElem?.1 hmem
        rw [posOf_unique hf.once htr hq, List.length_append, List.length_singleton]
        omega
      · rw [posOf_nil hmem, List.append_nil]; omega
    · rw [← hn, if_neg htr] at hs hst
      split at hs
      · rename_i hlt
        cases hs
        rw [List.getElem?_eq_getElem hlt] at hst
        simp only [Option.map_some, Option.some.injEq] at hst
        subst hst
        simp
      · simp at hs
  · intro t m hm
    have hm : (l.nbtrajs ++ [n + (newOf f n).length])[t]? = some m := hm
    have hle : (ext l f).trajstart.length = n + (newOf f n).length := by simp [ext, hn]
    rw [hle]
    by_cases ht : t < l.nbtrajs.length
    · rw [List.getElem?_append_left ht] at hm
      have := hl.atMost t m hm
      omega
    · have htl : t = l.nbtrajs.length := by
        have := (List.getElem?_eq_some_iff.1 hm).1
        simp at this; omega
      subst htl
      rw [List.getElem?_concat_length] at hm
      have hm : n + (newOf f n).length = m := by simpa using hm
      omega
  · intro t m tr s hm hs
    rw [ext_start] at hs
    have hm : (l.nbtrajs ++ [n + (newOf f n).length])[t]? = some m := hm
    by_cases ht : t < l.nbtrajs.length
    · rw [List.getElem?_append_left ht] at hm
      by_cases htr : tr < n
      · rw [← hn, if_pos htr] at hs
        exact hl.counts t m tr s hm hs
      · rw [← hn, if_neg htr] at hs
        split at hs
        · cases hs
          have := hl.frames
          have hmn : m ≤ n := hl.atMost t m hm
          constructor
          · intro h; omega
          · intro h; omega
        · simp at hs
    · have htl : t = l.nbtrajs.length := by
        have := (List.getElem?_eq_some_iff.1 hm).1
        simp at this; omega
      subst htl
      rw [List.getElem?_concat_length] at hm
      have hm : n + (newOf f n).length = m := by simpa using hm
      have hfr := hl.frames
      by_cases htr : tr < n
      · rw [← hn, if_pos htr] at hs
        have hend := hl.ends tr s _ hs (hD tr htr)
        constructor
        · intro _; omega
        · intro _; omega
      · rw [← hn, if_neg htr] at hs
        split at hs
        · rename_i hlt
          cases hs
          constructor
          · intro _; omega
          · intro _; omega
        · simp at hs

end Linker
end Py
end Colloids
