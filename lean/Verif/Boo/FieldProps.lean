import Verif.Boo.FieldLemmas

/-! # Properties of the bond orientational order of a set of particles -/

namespace Colloids
namespace Boo
open Clusters (Ngb)
variable {V : Type} [AddCommGroup V] [Module ℝ V] {n : Nat} {ngbs : NgbList}

/-- Mean of a list of tensors. -/
noncomputable def mean (l : List V) : V := (l.length : ℝ)⁻¹ • l.sum

/-- The harmonics of the bonds of `x`. -/
def ownBonds (ngbs : NgbList) (sph : Nat → Nat → V) (x : Nat) : List V :=
  (rowOf ngbs x).map (fun q => sph x q)

/-- The harmonics of the bonds between two neighbours of `x`, each bond once. -/
def outerBonds (ngbs : NgbList) (sph : Nat → Nat → V) (x : Nat) : List V :=
  (rowOf ngbs x).flatMap (fun p => ((rowOf ngbs x).filter
    (fun q => decide (p < q ∧ q ∈ rowOf ngbs p))).map (fun q => sph p q))

theorem mean_nil : mean ([] : List V) = 0 := by simp [mean]

omit [Module ℝ V] in
theorem outer_sum (sph : Nat → Nat → V) (x : Nat) : (outerBonds ngbs sph x).sum
    = ((rowOf ngbs x).map (fun p => (((rowOf ngbs x).filter
          (fun q => decide (p < q ∧ q ∈ rowOf ngbs p))).map (fun q => sph p q)).sum)).sum := by
  unfold outerBonds
  generalize rowOf ngbs x = r
  suffices ∀ l : List Nat, (l.flatMap (fun p => (r.filter
    (fun q => decide (p < q ∧ q ∈ rowOf ngbs p))).map (fun q => sph p q))).sum
    = (l.map (fun p => ((r.filter
          (fun q => decide (p < q ∧ q ∈ rowOf ngbs p))).map (fun q => sph p q)).sum)).sum from this r
  intro l
  induction l with
  | nil => simp
  | cons a l ih => simp only [List.flatMap_cons, List.sum_append, List.map_cons, List.sum_cons, ih]

omit [AddCommGroup V] [Module ℝ V] in
theorem outer_length (sph : Nat → Nat → V) (x : Nat) :
    (outerBonds ngbs sph x).length = betweenCount ngbs x := by
  unfold outerBonds betweenCount
  simp [List.length_flatMap]

theorem getBOO_mean (h : GoodNgbs n ngbs) (sph : Nat → Nat → V) {x : Nat} (hx : x < n) :
    getBOO n ngbs sph x = .ok (mean (ownBonds ngbs sph x)) := by
  rw [getBOO_eq h sph hx]
  by_cases e : rowOf ngbs x = []
  · rw [if_pos e]; simp [ownBonds, e, mean_nil]
  · rw [if_neg e]; simp [mean, ownBonds]

/-- **C57** (order of one particle): with a neighbour list of `n` particles, `getBOO` never reads out of
range and is the mean of the harmonics of the bonds of the particle, null for an isolated particle. -/
theorem C57_getBOO (h : GoodNgbs n ngbs) (sph : Nat → Nat → V) (x : Nat) (hx : x < n) :
    getBOO n ngbs sph x = .ok (mean ((rowOf ngbs x).map (fun q => sph x q)))
    ∧ ((∀ q, ¬ Ngb ngbs x q) → getBOO n ngbs sph x = .ok 0) := by
  refine ⟨getBOO_mean h sph hx, fun hn => ?_⟩
  rw [getBOO_mean h sph hx]
  have : rowOf ngbs x = [] := by
    apply List.eq_nil_iff_forall_not_mem.2
    intro q hq
    exact hn q (mem_rowOf.1 hq)
  simp [ownBonds, this, mean_nil]

/-- What `getBOOs` computes, whatever the array it is given contains. -/
theorem getBOOs_eq (h : GoodNgbs n ngbs) (sph : Nat → Nat → V) (hs : ∀ p q, sph p q = sph q p)
    (boos : List V) :
    getBOOs n ngbs sph boos = .ok (tab n (fun x => if rowOf ngbs x = [] then none
      else some (((rowOf ngbs x).length : ℝ)⁻¹ • prev boos x + mean (ownBonds ngbs sph x)))) := by
  unfold getBOOs
  rw [accOf_start, loop_bond h, ok_bind, divide_eq]
  congr 1
  apply tab_congr
  intro x hx
  rw [countAt_bond h _ x hx, sumAt_bond h sph hs x hx]
  by_cases e : rowOf ngbs x = []
  · simp [e]
  · rw [if_neg e, if_neg (fun h0 => e (List.eq_nil_of_length_eq_zero h0)), smul_add]
    simp [mean, ownBonds]

/-- **C57** (all particles at once, what holds): on an empty array, when every particle has a
neighbour, the bond by bond accumulation of `getBOOs` gives each particle the value of `getBOO`. What is
missing: isolated particles, see `C57_isolated_counterexample`, and an array used before, see
`C57_reuse_counterexample`. -/
theorem C57_getBOOs_partial (h : GoodNgbs n ngbs) (sph : Nat → Nat → V)
    (hs : ∀ p q, sph p q = sph q p) (hn : ∀ x, x < n → ∃ q, Ngb ngbs x q) :
    ∃ out, getBOOs n ngbs sph [] = .ok out ∧ out.length = n
      ∧ ∀ x, x < n → ∃ v, out[x]? = some (some v) ∧ getBOO n ngbs sph x = .ok v := by
  refine ⟨_, getBOOs_eq h sph hs [], tab_length _ _, ?_⟩
  intro x hx
  refine ⟨mean (ownBonds ngbs sph x), ?_, getBOO_mean h sph hx⟩
  obtain ⟨q, hq⟩ := hn x hx
  have : rowOf ngbs x ≠ [] := List.ne_nil_of_mem (mem_rowOf.2 hq)
  simp [tab, hx, this, prev]

/-- **C57** (isolated particles, counterexample): `getBOOs` gives every isolated particle 0/0, where
`getBOO` gives it the null tensor. -/
theorem C57_isolated_counterexample (h : GoodNgbs n ngbs) (sph : Nat → Nat → V)
    (hs : ∀ p q, sph p q = sph q p) (boos : List V) (x : Nat) (hx : x < n)
    (hn : ∀ q, ¬ Ngb ngbs x q) :
    (∃ out, getBOOs n ngbs sph boos = .ok out ∧ out[x]? = some none)
    ∧ getBOO n ngbs sph x = .ok 0 := by
  refine ⟨⟨_, getBOOs_eq h sph hs boos, ?_⟩, (C57_getBOO h sph x hx).2 hn⟩
  have : rowOf ngbs x = [] := by
    apply List.eq_nil_iff_forall_not_mem.2
    intro q hq
    exact hn q (mem_rowOf.1 hq)
  simp [tab, hx, this]

/-- **C57** (array used before, counterexample): `getBOOs` adds to what the array contained. Given an
array where `x` has the non null tensor `b`, for instance the result of a previous call, the value of
`x` is off by `b` over its number of neighbours. -/
theorem C57_reuse_counterexample (h : GoodNgbs n ngbs) (sph : Nat → Nat → V)
    (hs : ∀ p q, sph p q = sph q p) (boos : List V) (x : Nat) (hx : x < n) (q : Nat)
    (hq : Ngb ngbs x q) (b : V) (hb : boos[x]? = some b) (hb0 : b ≠ 0) :
    ∃ out v w, getBOOs n ngbs sph boos = .ok out ∧ out[x]? = some (some v)
      ∧ getBOO n ngbs sph x = .ok w ∧ v = w + ((rowOf ngbs x).length : ℝ)⁻¹ • b ∧ v ≠ w := by
  have hr : rowOf ngbs x ≠ [] := List.ne_nil_of_mem (mem_rowOf.2 hq)
  have hl : ((rowOf ngbs x).length : ℝ) ≠ 0 := by
    intro h0
    exact hr (List.eq_nil_of_length_eq_zero (by exact_mod_cast h0))
  refine ⟨_, mean (ownBonds ngbs sph x) + ((rowOf ngbs x).length : ℝ)⁻¹ • b,
    mean (ownBonds ngbs sph x), getBOOs_eq h sph hs boos, ?_, getBOO_mean h sph hx, rfl, ?_⟩
  · simp [tab, hx, hr, prev, hb, add_comm]
  · intro e
    rw [add_eq_left] at e
    have h1 := congrArg (fun v => ((rowOf ngbs x).length : ℝ) • v) e
    simp only [smul_zero] at h1
    rw [smul_inv_smul₀ hl] at h1
    exact hb0 h1

/-- **C57** (surface bonds): on empty arrays, `getSurfBOOs` gives each particle the mean of the
harmonics of its own bonds and of the bonds between two of its neighbours, each bond counted once, and
`getBOOs_SurfBOOs` gives both this and the value of `getBOO`, isolated particles included. -/
theorem C57_surface (h : GoodNgbs n ngbs) (sph : Nat → Nat → V) (hs : ∀ p q, sph p q = sph q p) :
    ∃ b s, getBOOsSurfBOOs n ngbs sph [] [] = .ok (b, s) ∧ getSurfBOOs n ngbs sph [] = .ok s
      ∧ b.length = n ∧ s.length = n
      ∧ (∀ x, x < n → ∃ v, b[x]? = some v ∧ getBOO n ngbs sph x = .ok v)
      ∧ ∀ x, x < n → s[x]? = some (mean (ownBonds ngbs sph x ++ outerBonds ngbs sph x)) := by
  have hm : ∀ (k : Nat) (l : List V), k = l.length →
      (if k ≠ 0 then (k : ℝ)⁻¹ • l.sum else l.sum) = mean l := by
    rintro k l rfl
    by_cases e : l = []
    · subst e; simp [mean]
    · rw [if_pos (fun h0 => e (List.eq_nil_of_length_eq_zero h0))]; rfl
  have hb : (accOf n (prev ([] : List V)) (bondContrib n ngbs sph)).divideSafe n
      = .ok (tab n (fun x => mean (ownBonds ngbs sph x))) := by
    rw [divideSafe_eq]
    congr 1
    apply tab_congr
    intro x hx
    rw [countAt_bond h _ x hx, sumAt_bond h sph hs x hx]
    have := hm (rowOf ngbs x).length (ownBonds ngbs sph x) (by simp [ownBonds])
    simpa [prev, ownBonds] using this
  have hsu : (accOf n (prev ([] : List V)) (surfContrib n ngbs sph)).divideSafe n
      = .ok (tab n (fun x => mean (ownBonds ngbs sph x ++ outerBonds ngbs sph x))) := by
    rw [divideSafe_eq]
    congr 1
    apply tab_congr
    intro x hx
    rw [countAt_surf h _ x hx, sumAt_surf h sph hs x hx, ← outer_sum]
    have := hm ((rowOf ngbs x).length + betweenCount ngbs x)
      (ownBonds ngbs sph x ++ outerBonds ngbs sph x) (by simp [ownBonds, outer_length])
    rw [← this]
    simp [prev, ownBonds]
  refine ⟨tab n (fun x => mean (ownBonds ngbs sph x)),
    tab n (fun x => mean (ownBonds ngbs sph x ++ outerBonds ngbs sph x)), ?_, ?_,
    tab_length _ _, tab_length _ _, ?_, ?_⟩
  · unfold getBOOsSurfBOOs
    rw [accOf_start, loop_both h, ok_bind]
    simp only
    rw [hb, ok_bind, hsu, ok_bind]
    rfl
  · unfold getSurfBOOs
    rw [accOf_start, loop_surf h, ok_bind, hsu]
  · intro x hx
    exact ⟨mean (ownBonds ngbs sph x), by simp [tab, hx], getBOO_mean h sph hx⟩
  · intro x hx
    simp [tab, hx]

omit [AddCommGroup V] [Module ℝ V] in
/-- **C57** Which bonds the surface contains: those between two neighbours of the particle. -/
theorem C57_surface_bonds (sph : Nat → Nat → V) (x : Nat) (v : V) :
    v ∈ outerBonds ngbs sph x ↔ ∃ p q, p < q ∧ Ngb ngbs x p ∧ Ngb ngbs x q ∧ Ngb ngbs p q
      ∧ v = sph p q := by
  unfold outerBonds
  simp only [List.mem_flatMap, List.mem_map, List.mem_filter, decide_eq_true_eq, mem_rowOf]
  constructor
  · rintro ⟨p, hp, q, ⟨hq, hpq, hn⟩, rfl⟩; exact ⟨p, q, hpq, hp, hq, hn, rfl⟩
  · rintro ⟨p, q, hpq, hp, hq, hn, rfl⟩; exact ⟨p, hp, q, ⟨hq, hpq, hn⟩, rfl⟩

/-- **C57** (coarse graining): `getCgBOO` is the mean of the tensors of the particle and of its
neighbours. In particular it leaves a uniform field unchanged. -/
theorem C57_coarse_grain (h : GoodNgbs n ngbs) (boos : List V) (hb : boos.length = n) (x : Nat)
    (hx : x < n) :
    getCgBOO ngbs boos x = .ok (mean (prev boos x :: (rowOf ngbs x).map (prev boos)))
    ∧ ∀ c, (∀ y, y < n → boos[y]? = some c) → getCgBOO ngbs boos x = .ok c := by
  have hg : ∀ y, y < n → getR boos y = .ok (prev boos y) := by
    intro y hy
    rw [getR_of_lt (by omega)]
    simp [prev, hb, hy]
  have e : getCgBOO ngbs boos x
      = .ok (mean (prev boos x :: (rowOf ngbs x).map (prev boos))) := by
    unfold getCgBOO
    rw [hg x hx, ok_bind, getR_rowOf h hx, ok_bind]
    rw [foldlM_add _ (fun q => prev boos q) _ _ ?_]
    · simp [mean, add_comm]
    · intro s q hq
      rw [hg q (h.lt hq).2]; rfl
  refine ⟨e, fun c hc => ?_⟩
  rw [e]
  have : prev boos x :: (rowOf ngbs x).map (prev boos)
      = List.replicate ((rowOf ngbs x).length + 1) c := by
    rw [List.eq_replicate_iff]
    refine ⟨by simp, ?_⟩
    intro b hb'
    rcases List.mem_cons.1 hb' with rfl | hb'
    · simp [prev, hc x hx]
    · obtain ⟨q, hq, rfl⟩ := List.mem_map.1 hb'
      simp [prev, hc q (h.lt hq).2]
  rw [this, mean, List.sum_replicate, List.length_replicate, ← Nat.cast_smul_eq_nsmul ℝ,
    inv_smul_smul₀]
  exact Nat.cast_ne_zero.2 (Nat.succ_ne_zero _)

omit [AddCommGroup V] [Module ℝ V] in
theorem foldlM_setSel {f : Nat → R V} {g : Nat → V} (sel : List Nat) (b0 : Nat → V)
    (hf : ∀ x ∈ sel, x < n ∧ f x = .ok (g x)) :
    sel.foldlM (fun boos p => do
      let b ← f p
      setR boos p b) (tab n b0) = .ok (tab n (fun x => if x ∈ sel then g x else b0 x)) := by
  induction sel generalizing b0 with
  | nil => simp
  | cons a sel ih =>
    rw [List.foldlM_cons, (hf a (by simp)).2, ok_bind, setR_tab _ (hf a (by simp)).1, ok_bind,
      ih _ (fun x hx => hf x (by simp [hx]))]
    congr 1
    apply tab_congr
    intro x _
    by_cases h1 : x ∈ sel
    · simp [h1]
    · by_cases h2 : x = a
      · simp [h2]
      · simp [h1, h2]

omit [Module ℝ V] in
theorem resizeTo_tab (n : Nat) (boos : List V) : resizeTo 0 n boos = tab n (prev boos) := by
  have := congrArg Acc.sums (accOf_start n boos)
  unfold Acc.start accOf at this
  simp only [sumAt, List.map_nil, List.sum_nil, add_zero] at this
  exact this

/-- **C57** (selection): computed for a selection of particles, the order of the selected particles is
the one of `getBOO`, whatever the array contained; the others keep what the array contained, the null
tensor by default. -/
theorem C57_selection (h : GoodNgbs n ngbs) (sph : Nat → Nat → V) (sel : List Nat)
    (hsel : ∀ x ∈ sel, x < n) (boos : List V) :
    ∃ out, getBOOsSel n ngbs sph sel boos = .ok out ∧ out.length = n
      ∧ (∀ x ∈ sel, ∃ v, out[x]? = some v ∧ getBOO n ngbs sph x = .ok v)
      ∧ ∀ x, x < n → x ∉ sel → out[x]? = some (boos[x]?.getD 0) := by
  have e : getBOOsSel n ngbs sph sel boos
      = .ok (tab n (fun x => if x ∈ sel then mean (ownBonds ngbs sph x) else prev boos x)) := by
    unfold getBOOsSel
    rw [resizeTo_tab]
    exact foldlM_setSel sel (prev boos) (fun x hx => ⟨hsel x hx, getBOO_mean h sph (hsel x hx)⟩)
  refine ⟨_, e, tab_length _ _, ?_, ?_⟩
  · intro x hx
    exact ⟨_, by simp [tab, hsel x hx, hx], getBOO_mean h sph (hsel x hx)⟩
  · intro x hx hn
    simp [tab, hx, hn, prev]

/-- **C57** (coarse graining of a selection). -/
theorem C57_coarse_grain_selection (h : GoodNgbs n ngbs) (sel : List Nat)
    (hsel : ∀ x ∈ sel, x < n) (boos cg : List V) (hb : boos.length = n) :
    ∃ out, getCgBOOs n ngbs sel boos cg = .ok out ∧ out.length = n
      ∧ (∀ x ∈ sel, ∃ v, out[x]? = some v ∧ getCgBOO ngbs boos x = .ok v)
      ∧ ∀ x, x < n → x ∉ sel → out[x]? = some (cg[x]?.getD 0) := by
  have hg := fun x (hx : x < n) => (C57_coarse_grain h boos hb x hx).1
  have e : getCgBOOs n ngbs sel boos cg = .ok (tab n (fun x => if x ∈ sel then
      mean (prev boos x :: (rowOf ngbs x).map (prev boos)) else prev cg x)) := by
    unfold getCgBOOs
    rw [resizeTo_tab]
    exact foldlM_setSel sel (prev cg) (fun x hx => ⟨hsel x hx, hg x (hsel x hx)⟩)
  refine ⟨_, e, tab_length _ _, ?_, ?_⟩
  · intro x hx
    exact ⟨_, by simp [tab, hsel x hx, hx], hg x (hsel x hx)⟩
  · intro x hx hn
    simp [tab, hx, hn, prev]

/-- A triangle and an isolated particle. -/
def triangle : NgbList := [[1, 2], [0, 2], [0, 1], []]

theorem triangle_good : GoodNgbs 4 triangle := by
  have hb : ∀ p q, Ngb triangle p q → p < 3 ∧ q < 3 ∧ p ≠ q := by
    rintro p q ⟨row, hr, hq⟩
    match p, hr with
    | 0, hr | 1, hr | 2, hr | 3, hr => simp [triangle] at hr; subst hr; simp at hq <;> omega
    | p + 4, hr => simp [triangle] at hr
  have hc : ∀ p q, p < 3 → q < 3 → p ≠ q → Ngb triangle p q := by
    intro p q hp hq hpq
    match p, hp with
    | 0, _ => exact ⟨[1, 2], rfl, by simp; omega⟩
    | 1, _ => exact ⟨[0, 2], rfl, by simp; omega⟩
    | 2, _ => exact ⟨[0, 1], rfl, by simp; omega⟩
  refine ⟨rfl, by decide, ?_, ?_⟩
  · intro p q h
    have := hb p q h
    exact hc q p this.2.1 this.1 this.2.2.symm
  · intro p h
    exact (hb p p h).2.2 rfl

/-- The hypotheses of the theorems hold for the triangle, where particle 3 is isolated, the others are
not and particle 0 sees the outer bond between 1 and 2. -/
example : GoodNgbs 4 triangle ∧ (∀ q, ¬ Ngb triangle 3 q) ∧ Ngb triangle 0 1
    ∧ outerBonds triangle (fun p q => (p + q : ℝ)) 0 = [1 + 2] := by
  refine ⟨triangle_good, ?_, ⟨_, rfl, by simp⟩, ?_⟩
  · rintro q ⟨row, hr, hq⟩
    simp [triangle] at hr
    subst hr
    simp at hq
  · simp [outerBonds, rowOf, triangle, List.filter]

end Boo
end Colloids
