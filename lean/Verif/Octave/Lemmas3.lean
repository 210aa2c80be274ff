import Verif.Octave.CircLemmas
import Verif.Octave.Spec
import Mathlib.Tactic.Ring
import Mathlib.Tactic.NormNum

/-! # Lemmas on the detection in three dimensions -/

namespace Colloids
namespace Octave

variable {G : Type} [Field G] [LinearOrder G]

omit [LinearOrder G] in
theorem Shows.getDoG {o : Finder3 G} {k : Nat} {c : Circ G} (h : Shows o k c 4) {l : Nat} {z : Int}
    {j i : Nat} (hl : l < o.nbLayers + 2) (h1 : -3 ≤ z) (h2 : z ≤ 4) (hj : j < o.rows)
    (hi : i < o.cols) : c.getDoG l z j i = .ok (dog3 o l ((k : Int) + z).toNat j i) := by
  unfold Circ.getDoG
  rw [h.getG (by omega) h1 h2 hj hi, h.getG (by omega) h1 h2 hj hi]
  rfl

theorem offsets16_get : ∀ m < 16,
    offsets16[m]? = some (m / 8 % 2, m / 4 % 2, m / 2 % 2, m % 2) := by decide

theorem offsets16_le : ∀ e ∈ offsets16, e.1 ≤ 1 ∧ e.2.1 ≤ 1 ∧ e.2.2.1 ≤ 1 ∧ e.2.2.2 ≤ 1 := by
  decide

theorem mapM_ok_map {α β : Type} (L : List α) (f : α → R β) (g : α → β)
    (h : ∀ a ∈ L, f a = .ok (g a)) : L.mapM f = .ok (L.map g) := by
  induction L with
  | nil => rfl
  | cons a L ih =>
    rw [List.mapM_cons, h a (by simp), ih (fun a ha => h a (by simp [ha]))]
    rfl

theorem mem_around4 {ml mj mi : Nat} {mk : Int} {p : Nat × Int × Nat × Nat} (hl : 1 ≤ ml)
    (hj : 1 ≤ mj) (hi : 1 ≤ mi) : p ∈ around4 ml mk mj mi ↔
      (ml ≤ p.1 + 1 ∧ p.1 ≤ ml + 1) ∧ (mk ≤ p.2.1 + 1 ∧ p.2.1 ≤ mk + 1) ∧
      (mj ≤ p.2.2.1 + 1 ∧ p.2.2.1 ≤ mj + 1) ∧ (mi ≤ p.2.2.2 + 1 ∧ p.2.2.2 ≤ mi + 1) := by
  obtain ⟨a, b, c, d⟩ := p
  simp only [around4, List.mem_flatMap, List.mem_map, List.mem_cons, List.not_mem_nil, or_false,
    Prod.mk.injEq]
  constructor
  · rintro ⟨l2, hl2, k2, hk2, j2, hj2, i2, hi2, rfl, rfl, rfl, rfl⟩; omega
  · intro h
    exact ⟨a, by omega, b, by omega, c, by omega, d, by omega, rfl, rfl, rfl, rfl⟩

/-- The pixel `(l, k, j, i)` is in the block at scale `b.1`, planes `k0` and `k0 + 1`. -/
def InBlock3 (k0 : Nat) (b : Nat × Nat × Nat) (l k j i : Nat) : Prop :=
  (b.1 ≤ l ∧ l ≤ b.1 + 1) ∧ (k0 ≤ k ∧ k ≤ k0 + 1) ∧ (b.2.1 ≤ j ∧ j ≤ b.2.1 + 1) ∧
    (b.2.2 ≤ i ∧ i ≤ b.2.2 + 1)

theorem shifts_spec {o : Finder3 G} {k : Nat} {c : Circ G} (h : Shows o k c 4) {ml mk mj mi : Nat}
    (hk : 3 ≤ k) (hl : 1 ≤ ml) (hl' : ml ≤ o.nbLayers) (hmk : mk ≤ 1) (hj : 3 ≤ mj)
    (hj' : mj + 3 < o.rows) (hi : 3 ≤ mi) (hi' : mi + 3 < o.cols) :
    c.shifts (ml, mk, mj, mi) = .ok
      ((subpixel7 (fun u => o.layersG (ml - 1) (mk + k) mj (mi + u - 3)),
        subpixel7 (fun u => o.layersG (ml - 1) (mk + k) (mj + u - 3) mi),
        subpixel7 (fun u => o.layersG (ml - 1) (mk + k + u - 3) mj mi)),
      subscale (ml : G) ((o.nbLayers : G) + 1) (dog3 o (ml - 1) (mk + k) mj mi)
        (dog3 o ml (mk + k) mj mi) (dog3 o (ml + 1) (mk + k) mj mi)) := by
  have e : ((k : Int) + (mk : Int)).toNat = mk + k := by omega
  unfold Circ.shifts
  simp only
  rw [mapM_ok_map (List.range 7) _ (fun u => o.layersG (ml - 1) (mk + k) mj (mi + u - 3))
    (by
      intro u hu
      rw [List.mem_range] at hu
      rw [h.getG (by omega) (by omega) (by omega) (by omega) (by omega), e]),
    mapM_ok_map (List.range 7) _ (fun u => o.layersG (ml - 1) (mk + k) (mj + u - 3) mi)
    (by
      intro u hu
      rw [List.mem_range] at hu
      rw [h.getG (by omega) (by omega) (by omega) (by omega) (by omega), e]),
    mapM_ok_map (List.range 7) _ (fun u => o.layersG (ml - 1) (mk + k + u - 3) mj mi)
    (by
      intro u hu
      rw [List.mem_range] at hu
      rw [h.getG (by omega) (by omega) (by omega) (by omega) (by omega)]
      congr 2
      omega),
    mapM_ok_map (List.range 3) _ (fun u => dog3 o (ml + u - 1) (mk + k) mj mi)
    (by
      intro u hu
      rw [List.mem_range] at hu
      rw [h.getDoG (by omega) (by omega) (by omega) (by omega) (by omega), e])]
  simp only [ok_bind, pure_eq_ok, Except.ok.injEq]
  have e7 : List.range 7 = [0, 1, 2, 3, 4, 5, 6] := rfl
  have e3 : List.range 3 = [0, 1, 2] := rfl
  have en : (c.nLayers : G) - 2 = (o.nbLayers : G) + 1 := by
    rw [h.layers]; push_cast; ring
  rw [e7, e3, en]
  simp only [subpixel7, List.map_cons, List.map_nil, List.getD_cons_zero, List.getD_cons_succ]
  rw [Nat.add_sub_cancel, Nat.add_zero]
  rfl

theorem block3_spec (nz : G → Bool) (maxRatio : G) (o : Finder3 G) {k : Nat} {c : Circ G}
    (h : Shows o k c 4) (b : Nat × Nat × Nat) (hs : o.sizes.length = o.nbLayers + 3)
    (hk : 3 ≤ k) (hl : 1 ≤ b.1) (hl' : b.1 ≤ o.nbLayers) (hj : 3 ≤ b.2.1)
    (hj' : b.2.1 + 4 < o.rows) (hi : 3 ≤ b.2.2) (hi' : b.2.2 + 4 < o.cols) :
    ∃ verdict : Option (Center3 G),
      (∀ d, block3 nz maxRatio o k c d b = .ok (d ++ verdict.toList)) ∧
      (∀ x, verdict = some x → ∃ l k' j i, x = centerOf o l k' j i ∧ InBlock3 k b l k' j i ∧
        l ≤ o.nbLayers ∧ (∃ s, o.sizes[l]? = some s ∧ Inside3 o s k' j i) ∧
        LocalMin3 o l k' j i ∧ Blob3 nz maxRatio o l k' j i) ∧
      (∀ l k' j i, InBlock3 k b l k' j i → l ≤ o.nbLayers →
        (∃ s, o.sizes[l]? = some s ∧ Inside3 o s k' j i) →
        StrictMin3 o l k' j i → Blob3 nz maxRatio o l k' j i →
        verdict = some (centerOf o l k' j i)) := by
  obtain ⟨l, j, i⟩ := b
  simp only at hl hl' hj hj' hi hi'
  set vals := offsets16.map (fun e => dog3 o (l + e.1) (e.2.1 + k) (j + e.2.2.1) (i + e.2.2.2))
    with hvals
  have hngb : offsets16.mapM (fun e =>
      c.getDoG (l + e.1) (e.2.1 : Nat) (j + e.2.2.1) (i + e.2.2.2)) = .ok vals := by
    apply mapM_ok_map
    intro e he
    have := offsets16_le e he
    rw [h.getDoG (by omega) (by omega) (by omega) (by omega) (by omega)]
    congr 2
    omega
  have hget : ∀ m < 16, vals[m]? =
      some (dog3 o (l + m / 8 % 2) (m / 4 % 2 + k) (j + m / 2 % 2) (i + m % 2)) := by
    intro m hm
    rw [hvals, List.getElem?_map, offsets16_get m hm]; rfl
  have hlen : vals.length = 16 := by rw [hvals, List.length_map]; rfl
  obtain ⟨mm, v, hmin, hml, hle, hfirst⟩ : ∃ m v, minElement vals = .ok (m, v) ∧
      vals[m]? = some v ∧ (∀ (i : Nat) x, vals[i]? = some x → v ≤ x) ∧
      (∀ (i : Nat) x, i < m → vals[i]? = some x → v < x) := by
    cases hv : vals with
    | nil => rw [hv] at hlen; simp at hlen
    | cons a l => exact minElement_spec a l
  have hmm : mm < 16 := by
    rw [← hlen]; exact (List.getElem?_eq_some_iff.1 hml).1
  have hbm : c.blockmin l j i =
      .ok ((l + mm / 8 % 2, mm / 4 % 2, j + mm / 2 % 2, i + mm % 2), v) := by
    unfold Circ.blockmin
    rw [hngb]
    simp only [ok_bind, hmin]
    rfl
  set ml := l + mm / 8 % 2 with hmlE
  set mk := mm / 4 % 2 with hmkE
  set mj := j + mm / 2 % 2 with hmjE
  set mi := i + mm % 2 with hmiE
  have bl : l ≤ ml ∧ ml ≤ l + 1 := by omega
  have bk : mk ≤ 1 := by omega
  have bj : j ≤ mj ∧ mj ≤ j + 1 := by omega
  have bi : i ≤ mi ∧ mi ≤ i + 1 := by omega
  have hv : v = dog3 o ml (mk + k) mj mi := by
    rw [hget mm hmm] at hml; simpa using hml.symm
  have hblock : ∀ l' k' j' i', InBlock3 k (l, j, i) l' k' j' i' → v ≤ dog3 o l' k' j' i' := by
    intro l' k' j' i' hb
    simp only [InBlock3] at hb
    have := hle (8 * (l' - l) + 4 * (k' - k) + 2 * (j' - j) + (i' - i)) _ (hget _ (by omega))
    convert this using 2 <;> omega
  clear_value ml mk mj mi
  have hstrict : ∀ l' k' j' i', InBlock3 k (l, j, i) l' k' j' i' → StrictMin3 o l' k' j' i' →
      l' = ml ∧ k' = mk + k ∧ j' = mj ∧ i' = mi := by
    intro l' k' j' i' hb hst
    by_contra hne
    have h1 := hblock _ _ _ _ hb
    simp only [InBlock3] at hb
    have := hst ml (mk + k) mj mi (by simp only [Near]; omega) (by
      intro he
      simp only [Prod.mk.injEq] at he
      exact hne ⟨he.1.symm, he.2.1.symm, he.2.2.1.symm, he.2.2.2.symm⟩)
    rw [← hv] at this
    exact absurd h1 (not_le.2 this)
  have hin : InBlock3 k (l, j, i) ml (mk + k) mj mi := by simp only [InBlock3]; omega
  simp only [block3, hbm, ok_bind]
  by_cases h0 : 0 < v ∨ nz v = false ∨ o.nbLayers < ml
  · refine ⟨none, fun d => by rw [if_pos h0]; simp, by simp, ?_⟩
    intro l' k' j' i' hb hl2 _ hst hbl
    obtain ⟨rfl, rfl, rfl, rfl⟩ := hstrict _ _ _ _ hb hst
    rw [hv] at h0
    rcases h0 with h0 | h0 | h0
    · exact absurd hbl.1 (not_le.2 h0)
    · rw [hbl.2.1] at h0; simp at h0
    · omega
  simp only [if_neg h0]
  have h0' : v ≤ 0 ∧ nz v = true ∧ ml ≤ o.nbLayers := by
    push Not at h0
    exact ⟨h0.1, by simpa using h0.2.1, h0.2.2⟩
  have hsz : ml < o.sizes.length := by omega
  rw [getR_of_lt hsz]
  simp only [ok_bind]
  have hsome : o.sizes[ml]? = some o.sizes[ml] := List.getElem?_eq_getElem hsz
  by_cases h2 : ¬ (o.sizes[ml] ≤ mk + k ∧ mk + k + o.sizes[ml] < o.depth ∧ o.sizes[ml] ≤ mj ∧
      mj + o.sizes[ml] < o.rows ∧ o.sizes[ml] ≤ mi ∧ mi + o.sizes[ml] < o.cols)
  · refine ⟨none, fun d => by rw [if_pos h2]; simp, by simp, ?_⟩
    rintro l' k' j' i' hb hl2 ⟨s, hs1, hs2⟩ hst hbl
    obtain ⟨rfl, rfl, rfl, rfl⟩ := hstrict _ _ _ _ hb hst
    rw [hsome] at hs1
    simp only [Option.some.injEq] at hs1
    subst hs1
    simp only [Inside3] at hs2
    exact absurd ⟨hs2.1.1, hs2.1.2, hs2.2.1.1, hs2.2.1.2, hs2.2.2.1, hs2.2.2.2⟩ h2
  simp only [if_neg h2]
  have h2' := not_not.1 h2
  have hins : Inside3 o o.sizes[ml] (mk + k) mj mi :=
    ⟨⟨h2'.1, h2'.2.1⟩, ⟨h2'.2.2.1, h2'.2.2.2.1⟩, ⟨h2'.2.2.2.2.1, h2'.2.2.2.2.2⟩⟩
  obtain ⟨v1, hv1, hv1'⟩ := flag_fold (around4 ml (mk : Nat) mj mi)
    (fun p => (p.1 < l || p.2.1 < 0 || p.2.2.1 < j || p.2.2.2 < i || l + 1 < p.1 || 1 < p.2.1
      || j + 1 < p.2.2.1 || i + 1 < p.2.2.2))
    (fun p => c.getDoG p.1 p.2.1 p.2.2.1 p.2.2.2)
    (fun p => dog3 o p.1 ((k : Int) + p.2.1).toNat p.2.2.1 p.2.2.2) v _
    (fun ok p => rfl)
    (by
      intro p hp _
      rw [mem_around4 (by omega) (by omega) (by omega)] at hp
      exact h.getDoG (by omega) (by omega) (by omega) (by omega) (by omega))
    true
  have hlm : c.isLocalmin l j i (ml, mk, mj, mi) v = .ok v1 := hv1
  rw [hlm]
  simp only [ok_bind]
  have hloc : v1 = true ↔ LocalMin3 o ml (mk + k) mj mi := by
    rw [hv1']
    simp only [Bool.or_eq_true, decide_eq_true_eq, true_and]
    constructor
    · intro hh l' k' j' i' hn
      rw [← hv]
      by_cases hb : InBlock3 k (l, j, i) l' k' j' i'
      · exact hblock _ _ _ _ hb
      · simp only [Near] at hn
        have := hh (l', (k' : Int) - k, j', i') (by
          rw [mem_around4 (by omega) (by omega) (by omega)]
          simp only
          omega) (by
          simp only [InBlock3] at hb
          simp only
          omega)
        simp only at this
        have e : ((k : Int) + ((k' : Int) - k)).toNat = k' := by omega
        rwa [e] at this
    · intro hh p hp _
      rw [mem_around4 (by omega) (by omega) (by omega)] at hp
      rw [hv]
      exact hh _ _ _ _ (by simp only [Near]; omega)
  have hof : ∀ l' k' j' i', StrictMin3 o l' k' j' i' → LocalMin3 o l' k' j' i' := by
    intro l' k' j' i' hh l2 k2 j2 i2 hn
    by_cases he : (l2, k2, j2, i2) = (l', k', j', i')
    · simp only [Prod.mk.injEq] at he
      rw [he.1, he.2.1, he.2.2.1, he.2.2.2]
    · exact le_of_lt (hh _ _ _ _ hn he)
  cases v1 with
  | false =>
    refine ⟨none, fun d => by simp, by simp, ?_⟩
    intro l' k' j' i' hb _ _ hst _
    obtain ⟨rfl, rfl, rfl, rfl⟩ := hstrict _ _ _ _ hb hst
    have : false = true := hloc.2 (hof _ _ _ _ hst)
    simp at this
  | true =>
    have hlmin := hloc.1 rfl
    simp only [if_true]
    have e : ((k : Int) + (mk : Int)).toNat = mk + k := by omega
    have hedge : c.isEdge nz maxRatio (ml, mk, mj, mi) = .ok
        (edge nz maxRatio
          (dog3 o ml (mk + k) (mj - 1) mi - 2 * dog3 o ml (mk + k) mj mi
            + dog3 o ml (mk + k) (mj + 1) mi)
          (dog3 o ml (mk + k) mj (mi - 1) - 2 * dog3 o ml (mk + k) mj mi
            + dog3 o ml (mk + k) mj (mi + 1))
          (dog3 o ml (mk + k) (mj - 1) (mi - 1) + dog3 o ml (mk + k) (mj + 1) (mi + 1)
            - dog3 o ml (mk + k) (mj + 1) (mi - 1) - dog3 o ml (mk + k) (mj - 1) (mi + 1))) := by
      have g : ∀ j' i', j' < o.rows → i' < o.cols →
          c.getDoG ml ((mk : Nat) : Int) j' i' = .ok (dog3 o ml (mk + k) j' i') := by
        intro j' i' a1 a2
        rw [h.getDoG (by omega) (by omega) (by omega) a1 a2, e]
      unfold Circ.isEdge
      simp only
      rw [g mj mi (by omega) (by omega), g (mj - 1) mi (by omega) (by omega),
        g (mj + 1) mi (by omega) (by omega), g mj (mi - 1) (by omega) (by omega),
        g mj (mi + 1) (by omega) (by omega), g (mj - 1) (mi - 1) (by omega) (by omega),
        g (mj + 1) (mi + 1) (by omega) (by omega), g (mj + 1) (mi - 1) (by omega) (by omega),
        g (mj - 1) (mi + 1) (by omega) (by omega)]
      rfl
    rw [hedge]
    simp only [ok_bind]
    by_cases hE : edge nz maxRatio
          (dog3 o ml (mk + k) (mj - 1) mi - 2 * dog3 o ml (mk + k) mj mi
            + dog3 o ml (mk + k) (mj + 1) mi)
          (dog3 o ml (mk + k) mj (mi - 1) - 2 * dog3 o ml (mk + k) mj mi
            + dog3 o ml (mk + k) mj (mi + 1))
          (dog3 o ml (mk + k) (mj - 1) (mi - 1) + dog3 o ml (mk + k) (mj + 1) (mi + 1)
            - dog3 o ml (mk + k) (mj + 1) (mi - 1) - dog3 o ml (mk + k) (mj - 1) (mi + 1)) = true
    · refine ⟨none, fun d => by rw [if_pos hE]; simp, by simp, ?_⟩
      intro l' k' j' i' hb _ _ hst hbl
      obtain ⟨rfl, rfl, rfl, rfl⟩ := hstrict _ _ _ _ hb hst
      rw [hbl.2.2] at hE
      simp at hE
    · simp only [if_neg hE]
      rw [shifts_spec h hk (by omega) (by omega) bk (by omega) (by omega) (by omega) (by omega)]
      refine ⟨some (centerOf o ml (mk + k) mj mi), fun d => ?_, ?_, ?_⟩
      · rw [hv]; rfl
      · rintro x hx
        simp only [Option.some.injEq] at hx
        subst hx
        exact ⟨_, _, _, _, rfl, hin, h0'.2.2, ⟨_, hsome, hins⟩, hlmin, by rw [← hv]; exact h0'.1,
          by rw [← hv]; exact h0'.2.1, by simpa using hE⟩
      · intro l' k' j' i' hb _ _ hst hbl
        obtain ⟨rfl, rfl, rfl, rfl⟩ := hstrict _ _ _ _ hb hst
        rfl

/-- A loop whose steps append at most one element. -/
theorem append_fold {α β : Type} (L : List β) (body : List α → β → R (List α))
    (verdict : β → Option α) (h : ∀ b ∈ L, ∀ d, body d b = .ok (d ++ (verdict b).toList))
    (d : List α) : L.foldlM body d = .ok (d ++ L.filterMap verdict) := by
  induction L generalizing d with
  | nil => simp
  | cons b L ih =>
    rw [List.foldlM_cons, h b (by simp), ok_bind, ih (fun b hb => h b (by simp [hb]))]
    cases hv : verdict b <;> simp [hv]

end Octave
end Colloids
