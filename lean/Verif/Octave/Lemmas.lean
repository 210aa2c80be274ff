import Verif.CommonLemmas
import Verif.Octave.Spec
import Mathlib.Data.List.Induction

/-! # Lemmas on the dynamic block algorithm -/

namespace Colloids
namespace Octave

variable {G : Type} [Field G] [LinearOrder G]

omit [Field G] in
theorem minFrom_spec (l pre : List G) (best : Nat × G) (hb : pre[best.1]? = some best.2)
    (hmin : ∀ (i : Nat) x, pre[i]? = some x → best.2 ≤ x)
    (hfirst : ∀ (i : Nat) x, i < best.1 → pre[i]? = some x → best.2 < x) :
    (pre ++ l)[(minFrom best pre.length l).1]? = some (minFrom best pre.length l).2 ∧
      (∀ (i : Nat) x, (pre ++ l)[i]? = some x → (minFrom best pre.length l).2 ≤ x) ∧
      (∀ (i : Nat) x, i < (minFrom best pre.length l).1 → (pre ++ l)[i]? = some x →
        (minFrom best pre.length l).2 < x) := by
  induction l generalizing pre best with
  | nil => simpa [minFrom] using ⟨hb, hmin, hfirst⟩
  | cons a l ih =>
    have e : pre ++ a :: l = (pre ++ [a]) ++ l := by simp
    rw [e, minFrom]
    have hlen : pre.length + 1 = (pre ++ [a]).length := by simp
    rw [hlen]
    have key : ∀ (i : Nat) (x : G), (pre ++ [a])[i]? = some x →
        pre[i]? = some x ∨ (i = pre.length ∧ x = a) := by
      intro i x h
      rw [List.getElem?_append] at h
      split at h
      · exact .inl h
      · rename_i hi
        obtain ⟨hlt, hx⟩ := List.getElem?_eq_some_iff.1 h
        simp at hlt
        right
        exact ⟨by omega, by simpa using hx.symm⟩
    have hbl : best.1 < pre.length := (List.getElem?_eq_some_iff.1 hb).1
    apply ih
    · split
      · simp
      · rw [List.getElem?_append_left hbl]; exact hb
    · intro i x h
      split
      · rename_i hlt
        rcases key i x h with h | ⟨_, rfl⟩
        · exact le_of_lt (lt_of_lt_of_le hlt (hmin i x h))
        · exact le_refl _
      · rename_i hlt
        rcases key i x h with h | ⟨_, rfl⟩
        · exact hmin i x h
        · exact not_lt.1 hlt
    · intro i x hi h
      split
      · rename_i hlt
        rw [if_pos hlt] at hi
        rcases key i x h with h | ⟨h1, _⟩
        · exact lt_of_lt_of_le hlt (hmin i x h)
        · simp at hi; omega
      · rename_i hlt
        rw [if_neg hlt] at hi
        rcases key i x h with h | ⟨h1, _⟩
        · exact hfirst i x hi h
        · omega

omit [Field G] in
theorem minElement_spec (a : G) (l : List G) : ∃ m v, minElement (a :: l) = .ok (m, v) ∧
    (a :: l)[m]? = some v ∧ (∀ (i : Nat) x, (a :: l)[i]? = some x → v ≤ x) ∧
    (∀ (i : Nat) x, i < m → (a :: l)[i]? = some x → v < x) := by
  refine ⟨(minFrom (0, a) 1 l).1, (minFrom (0, a) 1 l).2, rfl, ?_⟩
  have := minFrom_spec l [a] (0, a) rfl
    (by intro i x h; cases i <;> simp_all) (by intro i x hi; simp at hi)
  simpa using this

theorem mem_steps {lo hi x : Nat} : x ∈ steps lo hi ↔ lo ≤ x ∧ x < hi ∧ (x - lo) % 2 = 0 := by
  simp only [steps, List.mem_map, List.mem_range]
  constructor
  · rintro ⟨m, hm, rfl⟩; omega
  · rintro ⟨h1, h2, h3⟩; exact ⟨(x - lo) / 2, by omega, by omega⟩

theorem steps_nodup (lo hi : Nat) : (steps lo hi).Nodup := by
  refine List.Nodup.map ?_ List.nodup_range
  intro a b h; simp only at h; omega

omit [Field G] [LinearOrder G] in
theorem layer_ok {o : Finder G} {k j i : Nat} (hk : k < o.nbLayers + 2) (hj : j < o.width)
    (hi : i < o.height) : o.layer k j i = .ok (o.layers k j i) := by
  simp [Finder.layer, hk, hj, hi]

omit [Field G] [LinearOrder G] in
theorem gauss_ok {o : Finder G} {k j i : Nat} (hk : k < o.nbLayers + 3) (hj : j < o.width)
    (hi : i < o.height) : o.gauss k j i = .ok (o.layersG k j i) := by
  simp [Finder.gauss, hk, hj, hi]

/-- What a block does to the result of the detection. -/
def Det.apply {π : Type} [DecidableEq π] (d : Det π) : Option (π × Bool) → Det π
  | none => d
  | some (p, v) => d.mark p v

/-- The loop over blocks that each mark at most one pixel, their own. -/
theorem detect_fold {π β : Type} [DecidableEq π] (body : Det π → β → R (Det π))
    (verdict : β → Option (π × Bool)) (L : List β)
    (hbody : ∀ b ∈ L, ∀ d, body d b = .ok (d.apply (verdict b)))
    (hnd : L.Nodup)
    (hinj : ∀ b ∈ L, ∀ b' ∈ L, ∀ p v v', verdict b = some (p, v) → verdict b' = some (p, v') →
      b = b') :
    ∃ d, L.foldlM body { binary := fun _ => false, centers := [] } = .ok d ∧
      d.centers.Nodup ∧ (∀ p, d.binary p = true ↔ p ∈ d.centers) ∧
      (∀ p, p ∈ d.centers ↔ ∃ b ∈ L, verdict b = some (p, true)) := by
  induction L using List.reverseRecOn with
  | nil => exact ⟨_, rfl, by simp, by simp, by simp⟩
  | append_singleton L b ih =>
    have hdis : b ∉ L := by
      have := List.nodup_append.1 hnd
      exact fun h => this.2.2 b h b (by simp) rfl
    obtain ⟨d, hd, h1, h2, h3⟩ := ih (fun b hb => hbody b (by simp [hb]))
      (List.nodup_append.1 hnd).1
      (fun b hb b' hb' => hinj b (by simp [hb]) b' (by simp [hb']))
    refine ⟨d.apply (verdict b), ?_, ?_⟩
    · rw [foldlM_append_ok]
      exact ⟨d, hd, by simp [hbody b (by simp) d]⟩
    · cases hv : verdict b with
      | none =>
        refine ⟨h1, h2, fun p => ?_⟩
        rw [Det.apply, h3]
        simp only [List.mem_append, List.mem_singleton]
        constructor
        · rintro ⟨b', hb', h⟩; exact ⟨b', .inl hb', h⟩
        · rintro ⟨b', hb' | rfl, h⟩
          · exact ⟨b', hb', h⟩
          · rw [hv] at h; simp at h
      | some pv =>
        obtain ⟨p, v⟩ := pv
        have hp : p ∉ d.centers := by
          rw [h3]; rintro ⟨b', hb', h⟩
          exact hdis (hinj b' (by simp [hb']) b (by simp) p _ _ h hv ▸ hb')
        simp only [Det.apply, Det.mark]
        cases v with
        | false =>
          refine ⟨h1, fun q => ?_, fun q => ?_⟩
          · by_cases hq : q = p
            · subst hq; simp [hp]
            · simp [hq, h2]
          · simp only [Bool.false_eq_true, if_false]
            rw [h3]
            simp only [List.mem_append, List.mem_singleton]
            constructor
            · rintro ⟨b', hb', h⟩; exact ⟨b', .inl hb', h⟩
            · rintro ⟨b', hb' | rfl, h⟩
              · exact ⟨b', hb', h⟩
              · rw [hv] at h; simp at h
        | true =>
          refine ⟨?_, fun q => ?_, fun q => ?_⟩
          · simp only [if_true]
            exact List.nodup_append.2 ⟨h1, by simp, by
              intro a ha c hc; simp at hc; subst hc; exact fun h => hp (h ▸ ha)⟩
          · by_cases hq : q = p
            · subst hq; simp
            · simp [hq, h2]
          · simp only [if_true, List.mem_append, List.mem_singleton]
            rw [h3]
            constructor
            · rintro (⟨b', hb', h⟩ | rfl)
              · exact ⟨b', .inl hb', h⟩
              · exact ⟨b, .inr rfl, hv⟩
            · rintro ⟨b', hb' | rfl, h⟩
              · exact .inl ⟨b', hb', h⟩
              · rw [hv] at h; simp at h; exact .inr h.symm

/-- Loops inside loops as one loop. -/
theorem foldlM_flatMap {α β σ : Type} (L : List α) (g : α → List β) (f : σ → β → R σ) (s : σ) :
    (L.flatMap g).foldlM f s = L.foldlM (fun s a => (g a).foldlM f s) s := by
  induction L generalizing s with
  | nil => rfl
  | cons a L ih =>
    rw [List.flatMap_cons, List.foldlM_append, List.foldlM_cons]
    cases h : (g a).foldlM f s with
    | error e => rfl
    | ok s' => exact ih s'

theorem foldlM_congr_mem {α σ : Type} (L : List α) (f g : σ → α → R σ) (s : σ)
    (h : ∀ a ∈ L, ∀ s, f s a = g s a) : L.foldlM f s = L.foldlM g s := by
  induction L generalizing s with
  | nil => rfl
  | cons a L ih =>
    rw [List.foldlM_cons, List.foldlM_cons, h a (by simp)]
    cases g s a with
    | error e => rfl
    | ok s' => exact ih s' (fun a ha => h a (by simp [ha]))

omit [Field G] in
/-- The loop that turns the flag off at the first pixel that is lower: when all accesses are
fine, the flag is on in the end iff it was on and no visited pixel is lower. -/
theorem flag_fold {α : Type} (L : List α) (sel : α → Bool) (rd : α → R G) (val : α → G) (c : G)
    (f : Bool → α → R Bool)
    (hf : ∀ ok p, f ok p = if ok && sel p then (do let x ← rd p; pure (decide (c ≤ x)))
      else pure ok)
    (h : ∀ a ∈ L, sel a = true → rd a = .ok (val a)) (b0 : Bool) :
    ∃ b, L.foldlM f b0 = .ok b ∧
      (b = true ↔ b0 = true ∧ ∀ a ∈ L, sel a = true → c ≤ val a) := by
  induction L generalizing b0 with
  | nil => exact ⟨b0, rfl, by simp⟩
  | cons a L ih =>
    rw [List.foldlM_cons, hf]
    by_cases hs : (b0 && sel a) = true
    · rw [if_pos hs]
      simp only [Bool.and_eq_true] at hs
      rw [h a (by simp) hs.2]
      obtain ⟨b, hb, hb'⟩ := ih (fun a ha => h a (by simp [ha])) (decide (c ≤ val a))
      refine ⟨b, hb, ?_⟩
      rw [hb']; simp [hs]
    · rw [if_neg hs]
      obtain ⟨b, hb, hb'⟩ := ih (fun a ha => h a (by simp [ha])) b0
      refine ⟨b, hb, ?_⟩
      rw [hb']
      simp only [Bool.and_eq_true, not_and, Bool.not_eq_true] at hs
      constructor
      · rintro ⟨h1, h2⟩; exact ⟨h1, by simpa [hs h1] using h2⟩
      · rintro ⟨h1, h2⟩; exact ⟨h1, fun x hx => h2 x (by simp [hx])⟩

/-! ## Two dimensions -/

/-- The pixel `(k, j, i)` (layer, row, column) is in the block at `b`. -/
def InBlock (b : Nat × Nat × Nat) (k j i : Nat) : Prop :=
  b.1 ≤ k ∧ k ≤ b.1 + 1 ∧ b.2.1 ≤ j ∧ j ≤ b.2.1 + 1 ∧ b.2.2 ≤ i ∧ i ≤ b.2.2 + 1

theorem offsets8_get : ∀ m < 8, offsets8[m]? = some (m / 4 % 2, m / 2 % 2, m % 2) := by decide

theorem mem_around3 {mk mj mi : Nat} {p : Nat × Nat × Nat} (hk : 1 ≤ mk) (hj : 1 ≤ mj)
    (hi : 1 ≤ mi) : p ∈ around3 mk mj mi ↔
      mk ≤ p.1 + 1 ∧ p.1 ≤ mk + 1 ∧ mj ≤ p.2.1 + 1 ∧ p.2.1 ≤ mj + 1 ∧ mi ≤ p.2.2 + 1 ∧
        p.2.2 ≤ mi + 1 := by
  obtain ⟨a, b, c⟩ := p
  simp only [around3, List.mem_flatMap, List.mem_map, List.mem_cons, List.not_mem_nil, or_false,
    Prod.mk.injEq]
  constructor
  · rintro ⟨k2, hk2, j2, hj2, i2, hi2, rfl, rfl, rfl⟩; omega
  · intro h
    exact ⟨a, by omega, b, by omega, c, by omega, rfl, rfl, rfl⟩

theorem block2_spec (nz : G → Bool) (maxRatio : G) (o : Finder G) (b : Nat × Nat × Nat)
    (hs : o.sizes.length = o.nbLayers + 3)
    (hk : 1 ≤ b.1) (hk' : b.1 ≤ o.nbLayers) (hj : 3 ≤ b.2.1) (hj' : b.2.1 + 3 < o.width)
    (hi : 3 ≤ b.2.2) (hi' : b.2.2 + 3 < o.height) :
    ∃ verdict : Option ((Nat × Nat × Nat) × Bool),
      (∀ d, block2 nz maxRatio o d b = .ok (d.apply verdict)) ∧
      (∀ i j k v, verdict = some ((i, j, k), v) → InBlock b k j i) ∧
      (∀ i j k, verdict = some ((i, j, k), true) →
        1 ≤ k ∧ k ≤ o.nbLayers ∧ (3 ≤ j ∧ j + 3 ≤ o.width ∧ 3 ≤ i ∧ i + 3 ≤ o.height) ∧
        (∃ s, o.sizes[k]? = some s ∧ Inside2 o s j i) ∧
        LocalMin2 o k j i ∧ Blob2 nz maxRatio o k j i) ∧
      (∀ i j k, InBlock b k j i → k ≤ o.nbLayers →
        (∃ s, o.sizes[k]? = some s ∧ Inside2 o s j i) →
        StrictMin2 o k j i → Blob2 nz maxRatio o k j i → verdict = some ((i, j, k), true)) := by
  obtain ⟨k, j, i⟩ := b
  simp only at hk hk' hj hj' hi hi'
  set vals := offsets8.map (fun e => o.layers (k + e.1) (j + e.2.1) (i + e.2.2)) with hvals
  have hngb : offsets8.mapM (fun e => o.layer (k + e.1) (j + e.2.1) (i + e.2.2)) = .ok vals := by
    have : ∀ e ∈ offsets8, o.layer (k + e.1) (j + e.2.1) (i + e.2.2) =
        .ok (o.layers (k + e.1) (j + e.2.1) (i + e.2.2)) := by
      intro e he
      have : e.1 ≤ 1 ∧ e.2.1 ≤ 1 ∧ e.2.2 ≤ 1 := by
        revert e; decide
      exact layer_ok (by omega) (by omega) (by omega)
    simp only [hvals, offsets8, List.mapM_cons, List.mapM_nil, List.map_cons, List.map_nil]
    simp only [offsets8, List.mem_cons, forall_eq_or_imp, List.not_mem_nil] at this
    simp only [this, ok_bind, pure_eq_ok]
  have hget : ∀ m < 8, vals[m]? = some (o.layers (k + m / 4 % 2) (j + m / 2 % 2) (i + m % 2)) := by
    intro m hm
    rw [hvals, List.getElem?_map, offsets8_get m hm]; rfl
  have hlen : vals.length = 8 := by simp [hvals, offsets8]
  obtain ⟨ml, v, hmin, hml, hle, hfirst⟩ : ∃ m v, minElement vals = .ok (m, v) ∧
      vals[m]? = some v ∧ (∀ (i : Nat) x, vals[i]? = some x → v ≤ x) ∧
      (∀ (i : Nat) x, i < m → vals[i]? = some x → v < x) := by
    cases hv : vals with
    | nil => rw [hv] at hlen; simp at hlen
    | cons a l => exact minElement_spec a l
  have hml8 : ml < 8 := by
    rw [← hlen]; exact (List.getElem?_eq_some_iff.1 hml).1
  set mk := k + ml / 4 % 2 with hmk
  set mj := j + ml / 2 % 2 with hmj
  set mi := i + ml % 2 with hmi
  have hv : v = o.layers mk mj mi := by
    rw [hget ml hml8] at hml; simpa using hml.symm
  -- values in the block
  have hblock : ∀ k' j' i', InBlock (k, j, i) k' j' i' → v ≤ o.layers k' j' i' := by
    intro k' j' i' hb
    simp only [InBlock] at hb
    have := hle (4 * (k' - k) + 2 * (j' - j) + (i' - i)) _ (hget _ (by omega))
    convert this using 2 <;> omega
  -- a strict minimum in the block is the one that is found
  have hstrict : ∀ k' j' i', InBlock (k, j, i) k' j' i' → StrictMin2 o k' j' i' →
      (k', j', i') = (mk, mj, mi) := by
    intro k' j' i' hb hst
    by_contra hne
    have h1 := hblock _ _ _ hb
    simp only [InBlock] at hb
    have := hst mk mj mi (by omega) (by omega) (by omega) (by omega) (by omega) (by omega)
      (fun h => hne h.symm)
    rw [← hv] at this
    exact absurd h1 (not_le.2 this)
  have hin : InBlock (k, j, i) mk mj mi := by simp only [InBlock]; omega
  simp only [block2, hngb, ok_bind, hmin]
  by_cases h0 : 0 ≤ v
  · refine ⟨none, fun d => by rw [if_pos h0]; rfl, by simp, by simp, ?_⟩
    intro i' j' k' hb _ _ hst hbl
    have := hstrict _ _ _ hb hst
    simp only [Prod.mk.injEq] at this
    obtain ⟨rfl, rfl, rfl⟩ := this
    rw [hv] at h0
    exact absurd hbl.1 (not_lt.2 h0)
  simp only [if_neg h0]
  rw [← hmk, ← hmj, ← hmi]
  by_cases h1 : o.nbLayers < mk
  · refine ⟨none, fun d => by rw [if_pos h1]; rfl, by simp, by simp, ?_⟩
    intro i' j' k' hb hk2 _ hst hbl
    have := hstrict _ _ _ hb hst
    simp only [Prod.mk.injEq] at this
    omega
  simp only [if_neg h1]
  have hsz : mk < o.sizes.length := by omega
  rw [getR_of_lt hsz]
  simp only [ok_bind]
  by_cases h2 : ¬ (o.sizes[mk] ≤ mj ∧ mj + o.sizes[mk] < o.width ∧ o.sizes[mk] ≤ mi ∧
      mi + o.sizes[mk] < o.height)
  · refine ⟨none, fun d => by rw [if_pos h2]; rfl, by simp, by simp, ?_⟩
    rintro i' j' k' hb _ ⟨s, hs1, hs2⟩ hst hbl
    have := hstrict _ _ _ hb hst
    simp only [Prod.mk.injEq] at this
    obtain ⟨rfl, rfl, rfl⟩ := this
    rw [List.getElem?_eq_getElem hsz] at hs1
    simp only [Option.some.injEq] at hs1
    subst hs1
    exact absurd hs2 h2
  simp only [if_neg h2]
  obtain ⟨v1, hv1, hv1'⟩ := flag_fold (around3 mk mj mi)
    (fun p => (p.1 < k || p.2.1 < j || p.2.2 < i || k + 1 < p.1 || j + 1 < p.2.1 || i + 1 < p.2.2))
    (fun p => o.layer p.1 p.2.1 p.2.2) (fun p => o.layers p.1 p.2.1 p.2.2) v _
    (fun ok p => rfl)
    (by
      intro p hp _
      rw [mem_around3 (by omega) (by omega) (by omega)] at hp
      exact layer_ok (by omega) (by omega) (by omega))
    (decide (v < 0) && nz v)
  rw [hv1]
  simp only [ok_bind]
  have h2' := not_not.1 h2
  have hsome : o.sizes[mk]? = some o.sizes[mk] := List.getElem?_eq_getElem hsz
  -- the flag is on exactly at local minima
  have hloc : v1 = true ↔ (v < 0 ∧ nz v = true) ∧ LocalMin2 o mk mj mi := by
    rw [hv1']
    simp only [Bool.and_eq_true, decide_eq_true_eq, Bool.or_eq_true]
    refine and_congr_right fun _ => ?_
    constructor
    · intro h k' j' i' a1 a2 a3 a4 a5 a6
      rw [← hv]
      by_cases hb : InBlock (k, j, i) k' j' i'
      · exact hblock _ _ _ hb
      · refine h (k', j', i') ?_ ?_
        · rw [mem_around3 (by omega) (by omega) (by omega)]
          exact ⟨a1, a2, a3, a4, a5, a6⟩
        · simp only [InBlock] at hb
          simp only
          omega
    · intro h p hp _
      rw [mem_around3 (by omega) (by omega) (by omega)] at hp
      rw [hv]
      exact h _ _ _ hp.1 hp.2.1 hp.2.2.1 hp.2.2.2.1 hp.2.2.2.2.1 hp.2.2.2.2.2
  have hof : ∀ k' j' i', StrictMin2 o k' j' i' → LocalMin2 o k' j' i' := by
    intro k' j' i' h k2 j2 i2 a1 a2 a3 a4 a5 a6
    by_cases he : (k2, j2, i2) = (k', j', i')
    · simp only [Prod.mk.injEq] at he
      rw [he.1, he.2.1, he.2.2]
    · exact le_of_lt (h _ _ _ a1 a2 a3 a4 a5 a6 he)
  cases v1 with
  | false =>
    refine ⟨some ((mi, mj, mk), false), fun d => rfl, ?_, by simp, ?_⟩
    · rintro i' j' k' v' he
      simp only [Option.some.injEq, Prod.mk.injEq] at he
      obtain ⟨⟨rfl, rfl, rfl⟩, _⟩ := he
      exact hin
    · rintro i' j' k' hb _ _ hst hbl
      have := hstrict _ _ _ hb hst
      simp only [Prod.mk.injEq] at this
      obtain ⟨rfl, rfl, rfl⟩ := this
      have : false = true := hloc.2 ⟨by rw [hv]; exact ⟨hbl.1, hbl.2.1⟩, hof _ _ _ hst⟩
      simp at this
  | true =>
    have hl := hloc.1 rfl
    simp only [if_true]
    rw [layer_ok (o := o) (k := mk) (j := mj) (i := mi) (by omega) (by omega) (by omega),
      layer_ok (o := o) (k := mk) (j := mj - 1) (i := mi) (by omega) (by omega) (by omega),
      layer_ok (o := o) (k := mk) (j := mj + 1) (i := mi) (by omega) (by omega) (by omega),
      layer_ok (o := o) (k := mk) (j := mj) (i := mi - 1) (by omega) (by omega) (by omega),
      layer_ok (o := o) (k := mk) (j := mj) (i := mi + 1) (by omega) (by omega) (by omega),
      layer_ok (o := o) (k := mk) (j := mj - 1) (i := mi - 1) (by omega) (by omega) (by omega),
      layer_ok (o := o) (k := mk) (j := mj + 1) (i := mi + 1) (by omega) (by omega) (by omega),
      layer_ok (o := o) (k := mk) (j := mj + 1) (i := mi - 1) (by omega) (by omega) (by omega),
      layer_ok (o := o) (k := mk) (j := mj - 1) (i := mi + 1) (by omega) (by omega) (by omega)]
    simp only [ok_bind]
    refine ⟨some ((mi, mj, mk), _), fun d => rfl, ?_, ?_, ?_⟩
    · rintro i' j' k' v' he
      simp only [Option.some.injEq, Prod.mk.injEq] at he
      obtain ⟨⟨rfl, rfl, rfl⟩, _⟩ := he
      exact hin
    · rintro i' j' k' he
      simp only [Option.some.injEq, Prod.mk.injEq, Bool.not_eq_true'] at he
      obtain ⟨⟨rfl, rfl, rfl⟩, he⟩ := he
      refine ⟨by omega, by omega, by omega, ⟨_, hsome, h2'⟩, hl.2, ?_, ?_, he⟩
      · rw [← hv]; exact hl.1.1
      · rw [← hv]; exact hl.1.2
    · rintro i' j' k' hb _ _ hst hbl
      have := hstrict _ _ _ hb hst
      simp only [Prod.mk.injEq] at this
      obtain ⟨rfl, rfl, rfl⟩ := this
      rw [hbl.2.2]; rfl

/-! ## One dimension -/

/-- The pixel `(k, i)` (layer, column) is in the block at `b`. -/
def InBlock1 (b : Nat × Nat × Nat) (k i : Nat) : Prop :=
  b.1 ≤ k ∧ k ≤ b.1 + 1 ∧ b.2.1 ≤ i ∧ i ≤ b.2.1 + 1

theorem offsets4_get : ∀ m < 4, offsets4[m]? = some (m / 2 % 2, m % 2) := by decide

theorem mem_around2 {mk mi : Nat} {p : Nat × Nat} (hk : 1 ≤ mk) (hi : 1 ≤ mi) :
    p ∈ around2 mk mi ↔ mk ≤ p.1 + 1 ∧ p.1 ≤ mk + 1 ∧ mi ≤ p.2 + 1 ∧ p.2 ≤ mi + 1 := by
  obtain ⟨a, c⟩ := p
  simp only [around2, List.mem_flatMap, List.mem_map, List.mem_cons, List.not_mem_nil, or_false,
    Prod.mk.injEq]
  constructor
  · rintro ⟨k2, hk2, i2, hi2, rfl, rfl⟩; omega
  · intro h
    exact ⟨a, by omega, c, by omega, rfl, rfl⟩

theorem block1_spec (nz : G → Bool) (o : Finder G) (b : Nat × Nat × Nat)
    (hs : o.sizes.length = o.nbLayers + 3) (hw : 0 < o.width)
    (hk : 1 ≤ b.1) (hk' : b.1 ≤ o.nbLayers) (hq : b.2.2 = b.2.1)
    (hi : 3 ≤ b.2.1) (hi' : b.2.1 + 3 < o.height) :
    ∃ verdict : Option ((Nat × Nat) × Bool),
      (∀ d, block1 nz o d b = .ok (d.apply verdict)) ∧
      (∀ i k v, verdict = some ((i, k), v) → InBlock1 b k i) ∧
      (∀ i k, verdict = some ((i, k), true) →
        1 ≤ k ∧ k ≤ o.nbLayers ∧ (3 ≤ i ∧ i + 3 ≤ o.height) ∧
        (∃ s, o.sizes[k]? = some s ∧ s ≤ i ∧ i + s < o.height) ∧
        LocalMin1 o k i ∧ Blob1 nz o k i) ∧
      (∀ i k, InBlock1 b k i → k ≤ o.nbLayers →
        (∃ s, o.sizes[k]? = some s ∧ s ≤ i ∧ i + s < o.height) →
        StrictMin1 o k i → Blob1 nz o k i → verdict = some ((i, k), true)) := by
  obtain ⟨k, i, q⟩ := b
  simp only at hk hk' hi hi' hq
  subst q
  set vals := offsets4.map (fun e => o.layers (k + e.1) 0 (i + e.2)) with hvals
  have hngb : offsets4.mapM (fun e => o.layer (k + e.1) 0 (i + e.2)) = .ok vals := by
    have : ∀ e ∈ offsets4, o.layer (k + e.1) 0 (i + e.2) =
        .ok (o.layers (k + e.1) 0 (i + e.2)) := by
      intro e he
      have : e.1 ≤ 1 ∧ e.2 ≤ 1 := by
        revert e; decide
      exact layer_ok (by omega) (by omega) (by omega)
    simp only [hvals, offsets4, List.mapM_cons, List.mapM_nil, List.map_cons, List.map_nil]
    simp only [offsets4, List.mem_cons, forall_eq_or_imp, List.not_mem_nil] at this
    simp only [this, ok_bind, pure_eq_ok]
  have hget : ∀ m < 4, vals[m]? = some (o.layers (k + m / 2 % 2) 0 (i + m % 2)) := by
    intro m hm
    rw [hvals, List.getElem?_map, offsets4_get m hm]; rfl
  have hlen : vals.length = 4 := by simp [hvals, offsets4]
  obtain ⟨ml, v, hmin, hml, hle, hfirst⟩ : ∃ m v, minElement vals = .ok (m, v) ∧
      vals[m]? = some v ∧ (∀ (i : Nat) x, vals[i]? = some x → v ≤ x) ∧
      (∀ (i : Nat) x, i < m → vals[i]? = some x → v < x) := by
    cases hv : vals with
    | nil => rw [hv] at hlen; simp at hlen
    | cons a l => exact minElement_spec a l
  have hml8 : ml < 4 := by
    rw [← hlen]; exact (List.getElem?_eq_some_iff.1 hml).1
  set mk := k + ml / 2 % 2 with hmk
  set mi := i + ml % 2 with hmi
  have hv : v = o.layers mk 0 mi := by
    rw [hget ml hml8] at hml; simpa using hml.symm
  have hblock : ∀ k' i', InBlock1 (k, i, i) k' i' → v ≤ o.layers k' 0 i' := by
    intro k' i' hb
    simp only [InBlock1] at hb
    have := hle (2 * (k' - k) + (i' - i)) _ (hget _ (by omega))
    convert this using 2 <;> omega
  have hstrict : ∀ k' i', InBlock1 (k, i, i) k' i' → StrictMin1 o k' i' →
      (k', i') = (mk, mi) := by
    intro k' i' hb hst
    by_contra hne
    have h1 := hblock _ _ hb
    simp only [InBlock1] at hb
    have := hst mk mi (by omega) (by omega) (by omega) (by omega) (fun h => hne h.symm)
    rw [← hv] at this
    exact absurd h1 (not_le.2 this)
  have hin : InBlock1 (k, i, i) mk mi := by simp only [InBlock1]; omega
  simp only [block1, hngb, ok_bind, hmin]
  by_cases h0 : 0 ≤ v
  · refine ⟨none, fun d => by rw [if_pos h0]; rfl, by simp, by simp, ?_⟩
    intro i' k' hb _ _ hst hbl
    have := hstrict _ _ hb hst
    simp only [Prod.mk.injEq] at this
    obtain ⟨rfl, rfl⟩ := this
    rw [hv] at h0
    exact absurd hbl.1 (not_lt.2 h0)
  simp only [if_neg h0]
  rw [← hmk, ← hmi]
  by_cases h1 : o.nbLayers < mk
  · refine ⟨none, fun d => by rw [if_pos h1]; rfl, by simp, by simp, ?_⟩
    intro i' k' hb hk2 _ hst hbl
    have := hstrict _ _ hb hst
    simp only [Prod.mk.injEq] at this
    omega
  simp only [if_neg h1]
  have hsz : mk < o.sizes.length := by omega
  rw [getR_of_lt hsz]
  simp only [ok_bind]
  by_cases h2 : ¬ (o.sizes[mk] ≤ mi ∧ mi + o.sizes[mk] < o.height)
  · refine ⟨none, fun d => by rw [if_pos h2]; rfl, by simp, by simp, ?_⟩
    rintro i' k' hb _ ⟨s, hs1, hs2⟩ hst hbl
    have := hstrict _ _ hb hst
    simp only [Prod.mk.injEq] at this
    obtain ⟨rfl, rfl⟩ := this
    rw [List.getElem?_eq_getElem hsz] at hs1
    simp only [Option.some.injEq] at hs1
    subst hs1
    exact absurd hs2 h2
  simp only [if_neg h2]
  have hcc : o.layer mk 0 mi = .ok v := by
    rw [hv]; exact layer_ok (by omega) (by omega) (by omega)
  simp only [hcc, ok_bind]
  obtain ⟨v1, hv1, hv1'⟩ := flag_fold (around2 mk mi)
    (fun p => (p.1 < k || p.2 < i || k + 1 < p.1 || i + 1 < p.2))
    (fun p => o.layer p.1 0 p.2) (fun p => o.layers p.1 0 p.2) v _
    (fun ok p => rfl)
    (by
      intro p hp _
      rw [mem_around2 (by omega) (by omega)] at hp
      exact layer_ok (by omega) (by omega) (by omega))
    (decide (v < 0) && nz v)
  rw [hv1]
  simp only [ok_bind]
  have h2' := not_not.1 h2
  have hsome : o.sizes[mk]? = some o.sizes[mk] := List.getElem?_eq_getElem hsz
  have hloc : v1 = true ↔ (v < 0 ∧ nz v = true) ∧ LocalMin1 o mk mi := by
    rw [hv1']
    simp only [Bool.and_eq_true, decide_eq_true_eq, Bool.or_eq_true]
    refine and_congr_right fun _ => ?_
    constructor
    · intro h k' i' a1 a2 a5 a6
      rw [← hv]
      by_cases hb : InBlock1 (k, i, i) k' i'
      · exact hblock _ _ hb
      · refine h (k', i') ?_ ?_
        · rw [mem_around2 (by omega) (by omega)]
          exact ⟨a1, a2, a5, a6⟩
        · simp only [InBlock1] at hb
          simp only
          omega
    · intro h p hp _
      rw [mem_around2 (by omega) (by omega)] at hp
      rw [hv]
      exact h _ _ hp.1 hp.2.1 hp.2.2.1 hp.2.2.2
  have hof : ∀ k' i', StrictMin1 o k' i' → LocalMin1 o k' i' := by
    intro k' i' h k2 i2 a1 a2 a5 a6
    by_cases he : (k2, i2) = (k', i')
    · simp only [Prod.mk.injEq] at he
      rw [he.1, he.2]
    · exact le_of_lt (h _ _ a1 a2 a5 a6 he)
  cases v1 with
  | false =>
    refine ⟨some ((mi, mk), false), fun d => rfl, ?_, by simp, ?_⟩
    · rintro i' k' v' he
      simp only [Option.some.injEq, Prod.mk.injEq] at he
      obtain ⟨⟨rfl, rfl⟩, _⟩ := he
      exact hin
    · rintro i' k' hb _ _ hst hbl
      have := hstrict _ _ hb hst
      simp only [Prod.mk.injEq] at this
      obtain ⟨rfl, rfl⟩ := this
      have : false = true := hloc.2 ⟨by rw [hv]; exact ⟨hbl.1, hbl.2.1⟩, hof _ _ hst⟩
      simp at this
  | true =>
    have hl := hloc.1 rfl
    simp only [if_true]
    rw [gauss_ok (o := o) (k := mk) (j := 0) (i := mi) (by omega) (by omega) (by omega),
      gauss_ok (o := o) (k := mk) (j := 0) (i := mi - 1) (by omega) (by omega) (by omega),
      gauss_ok (o := o) (k := mk) (j := 0) (i := mi + 1) (by omega) (by omega) (by omega)]
    simp only [ok_bind]
    refine ⟨some ((mi, mk), _), fun d => rfl, ?_, ?_, ?_⟩
    · rintro i' k' v' he
      simp only [Option.some.injEq, Prod.mk.injEq] at he
      obtain ⟨⟨rfl, rfl⟩, _⟩ := he
      exact hin
    · rintro i' k' he
      simp only [Option.some.injEq, Prod.mk.injEq] at he
      obtain ⟨⟨rfl, rfl⟩, he⟩ := he
      refine ⟨by omega, by omega, by omega, ⟨_, hsome, h2'⟩, hl.2, ?_, ?_, he⟩
      · rw [← hv]; exact hl.1.1
      · rw [← hv]; exact hl.1.2
    · rintro i' k' hb _ _ hst hbl
      have := hstrict _ _ hb hst
      simp only [Prod.mk.injEq] at this
      obtain ⟨rfl, rfl⟩ := this
      rw [hbl.2.2]

end Octave
end Colloids
