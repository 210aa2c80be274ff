import Verif.Rdf.GlModel
import Verif.Rdf.Props

/-! # Properties of the correlation of the bond order -/

namespace Colloids
namespace Rdf
open Particles Boo ComplexConjugate

/-- The particle has a tensor, whose coefficient of degree 0 is not null: it has at least a bond (`C83_isnull`). -/
def Bonded (boo : List BooData) (p : Nat) : Prop := ∃ q z, boo[p]? = some q ∧ q[0]? = some z ∧ z ≠ 0

/-- The pair is in the shell and both particles are bonded. -/
def BothIn (ps : Particles ℝ) (boo : List BooData) (cutoff lo hi : ℝ) (p q : Nat) : Prop :=
  InShell ps cutoff lo hi p q ∧ Bonded boo p ∧ Bonded boo q

open Classical in
/-- The bonded particles in the shell around `p`. -/
noncomputable def shellOf (ps : Particles ℝ) (boo : List BooData) (cutoff lo hi : ℝ) (p : Nat) : List Nat :=
  (List.range ps.pos.length).filter fun q => decide (BothIn ps boo cutoff lo hi p q)

/-- Number of the pairs of the shell. -/
noncomputable def nbPairs (ps : Particles ℝ) (boo : List BooData) (selection : List Nat) (cutoff lo hi : ℝ) : Nat :=
  (selection.map fun p => (shellOf ps boo cutoff lo hi p).length).sum

/-- The product of two tensors of degree `l`, over all orders. -/
noncomputable def hermite (l : Nat) (A B : Int → ℂ) : ℝ := (∑ m ∈ Finset.Icc (-(l : Int)) l, A m * conj (B m)).re

/-- Sum of the products over the pairs of the shell. -/
noncomputable def sumPairs (ps : Particles ℝ) (boo : List BooData) (l : Nat) (A : Nat → Int → ℂ) (selection : List Nat)
    (cutoff lo hi : ℝ) : ℝ :=
  (selection.map fun p => ((shellOf ps boo cutoff lo hi p).map fun q => hermite l (A p) (A q)).sum).sum

/-- One tensor per particle, whose coefficients of degree `l` are `A`, that of order 0 being real (as it is for bonds,
`C83`). -/
structure Tensors (ps : Particles ℝ) (boo : List BooData) (l : Nat) (A : Nat → Int → ℂ) : Prop where
  size : boo.length = ps.pos.length
  even : 2 ∣ l
  degree : l ≤ 10
  all : ∀ (p : Nat) (q : BooData), boo[p]? = some q → q.length = 36 ∧ Reads q l (A p) ∧ (A p 0).im = 0

variable {ps : Particles ℝ} {boo : List BooData} {l : Nat} {A : Nat → Int → ℂ}

theorem isnull_ok {q : BooData} (h : q.length = 36) : ∃ z, q[0]? = some z ∧ isnull q = .ok (decide (z = 0)) := by
  have h0 : 0 < q.length := by omega
  refine ⟨q[0], by simp [h0], ?_⟩
  unfold isnull
  rw [getR_of_lt h0, ok_bind, pure_eq_ok]
  congr 1
  simp

open Classical in
theorem glBin_eq (hT : Tensors ps boo l A) {p q n : Nat} {x y : Coord ℝ} (hp : ps.pos[p]? = some x)
    (hq : ps.pos[q]? = some y) {scale : ℝ} (hb : ⌊dist x y * scale⌋₊ < n) (f : Nat → Nat) (h : Nat → ℝ) :
    glBin ps scale boo l (tab n f, tab n h) p q = .ok
      (tab n (fun i => f i + if (Bonded boo p ∧ Bonded boo q) ∧ ⌊dist x y * scale⌋₊ = i then 1 else 0),
        tab n (fun i => h i + if (Bonded boo p ∧ Bonded boo q) ∧ ⌊dist x y * scale⌋₊ = i then
          hermite l (A p) (A q) else 0)) := by
  have hpl : p < boo.length := by rw [hT.size]; exact (List.getElem?_eq_some_iff.1 hp).1
  have hql : q < boo.length := by rw [hT.size]; exact (List.getElem?_eq_some_iff.1 hq).1
  have hpa : boo[p]? = some boo[p] := by simp [hpl]
  have hqb : boo[q]? = some boo[q] := by simp [hql]
  generalize boo[p] = a at hpa
  generalize boo[q] = b at hqb
  obtain ⟨ha, hra, ha0⟩ := hT.all p a hpa
  obtain ⟨hbl, hrb, hb0⟩ := hT.all q b hqb
  obtain ⟨za, hza, ea⟩ := isnull_ok ha
  obtain ⟨zb, hzb, eb⟩ := isnull_ok hbl
  have hbp : Bonded boo p ↔ za ≠ 0 := by
    unfold Bonded
    constructor
    · rintro ⟨q', z, h1, h2, h3⟩
      rw [hpa] at h1; cases h1
      rw [hza] at h2; cases h2
      exact h3
    · intro hz; exact ⟨a, za, hpa, hza, hz⟩
  have hbq : Bonded boo q ↔ zb ≠ 0 := by
    unfold Bonded
    constructor
    · rintro ⟨q', z, h1, h2, h3⟩
      rw [hqb] at h1; cases h1
      rw [hzb] at h2; cases h2
      exact h3
    · intro hz; exact ⟨b, zb, hqb, hzb, hz⟩
  unfold glBin
  rw [getR_ok.2 hpa, ok_bind, ea, ok_bind]
  by_cases h1 : za = 0
  · have : ¬ (Bonded boo p ∧ Bonded boo q) := fun h => hbp.1 h.1 h1
    rw [if_pos (by simpa using h1), pure_eq_ok]
    simp [this]
  · rw [if_neg (by simpa using h1), getR_ok.2 hqb, ok_bind, eb, ok_bind]
    by_cases h2 : zb = 0
    · have : ¬ (Bonded boo p ∧ Bonded boo q) := fun h => hbq.1 h.2 h2
      rw [if_pos (by simpa using h2), pure_eq_ok]
      simp [this]
    · have hB : Bonded boo p ∧ Bonded boo q := ⟨hbp.2 h1, hbq.2 h2⟩
      rw [if_neg (by simpa using h2)]
      unfold glPair
      have e1 : ps.at_ q = .ok y := by unfold at_; rw [hq]
      have e2 : ps.at_ p = .ok x := by unfold at_; rw [hp]
      have e3 : √(dot3 (y - x) (y - x)) = dist x y := by rw [dot3_eq_sqDist, sqDist_comm]; rfl
      rw [e1, ok_bind, e2, ok_bind]
      dsimp only
      rw [e3, modifyR_tab _ hb, ok_bind,
        C37_hermitian_partial a b ha hbl l hT.even hT.degree (A p) (A q) hra hrb (.inl ha0), ok_bind,
        modifyR_tab _ hb, ok_bind, pure_eq_ok]
      congr 2
      · apply tab_congr
        intro i _
        by_cases e : i = ⌊dist x y * scale⌋₊
        · simp [e, hB]
        · simp [e, Ne.symm e]
      · apply tab_congr
        intro i _
        by_cases e : i = ⌊dist x y * scale⌋₊
        · simp [e, hB, hermite]
        · simp [e, Ne.symm e]

open Classical in
theorem glRow (hT : Tensors ps boo l A) {p n : Nat} {x : Coord ℝ} (hp : ps.pos[p]? = some x) {scale : ℝ}
    (b : Nat → Nat) (around : List Nat)
    (hb : ∀ q ∈ around, ∃ y, ps.pos[q]? = some y ∧ b q = ⌊dist x y * scale⌋₊ ∧ b q < n) (f : Nat → Nat)
    (h : Nat → ℝ) :
    around.foldlM (fun s q => glBin ps scale boo l s p q) (tab n f, tab n h) = .ok
      (tab n (fun i => f i + (around.filter fun q => decide ((Bonded boo p ∧ Bonded boo q) ∧ b q = i)).length),
        tab n (fun i => h i + ((around.filter fun q => decide ((Bonded boo p ∧ Bonded boo q) ∧ b q = i)).map
          fun q => hermite l (A p) (A q)).sum)) := by
  induction around generalizing f h with
  | nil => simp
  | cons q around ih =>
    obtain ⟨y, hy, hbq, hbn⟩ := hb q (by simp)
    rw [List.foldlM_cons, glBin_eq hT hp hy (hbq ▸ hbn), ok_bind, ih (fun q h => hb q (by simp [h]))]
    rw [← hbq]
    congr 2
    · apply tab_congr
      intro i _
      by_cases e : (Bonded boo p ∧ Bonded boo q) ∧ b q = i
      · rw [if_pos e, List.filter_cons_of_pos (by simpa using e)]
        simp; omega
      · rw [if_neg e, List.filter_cons_of_neg (by simpa using e)]
        rfl
    · apply tab_congr
      intro i _
      by_cases e : (Bonded boo p ∧ Bonded boo q) ∧ b q = i
      · rw [if_pos e, List.filter_cons_of_pos (by simpa using e)]
        simp [add_assoc]
      · rw [if_neg e, List.filter_cons_of_neg (by simpa using e)]
        simp

theorem glFill_eq {P : RParams ℝ} {H : Heur 3 ℝ} (hP : P.Valid) (hH : H.Valid P) (hps : Indexed P H ps)
    (hT : Tensors ps boo l A) (cutoff : ℝ) (n : Nat) (hn : 0 < n) (selection : List Nat)
    (hsel : ∀ p ∈ selection, p < ps.pos.length) (f : Nat → Nat) (h : Nat → ℝ) :
    glFill ps cutoff (n / cutoff) boo l selection (tab n f, tab n h) = .ok
      (tab n (fun i => f i + nbPairs ps boo selection cutoff (i * cutoff / n) ((i + 1) * cutoff / n)),
        tab n (fun i => h i + sumPairs ps boo l A selection cutoff (i * cutoff / n) ((i + 1) * cutoff / n))) := by
  classical
  induction selection generalizing f h with
  | nil => simp [glFill, nbPairs, sumPairs]
  | cons p selection ih =>
    obtain ⟨N, hN, hsort, hmem⟩ := C19_particle hP hH hps p (ps.pos[p]'(hsel p (by simp)))
      (by simp [hsel p (by simp)]) cutoff
    have hp : ps.pos[p]? = some (ps.pos[p]'(hsel p (by simp))) := by simp [hsel p (by simp)]
    generalize hx : ps.pos[p]'(hsel p (by simp)) = x at hmem hp
    obtain ⟨b, hbd⟩ : ∃ b : Nat → Nat, ∀ q, b q = ⌊dist x (ps.pos[q]?.getD x) * (n / cutoff)⌋₊ := ⟨_, fun _ => rfl⟩
    have hb : ∀ q ∈ N, ∃ y, ps.pos[q]? = some y ∧ b q = ⌊dist x y * (n / cutoff)⌋₊ ∧ b q < n := by
      intro q hq
      obtain ⟨hne, y, hy, hnear⟩ := (hmem q).1 hq
      have hyd : dist x y < cutoff := dist_lt.1 hnear.symm
      have hc : 0 < cutoff := hnear.1
      have hbq : b q = ⌊dist x y * (n / cutoff)⌋₊ := by rw [hbd, hy]; rfl
      refine ⟨y, hy, hbq, ?_⟩
      rw [hbq, Nat.floor_lt (mul_nonneg (dist_nonneg _ _) (by positivity))]
      have : dist x y * (n / cutoff) < cutoff * (n / cutoff) :=
        mul_lt_mul_of_pos_right hyd (by positivity)
      rwa [mul_div_cancel₀ _ (ne_of_gt hc)] at this
    have hrow := glRow hT hp (n := n) (scale := n / cutoff) b N hb f h
    have hperm : ∀ i, (N.filter fun q => decide ((Bonded boo p ∧ Bonded boo q) ∧ b q = i)).Perm
        (shellOf ps boo cutoff (i * cutoff / n) ((i + 1) * cutoff / n) p) := by
      intro i
      unfold shellOf
      rw [List.perm_ext_iff_of_nodup]
      · intro q
        simp only [List.mem_filter, decide_eq_true_eq, List.mem_range]
        have hkey : ∀ y, ps.pos[q]? = some y → dist x y < cutoff →
            (b q = i ↔ i * cutoff / n ≤ dist x y ∧ dist x y < (i + 1) * cutoff / n) := by
          intro y hy hyd
          have hbq : b q = ⌊dist x y * (n / cutoff)⌋₊ := by rw [hbd, hy]; rfl
          have hc : 0 < cutoff := lt_of_le_of_lt (Real.sqrt_nonneg _) hyd
          have hn' : (0 : ℝ) < n := by exact_mod_cast hn
          rw [hbq, Nat.floor_eq_iff (mul_nonneg (dist_nonneg _ _) (by positivity)),
            div_le_iff₀ hn', lt_div_iff₀ hn', ← mul_div_assoc, le_div_iff₀ hc, div_lt_iff₀ hc]
        rw [hmem]
        constructor
        · rintro ⟨⟨hne, y, hy, hnear⟩, hB, hbi⟩
          have hyd : dist x y < cutoff := dist_lt.1 hnear.symm
          have := (hkey y hy hyd).1 hbi
          exact ⟨(List.getElem?_eq_some_iff.1 hy).1, ⟨hne, x, y, hp, hy, hyd, this.1, this.2⟩, hB⟩
        · rintro ⟨-, ⟨hne, x', y, hx', hy, hyd, h1, h2⟩, hB⟩
          rw [hp] at hx'
          cases hx'
          exact ⟨⟨hne, y, hy, (dist_lt.2 hyd).symm⟩, hB, (hkey y hy hyd).2 ⟨h1, h2⟩⟩
      · exact (hsort.imp (fun h => Nat.ne_of_lt h)).filter _
      · exact List.nodup_range.filter _
    have ih' := ih (fun p h => hsel p (by simp [h]))
    unfold glFill at ih' ⊢
    rw [List.foldlM_cons, hN, ok_bind, hrow, ok_bind, ih']
    congr 2
    · apply tab_congr
      intro i _
      rw [(hperm i).length_eq]
      simp [nbPairs, Nat.add_assoc]
    · apply tab_congr
      intro i _
      rw [((hperm i).map _).sum_eq]
      simp [sumPairs, add_assoc]

/-- **C116** (part: the factor is 4π/13 whatever the degree) In each bin from the second on, what is found is 4π/13
times the mean of the product of the tensors over the pairs of bonded particles at a distance within the bin; 0 if
there is no pair. -/
theorem C116_gl_partial {P : RParams ℝ} {H : Heur 3 ℝ} (hP : P.Valid) (hH : H.Valid P) (hps : Indexed P H ps)
    (hT : Tensors ps boo l A) (n : Nat) (hn : 0 < n) (nb : ℝ) (selection : List Nat)
    (hsel : ∀ p ∈ selection, p < ps.pos.length) :
    ∃ gl, getGl ps boo l selection n nb = .ok gl ∧ gl.length = n ∧ gl[0]? = some 0 ∧
      ∀ r lo hi : ℝ, ∀ i : Nat, 1 ≤ i → i < n → r = 2 * ps.radius * nb → lo = i * r / n → hi = (i + 1) * r / n →
        gl[i]? = some (if nbPairs ps boo selection r lo hi = 0 then 0
          else 4 * Real.pi / 13 * (sumPairs ps boo l A selection r lo hi / nbPairs ps boo selection r lo hi)) := by
  have hfill := glFill_eq hP hH hps hT (2 * ps.radius * nb) n hn selection hsel (fun _ => 0) (fun _ => 0)
  have h0 : List.replicate n (0 : Nat) = tab n (fun _ => 0) := replicate_eq_tab n
  have h1 : List.replicate n (0 : ℝ) = tab n (fun _ => 0) := by unfold tab; simp
  unfold getGl
  dsimp only
  rw [h0, h1, hfill, ok_bind]
  unfold glNormalize
  have hset : ∀ F : Nat → ℝ, setR (tab n F) 0 0 = .ok ((tab n F).set 0 0) :=
    fun F => setR_ok.2 ⟨by rw [tab_length]; exact hn, rfl⟩
  rw [hset, ok_bind, pure_eq_ok]
  refine ⟨_, rfl, by simp [tab_length], ?_, ?_⟩
  · rw [List.getElem?_mapIdx, List.getElem?_set_self (by rw [tab_length]; exact hn)]
    simp
  · rintro r lo hi i hi1 hin rfl rfl rfl
    rw [List.getElem?_mapIdx, List.getElem?_set_ne (by omega)]
    have e1 : ∀ F : Nat → ℝ, (tab n F)[i]? = some (F i) := by intro F; simp [tab, hin]
    have e2 : ∀ F : Nat → Nat, (tab n F).getD i 0 = F i := by intro F; simp [tab, hin]
    rw [e1, e2, Option.map_some, if_pos hi1]
    simp only [Nat.zero_add, zero_add]
    congr 1
    split
    · rfl
    · rename_i hne
      have : ((nbPairs ps boo selection (2 * ps.radius * nb) (↑i * (2 * ps.radius * nb) / ↑n)
        ((↑i + 1) * (2 * ps.radius * nb) / ↑n) : Nat) : ℝ) ≠ 0 := by exact_mod_cast hne
      have := Real.pi_ne_zero
      field_simp

theorem nbPairs_sum (c : ℝ) {selection : List Nat} {cutoff lo hi : ℝ}
    (h : ∀ p q, BothIn ps boo cutoff lo hi p q → hermite l (A p) (A q) = c) :
    sumPairs ps boo l A selection cutoff lo hi = nbPairs ps boo selection cutoff lo hi * c := by
  classical
  unfold sumPairs nbPairs
  induction selection with
  | nil => simp
  | cons p selection ih =>
    rw [List.map_cons, List.sum_cons, ih, List.map_cons, List.sum_cons]
    have : ((shellOf ps boo cutoff lo hi p).map fun q => hermite l (A p) (A q)) =
        (shellOf ps boo cutoff lo hi p).map fun _ => c := by
      apply List.map_congr_left
      intro q hq
      unfold shellOf at hq
      exact h p q (by simpa using (List.mem_filter.1 hq).2)
    rw [this]
    simp
    ring

/-- **C116** (example of the right value) When all the particles have the same tensor, the correlation of degree 6 is
the square of `Q6` at all distances where there are pairs. **C116** is false for the other degrees: what is found is
`(2l+1)/13` times the square of `Ql`. -/
theorem C116_degree_counterexample {P : RParams ℝ} {H : Heur 3 ℝ} (hP : P.Valid) (hH : H.Valid P)
    (hps : Indexed P H ps) (hT : Tensors ps boo l A) (n : Nat) (hn : 0 < n) (nb : ℝ) (selection : List Nat)
    (hsel : ∀ p ∈ selection, p < ps.pos.length) (q : BooData) (hsame : ∀ b ∈ boo, b = q) (Ql : ℝ)
    (hQ : getQl q l = .ok Ql) (i : Nat) (hi1 : 1 ≤ i) (hi : i < n)
    (hpairs : nbPairs ps boo selection (2 * ps.radius * nb) (i * (2 * ps.radius * nb) / n)
      ((i + 1) * (2 * ps.radius * nb) / n) ≠ 0) :
    ∃ gl, getGl ps boo l selection n nb = .ok gl ∧ gl[i]? = some ((2 * l + 1) / 13 * Ql ^ 2) := by
  obtain ⟨gl, h1, h2, h3, h4⟩ := C116_gl_partial hP hH hps hT n hn nb selection hsel
  refine ⟨gl, h1, ?_⟩
  rw [h4 _ _ _ i hi1 hi rfl rfl rfl, if_neg hpairs]
  have hc : ∀ p p', BothIn ps boo (2 * ps.radius * nb) (i * (2 * ps.radius * nb) / n)
      ((i + 1) * (2 * ps.radius * nb) / n) p p' → hermite l (A p) (A p') = (2 * l + 1) / (4 * Real.pi) * Ql ^ 2 := by
    rintro p p' ⟨_, ⟨a, _, ha, _⟩, ⟨b, _, hb, _⟩⟩
    have ea := hsame a (List.mem_of_getElem? ha)
    have eb := hsame b (List.mem_of_getElem? hb)
    subst ea; subst eb
    obtain ⟨hl, hra, hA0⟩ := hT.all p b ha
    obtain ⟨_, hrb, _⟩ := hT.all p' b hb
    have hs := C37_sum_norm b hl l hT.even hT.degree (A p) hra
    unfold getQl at hQ
    rw [hs, ok_bind, pure_eq_ok] at hQ
    have hQ := Except.ok.inj hQ
    have hnn : (0 : ℝ) ≤ ∑ m ∈ Finset.Icc (-(l : Int)) l, Complex.normSq (A p m) :=
      Finset.sum_nonneg (fun _ _ => Complex.normSq_nonneg _)
    rw [← hQ, Real.sq_sqrt (by have := Real.pi_pos; positivity)]
    have hAA : ∀ m ∈ Finset.Icc (-(l : Int)) l, A p m * conj (A p' m) = ((Complex.normSq (A p m) : ℝ) : ℂ) := by
      intro m hm
      rw [Finset.mem_Icc] at hm
      have e1 := hra m hm.1 hm.2
      have e2 := hrb m hm.1 hm.2
      rw [e1] at e2
      rw [← Except.ok.inj e2, Complex.mul_conj]
    unfold hermite
    rw [Finset.sum_congr rfl hAA, ← Complex.ofReal_sum, Complex.ofReal_re]
    have := Real.pi_ne_zero
    have : (2 * (l : ℝ) + 1) ≠ 0 := by positivity
    field_simp
  rw [nbPairs_sum _ hc]
  have h5 : ((nbPairs ps boo selection (2 * ps.radius * nb) (i * (2 * ps.radius * nb) / n)
      ((i + 1) * (2 * ps.radius * nb) / n) : Nat) : ℝ) ≠ 0 := by exact_mod_cast hpairs
  have := Real.pi_ne_zero
  rw [mul_div_cancel_left₀ _ h5]
  congr 1
  field_simp

/-- **C116** for the degree 6. -/
theorem C116_g6 {P : RParams ℝ} {H : Heur 3 ℝ} (hP : P.Valid) (hH : H.Valid P) (hps : Indexed P H ps)
    (hT : Tensors ps boo 6 A) (n : Nat) (hn : 0 < n) (nb : ℝ) (selection : List Nat)
    (hsel : ∀ p ∈ selection, p < ps.pos.length) :
    ∃ gl, getGl ps boo 6 selection n nb = .ok gl ∧
      ∀ r lo hi : ℝ, ∀ i : Nat, 1 ≤ i → i < n → r = 2 * ps.radius * nb → lo = i * r / n → hi = (i + 1) * r / n →
        nbPairs ps boo selection r lo hi ≠ 0 → gl[i]? = some (4 * Real.pi / (2 * 6 + 1) *
          (sumPairs ps boo 6 A selection r lo hi / nbPairs ps boo selection r lo hi)) := by
  obtain ⟨gl, h1, _, _, h4⟩ := C116_gl_partial hP hH hps hT n hn nb selection hsel
  refine ⟨gl, h1, ?_⟩
  intro r lo hi i a1 a2 a3 a4 a5 hne
  rw [h4 r lo hi i a1 a2 a3 a4 a5, if_neg hne]
  norm_num

/-- **C116** (no bins, counterexample): without bins `gl[0]` is out of range. -/
theorem C116_no_bins_counterexample (nb : ℝ) : getGl ps boo l [] 0 nb = .error .ub := by
  unfold getGl glFill glNormalize
  simp only [List.foldlM_nil, pure_eq_ok, ok_bind]
  rfl

/-- The hypotheses hold for two particles at a distance 1 bonded to each other, `Q6` in ten bins. -/
example : ∃ (P : RParams ℝ) (H : Heur 3 ℝ) (ps : Particles ℝ) (boo : List BooData) (A : Nat → Int → ℂ),
    P.Valid ∧ H.Valid P ∧ Indexed P H ps ∧ Tensors ps boo 6 A ∧ ps.pos.length = 2 ∧ ∀ p < 2, Bonded boo p := by
  have hP := stdParams_valid (1000 : ℝ) (1 / 1000)
  obtain ⟨ps, h1, h2, -⟩ := indexed_exists hP (exHeur_valid (d := 3) hP)
    [fun _ => 0, ![1, 0, 0]] ⟨fun _ => 0, fun _ => 0⟩ 1
  have h3 : ps.pos.length = 2 := by rw [h2]; rfl
  have hq : ([List.replicate 36 (1 : ℂ), List.replicate 36 1] : List BooData).length = 2 := rfl
  refine ⟨_, _, ps, [List.replicate 36 1, List.replicate 36 1], fun _ => cf (List.replicate 36 1) 6, hP,
    exHeur_valid hP, h1, ⟨by rw [h3]; rfl, by decide, by decide, ?_⟩, h3, ?_⟩
  · intro p q hp
    have : q = List.replicate 36 1 := by
      have := List.mem_of_getElem? hp
      simpa using this
    subst this
    refine ⟨by simp, fun m h1 h => coef_eq (by simp) (by decide) (by decide) (by omega), ?_⟩
    simp [cf, st, slot]
  · intro p hp
    refine ⟨List.replicate 36 1, 1, ?_, by simp, one_ne_zero⟩
    interval_cases p <;> rfl

end Rdf
end Colloids
