import Verif.Py.SqModel
import Verif.Py.RdfProps
import Verif.CommonLemmas
import Mathlib.Tactic

/-! # C221-C222: structure factors of python/colloids/periodic.py:498-627 -/

namespace Colloids
namespace Py
namespace Sq

open Periodic (generateKvec isqrt normSq)

theorem iterate_mul (e : ℂ) (k : Nat) : (fun z : ℂ => z * e)^[k] 1 = e ^ k := by
  rw [mul_right_iterate]
  exact one_mul _

theorem powers_get {N kv : Nat} (e : ℂ) (h : kv < N) : getR (powers N e) kv = .ok (e ^ kv) := by
  have hl : kv < (powers N e).length := by simpa [powers] using h
  rw [getR_of_lt hl]
  congr 1
  simp only [powers, List.getElem_iterate]
  exact iterate_mul e kv

/-- The wave of wave vector `k` at position `x`. -/
noncomputable def wave (dims : Fin 3 → ℝ) (k : Nat × Nat × Nat) (x : Fin 3 → ℝ) : ℂ :=
  Complex.exp (2 * Real.pi * (k.1 * (x 0 / dims 0) + k.2.1 * (x 1 / dims 1) + k.2.2 * (x 2 / dims 2)) * Complex.I)

theorem prodOf_eq {N : Nat} (dims : Fin 3 → ℝ) {k : Nat × Nat × Nat} (h : k.1 < N ∧ k.2.1 < N ∧ k.2.2 < N) (x : Fin 3 → ℝ) (f : ℝ) :
    prodOf N dims k x f = .ok (f * wave dims k x) := by
  simp only [prodOf, cacheAt, powers_get _ h.1, powers_get _ h.2.1, powers_get _ h.2.2, ok_bind]
  congr 1
  rw [mul_assoc, mul_assoc]
  congr 1
  unfold polar wave
  rw [← Complex.exp_nat_mul, ← Complex.exp_nat_mul, ← Complex.exp_nat_mul, ← Complex.exp_add, ← Complex.exp_add]
  congr 1
  push_cast
  ring

theorem sumRho_eq {N : Nat} (dims : Fin 3 → ℝ) {k : Nat × Nat × Nat} (h : k.1 < N ∧ k.2.1 < N ∧ k.2.2 < N) (pf : List ((Fin 3 → ℝ) × ℝ)) :
    sumRho N dims pf k = .ok (pf.map fun x => (x.2 : ℂ) * wave dims k x.1).sum := by
  have : ∀ (pf : List ((Fin 3 → ℝ) × ℝ)) (s : ℂ), pf.foldlM (fun s x => do
      let p ← prodOf N dims k x.1 x.2
      .ok (s + p)) s = (.ok (s + (pf.map fun x => (x.2 : ℂ) * wave dims k x.1).sum) : R ℂ) := by
    intro pf
    induction pf with
    | nil => intro s; simp [pure_eq_ok]
    | cons x pf ih =>
      intro s
      rw [List.foldlM_cons, prodOf_eq dims h, ok_bind, ok_bind, ih, List.map_cons, List.sum_cons, add_assoc]
  rw [sumRho, this, zero_add]

/-- The mean, over the wave vectors `vs`, of the squared modulus of the Fourier component of the field `pf`, per particle. -/
noncomputable def meanSq (dims : Fin 3 → ℝ) (pf : List ((Fin 3 → ℝ) × ℝ)) (vs : List (Nat × Nat × Nat)) : ℝ :=
  (vs.map fun k => Complex.normSq (pf.map fun x => (x.2 : ℂ) * wave dims k x.1).sum).sum / vs.length / pf.length

theorem sqAt_eq {N : Nat} (dims : Fin 3 → ℝ) (pf : List ((Fin 3 → ℝ) × ℝ)) {kvec : Nat → R (List (Nat × Nat × Nat))} {nk : Nat} (hnk : 0 < nk)
    {vs : List (Nat × Nat × Nat)} (hk : kvec nk = .ok vs) (hvs : ∀ k ∈ vs, k.1 < N ∧ k.2.1 < N ∧ k.2.2 < N) :
    sqAt N dims pf kvec nk = .ok (meanSq dims pf vs) := by
  have : ∀ (vs : List (Nat × Nat × Nat)) (s : ℝ), (∀ k ∈ vs, k.1 < N ∧ k.2.1 < N ∧ k.2.2 < N) → vs.foldlM (fun s k => do
      let r ← sumRho N dims pf k
      .ok (s + Complex.normSq r)) s =
      (.ok (s + (vs.map fun k => Complex.normSq (pf.map fun x => (x.2 : ℂ) * wave dims k x.1).sum).sum) : R ℝ) := by
    intro vs
    induction vs with
    | nil => intro s _; simp [pure_eq_ok]
    | cons k vs ih =>
      intro s h
      rw [List.foldlM_cons, sumRho_eq dims (h k List.mem_cons_self), ok_bind, ok_bind, ih _ fun y hy => h y (List.mem_cons_of_mem _ hy),
        List.map_cons, List.sum_cons, add_assoc]
  rw [sqAt, if_neg (by omega), hk, ok_bind, sqBin, this _ _ hvs, ok_bind, ok_bind, zero_add, meanSq]

/-- What the two functions give: zero, then the means over the vectors. -/
theorem sqAll_eq {N : Nat} (dims : Fin 3 → ℝ) {pos : List (Fin 3 → ℝ)} {field : List ℝ} (hf : field.length = pos.length)
    {kvec : Nat → R (List (Nat × Nat × Nat))} (V : Nat → List (Nat × Nat × Nat)) (hk : ∀ nk, 0 < nk → nk < N → kvec nk = .ok (V nk))
    (hV : ∀ nk, 0 < nk → nk < N → ∀ k ∈ V nk, k.1 ≤ nk ∧ k.2.1 ≤ nk ∧ k.2.2 ≤ nk) :
    sqAll N dims pos field kvec = .ok ((List.range N).map fun nk => if nk = 0 then 0 else meanSq dims (pos.zip field) (V nk)) := by
  rw [sqAll, if_neg (by simpa using hf)]
  have : ∀ L : List Nat, (∀ nk ∈ L, nk < N) → L.mapM (sqAt N dims (pos.zip field) kvec) =
      (.ok (L.map fun nk => if nk = 0 then 0 else meanSq dims (pos.zip field) (V nk)) : R (List ℝ)) := by
    intro L
    induction L with
    | nil => intro _; rfl
    | cons nk L ih =>
      intro h
      have hn := h nk List.mem_cons_self
      have e : sqAt N dims (pos.zip field) kvec nk = .ok (if nk = 0 then 0 else meanSq dims (pos.zip field) (V nk)) := by
        by_cases h0 : nk = 0
        · rw [sqAt, if_pos h0, if_pos h0]
        · rw [if_neg h0]
          refine sqAt_eq dims _ (by omega) (hk nk (by omega) hn) fun k hkk => ?_
          have := hV nk (by omega) hn k hkk
          omega
      rw [List.mapM_cons, e, ok_bind, ih fun y hy => h y (List.mem_cons_of_mem _ hy), ok_bind, List.map_cons]
      rfl
  exact this _ fun nk h => List.mem_range.1 h

/-- Moving all the particles together, and each of them by any number of periods, does not change the mean. -/
theorem meanSq_move (dims : Fin 3 → ℝ) (hd : ∀ a, dims a ≠ 0) (t : Fin 3 → ℝ) (vs : List (Nat × Nat × Nat)) {pos pos' : List (Fin 3 → ℝ)}
    (field : List ℝ) (h : List.Forall₂ (fun x y => ∃ n : Fin 3 → ℤ, ∀ a, y a = x a + t a + n a * dims a) pos pos') :
    meanSq dims (pos'.zip field) vs = meanSq dims (pos.zip field) vs := by
  have hw : ∀ (k : Nat × Nat × Nat) (x y : Fin 3 → ℝ), (∃ n : Fin 3 → ℤ, ∀ a, y a = x a + t a + n a * dims a) → wave dims k y = wave dims k t * wave dims k x := by
    rintro k x y ⟨n, hn⟩
    have e : ∀ a, y a / dims a = x a / dims a + t a / dims a + n a := by
      intro a
      rw [hn a]
      have := hd a
      field_simp
    unfold wave
    rw [← Complex.exp_add]
    have e' : ∀ a, ((y a / dims a : ℝ) : ℂ) = ((x a / dims a : ℝ) : ℂ) + ((t a / dims a : ℝ) : ℂ) + (n a : ℂ) := by
      intro a; rw [e a]; push_cast; ring
    push_cast at e'
    rw [e' 0, e' 1, e' 2]
    rw [Complex.exp_eq_exp_iff_exists_int]
    refine ⟨k.1 * n 0 + k.2.1 * n 1 + k.2.2 * n 2, ?_⟩
    push_cast
    ring
  have hn : ∀ (k : Nat × Nat × Nat), Complex.normSq (wave dims k t) = 1 := by
    intro k
    unfold wave
    rw [Complex.normSq_eq_norm_sq]
    have : (2 * (Real.pi : ℂ) * (k.1 * (t 0 / dims 0) + k.2.1 * (t 1 / dims 1) + k.2.2 * (t 2 / dims 2)) : ℂ) =
        ((2 * Real.pi * (k.1 * (t 0 / dims 0) + k.2.1 * (t 1 / dims 1) + k.2.2 * (t 2 / dims 2)) : ℝ) : ℂ) := by push_cast; ring
    rw [this, Complex.norm_exp_ofReal_mul_I]; norm_num
  have hs : ∀ (k : Nat × Nat × Nat) (pos pos' : List (Fin 3 → ℝ)) (field : List ℝ),
      List.Forall₂ (fun x y => ∃ n : Fin 3 → ℤ, ∀ a, y a = x a + t a + n a * dims a) pos pos' →
      ((pos'.zip field).map fun x => (x.2 : ℂ) * wave dims k x.1).sum = wave dims k t * ((pos.zip field).map fun x => (x.2 : ℂ) * wave dims k x.1).sum := by
    intro k pos pos' field h
    induction h generalizing field with
    | nil => simp
    | cons hxy _ ih =>
      cases field with
      | nil => simp
      | cons f field =>
        rw [List.zip_cons_cons, List.map_cons, List.sum_cons, ih, List.zip_cons_cons, List.map_cons, List.sum_cons, hw k _ _ hxy]
        ring
  have hl : (pos'.zip field).length = (pos.zip field).length := by rw [List.length_zip, List.length_zip, h.length_eq]
  unfold meanSq
  rw [hl]
  congr 3
  refine List.map_congr_left fun k _ => ?_
  rw [hs k _ _ field h, Complex.normSq_mul, hn, one_mul]

theorem meanSq_nonneg (dims : Fin 3 → ℝ) (pf : List ((Fin 3 → ℝ) × ℝ)) (vs : List (Nat × Nat × Nat)) : 0 ≤ meanSq dims pf vs := by
  unfold meanSq
  have : 0 ≤ (vs.map fun k => Complex.normSq (pf.map fun x => (x.2 : ℂ) * wave dims k x.1).sum).sum := by
    refine List.sum_nonneg fun x hx => ?_
    obtain ⟨k, -, rfl⟩ := List.mem_map.1 hx
    exact Complex.normSq_nonneg _
  positivity

theorem norm_wave (dims : Fin 3 → ℝ) (k : Nat × Nat × Nat) (t : Fin 3 → ℝ) : Complex.normSq (wave dims k t) = 1 := by
  unfold wave
  rw [Complex.normSq_eq_norm_sq]
  have : (2 * (Real.pi : ℂ) * (k.1 * (t 0 / dims 0) + k.2.1 * (t 1 / dims 1) + k.2.2 * (t 2 / dims 2)) : ℂ) =
      ((2 * Real.pi * (k.1 * (t 0 / dims 0) + k.2.1 * (t 1 / dims 1) + k.2.2 * (t 2 / dims 2)) : ℝ) : ℂ) := by push_cast; ring
  rw [this, Complex.norm_exp_ofReal_mul_I]; norm_num

theorem meanSq_one (dims x : Fin 3 → ℝ) (f : ℝ) {vs : List (Nat × Nat × Nat)} (hv : vs ≠ []) : meanSq dims [(x, f)] vs = f ^ 2 := by
  unfold meanSq
  have : (vs.map fun k => Complex.normSq ([(x, f)].map fun x : (Fin 3 → ℝ) × ℝ => (x.2 : ℂ) * wave dims k x.1).sum) = vs.map fun _ => f ^ 2 := by
    refine List.map_congr_left fun k _ => ?_
    simp [norm_wave, Complex.normSq_ofReal, sq]
  rw [this]
  have hl : (0 : ℝ) < vs.length := by exact_mod_cast List.length_pos_iff.2 hv
  simp [List.map_const']
  field_simp

theorem kvec_all (maxNvec : Nat) (hm : maxNvec % 3 = 0) (hpos : 0 < maxNvec) : ∃ V : Nat → List (Nat × Nat × Nat), ∀ nk, 0 < nk →
    generateKvec nk maxNvec = .ok (V nk) ∧ V nk ≠ [] ∧ ∀ k ∈ V nk, k.1 ≤ nk ∧ k.2.1 ≤ nk ∧ k.2.2 ≤ nk := by
  have : ∀ nk, ∃ v, 0 < nk → generateKvec nk maxNvec = .ok v ∧ v ≠ [] ∧ ∀ k ∈ v, k.1 ≤ nk ∧ k.2.1 ≤ nk ∧ k.2.2 ≤ nk := by
    intro nk
    by_cases h : 0 < nk
    · obtain ⟨v, h1, h2, -, h3, -⟩ := Periodic.C152_shell_partial nk maxNvec h hm hpos
      refine ⟨v, fun _ => ⟨h1, ?_, fun k hk => ?_⟩⟩
      · rintro rfl; simp at h2
      · have := (h3 k hk).1
        unfold normSq at this
        refine ⟨?_, ?_, ?_⟩ <;> by_contra hc <;> push Not at hc <;> have := Nat.mul_self_lt_mul_self hc <;> nlinarith
    · exact ⟨[], fun h' => absurd h' h⟩
  choose V hV using this
  exact ⟨V, fun nk h => hV nk h⟩

/-- C221: `get_Sq` never reads out of its cache; the first bin is zero, each other one is the mean over the vectors of `generate_kvec` of the squared
modulus of the Fourier component of the field, divided by the number of particles. -/
theorem C221_value {pos : List (Fin 3 → ℝ)} {field : List ℝ} (hf : field.length = pos.length) (N maxNvec : Nat) (L : ℝ) (hm : maxNvec % 3 = 0)
    (hpos : 0 < maxNvec) :
    ∃ S, getSq pos N L maxNvec field = .ok S ∧ S.length = N ∧ (0 < N → S[0]? = some 0) ∧ ∀ nk, 0 < nk → nk < N →
      ∃ vs, generateKvec nk maxNvec = .ok vs ∧ vs ≠ [] ∧ S[nk]? = some (
        (vs.map fun k => Complex.normSq ((pos.zip field).map fun x => (x.2 : ℂ) *
          Complex.exp (2 * Real.pi * (k.1 * (x.1 0 / L) + k.2.1 * (x.1 1 / L) + k.2.2 * (x.1 2 / L)) * Complex.I)).sum).sum / vs.length / pos.length) := by
  obtain ⟨V, hV⟩ := kvec_all maxNvec hm hpos
  have h := sqAll_eq (N := N) (fun _ => L) hf V (kvec := fun nk => generateKvec nk maxNvec) (fun nk h _ => (hV nk h).1) (fun nk h _ => (hV nk h).2.2)
  refine ⟨_, h, by simp, fun h => by simp [h], fun nk h1 h2 => ⟨V nk, (hV nk h1).1, (hV nk h1).2.1, ?_⟩⟩
  rw [List.getElem?_map, List.getElem?_range h2, Option.map_some, if_neg (by omega)]
  have : ((pos.zip field).length : ℝ) = pos.length := by rw [List.length_zip, hf, min_self]
  unfold meanSq
  rw [this]
  rfl

/-- C221: the result does not change if all the particles move together, nor if each of them is replaced by any of its periodic images; it is nowhere
negative. -/
theorem C221_periodic {pos pos' : List (Fin 3 → ℝ)} {field : List ℝ} (hf : field.length = pos.length) (N maxNvec : Nat) {L : ℝ} (hL : L ≠ 0)
    (hm : maxNvec % 3 = 0) (hpos : 0 < maxNvec) (t : Fin 3 → ℝ)
    (h : List.Forall₂ (fun x y => ∃ n : Fin 3 → ℤ, ∀ a, y a = x a + t a + n a * L) pos pos') :
    ∃ S, getSq pos N L maxNvec field = .ok S ∧ getSq pos' N L maxNvec field = .ok S ∧ ∀ s ∈ S, 0 ≤ s := by
  obtain ⟨V, hV⟩ := kvec_all maxNvec hm hpos
  have e1 := sqAll_eq (N := N) (fun _ => L) hf V (kvec := fun nk => generateKvec nk maxNvec) (fun nk h _ => (hV nk h).1) (fun nk h _ => (hV nk h).2.2)
  have hf' : field.length = pos'.length := by rw [hf, h.length_eq]
  have e2 := sqAll_eq (N := N) (fun _ => L) hf' V (kvec := fun nk => generateKvec nk maxNvec) (fun nk h _ => (hV nk h).1) (fun nk h _ => (hV nk h).2.2)
  refine ⟨_, e1, ?_, ?_⟩
  · refine e2.trans ?_
    congr 1
    refine List.map_congr_left fun nk _ => ?_
    rw [meanSq_move (fun _ => L) (fun _ => hL) t (V nk) field h]
  · intro s hs
    obtain ⟨nk, -, rfl⟩ := List.mem_map.1 hs
    split_ifs
    · exact le_refl _
    · exact meanSq_nonneg _ _ _

/-- C221: for one particle the structure factor is 1 in all the bins except the first one. -/
theorem C221_one (x : Fin 3 → ℝ) (N maxNvec : Nat) (L : ℝ) (hm : maxNvec % 3 = 0) (hpos : 0 < maxNvec) :
    getSq [x] (N + 1) L maxNvec [1] = .ok (0 :: List.replicate N 1) := by
  obtain ⟨V, hV⟩ := kvec_all maxNvec hm hpos
  have e1 := sqAll_eq (N := N + 1) (fun _ => L) (pos := [x]) (field := [1]) rfl V (kvec := fun nk => generateKvec nk maxNvec) (fun nk h _ => (hV nk h).1)
    (fun nk h _ => (hV nk h).2.2)
  refine e1.trans ?_
  congr 1
  rw [List.range_succ_eq_map, List.map_cons, if_pos rfl, List.map_map]
  congr 1
  refine List.eq_replicate_iff.2 ⟨by simp, fun b hb => ?_⟩
  obtain ⟨nk, -, rfl⟩ := List.mem_map.1 hb
  simp only [Function.comp, Nat.succ_ne_zero, if_false, List.zip_cons_cons, List.zip_nil_right]
  rw [meanSq_one _ _ _ (hV _ (Nat.succ_pos nk)).2.1, one_pow]

example : ∃ S, getSq [0, fun _ => 1] 5 203 30 [1, 1] = .ok S ∧ getSq [fun _ => 203, fun _ => 1] 5 203 30 [1, 1] = .ok S ∧ ∀ s ∈ S, 0 ≤ s :=
  C221_periodic rfl 5 30 (by norm_num) rfl (by norm_num) 0 (.cons ⟨fun _ => 1, by simp⟩ (.cons ⟨fun _ => 0, by simp⟩ .nil))

end Sq
end Py
end Colloids
