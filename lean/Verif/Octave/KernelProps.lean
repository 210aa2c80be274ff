import Verif.Octave.KernelModel
import Verif.CommonLemmas
import Mathlib.Tactic.Linarith
import Mathlib.Tactic.NormNum
import Mathlib.Tactic.Ring
import Mathlib.Data.Rat.Floor

/-! # C119: the Gaussian kernels are those that are asked for, within a given precision -/

namespace Colloids
namespace Octave

variable {G K : Type} [Field G] [LinearOrder G] [IsStrictOrderedRing G] [FloorSemiring G]

/-- A radius for which the key is defined. -/
def KeyOk (sigma : G) : Prop := 0 ≤ sigma ∧ 100 * sigma < (szMod : G)

theorem key_ok {sigma : G} (h : KeyOk sigma) : kernelKey sigma = .ok ⌊100 * sigma⌋₊ := by
  unfold kernelKey
  rw [if_neg]
  rintro (h1 | h1)
  · linarith [h.1]
  · exact absurd h.2 (not_lt.2 h1)

/-- The cache after the calls with the radii `done`: the entry of a key is made from the first radius of this key. -/
def CacheOf (gaussian : Nat → G → K) (done : List G) (cache : List (Nat × K)) : Prop :=
  ∀ key, (cache.find? fun e => e.1 == key).map Prod.snd =
    (done.find? fun s => ⌊100 * s⌋₊ == key).map fun s => gaussian (kernelSize s) s

theorem call_ok (gaussian : Nat → G → K) (done : List G) (cache : List (Nat × K)) (hc : CacheOf gaussian done cache)
    (sigma : G) (hs : KeyOk sigma) :
    ∃ s ∈ done ++ [sigma], ∃ cache', getKernel gaussian cache sigma = .ok (gaussian (kernelSize s) s, cache') ∧
      CacheOf gaussian (done ++ [sigma]) cache' ∧
      (done ++ [sigma]).find? (fun s => ⌊100 * s⌋₊ == ⌊100 * sigma⌋₊) = some s := by
  unfold getKernel
  rw [key_ok hs, ok_bind]
  have h := hc ⌊100 * sigma⌋₊
  cases hf : cache.find? (fun e => e.1 == ⌊100 * sigma⌋₊) with
  | some e =>
    rw [hf] at h
    cases hd : done.find? (fun s => ⌊100 * s⌋₊ == ⌊100 * sigma⌋₊) with
    | none => rw [hd] at h; simp at h
    | some s =>
      rw [hd] at h
      simp only [Option.map_some, Option.some.injEq] at h
      refine ⟨s, List.mem_append_left _ (List.mem_of_find?_eq_some hd), cache, by simp only [h]; rfl, ?_, ?_⟩
      · intro key
        rw [hc key, List.find?_append]
        cases hk : done.find? (fun s => ⌊100 * s⌋₊ == key) with
        | some x => simp
        | none =>
          have : (⌊100 * sigma⌋₊ == key) = false := by
            by_contra hcon
            rw [Bool.not_eq_false, beq_iff_eq] at hcon
            rw [← hcon, hd] at hk
            exact absurd hk (by simp)
          simp [this]
      · rw [List.find?_append, hd]
        rfl
  | none =>
    rw [hf] at h
    have hd : done.find? (fun s => ⌊100 * s⌋₊ == ⌊100 * sigma⌋₊) = none := by
      cases hd : done.find? (fun s => ⌊100 * s⌋₊ == ⌊100 * sigma⌋₊) with
      | none => rfl
      | some s => rw [hd] at h; simp at h
    refine ⟨sigma, by simp, _, rfl, ?_, ?_⟩
    · intro key
      rw [List.find?_append, List.find?_append]
      have hk := hc key
      cases hx : cache.find? (fun e => e.1 == key) with
      | some e =>
        rw [hx] at hk
        cases hy : done.find? (fun s => ⌊100 * s⌋₊ == key) with
        | none => rw [hy] at hk; simp at hk
        | some s => rw [hy] at hk; simpa using hk
      | none =>
        rw [hx] at hk
        cases hy : done.find? (fun s => ⌊100 * s⌋₊ == key) with
        | some s => rw [hy] at hk; simp at hk
        | none =>
          by_cases hkey : ⌊100 * sigma⌋₊ = key
          · simp [hkey]
          · simp [hkey]
    · rw [List.find?_append, hd]
      simp

theorem same_key {a b : G} (ha : 0 ≤ a) (hb : 0 ≤ b) (h : ⌊100 * a⌋₊ = ⌊100 * b⌋₊) : |a - b| < 1 / 100 := by
  have h1 := Nat.floor_le (show (0 : G) ≤ 100 * a by linarith)
  have h2 := Nat.lt_floor_add_one (100 * a)
  have h3 := Nat.floor_le (show (0 : G) ≤ 100 * b by linarith)
  have h4 := Nat.lt_floor_add_one (100 * b)
  rw [h] at h1 h2
  rw [abs_lt]
  constructor <;> linarith

theorem calls_ok (gaussian : Nat → G → K) (l : List G) : ∀ (done : List G) (cache : List (Nat × K)),
    CacheOf gaussian done cache → (∀ s ∈ l, KeyOk s) →
    ∃ ks cache', getKernels gaussian cache l = .ok (ks, cache') ∧ ks.length = l.length ∧
      ∀ i : Nat, ∀ s k, l[i]? = some s → ks[i]? = some k → ∃ s' ∈ done ++ l.take (i + 1),
        k = gaussian (kernelSize s') s' ∧
        (done ++ l.take (i + 1)).find? (fun s' => ⌊100 * s'⌋₊ == ⌊100 * s⌋₊) = some s' := by
  induction l with
  | nil => exact fun done cache _ _ => ⟨[], cache, rfl, rfl, by simp⟩
  | cons s l ih =>
    intro done cache hc hk
    obtain ⟨s', hs', cache1, e1, hc1, hf⟩ := call_ok gaussian done cache hc s (hk s (by simp))
    obtain ⟨ks, cache2, e2, hl, hks⟩ := ih (done ++ [s]) cache1 hc1 (fun x hx => hk x (by simp [hx]))
    refine ⟨gaussian (kernelSize s') s' :: ks, cache2, ?_, by simp [hl], ?_⟩
    · rw [getKernels, e1, ok_bind]
      simp only
      rw [e2]
      rfl
    · intro i t k ht hk'
      cases i with
      | zero =>
        simp only [List.getElem?_cons_zero, Option.some.injEq] at ht hk'
        subst ht
        exact ⟨s', by simpa using hs', hk'.symm, by simpa using hf⟩
      | succ i =>
        simp only [List.getElem?_cons_succ] at ht hk'
        obtain ⟨t', a, b, c⟩ := hks i t k ht hk'
        refine ⟨t', ?_, b, ?_⟩
        · rw [List.append_assoc] at a
          simpa using a
        · rw [List.append_assoc] at c
          simpa using c

/-- **C119**: for any calls since the beginning of the program, with radii that are not negative and not huge,
`get_kernel` gives each time the kernel of a radius (one of those already asked for, the first with the same hundredths)
that differs by less than 0.01: less than 1% for a radius of one pixel or more. -/
theorem C119_kernel_partial (gaussian : Nat → G → K) (l : List G) (hk : ∀ s ∈ l, 0 ≤ s ∧ 100 * s < (szMod : G)) :
    ∃ ks cache, getKernels gaussian [] l = .ok (ks, cache) ∧ ks.length = l.length ∧
      ∀ i : Nat, ∀ s k, l[i]? = some s → ks[i]? = some k → ∃ s' : G, ∃ j : Nat, j ≤ i ∧ l[j]? = some s' ∧
        k = gaussian (2 * ⌊s' * 4 + 1 / 2⌋₊ + 1) s' ∧ ⌊100 * s'⌋₊ = ⌊100 * s⌋₊ ∧ |s' - s| < 1 / 100 ∧
        (1 ≤ s → |s' - s| < s / 100) ∧
        ∀ j' : Nat, ∀ t, j' < j → l[j']? = some t → ⌊100 * t⌋₊ ≠ ⌊100 * s⌋₊ := by
  obtain ⟨ks, cache, e, hl, h⟩ := calls_ok gaussian l [] [] (fun key => rfl) hk
  refine ⟨ks, cache, e, hl, fun i s k hs hk' => ?_⟩
  obtain ⟨s', hs', hg, hf⟩ := h i s k hs hk'
  rw [List.nil_append] at hs' hf
  obtain ⟨hfl, j, hjl, hj, hmin⟩ := List.find?_eq_some_iff_getElem.1 hf
  rw [beq_iff_eq] at hfl
  have hji : j < i + 1 := by
    rw [List.length_take] at hjl
    omega
  have hjl2 : j < l.length := by
    rw [List.length_take] at hjl
    omega
  rw [List.getElem_take] at hj
  have m1 : s' ∈ l := List.mem_of_mem_take hs'
  have m2 : s ∈ l := List.mem_of_getElem? hs
  have hd := same_key (hk s' m1).1 (hk s m2).1 hfl
  refine ⟨s', j, by omega, by rw [List.getElem?_eq_getElem hjl2, hj], hg, hfl, hd, fun h1 => by
    refine lt_of_lt_of_le hd ?_
    linarith, fun j' t hj' ht hc => ?_⟩
  have := hmin j' hj'
  rw [List.getElem_take] at this
  rw [List.getElem?_eq_getElem (by omega), Option.some.injEq] at ht
  rw [ht, hc] at this
  simp at this

/-- **C119**, counterexample: the precision is not 1% for small radii, and the kernel depends on the calls before: for
any two radii with the same hundredths, the second call gives the kernel of the first radius. -/
theorem C119_history_counterexample (gaussian : Nat → G → K) (a b : G) (ha : 0 ≤ a ∧ 100 * a < (szMod : G))
    (hb : 0 ≤ b ∧ 100 * b < (szMod : G)) (h : ⌊100 * a⌋₊ = ⌊100 * b⌋₊) :
    ∃ c1 c2, getKernels gaussian [] [a, b] =
        .ok ([gaussian (kernelSize a) a, gaussian (kernelSize a) a], c1) ∧
      getKernels gaussian [] [b, a] = .ok ([gaussian (kernelSize b) b, gaussian (kernelSize b) b], c2) := by
  refine ⟨[(⌊100 * b⌋₊, gaussian (kernelSize a) a)], [(⌊100 * b⌋₊, gaussian (kernelSize b) b)], ?_, ?_⟩
  · simp only [getKernels, getKernel, key_ok ha, key_ok hb, ok_bind, List.find?_nil, pure_eq_ok, List.nil_append, h,
      List.find?_cons, beq_self_eq_true]
  · simp only [getKernels, getKernel, key_ok ha, key_ok hb, ok_bind, List.find?_nil, pure_eq_ok, List.nil_append, h,
      List.find?_cons, beq_self_eq_true]

example : (∀ s ∈ [(16 / 10 : ℚ), 1605 / 1000, 9 / 10], 0 ≤ s ∧ 100 * s < (szMod : ℚ)) := by
  simp [szMod]
  norm_num

/-- Two radii with the same hundredths, the second larger by more than 50%. -/
example : ⌊100 * (12 / 1000 : ℚ)⌋₊ = ⌊100 * (19 / 1000 : ℚ)⌋₊ ∧ (19 / 1000 : ℚ) > 3 / 2 * (12 / 1000) := by
  refine ⟨?_, by norm_num⟩
  rw [show ⌊100 * (12 / 1000 : ℚ)⌋₊ = 1 from (Nat.floor_eq_iff (by norm_num)).2 (by norm_num),
    show ⌊100 * (19 / 1000 : ℚ)⌋₊ = 1 from (Nat.floor_eq_iff (by norm_num)).2 (by norm_num)]

end Octave
end Colloids
