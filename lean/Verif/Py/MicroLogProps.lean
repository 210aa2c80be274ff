import Mathlib.Algebra.Order.Archimedean.Real.Basic
import Mathlib.Algebra.Order.Round
import Mathlib.Data.Finset.Sort
import Verif.CommonLemmas
import Verif.Py.MicroProps

/-!
# `log_msd_vs_tau` of `python/colloids/microrheology.py`
-/

namespace Colloids
namespace Py
namespace Micro

open Real

/-- `numpy.round` -/
def Rounds (rnd : ℝ → Int) : Prop := ∀ x, |(rnd x : ℝ) - x| ≤ 1 / 2

/-- `numpy.unique` -/
structure Uniques (uniq : List Int → List Int) : Prop where
  lt : ∀ l, (uniq l).Pairwise (· < ·)
  mem : ∀ l d, d ∈ uniq l ↔ d ∈ l

theorem rounds_exists : ∃ rnd, Rounds rnd :=
  ⟨round, fun x => by rw [abs_sub_comm]; exact abs_sub_round x⟩

theorem uniques_exists : ∃ uniq, Uniques uniq :=
  ⟨fun l => l.toFinset.sort (· ≤ ·), ⟨fun l => (Finset.sortedLT_sort _).pairwise, fun l d => by simp⟩⟩

theorem log115 : 0 < log 1.15 := log_pos (by norm_num)

/-- the powers of the code -/
theorem mem_arange {m : ℝ} (hm : 0 < m) (k : Nat) : k ∈ arange (log m / log 1.15) ↔ (1.15 : ℝ) ^ k < m := by
  unfold arange
  rw [List.mem_range, Nat.lt_ceil, lt_div_iff₀ log115, ← log_pow, log_lt_log_iff (by positivity) hm]

theorem rnd_bounds {rnd : ℝ → Int} (hr : Rounds rnd) (k : Nat) :
    1 ≤ rnd (1.15 ^ k) ∧ (rnd (1.15 ^ k) : ℝ) ≤ 1.15 ^ k + 1 / 2 ∧ (1.15 : ℝ) ^ k - 1 / 2 ≤ rnd (1.15 ^ k) := by
  have h := abs_le.1 (hr (1.15 ^ k))
  have h1 : (1 : ℝ) ≤ 1.15 ^ k := one_le_pow₀ (by norm_num)
  refine ⟨?_, by linarith [h.2], by linarith [h.1]⟩
  have : (0 : ℝ) < rnd (1.15 ^ k) := by linarith [h.1]
  have : (0 : Int) < rnd (1.15 ^ k) := by exact_mod_cast this
  omega

theorem mapM_outOfRange {α β : Type} (f : α → R β) (l : List α)
    (h : ∀ a ∈ l, (∃ b, f a = .ok b) ∨ f a = .error .outOfRange) (hx : ∃ a ∈ l, f a = .error .outOfRange) :
    l.mapM f = .error .outOfRange := by
  induction l with
  | nil => obtain ⟨a, ha, -⟩ := hx; simp at ha
  | cons a l ih =>
    rw [List.mapM_cons]
    rcases h a List.mem_cons_self with ⟨b, hb⟩ | he
    · obtain ⟨x, hx, he⟩ := hx
      rcases List.mem_cons.1 hx with rfl | hx
      · rw [hb] at he
        cases he
      · rw [hb, ok_bind, ih (fun a ha => h a (List.mem_cons_of_mem _ ha)) ⟨x, hx, he⟩]
        rfl
    · rw [he]
      rfl

theorem mapM_lookup (kept : List (ℝ × ℝ)) (dt : List Int) (h : ∀ d ∈ dt, d.toNat < kept.length) :
    dt.mapM (pick kept) = .ok (dt.map fun d => kept.getD d.toNat (0, 0)) := by
  induction dt with
  | nil => rfl
  | cons d dt ih =>
    rw [List.mapM_cons, ih fun d hd => h d (List.mem_cons_of_mem _ hd)]
    have hd := h d List.mem_cons_self
    unfold pick
    rw [List.getElem?_eq_getElem hd, ok_bind, ok_bind]
    simp [List.getD, List.getElem?_eq_getElem hd, pure_eq_ok]

theorem mapM_mem {α β : Type} (f : α → R β) (l : List α) (out : List β) (h : l.mapM f = .ok out) :
    ∀ b ∈ out, ∃ a ∈ l, f a = .ok b := by
  induction l generalizing out with
  | nil =>
    cases h
    intro b hb
    simp at hb
  | cons a l ih =>
    rw [List.mapM_cons] at h
    cases h1 : f a with
    | error e => rw [h1] at h; cases h
    | ok b =>
      rw [h1, ok_bind] at h
      cases h2 : l.mapM f with
      | error e => rw [h2] at h; cases h
      | ok bs =>
        rw [h2, ok_bind] at h
        cases h
        intro c hc
        rcases List.mem_cons.1 hc with rfl | hc
        · exact ⟨a, List.mem_cons_self, h1⟩
        · obtain ⟨x, hx, he⟩ := ih bs h2 c hc
          exact ⟨x, List.mem_cons_of_mem _ hx, he⟩

/-- the positive lags -/
noncomputable def positive (tau msd : List ℝ) : List (ℝ × ℝ) := (tau.zip msd).filter fun p => decide (0 < p.1)

/-- **C197** With the default maximum and at least two positive lags, `log_msd_vs_tau` returns couples of the lists, in
increasing order of their rank, from the first positive lag; and between a lag and the last one returned
before it there is a factor of 1.15, up to the rounding of ranks. -/
theorem C197_default {rnd : ℝ → Int} (hr : Rounds rnd) {uniq : List Int → List Int} (hu : Uniques uniq)
    (tau msd : List ℝ) (hlen : tau.length = msd.length) (hn : 2 ≤ (positive tau msd).length) :
    ∃ idx : List Nat, logMsd rnd uniq tau msd none = .ok (idx.map fun i => (positive tau msd).getD i (0, 0)) ∧
      idx.Pairwise (· < ·) ∧ 0 ∈ idx ∧ (∀ i ∈ idx, i < (positive tau msd).length) ∧
      ∀ j < (positive tau msd).length, ∃ i ∈ idx, i ≤ j ∧ (j + 1 : ℝ) ≤ 1.15 * ((i : ℝ) + 1 + 1 / 2) := by
  unfold logMsd
  rw [if_neg (not_not.2 hlen)]
  change 2 ≤ (positive tau msd).length at hn
  have hk : (tau.zip msd).filter (fun p => decide (0 < p.1)) = positive tau msd := rfl
  simp only [hk]
  generalize positive tau msd = kept at *
  have hne : kept ≠ [] := by
    rintro rfl
    simp at hn
  have hpos : (0 : ℝ) < kept.length := by
    have : 0 < kept.length := by omega
    exact_mod_cast this
  rw [if_neg hne]
  simp only [Option.getD_none]
  rw [if_neg (not_le.2 hpos)]
  generalize hall : (uniq ((arange (log (kept.length : ℝ) / log 1.15)).map fun k => rnd (1.15 ^ k))).map
    (fun d => d - 1) = all
  have hmem : ∀ d, d ∈ all ↔ ∃ k : Nat, (1.15 : ℝ) ^ k < kept.length ∧ d = rnd (1.15 ^ k) - 1 := by
    intro d
    rw [← hall]
    simp only [List.mem_map, hu.mem, mem_arange hpos]
    constructor
    · rintro ⟨_, ⟨k, hk, rfl⟩, rfl⟩
      exact ⟨k, hk, rfl⟩
    · rintro ⟨k, hk, rfl⟩
      exact ⟨_, ⟨k, hk, rfl⟩, rfl⟩
  have hbd : ∀ d ∈ all, 0 ≤ d ∧ d < kept.length := by
    intro d hd
    obtain ⟨k, hk, rfl⟩ := (hmem d).1 hd
    have hb := rnd_bounds hr k
    refine ⟨by omega, ?_⟩
    have h1 : (rnd (1.15 ^ k) : ℝ) < kept.length + 1 / 2 := by linarith [hb.2.1]
    have h2 : (rnd (1.15 ^ k) : ℝ) < ((kept.length + 1 : Int) : ℝ) := by push_cast; linarith
    have h3 : rnd (1.15 ^ k) < (kept.length + 1 : Int) := by exact_mod_cast h2
    omega
  have hfil : all.filter (fun (d : Int) => decide ((d : ℝ) < kept.length)) = all := by
    refine List.filter_eq_self.2 fun d hd => decide_eq_true ?_
    exact_mod_cast (hbd d hd).2
  have h0 : (0 : Int) ∈ all := by
    refine (hmem 0).2 ⟨0, ?_, ?_⟩
    · have : (2 : ℝ) ≤ kept.length := by exact_mod_cast hn
      rw [pow_zero]
      linarith
    · have h := abs_le.1 (hr (1.15 ^ 0))
      rw [pow_zero] at h ⊢
      have a1 : (rnd 1 : ℝ) < ((2 : Int) : ℝ) := by push_cast; linarith [h.2]
      have a2 : ((0 : Int) : ℝ) < (rnd 1 : ℝ) := by push_cast; linarith [h.1]
      have a1 : rnd 1 < 2 := by exact_mod_cast a1
      have a2 : 0 < rnd 1 := by exact_mod_cast a2
      omega
  rw [hfil, if_neg (List.ne_nil_of_mem h0), mapM_lookup kept all fun d hd => by have := hbd d hd; omega]
  refine ⟨all.map Int.toNat, by rw [List.map_map]; rfl, ?_, List.mem_map.2 ⟨0, h0, rfl⟩, ?_, ?_⟩
  · rw [List.pairwise_map]
    have hs : all.Pairwise (· < ·) := by
      rw [← hall, List.pairwise_map]
      exact (hu.lt _).imp fun h => by omega
    refine List.Pairwise.imp_of_mem ?_ hs
    intro a b ha hb hab
    have := hbd a ha
    have := hbd b hb
    omega
  · intro i hi
    obtain ⟨d, hd, rfl⟩ := List.mem_map.1 hi
    have := hbd d hd
    omega
  · intro j hj
    by_cases hj0 : j = 0
    · refine ⟨0, List.mem_map.2 ⟨0, h0, rfl⟩, Nat.zero_le _, ?_⟩
      rw [hj0]
      norm_num
    · have hJ : (1 : ℝ) < j + 1 := by
        have : (0 : ℝ) < j := by exact_mod_cast Nat.pos_of_ne_zero hj0
        linarith
      have hex : ∃ k : Nat, (j + 1 : ℝ) ≤ 1.15 ^ k := by
        obtain ⟨k, hk⟩ := pow_unbounded_of_one_lt (j + 1 : ℝ) (by norm_num : (1 : ℝ) < 1.15)
        exact ⟨k, hk.le⟩
      classical
      have hk := Nat.find_spec hex
      have hk0 : Nat.find hex ≠ 0 := by
        intro e
        rw [e, pow_zero] at hk
        linarith
      obtain ⟨k, hke⟩ := Nat.exists_eq_succ_of_ne_zero hk0
      have hlt : (1.15 : ℝ) ^ k < j + 1 := by
        have := Nat.find_min hex (m := k) (by omega)
        exact not_le.1 this
      rw [hke, pow_succ] at hk
      have hjn : (j + 1 : ℝ) ≤ kept.length := by exact_mod_cast hj
      have hb := rnd_bounds hr k
      refine ⟨(rnd (1.15 ^ k) - 1).toNat, List.mem_map.2 ⟨_, (hmem _).2 ⟨k, by linarith, rfl⟩, rfl⟩, ?_, ?_⟩
      · have h2 : (rnd (1.15 ^ k) : ℝ) < ((j + 2 : Int) : ℝ) := by push_cast; linarith [hb.2.1]
        have h3 : rnd (1.15 ^ k) < (j + 2 : Int) := by exact_mod_cast h2
        omega
      · have hc : (((rnd (1.15 ^ k) - 1).toNat : Nat) : ℝ) = (rnd (1.15 ^ k) : ℝ) - 1 := by
          have : (((rnd (1.15 ^ k) - 1).toNat : Nat) : Int) = rnd (1.15 ^ k) - 1 := Int.toNat_of_nonneg (by omega)
          have : ((((rnd (1.15 ^ k) - 1).toNat : Nat) : Int) : ℝ) = ((rnd (1.15 ^ k) - 1 : Int) : ℝ) := by rw [this]
          push_cast at this
          exact this
        rw [hc]
        linarith [hb.2.2]

/-- **C197** Counterexample: the maximum, a time in seconds, is compared with ranks.  Whatever the times, a maximum larger than
the number of positive lags by 15 percent is an `IndexError`, even if it is a short time. -/
theorem C197_index_counterexample {rnd : ℝ → Int} (hr : Rounds rnd) {uniq : List Int → List Int} (hu : Uniques uniq)
    (tau msd : List ℝ) (hlen : tau.length = msd.length) (hn : positive tau msd ≠ []) (T : ℝ)
    (hT : 1.15 * ((positive tau msd).length + 1) ≤ T) :
    logMsd rnd uniq tau msd (some T) = .error .outOfRange := by
  unfold logMsd
  rw [if_neg (not_not.2 hlen)]
  have hk : (tau.zip msd).filter (fun p => decide (0 < p.1)) = positive tau msd := rfl
  simp only [hk]
  generalize positive tau msd = kept at *
  have hpos : (0 : ℝ) < T := by
    have : (0 : ℝ) ≤ kept.length := by positivity
    linarith
  rw [if_neg hn]
  simp only [Option.getD_some]
  rw [if_neg (not_le.2 hpos)]
  obtain ⟨k0, h1, h2⟩ := exists_nat_pow_near (by
    have : (0 : ℝ) ≤ kept.length := by positivity
    linarith : (1 : ℝ) ≤ kept.length + 1) (by norm_num : (1 : ℝ) < 1.15)
  -- the first power that is too large
  have hex : ∃ k : Nat, (kept.length + 1 : ℝ) ≤ 1.15 ^ k ∧ (1.15 : ℝ) ^ k < T := by
    rcases eq_or_lt_of_le h1 with e | h1
    · refine ⟨k0, e.ge, ?_⟩
      rw [e]
      have : (0 : ℝ) ≤ kept.length := by positivity
      linarith
    · refine ⟨k0 + 1, h2.le, ?_⟩
      rw [pow_succ]
      linarith
  obtain ⟨k, h3, h4⟩ := hex
  have hb := rnd_bounds hr k
  have hd : (rnd (1.15 ^ k) - 1) ∈ ((uniq ((arange (log T / log 1.15)).map fun k => rnd (1.15 ^ k))).map
      fun d => d - 1).filter (fun (d : Int) => decide ((d : ℝ) < T)) := by
    refine List.mem_filter.2 ⟨List.mem_map.2 ⟨_, (hu.mem _ _).2 (List.mem_map.2 ⟨k, (mem_arange hpos k).2 h4, rfl⟩), rfl⟩,
      decide_eq_true ?_⟩
    push_cast
    linarith [hb.2.1]
  rw [if_neg (List.ne_nil_of_mem hd)]
  refine mapM_outOfRange _ _ ?_ ⟨_, hd, ?_⟩
  · intro d _
    unfold pick
    cases kept[d.toNat]? with
    | none => exact Or.inr rfl
    | some p => exact Or.inl ⟨p, rfl⟩
  · have : kept.length ≤ (rnd (1.15 ^ k) - 1).toNat := by
      have h5 : ((kept.length : Int) : ℝ) < ((rnd (1.15 ^ k) : Int) : ℝ) := by push_cast; linarith [hb.2.2]
      have h6 : (kept.length : Int) < rnd (1.15 ^ k) := by exact_mod_cast h5
      omega
    unfold pick
    rw [List.getElem?_eq_none this]

/-- **C197** Counterexample: with regular lags, all the lags returned are shorter than the maximum times the time step (plus
half a step), not than the maximum: at less than one second per step most of the data is dropped. -/
theorem C197_unit_counterexample {rnd : ℝ → Int} (hr : Rounds rnd) {uniq : List Int → List Int} (hu : Uniques uniq)
    (n : Nat) (δ : ℝ) (hδ : 0 < δ) (msd : List ℝ) (hlen : msd.length = n) (T : ℝ) (out : List (ℝ × ℝ))
    (h : logMsd rnd uniq ((List.range n).map fun (i : Nat) => (i + 1 : ℝ) * δ) msd (some T) = .ok out) :
    ∀ p ∈ out, p.1 ≤ (T + 1 / 2) * δ := by
  unfold logMsd at h
  rw [if_neg (by simp [hlen])] at h
  have hk : (((List.range n).map fun (i : Nat) => (i + 1 : ℝ) * δ).zip msd).filter (fun p => decide (0 < p.1)) =
      ((List.range n).map fun (i : Nat) => (i + 1 : ℝ) * δ).zip msd := by
    refine List.filter_eq_self.2 fun p hp => decide_eq_true ?_
    obtain ⟨i, -, hi⟩ := List.mem_map.1 (List.of_mem_zip hp).1
    rw [← hi]
    positivity
  simp only [hk] at h
  split at h
  · cases h
  simp only [Option.getD_some] at h
  split at h
  · cases h
  rename_i hT
  have hT := not_le.1 hT
  split at h
  · cases h
  intro p hp
  obtain ⟨d, hd, he⟩ := mapM_mem _ _ _ h p hp
  obtain ⟨hd1, -⟩ := List.mem_filter.1 hd
  obtain ⟨r, hr1, rfl⟩ := List.mem_map.1 hd1
  obtain ⟨k, hk, rfl⟩ := List.mem_map.1 ((hu.mem _ _).1 hr1)
  have hk := (mem_arange hT k).1 hk
  have hb := rnd_bounds hr k
  unfold pick at he
  split at he
  · rename_i q hq
    cases he
    rw [List.getElem?_zip_eq_some] at hq
    obtain ⟨hq, -⟩ := hq
    rw [List.getElem?_map] at hq
    obtain ⟨i, hi, hq⟩ := Option.map_eq_some_iff.1 hq
    rw [← hq]
    have hi : i = (rnd (1.15 ^ k) - 1).toNat := by
      have := List.getElem?_eq_some_iff.1 hi
      obtain ⟨_, h⟩ := this
      rw [List.getElem_range] at h
      exact h.symm
    have hc : (i : ℝ) = (rnd (1.15 ^ k) : ℝ) - 1 := by
      have : (i : Int) = rnd (1.15 ^ k) - 1 := by rw [hi]; exact Int.toNat_of_nonneg (by omega)
      have : ((i : Int) : ℝ) = ((rnd (1.15 ^ k) - 1 : Int) : ℝ) := by rw [this]
      push_cast at this
      exact this
    rw [hc]
    refine mul_le_mul_of_nonneg_right ?_ hδ.le
    linarith [hb.2.1]
  · cases he

/-- **C197** Counterexample: a single positive lag is an error. -/
theorem C197_single_counterexample (rnd : ℝ → Int) {uniq : List Int → List Int} (hu : Uniques uniq)
    (tau msd : List ℝ) (hlen : tau.length = msd.length) (hn : (positive tau msd).length = 1) :
    logMsd rnd uniq tau msd none = .error .invalidArgument := by
  unfold logMsd
  rw [if_neg (not_not.2 hlen)]
  have hk : (tau.zip msd).filter (fun p => decide (0 < p.1)) = positive tau msd := rfl
  simp only [hk]
  generalize positive tau msd = kept at *
  have hne : kept ≠ [] := by
    rintro rfl
    simp at hn
  rw [if_neg hne]
  simp only [Option.getD_none, hn]
  have h0 : arange (log ((1 : Nat) : ℝ) / log 1.15) = [] := by
    unfold arange
    simp
  have hu0 : uniq [] = [] := by
    rw [List.eq_nil_iff_forall_not_mem]
    intro d hd
    simpa using (hu.mem [] d).1 hd
  rw [if_neg (by norm_num), h0]
  simp [hu0]

/-- three lags, one of them zero -/
example : 2 ≤ (positive [0, 1, 2] [0, 3, 4]).length := by
  simp [positive]

end Micro
end Py
end Colloids
