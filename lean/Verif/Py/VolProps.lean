import Verif.Py.VolModel
import Verif.Py.ExperimentStatProps
import Verif.Dyn.ExportProps

/-! # Volumes, densities and the relaxation time of an experiment in python: C166, C233-C235 -/

namespace Colloids
namespace Py
namespace Vol

open Exp

/-! ## C166, C234 -/

/-- C166, the part that is false for a file of one particle. Its three coordinates are counted as three particles and the volume is the difference of two
coordinates. -/
theorem C166_single_counterexample (x : V) (h0 : x 0 ≤ x 1) (h1 : x 1 ≤ x 2) : frameVolume [x] = .ok (3, x 2 - x 0) := by
  simp [frameVolume, amin, amax, h0, h1, h0.trans h1, ok_bind, pure_eq_ok]

/-- The volume of the smallest box along the axes. -/
def IsBoxVolume (frame : List V) (v : ℝ) : Prop :=
  ∃ lo hi : V, v = (hi 0 - lo 0) * (hi 1 - lo 1) * (hi 2 - lo 2) ∧ ∀ k, Lowest frame k (lo k) ∧ Highest frame k (hi k)

theorem frameVolume_eq {frame : List V} (h : 2 ≤ frame.length) : frameVolume frame = nbDensity frame := by
  match frame, h with
  | _ :: _ :: _, _ => rfl

theorem volumes_ok (frames : List (List V)) (h : ∀ f ∈ frames, 2 ≤ f.length) :
    ∃ vs : List ℝ, frames.mapM frameVolume = .ok ((frames.zip vs).map fun x => (x.1.length, x.2)) ∧ vs.length = frames.length ∧
      ∀ (t : Nat) (f : List V) (v : ℝ), frames[t]? = some f → vs[t]? = some v → IsBoxVolume f v := by
  induction frames with
  | nil => exact ⟨[], rfl, rfl, by simp⟩
  | cons f l ih =>
    obtain ⟨vs, e, hl, hv⟩ := ih fun x hx => h x (List.mem_cons_of_mem _ hx)
    have hf := h f List.mem_cons_self
    obtain ⟨lo, hi, e1, e2⟩ := (C166_density f).2 (by rintro rfl; simp at hf)
    refine ⟨(hi 0 - lo 0) * (hi 1 - lo 1) * (hi 2 - lo 2) :: vs, ?_, by simp [hl], ?_⟩
    · rw [List.mapM_cons, frameVolume_eq hf, e1, ok_bind, e, ok_bind]
      rfl
    · intro t g v hg hvv
      cases t with
      | zero =>
        simp only [List.getElem?_cons_zero, Option.some.injEq] at hg hvv
        subst hg hvv
        exact ⟨lo, hi, rfl, e2⟩
      | succ t => exact hv t g v hg hvv

/-- C234. With frames of two particles or more, the mean volume is the mean over the frames of the volumes of the smallest boxes along the axes, and the
volume fraction is the volume of the spheres of all the frames over the volume of all these boxes, when this is not zero. -/
theorem C234_fraction_partial (frames : List (List V)) (hne : frames ≠ []) (h : ∀ f ∈ frames, 2 ≤ f.length) (radius : ℝ) :
    ∃ vs : List ℝ, vs.length = frames.length ∧ (∀ (t : Nat) (f : List V) (v : ℝ), frames[t]? = some f → vs[t]? = some v → IsBoxVolume f v) ∧
      (∃ m, meanV frames = .ok m ∧ m * frames.length = vs.sum) ∧
      (vs.sum ≠ 0 → ∃ φ, getVF (frames.map List.length) radius frames = .ok (some φ) ∧
        φ * vs.sum = ((frames.map List.length).sum : ℝ) * (4 / 3 * Real.pi * radius ^ 3)) := by
  obtain ⟨vs, e, hl, hv⟩ := volumes_ok frames h
  have hn : frames.length ≠ 0 := by simpa using hne
  have hn' : (frames.length : ℝ) ≠ 0 := by exact_mod_cast hn
  have hsum : (((frames.zip vs).map fun x => (x.1.length, x.2)).map (·.2)) = vs := by
    rw [List.map_map]
    exact List.map_snd_zip hl.le
  have hm : meanV frames = .ok (vs.sum / frames.length) := by
    rw [meanV, e, ok_bind, if_neg hn, hsum, pure_eq_ok]
  refine ⟨vs, hl, hv, ⟨_, hm, by field_simp⟩, fun h0 => ?_⟩
  have hd : 3 * (vs.sum / frames.length) ≠ 0 := mul_ne_zero (by norm_num) (div_ne_zero h0 hn')
  refine ⟨4 * Real.pi * (((frames.map List.length).sum : ℝ) / (frames.map List.length).length) * radius ^ 3 / (3 * (vs.sum / frames.length)), ?_, ?_⟩
  · rw [getVF, hm, ok_bind]
    simp only
    rw [if_neg (by rw [List.length_map]; exact not_or.2 ⟨hn, hd⟩), pure_eq_ok]
  · rw [List.length_map]
    field_simp

/-- C234, the part that is false. With a single particle in a frame, the volume of this frame is the difference of its largest and its smallest coordinate:
the volume fraction depends on the origin. -/
theorem C234_single_counterexample (a : ℝ) : meanV [[![0, 0, a]]] = .ok |a| := by
  have e2 : (![0, 0, a] : V) 2 = a := rfl
  have : frameVolume [![0, 0, a]] = .ok (3, |a|) := by
    simp only [frameVolume, amin, amax, ok_bind, pure_eq_ok, Matrix.cons_val_zero, Matrix.cons_val_one, e2, List.foldl_cons, List.foldl_nil, min_self, max_self]
    congr 2
    rcases le_total 0 a with h | h
    · rw [max_eq_right h, min_eq_left h, abs_of_nonneg h, sub_zero]
    · rw [max_eq_left h, min_eq_right h, abs_of_nonpos h, zero_sub]
  rw [meanV, List.mapM_cons, this, ok_bind, List.mapM_nil, pure_eq_ok, ok_bind, pure_eq_ok, ok_bind]
  simp [pure_eq_ok]

/-! ## C233 -/

/-- C233. `Txp.get_Nb_density` gives the number of positions of the file that are in the smallest box along the axes that contains the positions of the
trajectories, over the volume of this box, when it is not zero. -/
theorem C233_density_partial {pos : List V} {sel : List Nat} (hne : sel ≠ []) (hs : ∀ i ∈ sel, i < pos.length) :
    ∃ lo hi : V, (∀ k, Lowest (sel.filterMap fun i => pos[i]?) k (lo k) ∧ Highest (sel.filterMap fun i => pos[i]?) k (hi k)) ∧
      ∀ v, v = (hi 0 - lo 0) * (hi 1 - lo 1) * (hi 2 - lo 2) →
        (v ≠ 0 → ∃ (d : ℝ) (inside : List V), txpDensity pos sel = .ok (some d) ∧ inside.Sublist pos ∧ (∀ p, p ∈ inside ↔ p ∈ pos ∧ ∀ k, lo k ≤ p k ∧ p k ≤ hi k) ∧
          (∀ p, p ∈ inside → inside.count p = pos.count p) ∧ d * v = inside.length) ∧
        (v = 0 → txpDensity pos sel = .ok none) := by
  classical
  have hsel : sel.mapM (idx pos) = .ok (sel.map fun i => pos.getD i 0) := by
    refine TreeIndex.mapM_ok_of _ _ _ fun i hi => ?_
    simp [idx, List.getElem?_eq_getElem (hs i hi)]
  have hfm : (sel.filterMap fun i => pos[i]?) = sel.map fun i => pos.getD i 0 := by
    clear hsel hne
    induction sel with
    | nil => rfl
    | cons i l ih =>
      have := hs i List.mem_cons_self
      rw [List.filterMap_cons_some (List.getElem?_eq_getElem this), List.map_cons, ih fun x hx => hs x (List.mem_cons_of_mem _ hx)]
      simp [this]
  have hne' : (sel.map fun i => pos.getD i 0) ≠ [] := by simpa using hne
  rw [hfm]
  generalize hS : (sel.map fun i => pos.getD i 0) = S at hne' hsel
  choose lo l1 l2 using amin_ok hne'
  choose hi h1 h2 using amax_ok hne'
  have hsub : ∀ c ∈ S, c ∈ pos := by
    intro c hc
    rw [← hS] at hc
    obtain ⟨i, hi, rfl⟩ := List.mem_map.1 hc
    rw [List.getD_eq_getElem?_getD, List.getElem?_eq_getElem (hs i hi)]
    exact List.getElem_mem _
  have e : List.finRange 3 = [0, 1, 2] := rfl
  have g : ∀ (f : V) (k : Fin 3), [f 0, f 1, f 2].getD k 0 = f k := by
    intro f k; fin_cases k <;> rfl
  set inside := pos.filter fun p => decide (∀ k : Fin 3, lo k ≤ p k) && decide (∀ k : Fin 3, p k ≤ hi k) with hin
  have hmem : ∀ p, p ∈ inside ↔ p ∈ pos ∧ ∀ k, lo k ≤ p k ∧ p k ≤ hi k := by
    intro p
    rw [hin, List.mem_filter]
    simp only [Bool.and_eq_true, decide_eq_true_eq]
    constructor
    · rintro ⟨a, b, c⟩; exact ⟨a, fun k => ⟨b k, c k⟩⟩
    · rintro ⟨a, b⟩; exact ⟨a, fun k => (b k).1, fun k => (b k).2⟩
  have hSin : ∀ c ∈ S, c ∈ inside := fun c hc => (hmem c).2 ⟨hsub c hc, fun k => ⟨(l2 k).le c hc, (h2 k).le c hc⟩⟩
  have hine : inside ≠ [] := by
    obtain ⟨c, hc⟩ := List.exists_mem_of_ne_nil _ hne'
    exact List.ne_nil_of_mem (hSin c hc)
  obtain ⟨lo', hi', hv, hb⟩ := boxVolume_ok hine
  have hlo : ∀ k, lo' k = lo k := by
    intro k
    refine (hb k).1.unique ⟨?_, fun c hc => ((hmem c).1 hc).2 k |>.1⟩
    obtain ⟨c, hc, hk⟩ := (l2 k).attained
    exact ⟨c, hSin c hc, hk⟩
  have hhi : ∀ k, hi' k = hi k := by
    intro k
    refine (hb k).2.unique ⟨?_, fun c hc => ((hmem c).1 hc).2 k |>.2⟩
    obtain ⟨c, hc, hk⟩ := (h2 k).attained
    exact ⟨c, hSin c hc, hk⟩
  simp only [hlo, hhi] at hv
  have hd : txpDensity pos sel = if (hi 0 - lo 0) * (hi 1 - lo 1) * (hi 2 - lo 2) = 0 then pure none
      else pure (some (inside.length / ((hi 0 - lo 0) * (hi 1 - lo 1) * (hi 2 - lo 2)))) := by
    unfold txpDensity
    rw [hsel, e]
    simp only [List.mapM_cons, List.mapM_nil, l1, h1, ok_bind, pure_eq_ok, g]
    rw [← hin, hv, ok_bind]
  refine ⟨lo, hi, fun k => ⟨l2 k, h2 k⟩, fun v hvv => ⟨fun h0 => ?_, fun h0 => ?_⟩⟩
  · subst hvv
    refine ⟨_, inside, by rw [hd, if_neg h0, pure_eq_ok], List.filter_sublist, hmem, fun p hp => ?_, div_mul_cancel₀ _ h0⟩
    rw [hin, List.count_filter]
    rw [hin] at hp
    exact (List.mem_filter.1 hp).2
  · subst hvv
    rw [hd, if_pos h0, pure_eq_ok]

/-- C233, the part that is false. With a single trajectory the volume is zero: the density is not a number. -/
theorem C233_single_counterexample (pos : List V) (i : Nat) (hi : i < pos.length) : txpDensity pos [i] = .ok none := by
  obtain ⟨lo, hi', hb, h⟩ := C233_density_partial (pos := pos) (sel := [i]) (by simp) (by simpa using hi)
  refine (h _ rfl).2 ?_
  have e : ([i].filterMap fun i => pos[i]?) = [pos[i]] := by simp [hi]
  rw [e] at hb
  obtain ⟨c, hc, h1⟩ := (hb 0).1.attained
  obtain ⟨c', hc', h2⟩ := (hb 0).2.attained
  simp only [List.mem_singleton] at hc hc'
  rw [← h1, ← h2, hc, hc', sub_self, zero_mul, zero_mul]

example : ([0, 1] : List Nat) ≠ [] ∧ ∀ i ∈ [0, 1], i < ([![0, 0, 0], ![1, 2, 3]] : List V).length := by simp

/-! ## C235 -/

/-- C235. From two rows or more, `get_tau` gives the first time of the file at which the average scattering function is below the threshold, and the last time if there is none. -/
theorem C235_tau_partial (rows : List (List ℝ)) (thr : ℝ) (h2 : 2 ≤ rows.length) (h : ∀ r ∈ rows, 5 ≤ r.length) :
    ∃ (tau : ℝ) (i : Nat) (r : List ℝ), getTau rows thr = .ok tau ∧ rows[i]? = some r ∧ r[0]? = some tau ∧
      (∀ (j : Nat) (r' : List ℝ) (x : ℝ), j < i → rows[j]? = some r' → r'[4]? = some x → thr ≤ x) ∧
      ((∃ x, r[4]? = some x ∧ x < thr) ∨ (i + 1 = rows.length ∧ ∃ x, r[4]? = some x ∧ thr ≤ x)) := by
  classical
  have hcol : ∀ k, k < 5 → rows.mapM (fun r => idx r k) = .ok (rows.map fun r => r.getD k 0) := by
    intro k hk
    refine TreeIndex.mapM_ok_of _ _ _ fun r hr => ?_
    have := h r hr
    simp [idx, List.getElem?_eq_getElem (show k < r.length by omega)]
  have hx : ∀ (j : Nat) (r : List ℝ), rows[j]? = some r → r[4]? = some ((rows.map fun r => r.getD 4 0).getD j 0) := by
    intro j r hr
    have h5 := h r (List.mem_of_getElem? hr)
    have hj := (List.getElem?_eq_some_iff.1 hr).1
    simp [List.getD_eq_getElem?_getD, hr, List.getElem?_eq_getElem (show 4 < r.length by omega)]
  have ht : ∀ (j : Nat) (r : List ℝ), rows[j]? = some r → ∃ x, r[0]? = some x ∧ idx (rows.map fun r => r.getD 0 0) j = .ok x := by
    intro j r hr
    have h5 := h r (List.mem_of_getElem? hr)
    refine ⟨r[0], List.getElem?_eq_getElem _, ?_⟩
    simp [idx, hr, List.getD_eq_getElem?_getD, List.getElem?_eq_getElem (show 0 < r.length by omega)]
  have hne : rows ≠ [] := by rintro rfl; simp at h2
  have hgt : getTau rows thr = (do
      let t ← rows.mapM fun r => idx r 0
      let isf ← rows.mapM fun r => idx r 4
      tauOf t isf thr) := by
    match rows, h2 with
    | _ :: _ :: _, _ => rfl
  rw [hgt]
  unfold tauOf
  rw [hcol 0 (by omega), ok_bind, hcol 4 (by omega), ok_bind]
  simp only
  generalize hb : ((List.range (rows.map fun r => r.getD 4 0).length).filter fun i => decide ((rows.map fun r => r.getD 4 0).getD i 0 < thr)) = below
  rcases below with _ | ⟨i, rest⟩
  · have hall : ∀ j, j < rows.length → thr ≤ (rows.map fun r => r.getD 4 0).getD j 0 := by
      intro j hj
      by_contra hc
      have : j ∈ (List.range (rows.map fun r => r.getD 4 0).length).filter fun i => decide ((rows.map fun r => r.getD 4 0).getD i 0 < thr) := by
        rw [List.mem_filter]
        exact ⟨by simpa using hj, by simpa only [decide_eq_true_eq] using not_le.1 hc⟩
      rw [hb] at this
      exact absurd this List.not_mem_nil
    have hpos := List.length_pos_of_ne_nil hne
    have hl : rows[rows.length - 1]? = some rows[rows.length - 1] := List.getElem?_eq_getElem (by omega)
    obtain ⟨x, e1, e2⟩ := ht _ _ hl
    refine ⟨x, rows.length - 1, _, ?_, hl, e1, ?_, Or.inr ⟨by omega, _, hx _ _ hl, hall _ (by omega)⟩⟩
    · simp only [last]
      rw [List.getLast?_eq_getElem?, List.length_map]
      exact e2
    · intro j r' y hj hr' hy
      rw [hx j r' hr'] at hy
      rw [← Option.some.inj hy]
      exact hall j (List.getElem?_eq_some_iff.1 hr').1
  · have hmin : (i :: rest).Pairwise (· < ·) := by
      rw [← hb]
      exact List.pairwise_lt_range.filter _
    have hfold : rest.foldl min i = i := by
      have hlt : ∀ j ∈ rest, i < j := (List.pairwise_cons.1 hmin).1
      clear hb hmin
      induction rest with
      | nil => rfl
      | cons a l ih => rw [List.foldl_cons, min_eq_left (hlt a List.mem_cons_self).le, ih fun j hj => hlt j (List.mem_cons_of_mem _ hj)]
    have him : i ∈ (List.range (rows.map fun r => r.getD 4 0).length).filter fun i => decide ((rows.map fun r => r.getD 4 0).getD i 0 < thr) := by
      rw [hb]; exact List.mem_cons_self
    rw [List.mem_filter] at him
    have hi : i < rows.length := by simpa using him.1
    have hl : rows[i]? = some rows[i] := List.getElem?_eq_getElem hi
    obtain ⟨x, e1, e2⟩ := ht _ _ hl
    refine ⟨x, i, _, ?_, hl, e1, ?_, Or.inl ⟨_, hx _ _ hl, by simpa only [decide_eq_true_eq] using him.2⟩⟩
    · simp only [hfold]
      exact e2
    · intro j r' y hj hr' hy
      rw [hx j r' hr'] at hy
      rw [← Option.some.inj hy]
      by_contra hc
      have hjm : j ∈ (List.range (rows.map fun r => r.getD 4 0).length).filter fun i => decide ((rows.map fun r => r.getD 4 0).getD i 0 < thr) := by
        rw [List.mem_filter]
        exact ⟨by simp; omega, by simpa only [decide_eq_true_eq] using not_le.1 hc⟩
      rw [hb] at hjm
      rcases List.mem_cons.1 hjm with rfl | hjm
      · omega
      · have := (List.pairwise_cons.1 hmin).1 j hjm
        omega

/-- C235. With the file that the program `dynamics` writes for a film of three frames or more, when `makeDynamics` returns (C125), `get_tau` gives the first lag, not the lag 0, at which the average
scattering function is below the threshold, in units of time, and the last lag if there is none. -/
theorem C235_program_partial (dt thr : ℝ) {T : Nat} {MSD ISF NGP : List (List ℝ)} (hz : DynExport.Sized [""] 1 (T + 3) MSD ISF NGP) :
    ∃ msd isf ngp, DynExport.exportDynamics dt [""] 1 MSD ISF NGP = .ok (msd, isf, ngp) ∧
      ∃ lag, 1 ≤ lag ∧ lag ≤ T + 2 ∧ getTau (DynExport.readTable isf) thr = .ok ((lag : ℝ) * dt) ∧ ∀ av, ISF[3]? = some av →
        (∀ l x, 1 ≤ l → l < lag → av[l]? = some x → thr ≤ x) ∧ (lag = T + 2 ∨ ∃ x, av[lag]? = some x ∧ x < thr) := by
  obtain ⟨msd, isf, ngp, e, hrow⟩ := DynExport.C231_rows_partial dt (by omega) hz
  obtain ⟨msd', isf', ngp', e', _, hlen, _⟩ := DynExport.C231_first_counterexample (T := T + 2) dt (by omega) hz
  rw [e] at e'
  simp only [Except.ok.injEq, Prod.mk.injEq] at e'
  obtain ⟨rfl, rfl, rfl⟩ := e'
  have hr := hrow (isf, ISF) (by simp)
  simp only at hr
  have hisf : ISF.length = 4 := by rw [hz.isf]
  have hvs : ∀ (t : Nat) (vs : List ℝ), vs.map some = ISF.map (fun l => l[t]?) → vs.length = 4 ∧ ∀ av, ISF[3]? = some av → vs[3]? = av[t]? ∨ av[t]? = none := by
    intro t vs hv
    have hl := congrArg List.length hv
    simp only [List.length_map] at hl
    refine ⟨by omega, fun av hav => ?_⟩
    have h3 := congrArg (fun l : List (Option ℝ) => l[3]?) hv
    simp only [List.getElem?_map, hav, Option.map_some] at h3
    cases hv3 : vs[3]? with
    | none => rw [hv3] at h3; simp at h3
    | some x => rw [hv3] at h3; simp only [Option.map_some, Option.some.injEq] at h3; exact Or.inl h3
  have hget : ∀ (i : Nat) (r : List ℝ), (DynExport.readTable isf)[i]? = some r → r.length = 5 ∧ r[0]? = some (((i + 1 : Nat) : ℝ) * dt) ∧
      ∀ av, ISF[3]? = some av → ∀ x, av[i + 1]? = some x → r[4]? = some x := by
    intro i r hir
    have hi : i < T + 2 := by rw [← hlen]; exact (List.getElem?_eq_some_iff.1 hir).1
    obtain ⟨vs, g1, g2⟩ := hr i (by omega)
    rw [hir] at g1
    have g1 := Option.some.inj g1
    subst g1
    obtain ⟨k1, k2⟩ := hvs _ _ g2
    refine ⟨by simp [k1], rfl, fun av hav x hx => ?_⟩
    rcases k2 av hav with h | h
    · rw [List.getElem?_cons_succ, h, hx]
    · rw [h] at hx; simp at hx
  obtain ⟨tau, i, r, h1, h2, h3, h4, h5⟩ := C235_tau_partial (DynExport.readTable isf) thr (by omega) (by
    intro r hr'
    obtain ⟨i, hi⟩ := List.mem_iff_getElem?.1 hr'
    exact (hget i r hi).1.ge)
  have hi : i < T + 2 := by rw [← hlen]; exact (List.getElem?_eq_some_iff.1 h2).1
  obtain ⟨_, g2, g3⟩ := hget i r h2
  rw [g2] at h3
  refine ⟨msd, isf, ngp, e, i + 1, by omega, by omega, by rw [h1, Option.some.inj h3], fun av hav => ?_⟩
  have havl : av.length = T + 3 := hz.isfT av (List.mem_of_getElem? hav)
  constructor
  · intro l x hl1 hl2 hx
    obtain ⟨j, rfl⟩ : ∃ j, l = j + 1 := ⟨l - 1, by omega⟩
    have hj : j < (DynExport.readTable isf).length := by rw [hlen]; omega
    have hjr : (DynExport.readTable isf)[j]? = some (DynExport.readTable isf)[j] := List.getElem?_eq_getElem hj
    exact h4 j _ x (by omega) hjr ((hget j _ hjr).2.2 av hav x hx)
  · rcases h5 with ⟨x, hx, hlt⟩ | ⟨hl, _⟩
    · right
      have hav1 : av[i + 1]? = some av[i + 1] := List.getElem?_eq_getElem (by omega)
      have := g3 av hav _ hav1
      rw [hx] at this
      exact ⟨_, hav1, by rw [← Option.some.inj this]; exact hlt⟩
    · left; omega

/-- C235, the part that is false. With a film of two frames, `get_tau` is an error whatever the scattering function. -/
theorem C235_short_counterexample (dt thr : ℝ) {MSD ISF NGP : List (List ℝ)} (hz : DynExport.Sized [""] 1 2 MSD ISF NGP) :
    ∃ msd isf ngp, DynExport.exportDynamics dt [""] 1 MSD ISF NGP = .ok (msd, isf, ngp) ∧ ∃ e, getTau (DynExport.readTable isf) thr = .error e := by
  obtain ⟨msd, isf, ngp, e, _, hlen, _⟩ := DynExport.C231_first_counterexample (T := 1) dt (by omega) hz
  refine ⟨msd, isf, ngp, e, ?_⟩
  obtain ⟨r, hr⟩ := List.length_eq_one_iff.1 hlen
  rw [hr]
  unfold getTau
  cases h : idx r 4 with
  | error e => exact ⟨e, by simp only [h]; rfl⟩
  | ok x => exact ⟨if x < thr then .invalidArgument else .outOfRange, by simp only [h]; rfl⟩

example : DynExport.Sized [""] 1 3 [[0, 1, 2]] [[1, 1, 0], [1, 1, 0], [1, 1, 0], [1, 1, (0 : ℝ)]] [[0, 1, 2]] := by
  refine ⟨by decide, rfl, rfl, rfl, by simp, by simp, by simp⟩

end Vol
end Py
end Colloids
