import Mathlib.Tactic.NormNum
import Verif.CommonLemmas
import Verif.Index.Lemmas
import Verif.Py.LoadPilesModel

/-! # C254: reading of the piles of 2D centers -/

namespace Colloids
namespace Py
namespace LoadPiles

/-- Files of a slice with two centers or more and as many intensities. -/
def Good (f : SliceFiles) : Prop := 2 ≤ f.dat.length ∧ f.intensity.length = f.dat.length

theorem stack_good {f : SliceFiles} (h : Good f) : stack f = .ok (f.dat.zip (f.intensity.map fun i => -i)) := by
  obtain ⟨h1, h2⟩ := h
  rw [stack, if_neg (by omega), if_neg (by omega)]

theorem slices_ok (disk : Nat → Option SliceFiles) (files : Nat → SliceFiles) (size : Nat)
    (hd : ∀ z < size, disk z = some (files z) ∧ Good (files z)) :
    (List.range size).mapM (readSlice disk) = .ok ((List.range size).map fun z => (files z).dat.zip ((files z).intensity.map fun i => -i)) := by
  refine TreeIndex.mapM_ok_of _ _ _ fun z hz => ?_
  obtain ⟨h1, h2⟩ := hd z (List.mem_range.1 hz)
  rw [readSlice, h1]
  exact stack_good h2

/-- What the slices hold. -/
theorem slice_get (files : Nat → SliceFiles) (z p : Nat) (hg : Good (files z)) (hp : p < (files z).dat.length) :
    ∃ c i, (files z).dat[p]? = some c ∧ (files z).intensity[p]? = some i ∧ ((files z).dat.zip ((files z).intensity.map fun i => -i))[p]? = some (c, -i) := by
  have hp' : p < (files z).intensity.length := by rw [hg.2]; exact hp
  refine ⟨_, _, List.getElem?_eq_getElem hp, List.getElem?_eq_getElem hp', ?_⟩
  rw [List.getElem?_zip_eq_some]
  refine ⟨List.getElem?_eq_getElem hp, ?_⟩
  rw [List.getElem?_map, List.getElem?_eq_getElem hp', Option.map_some]

/-- `mapM` that succeeds item by item. -/
theorem mapM_forall {A B : Type} (f : A → R B) (P : A → B → Prop) (l : List A) (h : ∀ x ∈ l, ∃ y, f x = .ok y ∧ P x y) :
    ∃ out, l.mapM f = .ok out ∧ List.Forall₂ P l out := by
  induction l with
  | nil => exact ⟨[], rfl, List.Forall₂.nil⟩
  | cons x l ih =>
    obtain ⟨y, h1, h2⟩ := h x List.mem_cons_self
    obtain ⟨out, h3, h4⟩ := ih fun z hz => h z (List.mem_cons_of_mem _ hz)
    refine ⟨y :: out, ?_, List.Forall₂.cons h2 h4⟩
    rw [List.mapM_cons, h1, ok_bind, h3, ok_bind]
    rfl

/-- The piles of good files: a point for each position whose slice exists. -/
theorem pile_ok (files : Nat → SliceFiles) (size : Nat) (ratio : ℚ) (hd : ∀ z < size, Good (files z)) (z0 : Nat) (pos : List Nat)
    (hp : ∀ k p, pos[k]? = some p → z0 + k < size → p < (files (z0 + k)).dat.length) :
    ∃ out, pile ratio ((List.range size).map fun z => (files z).dat.zip ((files z).intensity.map fun i => -i)) (z0, pos) = .ok out ∧
      out.length = min pos.length (size - z0) ∧
      ∀ k p, pos[k]? = some p → z0 + k < size → ∃ c i, (files (z0 + k)).dat[p]? = some c ∧ (files (z0 + k)).intensity[p]? = some i ∧
        out[k]? = some ⟨c.x, c.y, ((z0 + k : Nat) : ℚ) * ratio, c.r, -i⟩ := by
  have hget : ∀ k x, ((List.range' z0 pos.length).zip
      ((((List.range size).map fun z => (files z).dat.zip ((files z).intensity.map fun i => -i)).drop z0).zip pos))[k]? = some x →
      ∃ p, pos[k]? = some p ∧ z0 + k < size ∧ x = (z0 + k, (files (z0 + k)).dat.zip ((files (z0 + k)).intensity.map fun i => -i), p) := by
    intro k x hk
    obtain ⟨z, s, p⟩ := x
    rw [List.getElem?_zip_eq_some, List.getElem?_zip_eq_some] at hk
    obtain ⟨h1, h2, h3⟩ := hk
    rw [List.getElem?_drop, List.getElem?_map] at h2
    have hlt : z0 + k < size := by
      by_contra hge
      rw [List.getElem?_eq_none (by rw [List.length_range]; omega)] at h2
      exact absurd h2 (by simp)
    rw [List.getElem?_range hlt, Option.map_some, Option.some.injEq] at h2
    have hkl : k < pos.length := by
      by_contra hge
      simp only at h3
      rw [List.getElem?_eq_none (by omega)] at h3
      exact absurd h3 (by simp)
    rw [List.getElem?_range' hkl, Option.some.injEq] at h1
    simp only at h1 h2 h3
    refine ⟨p, h3, hlt, ?_⟩
    rw [← h2, ← h1, Nat.one_mul]
  obtain ⟨out, h1, h2⟩ := mapM_forall (point ratio) (fun x q => ∃ c, x.2.1[x.2.2]? = some c ∧ q = ⟨c.1.x, c.1.y, x.1 * ratio, c.1.r, c.2⟩)
    ((List.range' z0 pos.length).zip
      ((((List.range size).map fun z => (files z).dat.zip ((files z).intensity.map fun i => -i)).drop z0).zip pos)) (by
    intro x hx
    obtain ⟨k, hk⟩ := List.mem_iff_getElem?.1 hx
    obtain ⟨p, h3, h4, rfl⟩ := hget k x hk
    obtain ⟨c, i, _, _, h5⟩ := slice_get files (z0 + k) p (hd _ h4) (hp k p h3 h4)
    refine ⟨_, ?_, (c, -i), h5, rfl⟩
    rw [point, h5])
  refine ⟨out, h1, ?_, ?_⟩
  · rw [← h2.length_eq, List.length_zip, List.length_range', List.length_zip, List.length_drop, List.length_map, List.length_range]
    omega
  · intro k p hk hlt
    obtain ⟨c, i, hc, hi, h5⟩ := slice_get files (z0 + k) p (hd _ hlt) (hp k p hk hlt)
    refine ⟨c, i, hc, hi, ?_⟩
    have hkl : k < pos.length := by
      by_contra hge
      rw [List.getElem?_eq_none (by omega)] at hk
      exact absurd hk (by simp)
    have hx : ((List.range' z0 pos.length).zip
        ((((List.range size).map fun z => (files z).dat.zip ((files z).intensity.map fun i => -i)).drop z0).zip pos))[k]? =
        some (z0 + k, (files (z0 + k)).dat.zip ((files (z0 + k)).intensity.map fun i => -i), p) := by
      rw [List.getElem?_zip_eq_some, List.getElem?_zip_eq_some, List.getElem?_drop, List.getElem?_map, List.getElem?_range hlt, List.getElem?_range' hkl]
      exact ⟨by simp, rfl, hk⟩
    have hlen := h2.length_eq
    have hko : k < out.length := by
      rw [← hlen]
      by_contra hge
      rw [List.getElem?_eq_none (by omega)] at hx
      exact absurd hx (by simp)
    have hkl' := hlen ▸ hko
    obtain ⟨c', h6, h7⟩ := (List.forall₂_iff_get.1 h2).2 k (by rw [hlen]; exact hko) hko
    have hx' := hx
    rw [List.getElem?_eq_getElem (by rw [hlen]; exact hko), Option.some.injEq] at hx'
    simp only [List.get_eq_getElem, hx'] at h6 h7
    rw [h5, Option.some.injEq] at h6
    rw [List.getElem?_eq_getElem hko, Option.some.injEq]
    rw [h7, ← h6]

/-- C254. If the files of the slices are numbered from 0, with two centers or more each, and the piles are within the slices: each pile is made of the centers
of its positions, in the slices from its first one, with their height in units of the other coordinates, their size and the opposite of their intensity. -/
theorem C254_clusters_partial (disk : Nat → Option SliceFiles) (files : Nat → SliceFiles) (ratio : ℚ) (offset size : Nat) (clusters : List (Nat × List Nat))
    (hd : ∀ z < size, disk z = some (files z) ∧ Good (files z))
    (hc : ∀ cl ∈ clusters, cl.1 + cl.2.length ≤ size ∧ ∀ k p, cl.2[k]? = some p → p < (files (cl.1 + k)).dat.length) :
    ∃ out, loadClusters disk ratio offset size clusters = .ok out ∧
      List.Forall₂ (fun cl pts => pts.length = cl.2.length ∧ ∀ k p, cl.2[k]? = some p →
        ∃ c i, (files (cl.1 + k)).dat[p]? = some c ∧ (files (cl.1 + k)).intensity[p]? = some i ∧
          pts[k]? = some ⟨c.x, c.y, ((cl.1 + k : Nat) : ℚ) * ratio, c.r, -i⟩) clusters out := by
  obtain ⟨out, h1, h2⟩ := mapM_forall (pile ratio ((List.range size).map fun z => (files z).dat.zip ((files z).intensity.map fun i => -i)))
    (fun cl pts => pts.length = cl.2.length ∧ ∀ k p, cl.2[k]? = some p →
        ∃ c i, (files (cl.1 + k)).dat[p]? = some c ∧ (files (cl.1 + k)).intensity[p]? = some i ∧
          pts[k]? = some (⟨c.x, c.y, ((cl.1 + k : Nat) : ℚ) * ratio, c.r, -i⟩ : Point)) clusters (by
    rintro ⟨z0, pos⟩ hcl
    obtain ⟨h3, h4⟩ := hc _ hcl
    simp only at h3 h4
    obtain ⟨pts, h5, h6, h7⟩ := pile_ok files size ratio (fun z hz => (hd z hz).2) z0 pos (fun k p hk _ => h4 k p hk)
    refine ⟨pts, h5, by simp only; omega, fun k p hk => h7 k p hk ?_⟩
    by_contra hge
    simp only at hk
    rw [List.getElem?_eq_none (by omega)] at hk
    exact absurd hk (by simp))
  refine ⟨out, ?_, h2⟩
  rw [loadClusters, slices_ok disk files size hd, ok_bind, h1]

/-- C254, the part that is false. A pile that goes beyond the last slice is cut without an error. -/
theorem C254_end_counterexample (disk : Nat → Option SliceFiles) (files : Nat → SliceFiles) (ratio : ℚ) (offset size z0 : Nat) (pos : List Nat)
    (hd : ∀ z < size, disk z = some (files z) ∧ Good (files z)) (hp : ∀ k p, pos[k]? = some p → z0 + k < size → p < (files (z0 + k)).dat.length)
    (hne : pos ≠ []) (hend : size < z0 + pos.length) :
    ∃ pts, loadClusters disk ratio offset size [(z0, pos)] = .ok [pts] ∧ pts.length = size - z0 ∧ pts.length < pos.length := by
  obtain ⟨pts, h1, h2, _⟩ := pile_ok files size ratio (fun z hz => (hd z hz).2) z0 pos hp
  have hl : 0 < pos.length := List.length_pos_iff.2 hne
  refine ⟨pts, ?_, by omega, by omega⟩
  rw [loadClusters, slices_ok disk files size hd, ok_bind, List.mapM_cons, h1]
  rfl

theorem mapM_error {A B : Type} (f : A → R B) (l : List A) (x : A) (hx : x ∈ l) (e : Fault) (he : f x = .error e) : ∀ out, l.mapM f ≠ .ok out := by
  induction l with
  | nil => exact absurd hx List.not_mem_nil
  | cons y l ih =>
    intro out h
    rw [List.mapM_cons] at h
    obtain ⟨b, h1, h2⟩ := bind_ok.1 h
    obtain ⟨bs, h3, _⟩ := bind_ok.1 h2
    rcases List.mem_cons.1 hx with rfl | hx
    · rw [he] at h1
      exact absurd h1 (by simp)
    · exact ih hx bs h3

/-- C254, the part that is false. A slice with one center or none, as `save_2Dcenters` writes them, and nothing is read. -/
theorem C254_few_counterexample (disk : Nat → Option SliceFiles) (f : SliceFiles) (ratio : ℚ) (offset size z : Nat) (hz : z < size) (hf : disk z = some f)
    (hl : f.intensity.length = f.dat.length) (h1 : f.dat.length ≤ 1) (clusters : List (Nat × List Nat)) (out : List (List Point)) :
    loadClusters disk ratio offset size clusters ≠ .ok out := by
  intro h
  obtain ⟨sl, h2, _⟩ := bind_ok.1 h
  have : ∃ e, readSlice disk z = .error e := by
    rw [readSlice, hf]
    simp only
    rw [stack]
    by_cases h3 : f.intensity.length = 1
    · exact ⟨.outOfRange, by rw [if_pos h3]⟩
    · exact ⟨.invalidArgument, by rw [if_neg h3, if_pos (Or.inl h1)]⟩
  obtain ⟨e, he⟩ := this
  exact mapM_error _ _ z (List.mem_range.2 hz) e he sl h2

/-- C254, the part that is false. The offset of the series is not used: if the files are numbered from an offset that is not zero, nothing is read. -/
theorem C254_offset_counterexample (disk : Nat → Option SliceFiles) (ratio : ℚ) (offset size : Nat) (h0 : 0 < offset) (hs : 0 < size)
    (hd : ∀ z, (disk z).isSome ↔ offset ≤ z ∧ z < offset + size) (clusters : List (Nat × List Nat)) (out : List (List Point)) :
    loadClusters disk ratio offset size clusters ≠ .ok out := by
  intro h
  obtain ⟨sl, h2, _⟩ := bind_ok.1 h
  have h3 : disk 0 = none := by
    cases h4 : disk 0 with
    | none => rfl
    | some f =>
      have := (hd 0).1 (by rw [h4]; rfl)
      omega
  exact mapM_error _ _ 0 (List.mem_range.2 hs) .logicError (by rw [readSlice, h3]) sl h2

/-- C254. A pile with a position beyond the centers of its slice is an error. -/
theorem C254_position (disk : Nat → Option SliceFiles) (files : Nat → SliceFiles) (ratio : ℚ) (offset size : Nat) (clusters : List (Nat × List Nat))
    (hd : ∀ z < size, disk z = some (files z) ∧ Good (files z)) (z0 k p : Nat) (pos : List Nat) (hcl : (z0, pos) ∈ clusters) (hk : pos[k]? = some p)
    (hz : z0 + k < size) (hp : (files (z0 + k)).dat.length ≤ p) (out : List (List Point)) : loadClusters disk ratio offset size clusters ≠ .ok out := by
  intro h
  rw [loadClusters, slices_ok disk files size hd, ok_bind] at h
  have hkl : k < pos.length := by
    by_contra hge
    rw [List.getElem?_eq_none (by omega)] at hk
    exact absurd hk (by simp)
  cases hpile : pile ratio ((List.range size).map fun z => (files z).dat.zip ((files z).intensity.map fun i => -i)) (z0, pos) with
  | error e => exact mapM_error _ _ _ hcl e hpile out h
  | ok pts =>
    refine mapM_error (point ratio) _ (z0 + k, (files (z0 + k)).dat.zip ((files (z0 + k)).intensity.map fun i => -i), p) (List.mem_iff_getElem?.2 ⟨k, ?_⟩)
      .outOfRange ?_ pts hpile
    · rw [List.getElem?_zip_eq_some, List.getElem?_zip_eq_some, List.getElem?_drop, List.getElem?_map, List.getElem?_range hz, List.getElem?_range' hkl]
      exact ⟨by simp, rfl, hk⟩
    · rw [point]
      simp only
      rw [List.getElem?_eq_none (by rw [List.length_zip]; omega)]

/-- Two slices of two centers and a pile. -/
example : (∀ z < 2, (fun _ => some ⟨[⟨1, 2, 3⟩, ⟨4, 5, 6⟩], [-7, -8]⟩ : Nat → Option SliceFiles) z = some ⟨[⟨1, 2, 3⟩, ⟨4, 5, 6⟩], [-7, -8]⟩ ∧
      Good ⟨[⟨1, 2, 3⟩, ⟨4, 5, 6⟩], [-7, -8]⟩) ∧
    loadClusters (fun _ => some ⟨[⟨1, 2, 3⟩, ⟨4, 5, 6⟩], [-7, -8]⟩) 2 0 2 [(0, [1, 0])] = .ok [[⟨4, 5, 0, 6, 8⟩, ⟨1, 2, 2, 3, 7⟩]] := by
  refine ⟨fun z _ => ⟨rfl, by decide, rfl⟩, by decide +kernel⟩

end LoadPiles
end Py
end Colloids
