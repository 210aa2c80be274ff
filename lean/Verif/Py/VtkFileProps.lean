import Mathlib.Tactic.Linarith
import Mathlib.Tactic.NormNum
import Verif.CommonLemmas
import Verif.Py.VtkModel

/-!
# Files of `python/colloids/vtk.py`
-/

namespace Colloids
namespace Py
namespace Vtk

open Tok

variable {F : Type} [Field F]

/-- from a state and a text to another state and the rest of the text, in fewer turns than tokens -/
def Runs (st : Polydata F × Option Nat) (toks : List (Tok F)) (st' : Polydata F × Option Nat) (toks' : List (Tok F)) : Prop :=
  ∃ k, k + toks'.length ≤ toks.length ∧ ∀ j, loadLoop (k + j) st toks = loadLoop j st' toks'

theorem Runs.refl (st : Polydata F × Option Nat) (toks : List (Tok F)) : Runs st toks st toks := ⟨0, by omega, fun j => by rw [Nat.zero_add]⟩

theorem Runs.trans {s1 s2 s3 : Polydata F × Option Nat} {t1 t2 t3 : List (Tok F)} (h1 : Runs s1 t1 s2 t2) (h2 : Runs s2 t2 s3 t3) :
    Runs s1 t1 s3 t3 := by
  obtain ⟨k1, a1, a2⟩ := h1
  obtain ⟨k2, b1, b2⟩ := h2
  refine ⟨k1 + k2, by omega, fun j => ?_⟩
  rw [Nat.add_assoc, a2, b2]

theorem Runs.step {st st' : Polydata F × Option Nat} {toks toks' : List (Tok F)} (hlt : toks'.length < toks.length)
    (h : loadStep st toks = .ok (st', toks')) : Runs st toks st' toks' := by
  refine ⟨1, by omega, fun j => ?_⟩
  rw [Nat.add_comm]
  cases toks with
  | nil => simp at hlt
  | cons t r =>
    rw [loadLoop, h]
    simp

theorem Runs.load {st st' : Polydata F × Option Nat} {toks : List (Tok F)} (h : Runs st toks st' []) :
    loadLoop toks.length st toks = .ok st'.1 := by
  obtain ⟨k, a1, a2⟩ := h
  have := a2 (toks.length - k)
  rw [show k + (toks.length - k) = toks.length by simp at a1; omega] at this
  rw [this, loadLoop]

theorem Runs.error {st st' : Polydata F × Option Nat} {toks toks' : List (Tok F)} {e : Fault} (h : Runs st toks st' toks')
    (hne : toks' ≠ []) (he : loadStep st' toks' = .error e) : loadLoop toks.length st toks = .error e := by
  obtain ⟨k, a1, a2⟩ := h
  have := a2 (toks.length - k)
  have hp := List.length_pos_iff.2 hne
  rw [show k + (toks.length - k) = toks.length by omega] at this
  rw [this]
  obtain ⟨m, hm⟩ : ∃ m, toks.length - k = m + 1 := ⟨toks.length - k - 1, by omega⟩
  rw [hm]
  cases toks' with
  | nil => exact absurd rfl hne
  | cons t r =>
    rw [loadLoop, he]
    exact hne

omit [Field F] in
/-- a text that does not begin by an end of line -/
theorem skipNl_key (s : String) (r : List (Tok F)) : skipNl (key s :: r) = key s :: r := rfl

theorem fromfile_lines (pts : List (F × F × F)) (rest : List (Tok F)) (hr : skipNl rest = rest) :
    fromfile (pts.length * 3) (pts.flatMap line3 ++ rest) = (pts.flatMap fun p => [p.1, p.2.1, p.2.2], rest) := by
  induction pts with
  | nil => rfl
  | cons p pts ih =>
    have hs : skipNl (pts.flatMap line3 ++ rest) = pts.flatMap line3 ++ rest := by
      cases pts with
      | nil => exact hr
      | cons q qs => rfl
    have : (p :: pts).length * 3 = pts.length * 3 + 1 + 1 + 1 := by simp; omega
    rw [this]
    simp only [List.flatMap_cons, List.append_assoc, line3, List.cons_append, List.nil_append, fromfile, skipNl, hs]
    rw [ih]

theorem fromfileI_lines (bonds : List (Nat × Nat)) (rest : List (Tok F)) (hr : skipNl rest = rest) :
    fromfileI (bonds.length * 3) (bonds.flatMap (fun b => [int 2, int b.1, int b.2, nl]) ++ rest) =
      (bonds.flatMap fun b => [2, b.1, b.2], rest) := by
  induction bonds with
  | nil => rfl
  | cons p bonds ih =>
    have hs : skipNl (bonds.flatMap (fun b => [int 2, int b.1, int b.2, nl]) ++ rest) =
        bonds.flatMap (fun b => [int 2, int b.1, int b.2, nl]) ++ rest := by
      cases bonds with
      | nil => exact hr
      | cons q qs => rfl
    have : (p :: bonds).length * 3 = bonds.length * 3 + 1 + 1 + 1 := by simp; omega
    rw [this]
    simp only [List.flatMap_cons, List.append_assoc, List.cons_append, List.nil_append, fromfileI, skipNl, hs]
    rw [ih]

theorem fromfile_column (field : List F) (rest : List (Tok F)) (hr : skipNl rest = rest) :
    fromfile field.length ((field.flatMap fun x => [num x, nl]) ++ rest) = (field, rest) := by
  induction field with
  | nil => rfl
  | cons x field ih =>
    have hs : skipNl ((field.flatMap fun x => [num x, nl]) ++ rest) = (field.flatMap fun x => [num x, nl]) ++ rest := by
      cases field with
      | nil => exact hr
      | cons q qs => rfl
    simp only [List.flatMap_cons, List.append_assoc, List.cons_append, List.nil_append, List.length_cons, fromfile, skipNl, hs]
    rw [ih]

theorem triples_flat {α : Type} (pts : List (α × α × α)) : triples (pts.flatMap fun p => [p.1, p.2.1, p.2.2]) = pts := by
  induction pts with
  | nil => rfl
  | cons p pts ih =>
    simp only [List.flatMap_cons, List.cons_append, List.nil_append, triples]
    rw [ih]

theorem flat_length {α : Type} {β : Type} (pts : List β) (f g h : β → α) : (pts.flatMap fun p => [f p, g p, h p]).length = pts.length * 3 := by
  induction pts with
  | nil => rfl
  | cons p pts ih => simp only [List.flatMap_cons, List.length_append, ih, List.length_cons, List.length_nil]; omega

theorem run_header (st : Polydata F × Option Nat) (name : String) (rest : List (Tok F)) :
    Runs st ([key "#", key "vtk", key "DataFile", key "Version", key "3.0", nl, key name, nl, key "ASCII", nl,
      key "DATASET", key "POLYDATA", nl] ++ rest) ({ st.1 with name := name }, st.2) rest := by
  refine Runs.trans (s2 := ({ st.1 with name := name }, st.2)) (t2 := [key "ASCII", nl, key "DATASET", key "POLYDATA", nl] ++ rest)
    (Runs.step (by simp) (by simp [loadStep, readline])) ?_
  refine Runs.trans (s2 := ({ st.1 with name := name }, st.2)) (t2 := [key "DATASET", key "POLYDATA", nl] ++ rest)
    (Runs.step (by simp) (by simp [loadStep, readline])) ?_
  exact Runs.step (by simp; omega) (by simp [loadStep, readline])

theorem run_points (st : Polydata F × Option Nat) (pts : List (F × F × F)) (rest : List (Tok F)) (hr : skipNl rest = rest) :
    Runs st (([key "POINTS", int pts.length, key "double", nl] ++ pts.flatMap line3) ++ rest)
      ({ st.1 with points := pts }, some pts.length) rest := by
  refine Runs.step (by simp; omega) ?_
  rw [List.append_assoc]
  simp only [loadStep, readline, List.cons_append, List.nil_append]
  rw [fromfile_lines pts rest hr]
  simp only [flat_length, if_true, triples_flat]

theorem run_lines (st : Polydata F × Option Nat) (bonds : List (Nat × Nat)) (rest : List (Tok F)) (hr : skipNl rest = rest) :
    Runs st (([key "LINES", int bonds.length, int (3 * bonds.length), nl] ++
      bonds.flatMap fun b => [int 2, int b.1, int b.2, nl]) ++ rest)
      ({ st.1 with bonds := bonds }, some bonds.length) rest := by
  refine Runs.step (by simp; omega) ?_
  rw [List.append_assoc]
  simp only [loadStep, readline, List.cons_append, List.nil_append]
  rw [fromfileI_lines bonds rest hr]
  simp only [flat_length, if_true]
  have : (triples (bonds.flatMap fun b => [2, b.1, b.2])).map (fun t => (t.2.1, t.2.2)) = bonds := by
    induction bonds with
    | nil => rfl
    | cons b bonds ih =>
      simp only [List.flatMap_cons, List.cons_append, List.nil_append, triples, List.map_cons]
      rw [ih]
  rw [this]

theorem run_pointData (st : Polydata F × Option Nat) (n : Nat) (rest : List (Tok F)) :
    Runs st ([key "POINT_DATA", int n, nl] ++ rest) (st.1, some n) rest :=
  Runs.step (by simp; omega) (by simp [loadStep, readline])

theorem run_cellData (st : Polydata F × Option Nat) (n : Nat) (rest : List (Tok F)) :
    Runs st ([key "CELL_DATA", int n, nl] ++ rest) st rest :=
  Runs.step (by simp; omega) (by simp [loadStep, readline])

theorem run_scalar (d : Polydata F) (s : String × List F) (rest : List (Tok F)) (hr : skipNl rest = rest) (hne : s.2 ≠ []) :
    Runs (d, some s.2.length) (saveScalar s ++ rest) ({ d with scalars := d.scalars ++ [s] }, some s.2.length) rest := by
  unfold saveScalar column
  rw [if_neg hne]
  refine Runs.step (by simp; omega) ?_
  rw [List.append_assoc]
  simp only [loadStep, readline, List.cons_append, List.nil_append]
  rw [fromfile_column s.2 rest hr]

omit [Field F] in
theorem skip_scalars (l : List (String × List F)) (rest : List (Tok F)) (hr : skipNl rest = rest) :
    skipNl (l.flatMap saveScalar ++ rest) = l.flatMap saveScalar ++ rest := by
  cases l with
  | nil => exact hr
  | cons q qs => rfl

theorem run_scalars (d : Polydata F) (n : Nat) (l : List (String × List F)) (rest : List (Tok F)) (hr : skipNl rest = rest) (hn : 0 < n)
    (hl : ∀ s ∈ l, s.2.length = n) :
    Runs (d, some n) (l.flatMap saveScalar ++ rest) ({ d with scalars := d.scalars ++ l }, some n) rest := by
  induction l generalizing d with
  | nil => simpa using Runs.refl (d, some n) rest
  | cons s l ih =>
    have hs := hl s (by simp)
    rw [List.flatMap_cons, List.append_assoc]
    have h1 := run_scalar d s (l.flatMap saveScalar ++ rest) (skip_scalars l rest hr)
      (by rintro h; rw [h] at hs; simp at hs; omega)
    rw [hs] at h1
    refine h1.trans ?_
    have h2 := ih { d with scalars := d.scalars ++ [s] } (fun s hs => hl s (by simp [hs]))
    simpa using h2

theorem run_vectors (d : Polydata F) (n : Nat) (l : List (String × List (F × F × F))) (rest : List (Tok F)) (hr : skipNl rest = rest)
    (hl : ∀ s ∈ l, s.2.length = n) :
    Runs (d, some n) ((l.flatMap fun v => [key "VECTORS", key v.1, key "double", nl] ++ v.2.flatMap line3) ++ rest)
      ({ d with vectors := d.vectors ++ l }, some n) rest := by
  induction l generalizing d with
  | nil => simpa using Runs.refl (d, some n) rest
  | cons v l ih =>
    have hs := hl v (by simp)
    rw [List.flatMap_cons, List.append_assoc]
    have hsk : skipNl ((l.flatMap fun v => [key "VECTORS", key v.1, key "double", nl] ++ v.2.flatMap line3) ++ rest) =
        (l.flatMap fun v => [key "VECTORS", key v.1, key "double", nl] ++ v.2.flatMap line3) ++ rest := by
      cases l with
      | nil => exact hr
      | cons q qs => rfl
    have h1 : Runs (d, some n) (([key "VECTORS", key v.1, key "double", nl] ++ v.2.flatMap line3) ++
        ((l.flatMap fun v => [key "VECTORS", key v.1, key "double", nl] ++ v.2.flatMap line3) ++ rest))
        ({ d with vectors := d.vectors ++ [v] }, some n)
        ((l.flatMap fun v => [key "VECTORS", key v.1, key "double", nl] ++ v.2.flatMap line3) ++ rest) := by
      refine Runs.step (by simp; omega) ?_
      rw [List.append_assoc]
      simp only [loadStep, readline, List.cons_append, List.nil_append]
      simp only [List.cons_append, List.nil_append] at hsk
      rw [← hs, fromfile_lines v.2 _ hsk]
      simp only [flat_length, if_true, triples_flat]
    refine h1.trans ?_
    have h2 := ih { d with vectors := d.vectors ++ [v] } (fun s hs => hl s (by simp [hs]))
    simpa using h2

/-- up to the last vector field -/
theorem run_save (d : Polydata F) (hs : d.scalars = [] ∨ d.points ≠ []) (h1 : ∀ s ∈ d.scalars, s.2.length = d.points.length)
    (h2 : ∀ v ∈ d.vectors, v.2.length = d.points.length) (rest : List (Tok F)) (hr : skipNl rest = rest) :
    Runs (Polydata.empty, none) (([key "#", key "vtk", key "DataFile", key "Version", key "3.0", nl, key d.name, nl, key "ASCII", nl,
      key "DATASET", key "POLYDATA", nl] ++
      ([key "POINTS", int d.points.length, key "double", nl] ++ d.points.flatMap line3) ++
      ([key "LINES", int d.bonds.length, int (3 * d.bonds.length), nl] ++
        d.bonds.flatMap fun b => [int 2, int b.1, int b.2, nl]) ++
      [key "POINT_DATA", int d.points.length, nl] ++
      d.scalars.flatMap saveScalar ++
      (d.vectors.flatMap fun v => [key "VECTORS", key v.1, key "double", nl] ++ v.2.flatMap line3)) ++ rest)
      ({ d with bondsScalars := [] }, some d.points.length) rest := by
  simp only [List.append_assoc]
  refine (run_header _ d.name _).trans ?_
  rw [← List.append_assoc]
  refine (run_points _ d.points _ rfl).trans ?_
  rw [← List.append_assoc]
  refine (run_lines _ d.bonds _ rfl).trans ?_
  refine (run_pointData _ d.points.length _).trans ?_
  have hsv : skipNl ((d.vectors.flatMap fun v => [key "VECTORS", key v.1, key "double", nl] ++ v.2.flatMap line3) ++ rest) =
      (d.vectors.flatMap fun v => [key "VECTORS", key v.1, key "double", nl] ++ v.2.flatMap line3) ++ rest := by
    cases d.vectors with
    | nil => exact hr
    | cons q qs => rfl
  have hscal : Runs (({ (Polydata.empty : Polydata F) with name := d.name, points := d.points, bonds := d.bonds }), some d.points.length)
      (d.scalars.flatMap saveScalar ++
        ((d.vectors.flatMap fun v => [key "VECTORS", key v.1, key "double", nl] ++ v.2.flatMap line3) ++ rest))
      (({ (Polydata.empty : Polydata F) with name := d.name, points := d.points, bonds := d.bonds, scalars := d.scalars }), some d.points.length)
      ((d.vectors.flatMap fun v => [key "VECTORS", key v.1, key "double", nl] ++ v.2.flatMap line3) ++ rest) := by
    rcases hs with hs | hs
    · rw [hs]
      exact Runs.refl _ _
    · have := run_scalars ({ (Polydata.empty : Polydata F) with name := d.name, points := d.points, bonds := d.bonds }) d.points.length
        d.scalars _ hsv (List.length_pos_iff.2 hs) h1
      simpa [Polydata.empty] using this
  refine Runs.trans ?_ (Runs.trans hscal ?_)
  · exact Runs.refl _ _
  · have := run_vectors ({ (Polydata.empty : Polydata F) with name := d.name, points := d.points, bonds := d.bonds, scalars := d.scalars })
      d.points.length d.vectors rest hr h2
    simpa [Polydata.empty] using this

/-- **C206** What is saved is loaded: name, points, bonds, scalars and vectors, if the fields have one value by point, there is
at least one point (or no scalar field) and no field on the bonds. -/
theorem C206_roundtrip_partial (d : Polydata F) (hs : d.scalars = [] ∨ d.points ≠ []) (h1 : ∀ s ∈ d.scalars, s.2.length = d.points.length)
    (h2 : ∀ v ∈ d.vectors, v.2.length = d.points.length) (h3 : d.bondsScalars = []) : load (save d) = .ok d := by
  unfold load
  have h := run_save d hs h1 h2 [] rfl
  rw [List.append_nil] at h
  unfold save
  rw [if_pos h3, List.append_nil, h.load]
  cases d
  simp only at h3
  simp [h3]

theorem loadStep_bondsScalars (st : Polydata F × Option Nat) (toks : List (Tok F)) (r : (Polydata F × Option Nat) × List (Tok F))
    (h : loadStep st toks = .ok r) : r.1.1.bondsScalars = st.1.bondsScalars := by
  unfold loadStep at h
  dsimp only at h
  split at h
  · cases h
  · split at h <;> cases h <;> rfl
  · split at h <;> cases h <;> rfl
  · split at h <;> cases h <;> rfl
  · cases h; rfl
  · split at h <;> cases h <;> rfl
  · split at h
    · cases h
    · split at h <;> cases h <;> rfl
  · cases h; rfl

/-- **C206** Counterexample: whatever the file, no field on the bonds is loaded: data that have one do not come back. -/
theorem C206_cells_counterexample :
    (∀ (toks : List (Tok F)) (d : Polydata F), load toks = .ok d → d.bondsScalars = []) ∧
    ∀ d : Polydata F, d.bondsScalars ≠ [] → load (save d) ≠ .ok d := by
  have key : ∀ (toks : List (Tok F)) (d : Polydata F), load toks = .ok d → d.bondsScalars = [] := by
    intro toks d h
    unfold load at h
    have gen : ∀ (k : Nat) (st : Polydata F × Option Nat) (toks : List (Tok F)), loadLoop k st toks = .ok d → d.bondsScalars = st.1.bondsScalars := by
      intro k
      induction k with
      | zero =>
        intro st toks h
        cases toks with
        | nil => rw [loadLoop] at h; cases h; rfl
        | cons t r => rw [loadLoop] at h; cases h; simp
      | succ k ih =>
        intro st toks h
        cases toks with
        | nil => rw [loadLoop] at h; cases h; rfl
        | cons t r =>
          rw [loadLoop] at h
          · split at h
            · cases h
            · rename_i r' hr
              rw [ih _ _ h, loadStep_bondsScalars _ _ _ hr]
          · simp
    exact gen _ _ _ h
  exact ⟨key, fun d hd h => hd (key _ _ h)⟩

/-- **C206** Counterexample: a field on the bonds is taken for a field on the points, here with as many bonds as points. -/
theorem C206_cells_as_points_counterexample (d : Polydata F) (hp : d.points ≠ []) (h1 : ∀ s ∈ d.scalars, s.2.length = d.points.length)
    (h2 : ∀ v ∈ d.vectors, v.2.length = d.points.length) (nm : String) (fld : List F) (hf : fld.length = d.points.length)
    (h3 : d.bondsScalars = [(nm, fld)]) :
    load (save d) = .ok { d with scalars := d.scalars ++ [(nm, fld)], bondsScalars := [] } := by
  unfold load
  have hne : d.bondsScalars ≠ [] := by rw [h3]; simp
  unfold save
  rw [if_neg hne]
  have h := run_save d (Or.inr hp) h1 h2 ([key "CELL_DATA", int d.bonds.length, nl] ++ d.bondsScalars.flatMap saveScalar) rfl
  have hc := run_cellData ({ d with bondsScalars := [] }, some d.points.length) d.bonds.length (d.bondsScalars.flatMap saveScalar)
  have hsc := run_scalars { d with bondsScalars := [] } d.points.length d.bondsScalars [] rfl (List.length_pos_iff.2 hp)
    (by rw [h3]; simpa using hf)
  rw [List.append_nil] at hsc
  rw [((h.trans hc).trans hsc).load, h3]

/-- **C206** Counterexample: data without any point but with a scalar field are saved to a file that cannot be loaded. -/
theorem C206_empty_counterexample (name nm : String) : load (save (⟨name, [], [], [(nm, [])], [], []⟩ : Polydata F)) = .error .outOfRange := by
  unfold load
  have h := run_save (⟨name, [], [], [], [], []⟩ : Polydata F) (Or.inl rfl) (by simp) (by simp) (saveScalar (nm, [])) rfl
  have hs : Runs (F := F) (⟨name, [], [], [], [], []⟩, some 0) (saveScalar (nm, [])) (⟨name, [], [], [(nm, [])], [], []⟩, some 0) [nl] :=
    Runs.step (by simp [saveScalar, column]) (by simp [saveScalar, column, loadStep, readline, fromfile])
  have := (h.trans hs).error (by simp) (e := .outOfRange) (by simp [loadStep, readline])
  simpa [save] using this

/-- data with two points, one bond and a field of each kind -/
example : let d : Polydata ℚ := ⟨"a", [(0, 0, 0), (1, 1, 1)], [(0, 1)], [("s", [1, 2])], [("v", [(1, 2, 3), (4, 5, 6)])], []⟩
    d.points ≠ [] ∧ (∀ s ∈ d.scalars, s.2.length = d.points.length) ∧ (∀ v ∈ d.vectors, v.2.length = d.points.length) ∧ d.bondsScalars = [] := by
  simp

end Vtk
end Py
end Colloids
