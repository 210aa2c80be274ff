import Verif.Mains.T2vModel
import Verif.Mains.LostProps
import Verif.DynField.Props
import Verif.Bonds.Props

/-! # C216: traj2vtk; C217: cage2vtk -/

namespace Colloids
namespace Mains

open DynField

variable {G : Type} [Field G] [LinearOrder G]

/-! ### The tables -/

theorem readInto_full {nums v : List G} (h : nums.length = v.length) : readInto (some nums) v = .ok nums := by
  unfold readInto copyInto
  simp [h]

theorem resizeTable_length (w n : Nat) (qw : List G) : (resizeTable w n qw).length = n * w := by
  unfold resizeTable
  simp
  omega

/-- all the files are complete -/
def FullCloud (w : Nat) (cloud : Nat → Option (List G)) (sizes : List Nat) : Prop :=
  ∀ t n, sizes[t]? = some n → ∃ nums, cloud t = some nums ∧ nums.length = n * w

theorem readTables_aux (w : Nat) (cloud : Nat → Option (List G)) : ∀ (l : List (Nat × Nat)) (st : List G × List (List G)),
    (∀ x ∈ l, ∃ nums, cloud x.2 = some nums ∧ nums.length = x.1 * w) →
    ∃ q, l.foldlM (fun (st : List G × List (List G)) x => do
      let qw ← readInto (cloud x.2) (resizeTable w x.1 st.1)
      (.ok (qw, st.2 ++ [qw]) : R (List G × List (List G)))) st = .ok (q, st.2 ++ l.map fun x => (cloud x.2).getD []) := by
  intro l
  induction l with
  | nil => intro st _; exact ⟨st.1, by simp⟩
  | cons x l ih =>
    intro st h
    obtain ⟨nums, h1, h2⟩ := h x (by simp)
    have h3 : readInto (cloud x.2) (resizeTable w x.1 st.1) = .ok nums := by
      rw [h1]
      exact readInto_full (by rw [h2, resizeTable_length])
    obtain ⟨q, hq⟩ := ih (nums, st.2 ++ [nums]) (fun y hy => h y (by simp [hy]))
    refine ⟨q, ?_⟩
    rw [List.foldlM_cons, h3, ok_bind, ok_bind, hq]
    simp [h1]

theorem readTables_full {w : Nat} {cloud : Nat → Option (List G)} {sizes : List Nat} (h : FullCloud w cloud sizes) :
    readTables w cloud sizes = .ok (sizes.zipIdx.map fun x => (cloud x.2).getD []) := by
  unfold readTables
  obtain ⟨q, hq⟩ := readTables_aux w cloud sizes.zipIdx ([], []) (fun x hx => h x.2 x.1 (by
    have := List.mk_mem_zipIdx_iff_getElem?.1 hx
    exact this))
  rw [hq]
  simp

theorem flatRows_length {α : Type} (w n : Nat) (f : Nat → List α) (hf : ∀ p, p < n → (f p).length = w) :
    ((List.range n).flatMap f).length = n * w := by
  induction n with
  | zero => simp
  | succ n ih =>
    rw [List.range_succ, List.flatMap_append, List.length_append, ih (fun p hp => hf p (by omega))]
    simp [hf n (by omega), Nat.succ_mul]

theorem flatRows_get {α : Type} (w n : Nat) (f : Nat → List α) (hf : ∀ p, p < n → (f p).length = w) {p i : Nat} (hp : p < n) (hi : i < w) :
    ((List.range n).flatMap f)[p * w + i]? = (f p)[i]? := by
  induction n with
  | zero => omega
  | succ n ih =>
    have hl := flatRows_length w n f (fun q hq => hf q (by omega))
    rw [List.range_succ, List.flatMap_append]
    by_cases h : p < n
    · rw [List.getElem?_append_left, ih (fun q hq => hf q (by omega)) h]
      rw [hl]
      calc p * w + i < p * w + w := by omega
        _ = (p + 1) * w := by ring
        _ ≤ n * w := Nat.mul_le_mul_right _ h
    · have : p = n := by omega
      subst this
      rw [List.getElem?_append_right (by omega), hl]
      simp

theorem column_length (w n : Nat) (qw : List G) (i : Nat) : (column w n qw i).length = n := by simp [column]

theorem column_get (w n : Nat) (qw : List G) (i p : Nat) (hp : p < n) : (column w n qw i)[p]? = some (qw.getD (p * w + i) 0) := by
  simp [column, hp]

/-- the column `i` of the files of all the times -/
def cloudFrames (w : Nat) (cloud : Nat → Option (List G)) (sizes : List Nat) (i : Nat) : List (List G) :=
  sizes.zipIdx.map fun x => column w x.1 ((cloud x.2).getD []) i

theorem cloudFrames_lengths (w : Nat) (cloud : Nat → Option (List G)) (sizes : List Nat) (i : Nat) :
    (cloudFrames w cloud sizes i).map List.length = sizes := by
  unfold cloudFrames
  rw [List.map_map]
  have : (List.length ∘ fun x : Nat × Nat => column w x.1 ((cloud x.2).getD []) i) = Prod.fst := by
    funext x
    simp [column_length]
  rw [this]
  exact List.zipIdx_map_fst 0 sizes

theorem zipWith_zipIdx (w : Nat) (cloud : Nat → Option (List G)) (i : Nat) : ∀ (sizes : List Nat) (k : Nat),
    List.zipWith (fun n qw => column w n qw i) sizes ((sizes.zipIdx k).map fun x => (cloud x.2).getD []) =
      (sizes.zipIdx k).map fun x => column w x.1 ((cloud x.2).getD []) i := by
  intro sizes
  induction sizes with
  | nil => intro k; rfl
  | cons n l ih => intro k; simp [ih]

theorem inverse_lengths {D : Type} [LinearOrder D] {n : Nat} {hist : List (Followers D × Nat)}
    {tm : TrajMap} (h : TrajMap.run n hist = .ok tm) (hlen : hist.length + 1 ≤ szMod)
    {ti : TrajIndex} (hti : TrajIndex.ofMap tm = .ok ti) : ti.inverse.map List.length = n :: hist.map Prod.snd := by
  obtain ⟨hs, -⟩ := sound_of_run (V := Nat) h hlen hti (frames := (n :: hist.map Prod.snd).map fun k => List.replicate k 0)
    (by rw [List.map_map]; simp [Function.comp_def])
  have h1 := hs.frameCount
  have h2 := hs.sizes
  simp only [List.length_map] at h1 h2
  apply List.ext_getElem
  · simp only [List.length_map]; exact h1.symm
  · intro t ht ht'
    have := h2 t (by simpa using ht')
    unfold npos at this
    rw [List.getElem?_eq_getElem (by simpa using ht), List.getElem_map] at this
    simpa using this.symm

/-- The mean of the non null values of a trajectory in the files of a film, in a window of `half` frames on each side. -/
def windowMean (ti : TrajIndex) (frames : List (List G)) (half tr t : Nat) : G :=
  (windowValues scalarOps ti frames half tr t).sum / (max 1 (windowValues scalarOps ti frames half tr t).length : Nat)

/-- **C216**. For a linked film with a complete file of invariants for each frame, and an interval shorter than twice the film, `export_timeBoo`
writes for each frame a line per position with the columns in the same order: the mean of the non null values of the trajectory of this position over
the window clipped to the film. -/
theorem C216_columns_partial {D : Type} [LinearOrder D] {n : Nat}
    {hist : List (Followers D × Nat)} {tm : TrajMap} (h : TrajMap.run n hist = .ok tm)
    (hlen : hist.length + 1 ≤ szMod) {ti : TrajIndex} (hti : TrajIndex.ofMap tm = .ok ti)
    (w tau : Nat) (cloud : Nat → Option (List G)) (hc : FullCloud w cloud (n :: hist.map Prod.snd))
    (hpos : 0 < tau / 2) (hlong : tau / 2 < hist.length + 1) :
    ∃ out, timeBoo w ti tau cloud = .ok out ∧ out.length = hist.length + 1 ∧
      (∀ (t k : Nat), (n :: hist.map Prod.snd)[t]? = some k → ∃ nums : List G, out[t]? = some nums ∧ nums.length = k * w) ∧
      ∀ (t p tr i : Nat), Linked tm t p tr → i < w → ∃ nums : List G, out[t]? = some nums ∧
        nums[p * w + i]? = some (windowMean ti (cloudFrames w cloud (n :: hist.map Prod.snd) i) (tau / 2) tr t) := by
  have hsz := inverse_lengths h hlen hti
  generalize hS : n :: hist.map Prod.snd = sizes at *
  have hSl : sizes.length = hist.length + 1 := by rw [← hS]; simp
  -- the fields
  have hfield : ∀ i, ∃ f, pushAll scalarOps ti tau (cloudFrames w cloud sizes i) = .ok f ∧
      (∀ t k, sizes[t]? = some k → ∃ row, f.view t = .ok row ∧ row.length = k) ∧
      ∀ (t p tr : Nat), Linked tm t p tr → ∃ row, f.view t = .ok row ∧
        row[p]? = some (windowMean ti (cloudFrames w cloud sizes i) (tau / 2) tr t) := by
    intro i
    have hfl : (cloudFrames w cloud sizes i).length = sizes.length := by simp [cloudFrames]
    obtain ⟨f, f1, f2, f3⟩ := C30_window_mean_partial h hlen hti scalarOps tau (cloudFrames w cloud sizes i)
      (by rw [cloudFrames_lengths, hS]) hpos (by rw [hfl, hSl]; exact hlong)
    refine ⟨f, f1, ?_, ?_⟩
    · intro t k hk
      have ht := (List.getElem?_eq_some_iff.1 hk).1
      obtain ⟨row, r1, r2⟩ := f2 t (by omega)
      refine ⟨row, r1, ?_⟩
      rw [r2]
      have hkk := (List.getElem?_eq_some_iff.1 hk).2
      simp [cloudFrames, column_length, hkk]
    · intro t p tr hL
      obtain ⟨row, r1, r2⟩ := f3 t p tr hL
      refine ⟨row, r1, ?_⟩
      rw [r2, ← List.sum_eq_foldl]
      rfl
  choose f f1 f2 f3 using hfield
  have hmap : (List.range w).mapM (fun i => pushAll scalarOps ti tau
      (List.zipWith (fun n qw => column w n qw i) sizes (sizes.zipIdx.map fun x => (cloud x.2).getD []))) = .ok ((List.range w).map f) := by
    apply TreeIndex.mapM_ok_of
    intro i _
    rw [zipWith_zipIdx]
    exact f1 i
  have hrow : ∀ x ∈ sizes.zipIdx, ∃ y, (do
      let s ← ((List.range w).map f).mapM fun (g : DynField G) => g.view x.2
      (.ok ((List.range x.1).flatMap fun p => s.map fun (c : List G) => c.getD p 0) : R (List G))) = .ok y ∧ (y.length = x.1 * w ∧
        ∀ p tr i, Linked tm x.2 p tr → i < w → p < x.1 →
          y[p * w + i]? = some (windowMean ti (cloudFrames w cloud sizes i) (tau / 2) tr x.2)) := by
    intro x hx
    have hk : sizes[x.2]? = some x.1 := List.mk_mem_zipIdx_iff_getElem?.1 hx
    have hex : ∀ i, ∃ row, (f i).view x.2 = .ok row ∧ row.length = x.1 := fun i => f2 i x.2 x.1 hk
    choose r r1 r2 using hex
    have hs : ((List.range w).map f).mapM (fun g => g.view x.2) = .ok ((List.range w).map r) := by
      rw [List.mapM_map]
      exact TreeIndex.mapM_ok_of _ _ _ (fun i _ => r1 i)
    rw [hs, ok_bind]
    refine ⟨_, rfl, flatRows_length w _ _ (fun p _ => by simp), ?_⟩
    intro p tr i hL hi hp
    rw [flatRows_get w _ _ (fun p _ => by simp) hp hi]
    obtain ⟨row, q1, q2⟩ := f3 i x.2 p tr hL
    rw [r1 i] at q1
    injection q1 with q1
    subst q1
    have : (r i).getD p 0 = windowMean ti (cloudFrames w cloud sizes i) (tau / 2) tr x.2 := by
      rw [List.getD_eq_getElem?_getD, q2]; rfl
    simp [hi, ← this]
  obtain ⟨out, o1, o2, o3⟩ := mapM_spec sizes.zipIdx hrow
  refine ⟨out, ?_, ?_, ?_, ?_⟩
  · unfold timeBoo
    rw [hsz]
    simp only []
    rw [readTables_full hc, ok_bind, hmap, ok_bind]
    exact o1
  · rw [o2]; simp [hSl]
  · intro t k hk
    obtain ⟨y, y1, y2, -⟩ := o3 t (k, t) (by simp [hk])
    exact ⟨y, y1, y2⟩
  · intro t p tr i hL hi
    obtain ⟨hs, hlk⟩ := sound_of_run h hlen hti (frames := cloudFrames w cloud sizes 0) (by rw [cloudFrames_lengths, hS])
    obtain ⟨a, b, -⟩ := hlk t p tr hL
    have hkk : sizes[t]? = some (npos ti t) := by
      rw [← hsz]
      unfold npos
      simp [a]
    obtain ⟨y, y1, y2, y3⟩ := o3 t (npos ti t, t) (by simp [hkk])
    exact ⟨y, y1, y3 p tr i hL hi b⟩

/-! ### Running again -/

theorem writeSerie_twice {α : Type} (s : Nat → Option α) (l : List α) : writeSerie (writeSerie s l) l = writeSerie s l := by
  funext t
  unfold writeSerie
  cases l[t]? <;> simp

theorem ensure_again {α : Type} {size : Nat} {s s' : Nat → Option α} {c : R (List α)} (h : ensure size s c = .ok s') :
    ensure size s' c = .ok s' := by
  unfold ensure at h
  by_cases h1 : hasSerie size s = true
  · rw [if_pos h1] at h
    injection h with h
    subst h
    unfold ensure
    rw [if_pos h1]
  · rw [if_neg h1] at h
    obtain ⟨l, hl, h2⟩ := bind_ok.1 h
    injection h2 with h2
    subst h2
    unfold ensure
    split
    · rfl
    · rw [hl, ok_bind, writeSerie_twice]

theorem ensure_has {α : Type} {size : Nat} {s s' : Nat → Option α} {c : R (List α)} (h : ensure size s c = .ok s')
    (hl : ∀ l, c = .ok l → l.length = size) (h0 : 0 < size) (hs : size ≤ szMod) : hasSerie size s' = true := by
  unfold ensure at h
  by_cases h1 : hasSerie size s = true
  · rw [if_pos h1] at h
    injection h with h
    subst h
    exact h1
  · rw [if_neg h1] at h
    obtain ⟨l, hc, h2⟩ := bind_ok.1 h
    injection h2 with h2
    subst h2
    have hll := hl l hc
    have hlast : (size + (szMod - 1)) % szMod = size - 1 := by
      have : size + (szMod - 1) = (size - 1) + szMod := by omega
      rw [this, Nat.add_mod_right, Nat.mod_eq_of_lt (by omega)]
    unfold hasSerie writeSerie
    rw [hlast, List.getElem?_eq_getElem (by omega), List.getElem?_eq_getElem (by omega)]
    rfl

variable {V : Type} [Zero V]

omit [Zero V] [Field G] [LinearOrder G] in
theorem ensureIsf_again {F : FilmData G V} {arg : Option Nat} {a b : Option (List G)} (h : ensureIsf F arg a = .ok b) : ensureIsf F arg b = .ok b := by
  unfold ensureIsf at h
  split at h
  · obtain ⟨l, -, h2⟩ := bind_ok.1 h
    injection h2 with h2
    subst h2
    simp [ensureIsf]
  · rename_i hc
    injection h with h
    subst h
    unfold ensureIsf
    rw [if_neg hc]

omit [Zero V] in
theorem data_again {F : FilmData G V} {arg : Option Nat} {d : VtkDisk G V} {r : VtkDisk G V × Bool} {v : Nat → Option (VtkOut G V)}
    (h : traj2vtkData F arg d = .ok r) : traj2vtkData F arg { r.1 with vtk := v } = .ok ({ r.1 with vtk := v }, r.2) := by
  unfold traj2vtkData at h
  obtain ⟨isf, h1, h⟩ := bind_ok.1 h
  obtain ⟨tau, h2, h⟩ := bind_ok.1 h
  obtain ⟨vel, h3, h⟩ := bind_ok.1 h
  obtain ⟨lngb, h4, h⟩ := bind_ok.1 h
  obtain ⟨boo, h5, h⟩ := bind_ok.1 h
  obtain ⟨cgBoo, h6, h⟩ := bind_ok.1 h
  obtain ⟨phi, h7, h⟩ := bind_ok.1 h
  injection h with h
  subst h
  unfold traj2vtkData
  simp only [ensureIsf_again h1, ok_bind, h2, ensure_again h3, ensure_again h4, ensure_again h5, ensure_again h6]
  unfold ensurePhi at h7 ⊢
  by_cases hv : hasSerie F.ti.inverse.length d.vol = true
  · rw [if_pos hv] at h7
    simp only [hv, if_true, ensure_again h7, ok_bind, Bool.or_true]
  · rw [if_neg hv] at h7
    injection h7 with h7
    subst h7
    simp only [if_neg hv, ok_bind]

/-- **C216**. Run again with the same arguments, `traj2vtk` leaves the same files, whatever was there the first time. -/
theorem C216_again {F : FilmData G V} {arg : Option Nat} {d d' : VtkDisk G V} (h : traj2vtk F arg d = .ok d') : traj2vtk F arg d' = .ok d' := by
  unfold traj2vtk at h
  obtain ⟨r, h1, h⟩ := bind_ok.1 h
  obtain ⟨out, h2, h⟩ := bind_ok.1 h
  injection h with h
  subst h
  unfold traj2vtk
  rw [data_again h1, ok_bind]
  have : (List.range F.ti.inverse.length).mapM (vtkFrame { r.1 with vtk := writeSerie r.1.vtk out } r.2) = .ok out := h2
  rw [this, ok_bind]
  simp only [writeSerie_twice]

theorem mapM_len {α β : Type} {f : α → R β} {l : List α} {out : List β} (h : l.mapM f = .ok out) : out.length = l.length := by
  induction l generalizing out with
  | nil => simp at h; subst h; rfl
  | cons a l ih =>
    rw [List.mapM_cons] at h
    obtain ⟨b, -, h⟩ := bind_ok.1 h
    obtain ⟨bs, h2, h⟩ := bind_ok.1 h
    injection h with h
    subst h
    simp [ih h2]

theorem mapM_at {α β : Type} {f : α → R β} {l : List α} {out : List β} (h : l.mapM f = .ok out) {i : Nat} {x : α} (hx : l[i]? = some x) :
    ∃ y, out[i]? = some y ∧ f x = .ok y := by
  induction l generalizing out i with
  | nil => simp at hx
  | cons a l ih =>
    rw [List.mapM_cons] at h
    obtain ⟨b, h1, h⟩ := bind_ok.1 h
    obtain ⟨bs, h2, h⟩ := bind_ok.1 h
    injection h with h
    subst h
    cases i with
    | zero =>
      simp at hx
      subst hx
      exact ⟨b, rfl, h1⟩
    | succ i => exact ih h2 (by simpa using hx)

theorem aroundLost_len {ti : TrajIndex} {files : Nat → Option (List Char)} {tau : Nat} {l : List (List Nat)} (h : aroundLost ti files tau = .ok l) :
    l.length = ti.inverse.length := by
  unfold aroundLost at h
  obtain ⟨dyn, -, h⟩ := bind_ok.1 h
  simpa using mapM_len h

theorem timeBoo_len {w tau : Nat} {ti : TrajIndex} {cloud : Nat → Option (List G)} {l : List (List G)} (h : timeBoo w ti tau cloud = .ok l) :
    l.length = ti.inverse.length := by
  unfold timeBoo at h
  obtain ⟨a, -, h⟩ := bind_ok.1 h
  obtain ⟨b, -, h⟩ := bind_ok.1 h
  simpa using mapM_len h

theorem timePhi_len {pi radius : G} {tau : Nat} {ti : TrajIndex} {vol : Nat → Option (List G)} {l : List (List G)}
    (h : timePhi pi radius ti tau vol = .ok l) : l.length = ti.inverse.length := by
  unfold timePhi at h
  obtain ⟨a, -, h⟩ := bind_ok.1 h
  obtain ⟨b, -, h⟩ := bind_ok.1 h
  simpa using mapM_len h

/-- **C216** is false when the interval is changed: once `traj2vtk` has been run with an interval, run with any other it leaves all the files as they
are, that are for the first one. -/
theorem C216_interval_counterexample {F : FilmData G V} {a : Nat} {d d' : VtkDisk G V} (h : traj2vtk F (some a) d = .ok d')
    (h0 : 0 < F.ti.inverse.length) (hs : F.ti.inverse.length ≤ szMod) (b : Nat) : traj2vtk F (some b) d' = .ok d' := by
  unfold traj2vtk at h
  obtain ⟨r, h1, h⟩ := bind_ok.1 h
  obtain ⟨out, h2, h⟩ := bind_ok.1 h
  injection h with h
  subst h
  have hdata : traj2vtkData F (some b) { r.1 with vtk := writeSerie r.1.vtk out } = .ok ({ r.1 with vtk := writeSerie r.1.vtk out }, r.2) := by
    unfold traj2vtkData at h1
    obtain ⟨isf, k1, h1⟩ := bind_ok.1 h1
    obtain ⟨tau, k2, h1⟩ := bind_ok.1 h1
    obtain ⟨vel, k3, h1⟩ := bind_ok.1 h1
    obtain ⟨lngb, k4, h1⟩ := bind_ok.1 h1
    obtain ⟨boo, k5, h1⟩ := bind_ok.1 h1
    obtain ⟨cgBoo, k6, h1⟩ := bind_ok.1 h1
    obtain ⟨phi, k7, h1⟩ := bind_ok.1 h1
    injection h1 with h1
    subst h1
    have e3 := ensure_has k3 (fun l hl => by simpa using mapM_len hl) h0 hs
    have e4 := ensure_has k4 (fun l hl => by
      obtain ⟨q, q1, q2⟩ := bind_ok.1 hl
      injection q2 with q2
      subst q2
      simp [aroundLost_len q1]) h0 hs
    have e5 := ensure_has k5 (fun l hl => timeBoo_len hl) h0 hs
    have e6 := ensure_has k6 (fun l hl => timeBoo_len hl) h0 hs
    have hin : ∀ isf : Option (List G), intervalOf F (some b) isf = .ok b := fun _ => rfl
    have hi : ∀ isf : Option (List G), ensureIsf F (some b) isf = .ok isf := fun _ => rfl
    unfold traj2vtkData
    simp only [hi, hin, ok_bind]
    unfold ensurePhi at k7 ⊢
    have e7 : hasSerie F.ti.inverse.length d.vol = true → hasSerie F.ti.inverse.length phi = true := by
      intro hv
      rw [if_pos hv] at k7
      exact ensure_has k7 (fun l hl => timePhi_len hl) h0 hs
    unfold ensure
    simp only [if_pos e3, if_pos e4, if_pos e5, if_pos e6, ok_bind]
    by_cases hv : hasSerie F.ti.inverse.length d.vol = true
    · simp only [hv, if_true, if_pos (e7 hv), ok_bind, Bool.or_true]
    · rw [if_neg hv] at k7
      injection k7 with k7
      subst k7
      simp only [if_neg hv, ok_bind]
  unfold traj2vtk
  rw [hdata, ok_bind]
  have : (List.range F.ti.inverse.length).mapM (vtkFrame { r.1 with vtk := writeSerie r.1.vtk out } r.2) = .ok out := h2
  rw [this, ok_bind]
  simp only [writeSerie_twice]

/-! ### The first run -/

omit [Zero V] in
theorem ensure_new {α : Type} {size : Nat} {s : Nat → Option α} {c : R (List α)} {l : List α} (h : hasSerie size s = false) (hc : c = .ok l) :
    ensure size s c = .ok (writeSerie s l) := by
  unfold ensure
  rw [if_neg (by simp [h]), hc, ok_bind]

/-- the disk has no result -/
def NoResults (F : FilmData G V) (d : VtkDisk G V) : Prop :=
  hasSerie F.ti.inverse.length d.vel = false ∧ hasSerie F.ti.inverse.length d.lngb = false ∧ hasSerie F.ti.inverse.length d.boo = false ∧
    hasSerie F.ti.inverse.length d.cgBoo = false ∧ hasSerie F.ti.inverse.length d.phi = false ∧ hasSerie F.ti.inverse.length d.vol = false

/-- the first run, supposing that the neighbours lost are counted -/
theorem first_run {D : Type} [LinearOrder D] {n : Nat}
    {hist : List (Followers D × Nat)} {tm : TrajMap} (h : TrajMap.run n hist = .ok tm)
    (hlen : hist.length + 1 ≤ szMod) {F : FilmData G V} (hti : TrajIndex.ofMap tm = .ok F.ti)
    {tau : Nat} (hpos : 0 < tau / 2) (hlong : tau / 2 < hist.length + 1) {d : VtkDisk G V} (hno : NoResults F d)
    (hc : FullCloud 8 d.cloud (n :: hist.map Prod.snd)) (hcg : FullCloud 8 d.cgCloud (n :: hist.map Prod.snd))
    (hdat : ∀ (t k : Nat), (n :: hist.map Prod.snd)[t]? = some k → d.dat t = some k)
    {bonds : Nat → List Bond} (hb : ∀ t, t < hist.length + 1 → loadBonds (d.bonds t) = .ok (bonds t))
    {vel : Nat → List V} (hv : ∀ t, t < hist.length + 1 → F.vel ((tau + 1) / 2) t = .ok (vel t))
    (hvl : ∀ (t k : Nat), (n :: hist.map Prod.snd)[t]? = some k → (vel t).length = k)
    {lost : List (List Nat)} (hl : aroundLost F.ti d.bonds tau = .ok lost)
    (hll : ∀ (t k : Nat), (n :: hist.map Prod.snd)[t]? = some k → ∃ row, lost[t]? = some row ∧ row.length = k) :
    ∃ d', traj2vtk F (some tau) d = .ok d' ∧ ∀ (t k : Nat), (n :: hist.map Prod.snd)[t]? = some k → ∃ out : VtkOut G V, d'.vtk t = some out ∧
      out.points = k ∧ out.bonds = bonds t ∧ out.velocity = vel t ∧
      (∃ row : List Nat, lost[t]? = some row ∧ out.scalars[8]? = some ("lostNgb", row.map fun (m : Nat) => (m : G))) ∧ out.scalars.length = 9 ∧
      ∀ (i : Nat) (name : String), (["Q4", "Q6", "Q8", "Q10", "W4", "W6", "W8", "W10"] : List String)[i]? = some name → ∃ col : List G, out.scalars[i]? = some (name, col) ∧ col.length = k ∧
        ∀ (p tr : Nat), Linked tm t p tr →
          col[p]? = some (windowMean F.ti (cloudFrames 8 d.cgCloud (n :: hist.map Prod.snd) i) (tau / 2) tr t) := by
  obtain ⟨a1, a2, a3, a4, a5, a6⟩ := hno
  have hsz := inverse_lengths h hlen hti
  have hsl : F.ti.inverse.length = hist.length + 1 := by
    have := congrArg List.length hsz
    simpa using this
  obtain ⟨o, o1, o2, -, -⟩ := C216_columns_partial h hlen hti 8 tau d.cloud hc hpos hlong
  obtain ⟨g, g1, g2, g3, g4⟩ := C216_columns_partial h hlen hti 8 tau d.cgCloud hcg hpos hlong
  have hvel : (List.range F.ti.inverse.length).mapM (fun t => F.vel ((tau + 1) / 2) t) = .ok ((List.range F.ti.inverse.length).map vel) := by
    apply TreeIndex.mapM_ok_of
    intro t ht
    exact hv t (by rw [← hsl]; exact List.mem_range.1 ht)
  let d1 : VtkDisk G V := { d with
    vel := writeSerie d.vel ((List.range F.ti.inverse.length).map vel)
    lngb := writeSerie d.lngb (lost.map fun row => row.map fun (m : Nat) => (m : G))
    boo := writeSerie d.boo o
    cgBoo := writeSerie d.cgBoo g }
  have hdata : traj2vtkData F (some tau) d = .ok (d1, false) := by
    unfold traj2vtkData
    have hin : intervalOf F (some tau) d.isf = .ok tau := rfl
    have hi : ensureIsf F (some tau) d.isf = .ok d.isf := rfl
    simp only [hi, hin, ok_bind]
    rw [ensure_new a1 hvel, ok_bind, ensure_new a2 (l := lost.map fun row => row.map fun (m : Nat) => (m : G)) (by rw [hl]; rfl), ok_bind,
      ensure_new a3 o1, ok_bind, ensure_new a4 g1, ok_bind]
    unfold ensurePhi
    rw [if_neg (by simp [a6]), ok_bind, a5, a6]
    rfl
  have hframe : ∀ t ∈ List.range F.ti.inverse.length, ∃ out : VtkOut G V, vtkFrame d1 false t = .ok out ∧
      ∀ k : Nat, (n :: hist.map Prod.snd)[t]? = some k →
      (out.points = k ∧ out.bonds = bonds t ∧ out.velocity = vel t ∧
      (∃ row : List Nat, lost[t]? = some row ∧ out.scalars[8]? = some ("lostNgb", row.map fun (m : Nat) => (m : G))) ∧ out.scalars.length = 9 ∧
      ∀ (i : Nat) (name : String), (["Q4", "Q6", "Q8", "Q10", "W4", "W6", "W8", "W10"] : List String)[i]? = some name → ∃ col : List G, out.scalars[i]? = some (name, col) ∧ col.length = k ∧
        ∀ (p tr : Nat), Linked tm t p tr →
          col[p]? = some (windowMean F.ti (cloudFrames 8 d.cgCloud (n :: hist.map Prod.snd) i) (tau / 2) tr t)) := by
    intro t ht
    have ht' := List.mem_range.1 ht
    obtain ⟨k, hk⟩ : ∃ k, (n :: hist.map Prod.snd)[t]? = some k := ⟨_, List.getElem?_eq_getElem (by simp; omega)⟩
    obtain ⟨row, r1, r2⟩ := hll t k hk
    obtain ⟨nums, m1, m2⟩ := g3 t k hk
    have q1 : d1.dat t = some k := hdat t k hk
    have q2 : loadBonds (d1.bonds t) = .ok (bonds t) := hb t (by omega)
    have q3 : d1.cgBoo t = some nums := by
      change writeSerie d.cgBoo g t = some nums
      unfold writeSerie
      rw [m1]; rfl
    have q4 : d1.lngb t = some (row.map fun (m : Nat) => (m : G)) := by
      change writeSerie d.lngb _ t = _
      unfold writeSerie
      rw [List.getElem?_map, r1]; rfl
    have q5 : d1.vel t = some (vel t) := by
      change writeSerie d.vel _ t = _
      unfold writeSerie
      rw [List.getElem?_map, List.getElem?_range ht']; rfl
    have hvt : ((List.range k).map fun p => (vel t).getD p 0) = vel t := by
      have hlk := hvl t k hk
      apply List.ext_getElem
      · simp [hlk]
      · intro i h1 h2
        simp [h2]
    refine ⟨{ points := k, bonds := bonds t,
              scalars := (tableNames.zipIdx.map fun x => (x.1, column 8 k nums x.2)) ++ [("lostNgb", row.map fun (m : Nat) => (m : G))] ++ [],
              velocity := vel t }, ?_, ?_⟩
    · unfold vtkFrame
      rw [q1]
      simp only []
      rw [q2, ok_bind, q3]
      simp only []
      rw [readInto_full (by simp [m2]), ok_bind, q4, readInto_full (by simp [r2]), ok_bind, q5]
      simp only [loadPhi, Bool.false_eq_true, if_false, ok_bind, Option.getD_some, hvt]
    · intro k' hk'
      have : k' = k := by rw [hk] at hk'; injection hk' with hk'; exact hk'.symm
      subst this
      refine ⟨rfl, rfl, rfl, ⟨row, r1, by simp [tableNames]⟩, by simp [tableNames], ?_⟩
      intro i name hname
      have hi : i < 8 := by
        have := (List.getElem?_eq_some_iff.1 hname).1
        simpa using this
      have hname : tableNames[i]? = some name := hname
      refine ⟨column 8 k' nums i, ?_, column_length _ _ _ _, ?_⟩
      · simp only [List.append_nil]
        rw [List.getElem?_append_left (by simp [tableNames]; omega), List.getElem?_map, List.getElem?_zipIdx, hname]
        simp
      · intro p tr hL
        obtain ⟨nums', z1, z2⟩ := g4 t p tr i hL hi
        rw [m1] at z1
        injection z1 with z1
        subst z1
        have hplt : p * 8 + i < k' * 8 := by
          rw [← m2]
          exact (List.getElem?_eq_some_iff.1 z2).1
        rw [column_get _ _ _ _ _ (by omega), List.getD_eq_getElem?_getD, z2]
        rfl
  obtain ⟨outs, u1, u2, u3⟩ := mapM_spec _ hframe
  refine ⟨{ d1 with vtk := writeSerie d1.vtk outs }, ?_, ?_⟩
  · unfold traj2vtk
    rw [hdata, ok_bind]
    simp only [u1, ok_bind]
  · intro t k hk
    have ht := (List.getElem?_eq_some_iff.1 hk).1
    obtain ⟨y, y1, y2⟩ := u3 t t (List.getElem?_range (by rw [hsl]; simpa using ht))
    refine ⟨y, ?_, y2 k hk⟩
    change writeSerie d1.vtk outs t = some y
    unfold writeSerie
    rw [y1]; rfl

theorem indexOk_of_run {D : Type} [LinearOrder D] {n : Nat} {hist : List (Followers D × Nat)} {tm : TrajMap} (h : TrajMap.run n hist = .ok tm)
    (hlen : hist.length + 1 < szMod) {ti : TrajIndex} (hti : TrajIndex.ofMap tm = .ok ti) : IndexOk ti := by
  obtain ⟨ti', i1, i2, i3, i4, i5, i6, i7⟩ := index_facts h (by omega)
  obtain ⟨ti'', j1, j2, j3, j4, -⟩ := C03_index_inverse n hist tm h (by omega)
  rw [hti] at i1 j1
  cases i1
  cases j1
  have hsl := inverse_lengths h (by omega) hti
  have hl : ti.inverse.length = hist.length + 1 := by
    have := congrArg List.length hsl
    simpa using this
  have hb : tm.bm.length = hist.length + 1 := by
    have := (TrajMap.run_inv h).len
    simpa using this
  refine ⟨fun t p tr => by rw [j3, j4], ?_, ?_, by omega⟩
  · intro T hT
    obtain ⟨tr, hT⟩ := List.mem_iff_getElem?.1 hT
    exact (agree_traj i3 i7 hT).1
  · intro T hT
    obtain ⟨tr, hT⟩ := List.mem_iff_getElem?.1 hT
    have := (agree_traj i3 i7 hT).2.1
    omega

/-- **C216**. For a linked film without results and without volumes, whose files are complete, and an interval that is neither null nor longer than
twice the film, `traj2vtk` writes for each frame a VTK file with as many points as positions, the bonds of the frame, in the eight fields named after
the invariants the means over the window of the columns in this order, in lostNgb the neighbours lost, and as velocity that over half the interval on
each side. -/
theorem C216_first_partial {D : Type} [LinearOrder D] {n : Nat}
    {hist : List (Followers D × Nat)} {tm : TrajMap} (h : TrajMap.run n hist = .ok tm)
    (hlen : hist.length + 1 < szMod) {F : FilmData G V} (hti : TrajIndex.ofMap tm = .ok F.ti)
    {tau : Nat} (hpos : 0 < tau / 2) (hlong : tau / 2 < hist.length + 1) {d : VtkDisk G V} (hno : NoResults F d)
    (hc : FullCloud 8 d.cloud (n :: hist.map Prod.snd)) (hcg : FullCloud 8 d.cgCloud (n :: hist.map Prod.snd))
    (hdat : ∀ (t k : Nat), (n :: hist.map Prod.snd)[t]? = some k → d.dat t = some k)
    {bonds : Nat → List Bond} (hb : ∀ (t k : Nat), (n :: hist.map Prod.snd)[t]? = some k → d.bonds t = some (writeBonds (bonds t)) ∧
      bonds t ≠ [] ∧ IsBondSet (bonds t) ∧ k ≤ szMod ∧ ∀ b ∈ bonds t, b.low ≤ b.high ∧ b.low < k ∧ b.high < k)
    {vel : Nat → List V} (hv : ∀ (t k : Nat), (n :: hist.map Prod.snd)[t]? = some k → F.vel ((tau + 1) / 2) t = .ok (vel t) ∧ (vel t).length = k) :
    ∃ d', traj2vtk F (some tau) d = .ok d' ∧ ∀ (t k : Nat), (n :: hist.map Prod.snd)[t]? = some k → ∃ out : VtkOut G V, d'.vtk t = some out ∧
      out.points = k ∧ out.bonds = bonds t ∧ out.velocity = vel t ∧ out.scalars.length = 9 ∧
      (∃ row : List G, out.scalars[8]? = some ("lostNgb", row) ∧ row.length = k ∧
        ∀ (p tr : Nat) (T : Traj), Linked tm t p tr → F.ti.trajs[tr]? = some T →
          row[p]? = some ((nbLost F.ti bonds tr (min (T.start + T.steps.length - 1) (t + tau / 2)) (max T.start (t - tau / 2)) : Nat) : G)) ∧
      ∀ (i : Nat) (name : String), (["Q4", "Q6", "Q8", "Q10", "W4", "W6", "W8", "W10"] : List String)[i]? = some name → ∃ col : List G, out.scalars[i]? = some (name, col) ∧ col.length = k ∧
        ∀ (p tr : Nat), Linked tm t p tr →
          col[p]? = some (windowMean F.ti (cloudFrames 8 d.cgCloud (n :: hist.map Prod.snd) i) (tau / 2) tr t) := by
  have hI := indexOk_of_run h hlen hti
  have hsz := inverse_lengths h (by omega) hti
  have hsl : F.ti.inverse.length = hist.length + 1 := by
    have := congrArg List.length hsz
    simpa using this
  have hk : ∀ t, t < hist.length + 1 → ∃ k, (n :: hist.map Prod.snd)[t]? = some k := fun t ht =>
    ⟨_, List.getElem?_eq_getElem (by simpa using ht)⟩
  have hinv : ∀ (t k : Nat), (n :: hist.map Prod.snd)[t]? = some k → ∃ inv, F.ti.inverse[t]? = some inv ∧ inv.length = k := by
    intro t k hk
    rw [← hsz, List.getElem?_map] at hk
    exact Option.map_eq_some_iff.1 hk
  have hL : LostOk F.ti bonds d.bonds := by
    refine ⟨hI, ?_, ?_⟩
    · intro t ht
      obtain ⟨k, hk⟩ := hk t (by omega)
      exact ⟨(hb t k hk).1, (hb t k hk).2.1⟩
    · intro t inv hi
      obtain ⟨k, hk⟩ := hk t (by rw [← hsl]; exact (List.getElem?_eq_some_iff.1 hi).1)
      obtain ⟨inv', e1, e2⟩ := hinv t k hk
      rw [hi] at e1
      cases e1
      obtain ⟨-, -, -, b4, b5⟩ := hb t k hk
      refine ⟨by omega, fun b hbm => ?_⟩
      have := b5 b hbm
      unfold Bond.low Bond.high at this
      rw [e2]
      omega
  obtain ⟨lost, l1, l2, l3⟩ := C111_around_partial hL tau
  obtain ⟨ti'', j1, -, j3, -, -⟩ := C03_index_inverse n hist tm h (by omega)
  rw [hti] at j1
  cases j1
  obtain ⟨d', e1, e2⟩ := first_run h (by omega) hti hpos hlong hno hc hcg hdat (bonds := bonds)
    (fun t ht => by
      obtain ⟨k, hk⟩ := hk t ht
      obtain ⟨b1, b2, b3, b4, b5⟩ := hb t k hk
      rw [b1]
      exact C10_file_roundtrip _ b3 (fun b hbm => ⟨(b5 b hbm).1, by have := b5 b hbm; omega⟩))
    (vel := vel) (fun t ht => by
      obtain ⟨k, hk⟩ := hk t ht
      exact (hv t k hk).1)
    (fun t k hk => (hv t k hk).2) l1
    (fun t k hk => by
      obtain ⟨line, inv, a1, a2, a3, -⟩ := l3 t (by
        have := (List.getElem?_eq_some_iff.1 hk).1
        rw [hsl]; simpa using this)
      obtain ⟨inv', e1, e2⟩ := hinv t k hk
      rw [a2] at e1
      cases e1
      exact ⟨line, a1, by omega⟩)
  refine ⟨d', e1, ?_⟩
  intro t k hk
  obtain ⟨out, o1, o2, o3, o4, ⟨row, o5, o6⟩, o7, o8⟩ := e2 t k hk
  refine ⟨out, o1, o2, o3, o4, o7, ?_, o8⟩
  obtain ⟨line, inv, a1, a2, a3, a4⟩ := l3 t (by
    have := (List.getElem?_eq_some_iff.1 hk).1
    rw [hsl]; simpa using this)
  obtain ⟨inv', f1, f2⟩ := hinv t k hk
  rw [a2] at f1
  cases f1
  rw [o5] at a1
  cases a1
  refine ⟨_, o6, by simp; omega, ?_⟩
  intro p tr T hLk hT
  rw [List.getElem?_map, a4 p tr T ((j3 t p tr).2 hLk) hT]
  rfl

/-- The hypotheses are met by a film of two frames of two particles that touch, and two neighbours are followed. -/
example : ∃ (tm : TrajMap) (F : FilmData ℚ ℚ) (d : VtkDisk ℚ ℚ), TrajMap.run 2 [([[((1 : ℚ), 1)], [(2, 0)]], 2)] = .ok tm ∧
    TrajIndex.ofMap tm = .ok F.ti ∧ NoResults F d ∧ FullCloud 8 d.cloud [2, 2] ∧ (∃ d', traj2vtk F (some 2) d = .ok d') := by
  obtain ⟨tm, h⟩ := C01_total 2 [([[((1 : ℚ), 1)], [(2, 0)]], 2)] (by
    refine ⟨by simp, ?_, trivial⟩
    rintro p d q ⟨row, h1, h2⟩
    match p, h1 with
    | 0, h1 => simp at h1; subst h1; simp at h2; omega
    | 1, h1 => simp at h1; subst h1; simp at h2; omega)
  have hlen : ([([[((1 : ℚ), 1)], [(2, 0)]], 2)] : List (Followers ℚ × Nat)).length + 1 < szMod := by simp [szMod]
  obtain ⟨ti, h1, -⟩ := index_facts h (by omega)
  let F : FilmData ℚ ℚ := { ti := ti, radius := 1, e := 1/3, pi := 3, isf := .ok [], vel := fun _ _ => .ok [1, 2] }
  let full : Nat → Option (List ℚ) := fun t => if t < 2 then some (List.replicate 16 1) else none
  let d : VtkDisk ℚ ℚ :=
    { dat := fun _ => some 2, bonds := fun _ => some (writeBonds [⟨0, 1⟩]), isf := none, vel := fun _ => none, lngb := fun _ => none,
      cloud := full, boo := fun _ => none, cgCloud := full, cgBoo := fun _ => none, vol := fun _ => none, phi := fun _ => none, vtk := fun _ => none }
  have hsizes : ∀ (t k : Nat), ([2, 2] : List Nat)[t]? = some k → t < 2 ∧ k = 2 := by
    intro t k hk
    match t, hk with
    | 0, hk => simp at hk; omega
    | 1, hk => simp at hk; omega
  have hfull : FullCloud 8 full [2, 2] := by
    intro t k hk
    obtain ⟨a, b⟩ := hsizes t k hk
    exact ⟨List.replicate 16 1, by simp [full]; omega, by simp [b]⟩
  have hno : NoResults F d := ⟨rfl, rfl, rfl, rfl, rfl, rfl⟩
  obtain ⟨d', hd, -⟩ := C216_first_partial h hlen (F := F) h1 (tau := 2) (by decide) (by decide) (d := d) hno hfull hfull
    (fun t k hk => by rw [(hsizes t k hk).2]) (bonds := fun _ => [⟨0, 1⟩])
    (fun t k hk => by
      obtain ⟨-, rfl⟩ := hsizes t k hk
      refine ⟨rfl, by simp, by simp [IsBondSet], by simp [szMod], ?_⟩
      intro b hb
      simp at hb
      subst hb
      simp [Bond.low, Bond.high])
    (vel := fun _ => [1, 2]) (fun t k hk => ⟨rfl, by rw [(hsizes t k hk).2]; rfl⟩)
  exact ⟨tm, F, d, h, h1, hno, hfull, d', hd⟩

/-- **C216** is false if the file of a frame is missing: its table is that of the frame before, when it has as many positions. -/
theorem C216_missing_counterexample (w k : Nat) (cloud : Nat → Option (List G)) (nums : List G) (h0 : cloud 0 = some nums)
    (hl : nums.length = k * w) (hm : cloud 1 = none) : readTables w cloud [k, k] = .ok [nums, nums] := by
  have h1 : readInto (cloud 0) (resizeTable w k ([] : List G)) = .ok nums := by
    rw [h0]
    exact readInto_full (by rw [resizeTable_length, hl])
  have h2 : readInto (cloud 1) (resizeTable w k nums) = .ok nums := by
    rw [hm]
    unfold readInto copyInto resizeTable
    simp [hl]
  unfold readTables
  simp only [List.zipIdx_cons, List.zipIdx_nil, List.foldlM_cons, List.foldlM_nil, h1, ok_bind, Nat.zero_add, h2, pure_eq_ok, List.nil_append,
    List.cons_append]

example : readTables 1 (fun t => if t = 0 then some [(1 : ℚ), 2] else none) [2, 2] = .ok [[1, 2], [1, 2]] := by decide +kernel

/-- **C216** is false for the velocities of a frame whose file is missing, if those of the first and of the last are there: they are null. -/
theorem C216_hole_counterexample {F : FilmData G V} {arg : Option Nat} {d d' : VtkDisk G V} (h : traj2vtk F arg d = .ok d')
    (hh : hasSerie F.ti.inverse.length d.vel = true) {t : Nat} (ht : t < F.ti.inverse.length) (hm : d.vel t = none) :
    ∃ out : VtkOut G V, d'.vtk t = some out ∧ ∀ v ∈ out.velocity, v = 0 := by
  unfold traj2vtk at h
  obtain ⟨r, h1, h⟩ := bind_ok.1 h
  obtain ⟨outs, h2, h⟩ := bind_ok.1 h
  injection h with h
  subst h
  have hvel : r.1.vel = d.vel := by
    unfold traj2vtkData at h1
    obtain ⟨isf, k1, h1⟩ := bind_ok.1 h1
    obtain ⟨tau, k2, h1⟩ := bind_ok.1 h1
    obtain ⟨vel, k3, h1⟩ := bind_ok.1 h1
    obtain ⟨lngb, k4, h1⟩ := bind_ok.1 h1
    obtain ⟨boo, k5, h1⟩ := bind_ok.1 h1
    obtain ⟨cgBoo, k6, h1⟩ := bind_ok.1 h1
    obtain ⟨phi, k7, h1⟩ := bind_ok.1 h1
    injection h1 with h1
    subst h1
    unfold ensure at k3
    rw [if_pos hh] at k3
    injection k3 with k3
    exact k3.symm
  have hol : outs.length = F.ti.inverse.length := by simpa using mapM_len h2
  have hget : vtkFrame r.1 r.2 t = .ok outs[t] := by
    have := mapM_at h2 (i := t) (x := t) (List.getElem?_range ht)
    obtain ⟨y, y1, y2⟩ := this
    rw [List.getElem?_eq_getElem (by omega)] at y1
    injection y1 with y1
    rw [y1, y2]
  refine ⟨outs[t], ?_, ?_⟩
  · change writeSerie r.1.vtk outs t = _
    unfold writeSerie
    rw [List.getElem?_eq_getElem (by omega)]; rfl
  · intro v hv
    unfold vtkFrame at hget
    split at hget
    · cases hget
    · obtain ⟨bs, -, hget⟩ := bind_ok.1 hget
      split at hget
      · cases hget
      · obtain ⟨q1, -, hget⟩ := bind_ok.1 hget
        obtain ⟨q2, -, hget⟩ := bind_ok.1 hget
        obtain ⟨q3, -, hget⟩ := bind_ok.1 hget
        injection hget with hget
        rw [← hget] at hv
        simp only [hvel, hm, Option.getD_none, List.getD_nil, List.mem_map] at hv
        obtain ⟨_, -, rfl⟩ := hv
        rfl

/-- A film with a hole in the velocities. -/
example : hasSerie 3 (fun t => if t = 1 then none else some [(1 : ℚ)]) = true := by decide +kernel

/-! ### cage2vtk -/

/-- **C217**. When no cage lasts all the film, the distribution counts the cages of each duration. -/
theorem C217_span_partial (size : Nat) (cages : List Traj) (h : ∀ c ∈ cages, c.steps.length < size) :
    ∃ l, cageSpan size cages = .ok l ∧ l.length = size ∧ ∀ k, k < size → l[k]? = some (cages.countP fun c => decide (c.steps.length = k)) := by
  unfold cageSpan
  have key : ∀ (cs : List Traj) (l0 : List Nat), l0.length = size → (∀ c ∈ cs, c.steps.length < size) →
      ∃ l, cs.foldlM (fun l c => modifyR l c.steps.length (· + 1)) l0 = .ok l ∧ l.length = size ∧
        ∀ k, k < size → l[k]? = (l0[k]?).map (· + cs.countP fun c => decide (c.steps.length = k)) := by
    intro cs
    induction cs with
    | nil => intro l0 h0 _; exact ⟨l0, rfl, h0, by simp⟩
    | cons c cs ih =>
      intro l0 h0 hc
      have hlt := hc c (by simp)
      obtain ⟨l1, e1⟩ : ∃ l1, modifyR l0 c.steps.length (· + 1) = .ok l1 := ⟨l0.modify c.steps.length (· + 1), by
        unfold modifyR
        rw [if_pos (by omega)]⟩
      have e2 : l1 = l0.modify c.steps.length (· + 1) := by
        unfold modifyR at e1
        rw [if_pos (by omega)] at e1
        injection e1 with e1
        exact e1.symm
      obtain ⟨l, g1, g2, g3⟩ := ih l1 (by rw [e2]; simp [h0]) (fun x hx => hc x (by simp [hx]))
      refine ⟨l, by rw [List.foldlM_cons, e1, ok_bind, g1], g2, ?_⟩
      intro k hk
      rw [g3 k hk, e2, List.getElem?_modify, List.countP_cons]
      rw [List.getElem?_eq_getElem (by omega)]
      by_cases hck : c.steps.length = k
      · simp [hck]; omega
      · simp [hck]
  obtain ⟨l, g1, g2, g3⟩ := key cages (List.replicate size 0) (by simp) h
  refine ⟨l, g1, g2, ?_⟩
  intro k hk
  rw [g3 k hk]
  simp [hk]

/-- **C217** is false as soon as a particle stays in a cage for all the film: the distribution is written out of its bounds. -/
theorem C217_span_counterexample (size : Nat) (cages : List Traj) (h : ∀ c ∈ cages, c.steps.length ≤ size) {c : Traj} (hc : c ∈ cages)
    (hs : c.steps.length = size) : cageSpan size cages = .error .ub := by
  unfold cageSpan
  have key : ∀ (cs : List Traj) (l0 : List Nat), l0.length = size → (∃ c ∈ cs, c.steps.length = size) →
      cs.foldlM (fun l c => modifyR l c.steps.length (· + 1)) l0 = .error .ub := by
    intro cs
    induction cs with
    | nil => intro l0 _ h; obtain ⟨_, h, _⟩ := h; cases h
    | cons c cs ih =>
      intro l0 h0 hex
      rw [List.foldlM_cons]
      by_cases hlt : c.steps.length < l0.length
      · have e1 : modifyR l0 c.steps.length (· + 1) = .ok (l0.modify c.steps.length (· + 1)) := by
          unfold modifyR
          rw [if_pos hlt]
        rw [e1, ok_bind]
        apply ih
        · simp [h0]
        · obtain ⟨x, hx, hxs⟩ := hex
          rcases List.mem_cons.1 hx with rfl | hx
          · omega
          · exact ⟨x, hx, hxs⟩
      · have e1 : modifyR l0 c.steps.length (· + 1) = .error .ub := by
          unfold modifyR
          rw [if_neg hlt]
        rw [e1, error_bind]
  exact key cages _ (by simp) ⟨c, hc, hs⟩

/-- **C217** is false: the files of four columns are read as if they had eight. Each particle gets the values of the particle of twice its number, or
0. -/
theorem C217_columns_counterexample (n : Nat) (nums : List G) (hl : nums.length = n * 4) (i : Nat) (hi : i < 4) :
    ∃ col, cageField n nums i = .ok col ∧ col.length = n ∧ ∀ p, p < n → col[p]? = some (nums.getD (2 * p * 4 + i) 0) := by
  unfold cageField
  have h1 : readInto (some nums) (List.replicate (n * 8) 0) = .ok (nums ++ List.replicate (n * 4) 0) := by
    unfold readInto copyInto
    rw [if_pos (by simp [hl]; omega)]
    simp [hl]
    omega
  rw [h1, ok_bind]
  refine ⟨_, rfl, column_length _ _ _ _, ?_⟩
  intro p hp
  rw [column_get _ _ _ _ _ hp, Nat.mod_eq_of_lt hi]
  have e : p * 8 + i = 2 * p * 4 + i := by ring
  rw [e]
  congr 1
  by_cases hlt : 2 * p * 4 + i < nums.length
  · simp [List.getD_eq_getElem?_getD, List.getElem?_append_left hlt]
  · rw [List.getD_eq_getElem?_getD, List.getD_eq_getElem?_getD, List.getElem?_append_right (by omega), List.getElem?_replicate,
      List.getElem?_eq_none (show nums.length ≤ 2 * p * 4 + i by omega)]
    split <;> rfl

/-- Two cages of two frames in a film of two, and two particles. -/
example : cageSpan 2 [⟨0, [0, 0]⟩, ⟨0, [1, 1]⟩] = .error .ub :=
  C217_span_counterexample 2 _ (by simp) (c := ⟨0, [0, 0]⟩) (by simp) rfl

example : cageField 2 ([1, 2, 3, 4, 5, 6, 7, 8] : List ℚ) 0 = .ok [1, 0] := by decide +kernel

/-- **C217** is false with the files of eight columns that `linkboo` writes: the table of four columns is written out of its bounds. -/
theorem C217_eight_counterexample (k : Nat) (hk : 0 < k) (cloud : Nat → Option (List G)) (nums : List G) (h0 : cloud 0 = some nums)
    (hl : nums.length = k * 8) (sizes : List Nat) : readTables 4 cloud (k :: sizes) = .error .ub := by
  unfold readTables
  have h1 : readInto (cloud 0) (resizeTable 4 k ([] : List G)) = .error .ub := by
    rw [h0]
    unfold readInto copyInto
    rw [if_neg (by rw [resizeTable_length, Option.getD_some, hl]; omega)]
  rw [List.zipIdx_cons, List.foldlM_cons, h1]
  rfl

end Mains
end Colloids
