import Verif.Mains.MultiscaleModel
import Verif.Lif.SerieProps
import Verif.Centers.Props
import Verif.Files.Props
import Verif.CommonLemmas
import Mathlib.Tactic.FieldSimp
import Mathlib.Tactic.Ring

/-! # C146: the program `multiscale` -/

namespace Colloids
namespace Mains

open Files (isDig)
open Lif (Byte Serie)
open Center (KeepsBest HalfConflict SortsByIntensity)

variable {G : Type} [Field G] [LinearOrder G] [IsStrictOrderedRing G]

/-- The sizes `vx` and `vz` of a voxel, as written in the settings of the scanner. Without a size along Z the voxels are taken as
cubic. -/
def Voxel (settings : String → Option G) (vx vz : G) : Prop :=
  (settings "dblVoxelX" = some vx ∧ settings "dblVoxelZ" = some vz ∧ vx ≠ 0 ∧ vz ≠ 0) ∨
  ((settings "dblVoxelZ" = none ∨ settings "dblVoxelZ" = some 0) ∧ vx = 1 ∧ vz = 1)

/-- `m` is the center `c` (in voxels) in units of the size of a voxel along X. -/
structure InPixels (vx vz : G) (c m : Center 3 G) : Prop where
  x : m.coords 0 = c.coords 0
  y : m.coords 1 = c.coords 1
  z : m.coords 2 * vx = c.coords 2 * vz
  r : m.r = c.r
  intensity : m.intensity = c.intensity

/-- What becomes of the file of a time step where `found` are the centers: without a center, the file is not touched. Otherwise it has
one row by center that is kept, with its coordinates in units of the size of a pixel, its radius and its intensity; no center
that is kept is in the sphere of another. -/
def Tracked (round : G → G) (vx vz : G) (found : List (Center 3 G)) (before after : Option (List (List G))) : Prop :=
  (found = [] → after = before) ∧
  (found ≠ [] → ∃ scaled kept, List.Forall₂ (InPixels vx vz) found scaled ∧ KeepsBest HalfConflict scaled kept ∧
    after = some (kept.map (fun c => [round (c.coords 0), round (c.coords 1), round (c.coords 2), round c.r, round c.intensity])))

omit [IsStrictOrderedRing G] in
theorem zxRatio_voxel {inf : G} {settings : String → Option G} {vx vz : G} (h : Voxel settings vx vz) :
    Lif.zxRatio inf settings * vx = vz := by
  have hx : "dblVoxel" ++ "X" = "dblVoxelX" := by decide
  have hz : "dblVoxel" ++ "Z" = "dblVoxelZ" := by decide
  unfold Lif.zxRatio Lif.voxelSize
  rw [hx, hz]
  rcases h with ⟨h1, h2, h3, h4⟩ | ⟨h1 | h1, rfl, rfl⟩
  · simp only [h1, h2, h4, h3, if_false]
    field_simp
  · simp [h1]
  · simp [h1]

omit [IsStrictOrderedRing G] in
theorem stretchZ_pixels {ratio vx vz : G} (h : ratio * vx = vz) (c : Center 3 G) : InPixels vx vz c (stretchZ ratio c) := by
  refine ⟨rfl, rfl, ?_, rfl, rfl⟩
  show c.coords 2 * ratio * vx = c.coords 2 * vz
  rw [mul_assoc, h]

theorem msImage_good {s : Serie} {inc n t : Nat} (hg : s.Good inc) (hinc : n ≤ inc) (ht : t < s.nbTimeSteps) :
    msImage s n t = .ok ((s.file.bytes.drop (s.offset + inc * t)).take n) := by
  unfold msImage
  have h1 := hg.inside
  have h3 : inc * (t + 1) ≤ inc * s.nbTimeSteps := Nat.mul_le_mul_left _ (by omega)
  rw [Nat.mul_succ] at h3
  rw [Lif.getOffset_good s inc hg t ht, ok_bind, if_neg (by omega)]
  rfl

/-- What a time step gives: `none` without a center. -/
theorem msFrame_ok {P : RParams G} {H : Heur 3 G} (hP : P.Valid) (hH : H.Valid P) {sort : List (Center 3 G) → List (Center 3 G)}
    (hs : SortsByIntensity sort) (round : G → G) (find : List Byte → R (List (Center 3 G))) {ratio vx vz : G}
    (hv : ratio * vx = vz) {s : Serie} {inc n t : Nat} (hg : s.Good inc) (hinc : n ≤ inc) (ht : t < s.nbTimeSteps)
    {found : List (Center 3 G)} (hf : find ((s.file.bytes.drop (s.offset + inc * t)).take n) = .ok found)
    (hr : ∀ c ∈ found, 0 ≤ c.r) :
    ∃ out, msFrame P H sort round find ratio s n t = .ok out ∧ ∀ before, Tracked round vx vz found before (out.or before) := by
  unfold msFrame
  rw [msImage_good hg hinc ht, ok_bind, hf, ok_bind]
  by_cases hn : found = []
  · subst hn
    exact ⟨none, rfl, fun before => ⟨fun _ => rfl, fun h => absurd rfl h⟩⟩
  · rw [if_neg (by simpa using hn)]
    obtain ⟨kept, tree, h1, h2⟩ := Center.C31_half hP hH hs (found.map (stretchZ ratio)) (by
      intro c hc
      obtain ⟨c', hc', rfl⟩ := List.mem_map.1 hc
      exact hr c' hc')
    rw [h1, ok_bind]
    refine ⟨_, rfl, fun before => ⟨fun h => absurd h hn, fun _ => ⟨found.map (stretchZ ratio), kept, ?_, h2, rfl⟩⟩⟩
    rw [List.forall₂_map_right_iff]
    exact List.forall₂_same.2 (fun c _ => stretchZ_pixels hv c)

theorem msName_inj {output : List Char} {t u : Nat} (h : msName output t = msName output u) : t = u := by
  unfold msName at h
  have h1 := List.append_cancel_left h
  have := Files.value_pad 3 t
  rw [h1, Files.value_pad 3 u] at this
  exact this.symm

omit [IsStrictOrderedRing G] [LinearOrder G] [Field G] in
/-- The loop, when all the time steps succeed. -/
theorem msLoop_ok (frame : Nat → R (Option (List (List G)))) (output : List Char) (out : Nat → Option (List (List G))) :
    ∀ (n a : Nat) (disk : Sheets G), (∀ t, a ≤ t → t < a + n → frame t = .ok (out t)) →
    ∃ disk', msLoop frame output (List.range' a n) disk = (disk', .ok ()) ∧
      (∀ t, a ≤ t → t < a + n → disk' (msName output t) = (out t).or (disk (msName output t))) ∧
      ∀ name, (∀ t, a ≤ t → t < a + n → name ≠ msName output t) → disk' name = disk name := by
  intro n
  induction n with
  | zero => exact fun a disk _ => ⟨disk, rfl, fun t h1 h2 => absurd h2 (by omega), fun _ _ => rfl⟩
  | succ n ih =>
    intro a disk h
    have ha := h a le_rfl (by omega)
    rw [List.range'_succ]
    cases ho : out a with
    | none =>
      obtain ⟨d, h1, h2, h3⟩ := ih (a + 1) disk (fun t h1 h2 => h t (by omega) (by omega))
      refine ⟨d, ?_, ?_, ?_⟩
      · unfold msLoop
        rw [ha, ho]
        exact h1
      · intro t h4 h5
        by_cases e : t = a
        · subst e
          rw [ho, Option.none_or]
          exact h3 _ (fun u h6 _ e => by have := msName_inj e; omega)
        · exact h2 t (by omega) (by omega)
      · exact fun name hn => h3 name (fun t h4 h5 => hn t (by omega) (by omega))
    | some rows =>
      obtain ⟨d, h1, h2, h3⟩ := ih (a + 1) (Function.update disk (msName output a) (some rows))
        (fun t h1 h2 => h t (by omega) (by omega))
      refine ⟨d, ?_, ?_, ?_⟩
      · unfold msLoop
        rw [ha, ho]
        exact h1
      · intro t h4 h5
        by_cases e : t = a
        · subst e
          rw [ho, h3 _ (fun u h6 _ e => by have := msName_inj e; omega), Function.update_self]
          rfl
        · rw [h2 t (by omega) (by omega), Function.update_of_ne (fun e' => e (msName_inj e'))]
      · intro name hn
        rw [h3 name (fun t h4 h5 => hn t (by omega) (by omega)), Function.update_of_ne (hn a (by omega) (by omega))]

/-- The numbers in the names: decimal digits, at least three, no more than needed. -/
def Numbered (m : Nat → List Char) : Prop :=
  ∀ t, (∀ c ∈ m t, isDig c = true) ∧ Files.value (m t) = t ∧ 3 ≤ (m t).length ∧ (t < 1000 → (m t).length = 3)

theorem pad_numbered : Numbered (Files.pad 3) := by
  intro t
  refine ⟨Files.pad_digits 3 t, Files.value_pad 3 t, ?_, fun ht => ?_⟩
  · rw [Files.pad_length]; omega
  · rw [Files.pad_length]
    have := Files.dec_length_le t 3 (by omega) (by omega)
    omega

/-- All the run after the choice of the deconvolution. -/
theorem run_ok {P : RParams G} {H : Heur 3 G} (hP : P.Valid) (hH : H.Valid P) {sort : List (Center 3 G) → List (Center 3 G)}
    (hs : SortsByIntensity sort) (round : G → G) (inf : G) (find : MsConfig G → List Byte → R (List (Center 3 G)))
    (kernelOf : List Byte → R (List G)) {settings : String → Option G} {vx vz : G} (hv : Voxel settings vx vz)
    {s : Serie} {inc X Y Z : Nat} (hd : s.spatialDimensions = [X, Y, Z]) (hg : s.Good inc) (hinc : X * Y * Z ≤ inc)
    (o : MsOptions) (start : Nat) (ho : o.start = start) (h64 : start < 2 ^ 64) (disk disk1 : Sheets G) (c : MsConfig G)
    (hset : msSetup round kernelOf o s X Y Z disk = (disk1, .ok c)) (found : Nat → List (Center 3 G))
    (hf : ∀ t, start ≤ t → t < s.nbTimeSteps →
      find c ((s.file.bytes.drop (s.offset + inc * t)).take (X * Y * Z)) = .ok (found t) ∧ ∀ c ∈ found t, 0 ≤ c.r) :
    ∃ disk', multiscale P H sort round inf find kernelOf settings o s disk = (disk', .ok ()) ∧
      (∀ t, start ≤ t → t < s.nbTimeSteps →
        Tracked round vx vz (found t) (disk1 (msName o.output t)) (disk' (msName o.output t))) ∧
      ∀ name, (∀ t, start ≤ t → t < s.nbTimeSteps → name ≠ msName o.output t) → disk' name = disk1 name := by
  have hstart : Lif.toU64 o.start = start := by
    unfold Lif.toU64
    rw [ho]
    omega
  have hex : ∀ t, ∃ out, start ≤ t → t < s.nbTimeSteps →
      msFrame P H sort round (find c) (Lif.zxRatio inf settings) s (X * Y * Z) t = .ok out ∧
        ∀ before, Tracked round vx vz (found t) before (out.or before) := by
    intro t
    by_cases h : start ≤ t ∧ t < s.nbTimeSteps
    · obtain ⟨out, h1, h2⟩ := msFrame_ok hP hH hs round (find c) (zxRatio_voxel (inf := inf) hv) hg hinc h.2
        (hf t h.1 h.2).1 (hf t h.1 h.2).2
      exact ⟨out, fun _ _ => ⟨h1, h2⟩⟩
    · exact ⟨none, fun h1 h2 => absurd ⟨h1, h2⟩ h⟩
  choose out hout using hex
  obtain ⟨disk', d1, d2, d3⟩ := msLoop_ok (msFrame P H sort round (find c) (Lif.zxRatio inf settings) s (X * Y * Z)) o.output
    out (s.nbTimeSteps - start) start disk1 (fun t h1 h2 => (hout t h1 (by omega)).1)
  refine ⟨disk', ?_, ?_, ?_⟩
  · unfold multiscale
    simp only [hd, hset, hstart]
    exact d1
  · intro t h1 h2
    rw [d2 t h1 (by omega)]
    exact (hout t h1 h2).2 _
  · exact fun name hn => d3 name (fun t h1 h2 => hn t h1 (by omega))

/-- C146. Without deconvolution: every time step from `start` on has its file, numbered by the time step, with the centers found in the
bytes of this time step, once, in isotropic coordinates, without half overlap. No other file is changed. Missing: a time step
without any center keeps the file it had before (`C146_stale_counterexample`). -/
theorem C146_files_partial {P : RParams G} {H : Heur 3 G} (hP : P.Valid) (hH : H.Valid P)
    {sort : List (Center 3 G) → List (Center 3 G)} (hs : SortsByIntensity sort) (round : G → G) (inf : G)
    (find : MsConfig G → List Byte → R (List (Center 3 G))) (kernelOf : List Byte → R (List G)) {settings : String → Option G}
    {vx vz : G} (hv : Voxel settings vx vz) {s : Serie} {inc X Y Z : Nat} (hd : s.spatialDimensions = [X, Y, Z])
    (hg : s.Good inc) (hinc : X * Y * Z ≤ inc) (hsize : 10 ≤ X ∧ 10 ≤ Y ∧ 10 ≤ Z) (output : List Char) (octave0 : Bool)
    (kernelFile : Option (List Char)) (start : Nat) (h32 : start < 2 ^ 31) (disk : Sheets G) (found : Nat → List (Center 3 G))
    (hf : ∀ t, start ≤ t → t < s.nbTimeSteps →
      find ⟨octave0, true, none⟩ ((s.file.bytes.drop (s.offset + inc * t)).take (X * Y * Z)) = .ok (found t) ∧
        ∀ c ∈ found t, 0 ≤ c.r) :
    ∃ disk', multiscale P H sort round inf find kernelOf settings ⟨output, start, octave0, 0, kernelFile⟩ s disk = (disk', .ok ()) ∧
      ∃ m, Numbered m ∧
        (∀ t, start ≤ t → t < s.nbTimeSteps →
          Tracked round vx vz (found t) (disk (output ++ ['_', 't'] ++ m t)) (disk' (output ++ ['_', 't'] ++ m t))) ∧
        ∀ name, (∀ t, start ≤ t → t < s.nbTimeSteps → name ≠ output ++ ['_', 't'] ++ m t) → disk' name = disk name := by
  obtain ⟨disk', d1, d2, d3⟩ := run_ok hP hH hs round inf find kernelOf hv hd hg hinc
    ⟨output, start, octave0, 0, kernelFile⟩ start rfl (by omega) disk disk ⟨octave0, true, none⟩
    (by unfold msSetup; simp [hsize]) found hf
  exact ⟨disk', d1, Files.pad 3, pad_numbered, d2, d3⟩

/-- C146. The bytes given to the finder are those of `LifSerie::fill3DBuffer` for a series with a single channel of bytes. -/
theorem C146_image (s : Serie) (inc : Nat) (hg : s.Good inc) (X Y Z : Nat) (hd : s.spatialDimensions = [X, Y, Z])
    (hn : s.nbPixelsInOneTimeStep = X * Y * Z) (hc : s.channels.length = 1) (hinc : X * Y * Z ≤ inc) (buf : List Byte)
    (hb : buf.length = X * Y * Z) (t : Nat) (ht : t < s.nbTimeSteps) :
    ∃ s' im, s.fill3DBuffer buf t = .ok (s', im) ∧ msImage s (X * Y * Z) t = .ok im ∧ im.length = X * Y * Z := by
  obtain ⟨s', h, -⟩ := Lif.C49_frame s inc hg (X * Y * Z) (by rw [hn, hc, Nat.mul_one]) hinc buf hb t ht
  refine ⟨s', _, h, msImage_good hg hinc ht, ?_⟩
  have h1 := hg.inside
  have h3 : inc * (t + 1) ≤ inc * s.nbTimeSteps := Nat.mul_le_mul_left _ (by omega)
  rw [Nat.mul_succ] at h3
  simp
  omega

/-- C146. With the option 1, the kernel computed from the first time step is written to its file and used for all the time
steps. A later run with the option 2 and this file then writes the same files, if printing does not change the kernel and
the outputs do not overwrite the kernel. -/
theorem C146_kernel_partial {P : RParams G} {H : Heur 3 G} (hP : P.Valid) (hH : H.Valid P)
    {sort : List (Center 3 G) → List (Center 3 G)} (hs : SortsByIntensity sort) (round : G → G) (inf : G)
    (find : MsConfig G → List Byte → R (List (Center 3 G))) (kernelOf : List Byte → R (List G)) {settings : String → Option G}
    {vx vz : G} (hv : Voxel settings vx vz) {s : Serie} {inc X Y Z : Nat} (hd : s.spatialDimensions = [X, Y, Z])
    (hg : s.Good inc) (hinc : X * Y * Z ≤ inc) (hsize : 10 ≤ X ∧ 10 ≤ Y ∧ 10 ≤ Z) (output : List Char) (octave0 : Bool)
    (file : List Char) (hfile : ∀ m, (∀ c ∈ m, isDig c = true) → file ≠ output ++ ['_', 't'] ++ m) (start : Nat)
    (h32 : start < 2 ^ 31) (hN : 0 < s.nbTimeSteps) (disk : Sheets G) (k : List G)
    (hk : kernelOf ((s.file.bytes.drop s.offset).take (X * Y * Z)) = .ok k) (hkl : k.length = Z / 2 + 1)
    (hround : ∀ v ∈ k, round v = v) (found : Nat → List (Center 3 G))
    (hf : ∀ t, start ≤ t → t < s.nbTimeSteps →
      find ⟨octave0, false, some k⟩ ((s.file.bytes.drop (s.offset + inc * t)).take (X * Y * Z)) = .ok (found t) ∧
        ∀ c ∈ found t, 0 ≤ c.r) :
    ∃ disk', multiscale P H sort round inf find kernelOf settings ⟨output, start, octave0, 1, some file⟩ s disk = (disk', .ok ()) ∧
      disk' file = some [k] ∧
      multiscale P H sort round inf find kernelOf settings ⟨output, start, octave0, 2, some file⟩ s disk' = (disk', .ok ()) ∧
      ∃ m, Numbered m ∧
        (∀ t, start ≤ t → t < s.nbTimeSteps →
          Tracked round vx vz (found t) (disk (output ++ ['_', 't'] ++ m t)) (disk' (output ++ ['_', 't'] ++ m t))) ∧
        ∀ name, name ≠ file → (∀ t, start ≤ t → t < s.nbTimeSteps → name ≠ output ++ ['_', 't'] ++ m t) →
          disk' name = disk name := by
  have hkr : k.map round = k := by
    conv_rhs => rw [← List.map_id k]
    exact List.map_congr_left hround
  have hne : ∀ t, msName output t ≠ file := fun t e => hfile _ (Files.pad_digits 3 t) e.symm
  have himg := msImage_good hg hinc hN
  rw [Nat.mul_zero, Nat.add_zero] at himg
  have hload : ∀ c : MsConfig G, msLoadKernel X Y Z k c = .ok { c with kernel := some k } := by
    intro c
    unfold msLoadKernel
    rw [if_pos ⟨hsize.2.2, hsize.2.1, hsize.1⟩, if_neg (by omega)]
  have hset1 : msSetup round kernelOf ⟨output, start, octave0, 1, some file⟩ s X Y Z disk
      = (Function.update disk file (some [k]), .ok ⟨octave0, false, some k⟩) := by
    unfold msSetup
    simp only [himg, ok_bind, hk, hkr, hload]
    rfl
  obtain ⟨disk', d1, d2, d3⟩ := run_ok hP hH hs round inf find kernelOf hv hd hg hinc
    ⟨output, start, octave0, 1, some file⟩ start rfl (by omega) disk _ _ hset1 found hf
  have hfk : disk' file = some [k] := by
    rw [d3 file (fun t _ _ => (hne t).symm), Function.update_self]
  refine ⟨disk', d1, hfk, ?_, Files.pad 3, pad_numbered, ?_, ?_⟩
  · have hset2 : msSetup round kernelOf ⟨output, start, octave0, 2, some file⟩ s X Y Z disk'
        = (disk', .ok ⟨octave0, false, some k⟩) := by
      unfold msSetup
      have e : ([k] : List (List G)).flatten = k := by simp
      simp only [hfk, e, hload]
      rfl
    obtain ⟨out, hout⟩ : ∃ out : Nat → Option (List (List G)), ∀ t, start ≤ t → t < s.nbTimeSteps →
        msFrame P H sort round (find ⟨octave0, false, some k⟩) (Lif.zxRatio inf settings) s (X * Y * Z) t = .ok (out t) := by
      have : ∀ t, ∃ out, start ≤ t → t < s.nbTimeSteps →
          msFrame P H sort round (find ⟨octave0, false, some k⟩) (Lif.zxRatio inf settings) s (X * Y * Z) t = .ok out := by
        intro t
        by_cases h : start ≤ t ∧ t < s.nbTimeSteps
        · obtain ⟨out, h1, -⟩ := msFrame_ok hP hH hs round (find ⟨octave0, false, some k⟩) (zxRatio_voxel (inf := inf) hv) hg
            hinc h.2 (hf t h.1 h.2).1 (hf t h.1 h.2).2
          exact ⟨out, fun _ _ => h1⟩
        · exact ⟨none, fun h1 h2 => absurd ⟨h1, h2⟩ h⟩
      choose out hout using this
      exact ⟨out, hout⟩
    have hstart : Lif.toU64 (start : Int) = start := by
      unfold Lif.toU64
      omega
    have L := fun dd => msLoop_ok
      (msFrame P H sort round (find ⟨octave0, false, some k⟩) (Lif.zxRatio inf settings) s (X * Y * Z)) output
      out (s.nbTimeSteps - start) start dd (fun t h1 h2 => hout t h1 (by omega))
    obtain ⟨e1, a1, a2, a3⟩ := L (Function.update disk file (some [k]))
    obtain ⟨e2, b1, b2, b3⟩ := L disk'
    have he1 : e1 = disk' := by
      have := d1
      unfold multiscale at this
      simp only [hd, hset1, hstart] at this
      rw [a1] at this
      exact (Prod.mk.inj this).1
    subst he1
    unfold multiscale
    simp only [hd, hset2, hstart]
    rw [b1]
    congr 1
    funext name
    by_cases hn : ∃ t, start ≤ t ∧ t < s.nbTimeSteps ∧ name = msName output t
    · obtain ⟨t, h1, h2, rfl⟩ := hn
      rw [b2 t h1 (by omega), a2 t h1 (by omega)]
      cases out t <;> simp
    · exact b3 name (fun t h1 h2 e => hn ⟨t, h1, by omega, e⟩)
  · intro t h1 h2
    have := d2 t h1 h2
    rw [Function.update_of_ne (hne t)] at this
    exact this
  · intro name hn1 hn2
    rw [d3 name hn2, Function.update_of_ne hn1]

/-- C146. A series that has not three dimensions is refused, and no file is changed. -/
theorem C146_dimensions (P : RParams G) (H : Heur 3 G) (sort : List (Center 3 G) → List (Center 3 G)) (round : G → G) (inf : G)
    (find : MsConfig G → List Byte → R (List (Center 3 G))) (kernelOf : List Byte → R (List G)) (settings : String → Option G)
    (o : MsOptions) (s : Serie) (disk : Sheets G) (h : s.spatialDimensions.length ≠ 3) :
    multiscale P H sort round inf find kernelOf settings o s disk = (disk, .error .invalidArgument) := by
  unfold multiscale
  split
  · rename_i hd
    rw [hd] at h
    exact absurd rfl h
  · rfl

/-- C146. A kernel that is missing, or of another length than half the depth of the image plus one, is refused, and no file is
changed. -/
theorem C146_bad_kernel (P : RParams G) (H : Heur 3 G) (sort : List (Center 3 G) → List (Center 3 G)) (round : G → G) (inf : G)
    (find : MsConfig G → List Byte → R (List (Center 3 G))) (kernelOf : List Byte → R (List G)) (settings : String → Option G)
    (s : Serie) {X Y Z : Nat} (hd : s.spatialDimensions = [X, Y, Z]) (hsize : 10 ≤ X ∧ 10 ≤ Y ∧ 10 ≤ Z) (output : List Char)
    (start : Int) (octave0 : Bool) (file : Option (List Char)) (disk : Sheets G)
    (h : ∀ f rows, file = some f → disk f = some rows → rows.flatten.length ≠ Z / 2 + 1) :
    multiscale P H sort round inf find kernelOf settings ⟨output, start, octave0, 2, file⟩ s disk
      = (disk, .error .invalidArgument) := by
  unfold multiscale msSetup
  simp only [hd]
  cases file with
  | none => rfl
  | some f =>
    cases hf : disk f with
    | none => simp [hf]
    | some rows =>
      have := h f rows rfl hf
      have e : ∀ c : MsConfig G, msLoadKernel X Y Z rows.flatten c = .error .invalidArgument := by
        intro c
        unfold msLoadKernel
        rw [if_pos ⟨hsize.2.2, hsize.2.1, hsize.1⟩, if_pos this]
      simp only [hf, e]
      rfl

/-- C146, counterexample. With the option 1 the file of the kernel is required, though it is documented as optional. -/
theorem C146_optional_kernel_counterexample (P : RParams G) (H : Heur 3 G) (sort : List (Center 3 G) → List (Center 3 G))
    (round : G → G) (inf : G) (find : MsConfig G → List Byte → R (List (Center 3 G))) (kernelOf : List Byte → R (List G))
    (settings : String → Option G) (s : Serie) (output : List Char) (start : Int) (octave0 : Bool) (disk : Sheets G) :
    multiscale P H sort round inf find kernelOf settings ⟨output, start, octave0, 1, none⟩ s disk
      = (disk, .error .invalidArgument) := by
  unfold multiscale msSetup
  split <;> rfl

/-- C146, counterexample. For an image with a dimension less than 10 any kernel is accepted, and not used: the run is the same as for an
option that does not exist. -/
theorem C146_small_counterexample (P : RParams G) (H : Heur 3 G) (sort : List (Center 3 G) → List (Center 3 G)) (round : G → G)
    (inf : G) (find : MsConfig G → List Byte → R (List (Center 3 G))) (kernelOf : List Byte → R (List G))
    (settings : String → Option G) (s : Serie) {X Y Z : Nat} (hd : s.spatialDimensions = [X, Y, Z])
    (hsize : X < 10 ∨ Y < 10 ∨ Z < 10) (output : List Char) (start : Int) (octave0 : Bool) (file : List Char) (disk : Sheets G)
    (rows : List (List G)) (hf : disk file = some rows) :
    multiscale P H sort round inf find kernelOf settings ⟨output, start, octave0, 2, some file⟩ s disk
      = multiscale P H sort round inf find kernelOf settings ⟨output, start, octave0, 3, some file⟩ s disk := by
  unfold multiscale msSetup msLoadKernel
  have : ¬ (10 ≤ Z ∧ 10 ≤ Y ∧ 10 ≤ X) := by omega
  simp [hd, hf, this]

/-- C146, counterexample. With a negative first time step nothing is done, and the program succeeds. -/
theorem C146_negative_start_counterexample (P : RParams G) (H : Heur 3 G) (sort : List (Center 3 G) → List (Center 3 G))
    (round : G → G) (inf : G) (find : MsConfig G → List Byte → R (List (Center 3 G))) (kernelOf : List Byte → R (List G))
    (settings : String → Option G) (s : Serie) {X Y Z : Nat} (hd : s.spatialDimensions = [X, Y, Z]) (output : List Char)
    (start : Int) (octave0 : Bool) (file : Option (List Char)) (disk : Sheets G) (h1 : start < 0) (h2 : -2 ^ 31 ≤ start)
    (hN : s.nbTimeSteps ≤ 2 ^ 63) :
    multiscale P H sort round inf find kernelOf settings ⟨output, start, octave0, 0, file⟩ s disk = (disk, .ok ()) := by
  unfold multiscale msSetup
  have h3 : s.nbTimeSteps - Lif.toU64 start = 0 := by
    unfold Lif.toU64
    omega
  simp [hd, h3, msLoop]

/-- C146, counterexample. A time step where no center is found keeps the file written by a former run. -/
theorem C146_stale_counterexample {P : RParams G} {H : Heur 3 G} (hP : P.Valid) (hH : H.Valid P)
    {sort : List (Center 3 G) → List (Center 3 G)} (hs : SortsByIntensity sort) (round : G → G) (inf : G)
    (kernelOf : List Byte → R (List G)) {settings : String → Option G}
    {vx vz : G} (hv : Voxel settings vx vz) {s : Serie} {inc X Y Z : Nat} (hd : s.spatialDimensions = [X, Y, Z])
    (hg : s.Good inc) (hinc : X * Y * Z ≤ inc) (hsize : 10 ≤ X ∧ 10 ≤ Y ∧ 10 ≤ Z) (output : List Char) (octave0 : Bool)
    (old : List (List G)) :
    multiscale P H sort round inf (fun _ _ => .ok []) kernelOf settings ⟨output, 0, octave0, 0, none⟩ s (fun _ => some old)
      = (fun _ => some old, .ok ()) := by
  obtain ⟨disk', d1, m, -, d2, d3⟩ := C146_files_partial hP hH hs round inf (fun _ _ => .ok []) kernelOf hv hd hg hinc hsize output
    octave0 none 0 (by omega) (fun _ => some old) (fun _ => []) (fun t _ _ => ⟨rfl, by simp⟩)
  rw [show ((0 : Nat) : Int) = 0 from rfl] at d1
  rw [d1]
  congr 1
  funext name
  by_cases h : ∃ t, t < s.nbTimeSteps ∧ name = output ++ ['_', 't'] ++ m t
  · obtain ⟨t, h1, rfl⟩ := h
    exact (d2 t (by omega) h1).1 rfl
  · exact d3 name (fun t _ h1 e => h ⟨t, h1, e⟩)

/-- C146, counterexample. When the settings have the size of a voxel along Z but not along X, the coordinates along Z are multiplied by
an infinite number. -/
theorem C146_ratio_counterexample (inf : G) (settings : String → Option G) (v : G) (hv : v ≠ 0)
    (hx : settings "dblVoxelX" = none) (hz : settings "dblVoxelZ" = some v) : Lif.zxRatio inf settings = inf := by
  have h1 : "dblVoxel" ++ "X" = "dblVoxelX" := by decide
  have h2 : "dblVoxel" ++ "Z" = "dblVoxelZ" := by decide
  unfold Lif.zxRatio Lif.voxelSize
  rw [h1, h2]
  simp [hx, hz, hv]

/-- A series of two time steps of 10 × 10 × 10 voxels. -/
def exSerie : Serie :=
  { dimensions := [("T", ⟨4, 2, 1000⟩), ("X", ⟨1, 10, 1⟩), ("Y", ⟨2, 10, 10⟩), ("Z", ⟨3, 10, 100⟩)]
    channels := [8]
    offset := 5
    memorySize := 2000
    file := { bytes := List.replicate 2005 0 } }

theorem exSerie_dims : exSerie.spatialDimensions = [10, 10, 10] := by decide

theorem exSerie_steps : exSerie.nbTimeSteps = 2 := by decide

theorem exSerie_good : exSerie.Good 1000 := by
  refine ⟨rfl, ?_, ?_, ?_⟩
  · rw [exSerie_steps]
    show 5 + 1000 * 2 ≤ (List.replicate 2005 (0 : Byte)).length
    rw [List.length_replicate]
  · show (List.replicate 2005 (0 : Byte)).length < 2 ^ 63
    rw [List.length_replicate]
    omega
  · intro d hd
    have h : Lif.mapFind "T" exSerie.dimensions = some ⟨4, 2, 1000⟩ := by decide
    rw [h] at hd
    cases hd
    rfl

/-- A sort by intensity. -/
def exSort (l : List (Center 3 ℚ)) : List (Center 3 ℚ) := l.mergeSort (fun a b => decide (a.intensity ≤ b.intensity))

theorem exSort_sorts : SortsByIntensity exSort := by
  refine ⟨fun l => List.mergeSort_perm l _, fun l => ?_⟩
  have := List.pairwise_mergeSort (le := fun a b : Center 3 ℚ => decide (a.intensity ≤ b.intensity))
    (fun a b c h1 h2 => by simp at *; exact h1.trans h2) (fun a b => by simp; exact le_total _ _) l
  exact this.imp (fun h => by simpa using h)

/-- The voxels are twice as long along Z. -/
def exVoxels (name : String) : Option ℚ :=
  if name = "dblVoxelX" then some 1 else if name = "dblVoxelZ" then some 2 else none

theorem exVoxels_voxel : Voxel exVoxels 1 2 := by
  refine Or.inl ⟨by decide, by decide, by norm_num, by norm_num⟩

/-- The hypotheses of the theorems are met, with centers in the second time step: two of the three are kept. -/
example : ∃ disk', multiscale (stdParams (1000 : ℚ) (1 / 1000)) (exHeur 3 ℚ 4) exSort id 0
      (fun c _ => if c.halfZ then .ok [⟨fun _ => 1, 1, -2⟩, ⟨fun _ => 1, 1, -1⟩, ⟨fun _ => 5, 1, -3⟩] else .ok [])
      (fun _ => .ok []) exVoxels ⟨['o'], ((1 : Nat) : Int), false, 0, none⟩ exSerie (fun _ => none) = (disk', .ok ()) ∧
    disk' ['o', '_', 't', '0', '0', '0'] = none := by
  obtain ⟨disk', h1, m, hm, -, h2⟩ := C146_files_partial (stdParams_valid (1000 : ℚ) (1 / 1000)) (exHeur_valid (d := 3) (stdParams_valid (1000 : ℚ) (1 / 1000)))
    exSort_sorts id 0 (fun c _ => if c.halfZ then .ok [⟨fun _ => 1, 1, -2⟩, ⟨fun _ => 1, 1, -1⟩, ⟨fun _ => 5, 1, -3⟩] else .ok [])
    (fun _ => .ok []) exVoxels_voxel exSerie_dims exSerie_good (by norm_num) (by omega) ['o'] false none 1 (by omega)
    (fun _ => none) (fun _ => [⟨fun _ => 1, 1, -2⟩, ⟨fun _ => 1, 1, -1⟩, ⟨fun _ => 5, 1, -3⟩])
    (fun t _ _ => ⟨by simp only [if_true], by
      intro c hc
      simp only [List.mem_cons, List.not_mem_nil, or_false] at hc
      rcases hc with rfl | rfl | rfl <;> exact zero_le_one⟩)
  refine ⟨disk', h1, h2 _ (fun t ht _ e => ?_)⟩
  have e : ['0', '0', '0'] = m t := by simpa using e
  have := (hm t).2.1
  rw [← e] at this
  have h0 : Files.value ['0', '0', '0'] = 0 := by decide
  omega

/-- A kernel of the right length exists. -/
example : ∃ disk', multiscale (stdParams (1000 : ℚ) (1 / 1000)) (exHeur 3 ℚ 4) exSort id 0
      (fun c _ => if c.kernel = some [1, 2, 3, 4, 5, 6] then .ok [⟨fun _ => 1, 1, -2⟩] else .ok [])
      (fun _ => .ok [1, 2, 3, 4, 5, 6]) exVoxels ⟨['o'], ((0 : Nat) : Int), false, 1, some ['k']⟩ exSerie (fun _ => none)
        = (disk', .ok ()) ∧
    disk' ['k'] = some [[1, 2, 3, 4, 5, 6]] := by
  obtain ⟨disk', h1, h2, -⟩ := C146_kernel_partial (stdParams_valid (1000 : ℚ) (1 / 1000)) (exHeur_valid (d := 3) (stdParams_valid (1000 : ℚ) (1 / 1000)))
    exSort_sorts id 0 (fun c _ => if c.kernel = some [1, 2, 3, 4, 5, 6] then .ok [⟨fun _ => 1, 1, -2⟩] else .ok [])
    (fun _ => .ok [1, 2, 3, 4, 5, 6]) exVoxels_voxel exSerie_dims exSerie_good (by norm_num) (by omega) ['o'] false ['k']
    (by intro m _ e; simp at e) 0 (by omega) (by rw [exSerie_steps]; omega)
    (fun _ => none) [1, 2, 3, 4, 5, 6] rfl rfl (fun _ _ => rfl) (fun _ => [⟨fun _ => 1, 1, -2⟩])
    (fun t _ _ => ⟨by simp only [if_true], by
      intro c hc
      simp only [List.mem_cons, List.not_mem_nil, or_false] at hc
      subst hc
      exact zero_le_one⟩)
  exact ⟨disk', h1, h2⟩

/-- The number of pixels of the example. -/
example : exSerie.nbPixelsInOneTimeStep = 10 * 10 * 10 := by decide

end Mains
end Colloids
