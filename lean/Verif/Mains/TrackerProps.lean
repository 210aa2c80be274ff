import Verif.Mains.TrackerLemmas
import Mathlib.Tactic.FieldSimp
import Mathlib.Algebra.Order.Field.Rat

/-! # The program `tracker`: C153 -/

namespace Colloids
namespace Mains

open Tracker (LifIter fillFrom trackerDims frame Follow Agree Room)
open Lif (Byte Serie)
open Files (FileSerie)

variable {G : Type} [Field G] [LinearOrder G] {I P : Type}

/-- The prefix of the names of the files, for the path that the user gives: an underscore at the end is not doubled. -/
def PathOf (output path : List Char) : Prop :=
  output = path ++ ['_'] ∨ (output = path ∧ path ≠ [] ∧ path.getLast? ≠ some '_')

/-- Texts of the numbers of `nb` time steps: digits, of the same width. -/
structure Numbers (nb : Nat) (num : Nat → List Char) : Prop where
  digits : ∀ t, ∀ c ∈ num t, Files.isDig c = true
  value : ∀ t, Files.value (num t) = t
  width : ∀ t, t < nb → (num t).length = (num 0).length

theorem dec_mono (w n : Nat) (hw : 0 < w) : (Files.dec n).length ≤ w ↔ n < 10 ^ w := by
  constructor
  · intro h
    induction w generalizing n with
    | zero => omega
    | succ w ih =>
      rw [Files.dec] at h
      split at h
      · rename_i hn
        calc n < 10 := hn
          _ = 10 ^ 1 := rfl
          _ ≤ 10 ^ (w + 1) := Nat.pow_le_pow_right (by omega) (by omega)
      · rename_i hn
        rw [List.length_append, List.length_singleton] at h
        by_cases hw0 : w = 0
        · subst hw0
          have : (Files.dec (n / 10)).length = 0 := by omega
          rw [Files.dec] at this
          split at this <;> simp at this
        · have := ih (n / 10) (by omega) (by omega)
          rw [Nat.pow_succ]
          omega
  · exact Files.dec_length_le n w hw

theorem numbers (nb : Nat) : Numbers nb (Files.pad (trackWidth nb)) := by
  refine ⟨fun t => Files.pad_digits _ t, fun t => Files.value_pad _ t, fun t ht => ?_⟩
  have h0 : 0 < trackWidth nb := by unfold trackWidth; omega
  have h1 : nb - 1 < 10 ^ trackWidth nb := (dec_mono _ _ h0).1 (by unfold trackWidth; omega)
  have h2 := Files.dec_length_le t _ h0 (by omega)
  have h3 := Files.dec_length_le 0 _ h0 (by omega)
  rw [Files.pad_length, Files.pad_length]
  omega

theorem path_ok {output path : List Char} (h : PathOf output path) : trackerPath output = .ok path := by
  unfold trackerPath
  rcases h with rfl | ⟨rfl, h1, h2⟩
  · simp
  · cases hl : output.getLast? with
    | none => exact absurd (List.getLast?_eq_none_iff.1 hl) h1
    | some c =>
      have : c ≠ '_' := fun hc => h2 (by rw [hl, hc])
      simp [this]

theorem trackRadii_run (conv : List Byte → I) (measure : I → List (Coord G) → R (List G)) (round : G → G) (junk : Coord G) (ratio : G)
    (output path : List Char) (serie : Serie) (n : Nat) (disk : Disk G) (hpath : PathOf output path) (hpc : '%' ∉ path)
    (hs : serie.Good n) (hn : n = serie.spatialDimensions.prod) (hn0 : 0 < n) (hd : serie.spatialDimensions.length ≤ 3)
    (hnb : 0 < serie.nbTimeSteps) (ps : Nat → Particles G) (r : Nat → List G)
    (hps : ∀ t, t < serie.nbTimeSteps → Dat.ofDat junk (disk (stepName path extDat serie.nbTimeSteps t)) 1 = .ok (ps t))
    (hr : ∀ t, t < serie.nbTimeSteps →
      measure (conv (frame serie n n t)) ((ps t).pos.map fun x => ![x 2 * (1 / ratio), x 1, x 0]) = .ok (r t)) :
    trackRadii conv measure round junk ratio output serie disk
      = ((List.range' 0 serie.nbTimeSteps).foldl (radDisk round path serie.nbTimeSteps r) (testPath path disk),
        if serie.offset + n * (serie.nbTimeSteps + 1) ≤ serie.file.bytes.length then .ok () else .error .ub) := by
  obtain ⟨rad, hr1, hr2⟩ := trackerSerie_ok hpc goodRad serie.nbTimeSteps
  obtain ⟨dat, hd1, hd2⟩ := trackerSerie_ok hpc goodDat serie.nbTimeSteps
  obtain ⟨d, hdim, -, hprod, -⟩ := Tracker.C104_dims serie.toHeader hd
  have hdn : d.prod = n := by rw [hprod, hn]
  have hc : ∀ u, u < serie.nbTimeSteps → radiiCenters junk ratio (testPath path disk (stepName path extDat serie.nbTimeSteps u))
      = .ok ((ps u).pos.map fun x => ![x 2 * (1 / ratio), x 1, x 0]) := by
    intro u hu
    have : testPath path disk (stepName path extDat serie.nbTimeSteps u) = disk (stepName path extDat serie.nbTimeSteps u) :=
      Function.update_of_ne (step_test path extDat serie.nbTimeSteps u) _ _
    unfold radiiCenters
    rw [this, hps u hu, ok_bind, pure_eq_ok]
    simp [Particles.scaleBy, Function.comp_def]
  have h1 := hs.inside
  have h2 := hs.small
  have hle : n * 1 ≤ n * serie.nbTimeSteps := Nat.mul_le_mul_left _ hnb
  have hoff := Lif.getOffset_good serie n hs 0 hnb
  have hseek := Tracker.seek_good serie.file hs.ok (serie.offset + n * 0) (by omega)
  have hfill := Tracker.fillFrom_inside n conv { bytes := serie.file.bytes, pos := serie.offset + n * 0, failed := false }
    (by simp only; omega)
  have hloop := radiiLoop_run conv measure round junk ratio hd2 hr2 n serie.offset hn0 serie.file.bytes (by omega) _ r hr
    serie.nbTimeSteps hnb 0 (by omega) { bytes := serie.file.bytes, pos := serie.offset + n * 0 + n, failed := false } rfl
    (by simp only; omega) (testPath path disk) hc
  unfold trackRadii
  simp only [path_ok hpath, hdim, hd1, hoff, hseek, hdn, hfill, hd2, hc 0 hnb, hr1, ok_bind, pure_eq_ok]
  exact hloop

/-- **C153** (path): the path must not be empty; an underscore at its end is removed, because the names have one. -/
theorem C153_path (output : List Char) :
    (trackerPath output = .error .outOfRange ↔ output = []) ∧
      (output ≠ [] → ∃ path, trackerPath output = .ok path ∧ PathOf output path) := by
  rcases List.eq_nil_or_concat output with rfl | ⟨l, c, rfl⟩
  · simp [trackerPath]
  · rw [List.concat_eq_append]
    refine ⟨by simp [trackerPath], fun _ => ?_⟩
    by_cases hc : c = '_'
    · subst hc
      exact ⟨l, by simp [trackerPath], .inl rfl⟩
    · exact ⟨l ++ [c], by simp [trackerPath, hc], .inr ⟨rfl, by simp, by simp [hc]⟩⟩

example : PathOf "out/test_".toList "out/test".toList ∧ PathOf "out/test".toList "out/test".toList :=
  ⟨.inl (by decide), .inr (by decide)⟩

/-! ## All the time steps of a LIF series -/

theorem lif_run (conv : List Byte → I) (track : P → I → (Particles G × List G) × I) (round : G → G) (junk : I) (junkBox : Box 3 G)
    (ratio : G) (p : P) (o : TrackOptions) (path : List Char) (serie : Serie) (n : Nat) (disk : Disk G)
    (hpath : PathOf o.output path) (hpc : '%' ∉ path) (honly : o.only = none)
    (hs : serie.Good n) (hn : n = serie.spatialDimensions.prod) (hn0 : 0 < n) (hd : serie.spatialDimensions.length ≤ 3)
    (hnb : 0 < serie.nbTimeSteps) (hroom : Room serie n) :
    ∃ out : Disk G, trackLif conv track round junk junkBox ratio p o serie disk = (out, .ok ())
      ∧ (∀ t, t < serie.nbTimeSteps → out (path ++ ['_', 't'] ++ Files.pad (trackWidth serie.nbTimeSteps) t ++ ['.', 'd', 'a', 't'])
          = some (Dat.exportToFile round ((track p (conv (frame serie n n t))).1.1.scaleBy ![1, 1, ratio])))
      ∧ (o.intensities = true → ∀ t, t < serie.nbTimeSteps → out (path ++ ['_', 't'] ++ Files.pad (trackWidth serie.nbTimeSteps) t ++ extInt)
          = some ((track p (conv (frame serie n n t))).1.2.map fun x => .dbl (round x)))
      ∧ out (path ++ ['.', 'n', 'b'])
          = some ((List.range serie.nbTimeSteps).map fun t => .nat (track p (conv (frame serie n n t))).1.1.pos.length)
      ∧ ∀ name, (∀ t, t < serie.nbTimeSteps → name ≠ path ++ ['_', 't'] ++ Files.pad (trackWidth serie.nbTimeSteps) t ++ ['.', 'd', 'a', 't']) →
          (o.intensities = true → ∀ t, t < serie.nbTimeSteps → name ≠ path ++ ['_', 't'] ++ Files.pad (trackWidth serie.nbTimeSteps) t ++ extInt) →
          name ≠ path ++ ['.', 'n', 'b'] → name ≠ testName path → out name = disk name := by
  obtain ⟨int, hi1, hi2⟩ := trackerSerie_ok hpc goodInt serie.nbTimeSteps
  obtain ⟨dat, hd1, hd2⟩ := trackerSerie_ok hpc goodDat serie.nbTimeSteps
  obtain ⟨s, hm, ha⟩ := make_agree conv (realCenters ratio track) (noCenters junkBox) serie n hs hn hd hnb junk p
  have hloop := lifLoop_ok conv (realCenters ratio track) (noCenters junkBox) round hd2 hi2 o.intensities hs hn0 hroom p
    serie.nbTimeSteps s 0 (by omega) ha (Function.update (testPath path disk) (path ++ extNb) (some []))
  obtain ⟨f1, f2, f3, f4⟩ := stepDisk_fold round path serie.nbTimeSteps o.intensities
    (fun t => (realCenters ratio track p (conv (frame serie n n t))).1) (List.range' 0 serie.nbTimeSteps) List.nodup_range'
    (Function.update (testPath path disk) (path ++ extNb) (some [])) [] (by rw [Function.update_self])
  refine ⟨(List.range' 0 serie.nbTimeSteps).foldl (stepDisk round path serie.nbTimeSteps o.intensities
    (fun t => (realCenters ratio track p (conv (frame serie n n t))).1)) (Function.update (testPath path disk) (path ++ extNb) (some [])), ?_, ?_, ?_, ?_, ?_⟩
  · unfold trackLif
    simp only [path_ok hpath, hm, hi1, hd1, ok_bind, pure_eq_ok, honly]
    exact hloop
  · intro t ht
    exact f1 t (by simp [ht])
  · intro hq t ht
    exact f2 hq t (by simp [ht])
  · refine f3.trans ?_
    rw [List.nil_append, List.range_eq_range']
    refine congrArg some (List.map_congr_left fun t _ => ?_)
    simp [realCenters, Particles.scaleBy]
  · intro name n1 n2 n3 n4
    have h4 := f4 name (fun t ht => n1 t (by simpa using ht)) (fun hq t ht => n2 hq t (by simpa using ht)) n3
    refine h4.trans ?_
    exact (Function.update_of_ne n3 _ _).trans (Function.update_of_ne n4 _ _)

/-- **C153** (tracking): the program writes, for each time step of the series, the file of the centers found in the image of this time step, with `z` in the
unit of `x`, and their intensities if they are asked; then the number of particles of each time step. It changes nothing else but the
file that tests the path. -/
theorem C153_lif (conv : List Byte → I) (track : P → I → (Particles G × List G) × I) (round : G → G) (junk : I) (junkBox : Box 3 G)
    (ratio : G) (p : P) (o : TrackOptions) (path : List Char) (serie : Serie) (n : Nat) (disk : Disk G)
    (hpath : PathOf o.output path) (hpc : '%' ∉ path) (honly : o.only = none)
    (hs : serie.Good n) (hn : n = serie.spatialDimensions.prod) (hn0 : 0 < n) (hd : serie.spatialDimensions.length ≤ 3)
    (hnb : 0 < serie.nbTimeSteps) (hroom : Room serie n) :
    ∃ (out : Disk G) (num : Nat → List Char), trackLif conv track round junk junkBox ratio p o serie disk = (out, .ok ())
      ∧ Numbers serie.nbTimeSteps num
      ∧ (∀ t, t < serie.nbTimeSteps → out (path ++ ['_', 't'] ++ num t ++ ['.', 'd', 'a', 't'])
          = some (Dat.exportToFile round ((track p (conv (frame serie n n t))).1.1.scaleBy ![1, 1, ratio])))
      ∧ (o.intensities = true → ∀ t, t < serie.nbTimeSteps → out (path ++ ['_', 't'] ++ num t ++ extInt)
          = some ((track p (conv (frame serie n n t))).1.2.map fun x => .dbl (round x)))
      ∧ out (path ++ ['.', 'n', 'b'])
          = some ((List.range serie.nbTimeSteps).map fun t => .nat (track p (conv (frame serie n n t))).1.1.pos.length)
      ∧ ∀ name, (∀ t, t < serie.nbTimeSteps → name ≠ path ++ ['_', 't'] ++ num t ++ ['.', 'd', 'a', 't']) →
          (o.intensities = true → ∀ t, t < serie.nbTimeSteps → name ≠ path ++ ['_', 't'] ++ num t ++ extInt) →
          name ≠ path ++ ['.', 'n', 'b'] → name ≠ testName path → out name = disk name := by
  obtain ⟨out, e1, e2⟩ := lif_run conv track round junk junkBox ratio p o path serie n disk hpath hpc honly hs hn hn0 hd hnb hroom
  exact ⟨out, _, e1, numbers _, e2⟩

/-- **C153** (one time step): with `onlyTimeStep` the file of this time step is the one that tracking all the series writes, and no other time step is written. A time
step after the end is refused. -/
theorem C153_only (conv : List Byte → I) (track : P → I → (Particles G × List G) × I) (round : G → G) (junk : I) (junkBox : Box 3 G)
    (ratio : G) (p : P) (o : TrackOptions) (path : List Char) (serie : Serie) (n : Nat) (disk : Disk G) (t : Nat)
    (hpath : PathOf o.output path) (hpc : '%' ∉ path)
    (hs : serie.Good n) (hn : n = serie.spatialDimensions.prod) (hn0 : 0 < n) (hd : serie.spatialDimensions.length ≤ 3)
    (hnb : 0 < serie.nbTimeSteps) (hroom : Room serie n) :
    (t < serie.nbTimeSteps → ∃ (all one : Disk G) (name num : List Char),
      name = path ++ ['_', 't'] ++ num ++ ['.', 'd', 'a', 't'] ∧ Files.value num = t ∧
      trackLif conv track round junk junkBox ratio p { o with only := none } serie disk = (all, .ok ())
        ∧ trackLif conv track round junk junkBox ratio p { o with only := some t } serie disk = (one, .ok ())
        ∧ one name = all name
        ∧ one name = some (Dat.exportToFile round ((track p (conv (frame serie n n t))).1.1.scaleBy ![1, 1, ratio]))
        ∧ ∀ other, other ≠ name → (o.intensities = true → ∀ num, other ≠ path ++ ['_', 't'] ++ num ++ extInt) →
          other ≠ testName path → one other = disk other)
    ∧ (serie.nbTimeSteps ≤ t →
      (trackLif conv track round junk junkBox ratio p { o with only := some t } serie disk).2 = .error .outOfRange) := by
  obtain ⟨int, hi1, hi2⟩ := trackerSerie_ok hpc goodInt serie.nbTimeSteps
  obtain ⟨dat, hd1, hd2⟩ := trackerSerie_ok hpc goodDat serie.nbTimeSteps
  obtain ⟨s, hm, ha⟩ := make_agree conv (realCenters ratio track) (noCenters junkBox) serie n hs hn hd hnb junk p
  constructor
  · intro ht
    have hpath' : PathOf ({ o with only := none } : TrackOptions).output path := hpath
    have hloop := lifLoop_ok conv (realCenters ratio track) (noCenters junkBox) round hd2 hi2 o.intensities hs hn0 hroom p
      serie.nbTimeSteps s 0 (by omega) ha (Function.update (testPath path disk) (path ++ extNb) (some []))
    obtain ⟨f1, -⟩ := stepDisk_fold round path serie.nbTimeSteps o.intensities
      (fun t => (realCenters ratio track p (conv (frame serie n n t))).1) (List.range' 0 serie.nbTimeSteps) List.nodup_range'
      (Function.update (testPath path disk) (path ++ extNb) (some [])) [] (by rw [Function.update_self])
    have hall := f1 t (by simp [ht])
    obtain ⟨s1, e1, a1⟩ := Tracker.seek_agree (conv := conv) (track := realCenters ratio track) (empty := noCenters junkBox) hs
      ⟨0, p, none⟩ s ha.header ha.offset ha.bytes ha.ok ha.size ha.param t ht
    obtain ⟨s2, e2, a2⟩ := Tracker.deref_agree _ s1 a1
    have htime : s2.time = t := a2.time
    have hc : Tracker.centersOf conv (realCenters ratio track) (noCenters junkBox) serie n n (t, p)
        = (realCenters ratio track p (conv (frame serie n n t))).1 := by
      unfold Tracker.centersOf
      rw [if_pos ht]
    have e2' : s1.deref (realCenters ratio track) (noCenters junkBox) s1.serie.nbTimeSteps
        = (s2, (realCenters ratio track p (conv (frame serie n n t))).1) := by
      rw [e2]; exact congrArg _ hc
    let d1 : Disk G := if o.intensities then Function.update (testPath path disk) (stepName path extInt serie.nbTimeSteps t)
      (some ((realCenters ratio track p (conv (frame serie n n t))).1.2.map fun x => .dbl (round x))) else testPath path disk
    have hint : exportIntensities round (if o.intensities then some int else none) t
        (realCenters ratio track p (conv (frame serie n n t))).1.2 (testPath path disk) = (d1, .ok ()) := by
      unfold exportIntensities
      cases h : o.intensities <;> simp [d1, h, hi2]
    refine ⟨(List.range' 0 serie.nbTimeSteps).foldl (stepDisk round path serie.nbTimeSteps o.intensities
    (fun t => (realCenters ratio track p (conv (frame serie n n t))).1)) (Function.update (testPath path disk) (path ++ extNb) (some [])),
      Function.update d1 (stepName path extDat serie.nbTimeSteps t)
      (some (Dat.exportToFile round (realCenters ratio track p (conv (frame serie n n t))).1.1)),
      stepName path extDat serie.nbTimeSteps t, Files.pad (trackWidth serie.nbTimeSteps) t, rfl, Files.value_pad _ _, ?_, ?_, ?_, ?_, ?_⟩
    · unfold trackLif
      simp only [path_ok hpath, hm, hi1, hd1, ok_bind, pure_eq_ok]
      exact hloop
    · unfold trackLif
      simp only [path_ok hpath, hm, hi1, hd1, ok_bind, pure_eq_ok, e1, e2', htime, hint]
      unfold exportCenters
      simp only [hd2]
    · rw [Function.update_self]
      exact hall.symm
    · rw [Function.update_self]
      rfl
    · intro other h1 h2 h3
      rw [Function.update_of_ne h1]
      have htest : testPath path disk other = disk other := Function.update_of_ne h3 _ _
      cases h : o.intensities
      · simp only [d1, h, Bool.false_eq_true, if_false, htest]
      · simp only [d1, h, if_true]
        exact (Function.update_of_ne (h2 h _) _ _).trans htest
  · intro ht
    have hnbt : s.serie.nbTimeSteps ≤ t := by rw [ha.header]; exact ht
    have := Tracker.C104_refused conv s t hnbt
    unfold trackLif
    simp only [path_ok hpath, hm, hi1, hd1, ok_bind, pure_eq_ok, this]

/-- The hypotheses hold for the two time steps of `smallSerie`. -/
example : PathOf "out_".toList "out".toList ∧ '%' ∉ "out".toList ∧ Tracker.smallSerie.Good 2
    ∧ 2 = Tracker.smallSerie.spatialDimensions.prod ∧ Tracker.smallSerie.spatialDimensions.length ≤ 3
    ∧ 0 < Tracker.smallSerie.nbTimeSteps ∧ Room Tracker.smallSerie 2 := by
  refine ⟨.inl (by decide), by decide, ⟨rfl, by decide, by decide, ?_⟩, by decide, by decide, by decide, .inl (by decide)⟩
  intro d hd
  have : Lif.mapFind "T" Tracker.smallSerie.dimensions = some ⟨4, 2, 2⟩ := by decide
  rw [this] at hd
  injection hd with hd
  rw [← hd]

/-! ## Series of images -/

/-- **C153** (images): if the memory that is not initialised happens to hold the number of time steps, and if the images of one more time step exist, the
program writes the centers and the numbers of particles of all the time steps. -/
theorem C153_images_partial (load : Nat → R I) (track : P → I → (Particles G × List G) × I) (round : G → G)
    (ratio : G) (p : P) (o : TrackOptions) (path : List Char) (tsize : Nat) (img : Nat → I) (disk : Disk G)
    (hpath : PathOf o.output path) (hpc : '%' ∉ path) (hl : ∀ t, t ≤ tsize → load t = .ok (img t)) :
    ∃ (out : Disk G) (num : Nat → List Char), trackSerie load track round ratio p o tsize tsize disk = (out, .ok ())
      ∧ Numbers tsize num
      ∧ (∀ t, t < tsize → out (path ++ ['_', 't'] ++ num t ++ ['.', 'd', 'a', 't'])
          = some (Dat.exportToFile round ((track p (img t)).1.1.scaleBy ![1, 1, ratio])))
      ∧ out (path ++ ['.', 'n', 'b']) = some ((List.range tsize).map fun t => .nat (track p (img t)).1.1.pos.length) := by
  obtain ⟨int, hi1, hi2⟩ := trackerSerie_ok hpc goodInt tsize
  obtain ⟨dat, hd1, hd2⟩ := trackerSerie_ok hpc goodDat tsize
  have hloop := serieLoop_ok load (realCenters ratio track) p round hd2 hi2 o.intensities img tsize 0
    (fun u _ h => hl u (by omega)) (Function.update (testPath path disk) (path ++ extNb) (some []))
  obtain ⟨f1, f2, f3, f4⟩ := stepDisk_fold round path tsize o.intensities
    (fun t => (realCenters ratio track p (img t)).1) (List.range' 0 tsize) List.nodup_range'
    (Function.update (testPath path disk) (path ++ extNb) (some [])) [] (by rw [Function.update_self])
  refine ⟨(List.range' 0 tsize).foldl (stepDisk round path tsize o.intensities
    (fun t => (realCenters ratio track p (img t)).1)) (Function.update (testPath path disk) (path ++ extNb) (some [])),
    Files.pad (trackWidth tsize), ?_, numbers _, ?_, ?_⟩
  · unfold trackSerie
    simp only [path_ok hpath, hl 0 (Nat.zero_le _), hi1, hd1, ok_bind, pure_eq_ok]
    exact hloop
  · intro t ht
    exact f1 t (by simp [ht])
  · refine f3.trans ?_
    rw [List.nil_append, List.range_eq_range']
    refine congrArg some (List.map_congr_left fun t _ => ?_)
    simp [realCenters, Particles.scaleBy]

/-- **C153** (counterexample, images): on a series of images that ends with the last time step, whatever the memory that is not initialised holds, the program
does not succeed in writing all the time steps: either it stops with an error, or it misses the last one. -/
theorem C153_images_counterexample (load : Nat → R I) (track : P → I → (Particles G × List G) × I) (round : G → G)
    (ratio : G) (p : P) (o : TrackOptions) (path : List Char) (tsize : Nat) (img : Nat → I) (disk : Disk G)
    (hpath : PathOf o.output path) (hpc : '%' ∉ path) (h0 : 0 < tsize) (hl : ∀ t, t < tsize → load t = .ok (img t)) (e : Fault)
    (he : load tsize = .error e) (hdisk : ∀ num, disk (path ++ ['_', 't'] ++ num ++ ['.', 'd', 'a', 't']) = none)
    (length : Nat) :
    (trackSerie load track round ratio p o tsize length disk).2 = .error e
      ∨ ∀ num, Files.value num = tsize - 1 →
        (trackSerie load track round ratio p o tsize length disk).1 (path ++ ['_', 't'] ++ num ++ ['.', 'd', 'a', 't']) = none := by
  obtain ⟨int, hi1, hi2⟩ := trackerSerie_ok hpc goodInt tsize
  obtain ⟨dat, hd1, hd2⟩ := trackerSerie_ok hpc goodDat tsize
  by_cases hlen : tsize ≤ length
  · left
    have hloop := serieLoop_end load (realCenters ratio track) p round hd2 hi2 o.intensities img length 0 tsize h0 (by omega)
      (fun u _ h => hl u h) e he (Function.update (testPath path disk) (path ++ extNb) (some []))
    unfold trackSerie
    simp only [path_ok hpath, hl 0 h0, hi1, hd1, ok_bind, pure_eq_ok]
    exact congrArg Prod.snd hloop
  · right
    intro num hnum
    have hloop := serieLoop_ok load (realCenters ratio track) p round hd2 hi2 o.intensities img length 0
      (fun u _ h => hl u (by omega)) (Function.update (testPath path disk) (path ++ extNb) (some []))
    obtain ⟨-, -, -, f4⟩ := stepDisk_fold round path tsize o.intensities
      (fun t => (realCenters ratio track p (img t)).1) (List.range' 0 length) List.nodup_range'
      (Function.update (testPath path disk) (path ++ extNb) (some [])) [] (by rw [Function.update_self])
    have hout : trackSerie load track round ratio p o tsize length disk
        = ((List.range' 0 length).foldl (stepDisk round path tsize o.intensities (fun t => (realCenters ratio track p (img t)).1))
          (Function.update (testPath path disk) (path ++ extNb) (some [])), .ok ()) := by
      unfold trackSerie
      simp only [path_ok hpath, hl 0 h0, hi1, hd1, ok_bind, pure_eq_ok]
      exact hloop
    rw [hout]
    have a1 : path ++ ['_', 't'] ++ num ++ ['.', 'd', 'a', 't'] ≠ path ++ extNb :=
      apart (a := path ++ ['_', 't'] ++ num) (ext := ['.', 'd', 'a', 't']) (by decide) (by decide) (by decide)
    have a2 : path ++ ['_', 't'] ++ num ++ ['.', 'd', 'a', 't'] ≠ testName path := by
      intro h
      unfold testName at h
      rw [List.append_assoc, List.append_assoc] at h
      have := List.append_cancel_left h
      simp at this
    refine (f4 _ ?_ ?_ a1).trans ?_
    · intro t ht h
      unfold stepName at h
      have h1 := List.append_cancel_right h
      have h2 := List.append_cancel_left h1
      rw [h2, Files.value_pad] at hnum
      have := List.mem_range'_1.1 ht
      omega
    · intro _ t _
      exact apart (a := path ++ ['_', 't'] ++ num) (ext := ['.', 'd', 'a', 't']) (by decide) (by decide) (by decide)
    · rw [Function.update_of_ne a1]
      exact (Function.update_of_ne a2 _ _).trans (hdisk num)

/-- Two images and no third. -/
example : ∃ (load : Nat → R Nat) (img : Nat → Nat), (∀ t, t < 2 → load t = .ok (img t)) ∧ load 2 = .error .invalidArgument :=
  ⟨fun t => if t < 2 then .ok t else .error .invalidArgument, id, fun t ht => by simp [ht], rfl⟩

/-! ## Radii -/

/-- **C153** (radii): with `extractRadii`, when the file has at least one more image after the series, the program writes for each time step the radii
measured in the image of this time step around the centers of its `.dat` file, in pixels and in the order of the array. -/
theorem C153_radii_partial (conv : List Byte → I) (measure : I → List (Coord G) → R (List G)) (round : G → G) (junk : Coord G) (ratio : G)
    (output path : List Char) (serie : Serie) (n : Nat) (disk : Disk G) (hpath : PathOf output path) (hpc : '%' ∉ path)
    (hs : serie.Good n) (hn : n = serie.spatialDimensions.prod) (hn0 : 0 < n) (hd : serie.spatialDimensions.length ≤ 3)
    (hnb : 0 < serie.nbTimeSteps) (hroom : serie.offset + n * (serie.nbTimeSteps + 1) ≤ serie.file.bytes.length) :
    ∃ num : Nat → List Char, Numbers serie.nbTimeSteps num ∧
      ∀ (ps : Nat → Particles G) (r : Nat → List G),
        (∀ t, t < serie.nbTimeSteps → Dat.ofDat junk (disk (path ++ ['_', 't'] ++ num t ++ ['.', 'd', 'a', 't'])) 1 = .ok (ps t)) →
        (∀ t, t < serie.nbTimeSteps →
          measure (conv (frame serie n n t)) ((ps t).pos.map fun x => ![x 2 * (1 / ratio), x 1, x 0]) = .ok (r t)) →
        ∃ out : Disk G, trackRadii conv measure round junk ratio output serie disk = (out, .ok ())
          ∧ (∀ t, t < serie.nbTimeSteps → out (path ++ ['_', 't'] ++ num t ++ extRad) = some ((r t).map fun x => .dbl (round x)))
          ∧ ∀ name, (∀ t, t < serie.nbTimeSteps → name ≠ path ++ ['_', 't'] ++ num t ++ extRad) → name ≠ testName path →
            out name = disk name := by
  refine ⟨Files.pad (trackWidth serie.nbTimeSteps), numbers _, fun ps r hps hr => ?_⟩
  have hrun := trackRadii_run conv measure round junk ratio output path serie n disk hpath hpc hs hn hn0 hd hnb ps r hps hr
  rw [if_pos hroom] at hrun
  obtain ⟨h1, h2⟩ := radDisk_fold round path serie.nbTimeSteps r (List.range' 0 serie.nbTimeSteps) List.nodup_range' (testPath path disk)
  refine ⟨_, hrun, fun t ht => h1 t (by simp [ht]), fun name n1 n2 => ?_⟩
  exact (h2 name fun t ht => n1 t (by simpa using ht)).trans (Function.update_of_ne n2 _ _)

/-- **C153** (counterexample, last series): when fewer bytes than an image follow the series, in particular when it is the last one of the file, the increment after the last
time step reads after the end of the file. -/
theorem C153_radii_last_counterexample (conv : List Byte → I) (measure : I → List (Coord G) → R (List G)) (round : G → G) (junk : Coord G)
    (ratio : G) (output path : List Char) (serie : Serie) (n : Nat) (disk : Disk G) (hpath : PathOf output path) (hpc : '%' ∉ path)
    (hs : serie.Good n) (hn : n = serie.spatialDimensions.prod) (hn0 : 0 < n) (hd : serie.spatialDimensions.length ≤ 3)
    (hnb : 0 < serie.nbTimeSteps) (hlast : serie.file.bytes.length < serie.offset + n * (serie.nbTimeSteps + 1)) :
    ∃ num : Nat → List Char, Numbers serie.nbTimeSteps num ∧
      ∀ (ps : Nat → Particles G) (r : Nat → List G),
        (∀ t, t < serie.nbTimeSteps → Dat.ofDat junk (disk (path ++ ['_', 't'] ++ num t ++ ['.', 'd', 'a', 't'])) 1 = .ok (ps t)) →
        (∀ t, t < serie.nbTimeSteps →
          measure (conv (frame serie n n t)) ((ps t).pos.map fun x => ![x 2 * (1 / ratio), x 1, x 0]) = .ok (r t)) →
        (trackRadii conv measure round junk ratio output serie disk).2 = .error .ub := by
  refine ⟨Files.pad (trackWidth serie.nbTimeSteps), numbers _, fun ps r hps hr => ?_⟩
  have hrun := trackRadii_run conv measure round junk ratio output path serie n disk hpath hpc hs hn hn0 hd hnb ps r hps hr
  rw [if_neg (by omega)] at hrun
  rw [hrun]

/-- `smallSerie` is the last of its file; with two more bytes there is room for one more image. -/
example : Tracker.smallSerie.file.bytes.length < Tracker.smallSerie.offset + 2 * (Tracker.smallSerie.nbTimeSteps + 1)
    ∧ Tracker.smallSerie.offset + 2 * (Tracker.smallSerie.nbTimeSteps + 1) ≤ (Tracker.smallSerie.file.bytes ++ [0, 0]).length := by decide

/-- **C153** (from centers to radii): after the tracking of the series, if the text holds the numbers exactly, the radii of a time step are measured in its image around the
centers found in this image, before the conversion of `z`. -/
theorem C153_chain_partial (conv : List Byte → I) (track : P → I → (Particles G × List G) × I) (measure : I → List (Coord G) → R (List G))
    (junk : I) (junkBox : Box 3 G) (junkC : Coord G)
    (ratio : G) (hratio : ratio ≠ 0) (p : P) (o : TrackOptions) (path : List Char) (serie : Serie) (n : Nat) (disk : Disk G)
    (hpath : PathOf o.output path) (hpc : '%' ∉ path) (honly : o.only = none)
    (hs : serie.Good n) (hn : n = serie.spatialDimensions.prod) (hn0 : 0 < n) (hd : serie.spatialDimensions.length ≤ 3)
    (hnb : 0 < serie.nbTimeSteps) (hroom : serie.offset + n * (serie.nbTimeSteps + 1) ≤ serie.file.bytes.length) (r : Nat → List G)
    (hr : ∀ t, t < serie.nbTimeSteps → measure (conv (frame serie n n t))
      ((track p (conv (frame serie n n t))).1.1.pos.map fun x => ![x 2, x 1, x 0]) = .ok (r t)) :
    ∃ (d1 d2 : Disk G) (num : Nat → List Char), Numbers serie.nbTimeSteps num
      ∧ trackLif conv track (fun x => x) junk junkBox ratio p o serie disk = (d1, .ok ())
      ∧ trackRadii conv measure (fun x => x) junkC ratio o.output serie d1 = (d2, .ok ())
      ∧ ∀ t, t < serie.nbTimeSteps →
        d2 (path ++ ['_', 't'] ++ num t ++ extRad) = some ((r t).map fun x => .dbl x) := by
  obtain ⟨d1, e1, hdat, -⟩ := lif_run conv track (fun x => x) junk junkBox ratio p o path serie n disk hpath hpc honly hs hn hn0 hd
    hnb (.inr hroom)
  let found : Nat → Particles G := fun t => (track p (conv (frame serie n n t))).1.1.scaleBy ![1, 1, ratio]
  have hread : ∀ t, ∃ out, Dat.ofDat junkC (some (Dat.exportToFile (fun x => x) (found t))) 1 = .ok out ∧ out.pos = (found t).pos := by
    intro t
    obtain ⟨out, h1, h2, h3, -⟩ := Dat.C40_round_trip_partial (fun x => x) junkC (found t) 1
    refine ⟨out, h1, List.ext_getElem? fun i => ?_⟩
    cases hx : (found t).pos[i]? with
    | none => rw [List.getElem?_eq_none_iff] at hx ⊢; omega
    | some x =>
      obtain ⟨y, hy, hyx⟩ := h3 i x hx
      rw [hy, funext hyx]
  choose ps hps hpos using hread
  have hrun := trackRadii_run conv measure (fun x => x) junkC ratio o.output path serie n d1 hpath hpc hs hn hn0 hd hnb ps r
    (fun t ht => by rw [← hps t]; exact congrArg (fun f => Dat.ofDat junkC f 1) (hdat t ht))
    (fun t ht => by
      rw [← hr t ht, hpos t]
      simp only [found, Particles.scaleBy, List.map_map]
      congr 1
      refine List.map_congr_left fun x _ => ?_
      funext a
      fin_cases a <;> simp [mul_assoc, hratio])
  rw [if_pos hroom] at hrun
  obtain ⟨h1, -⟩ := radDisk_fold (fun x => x) path serie.nbTimeSteps r (List.range' 0 serie.nbTimeSteps) List.nodup_range' (testPath path d1)
  exact ⟨d1, _, _, numbers _, e1, hrun, fun t ht => h1 t (by simp [ht])⟩

/-- Two more bytes after `smallSerie`: the hypotheses hold, and a measure that always works exists. -/
example : ∃ s : Serie, s.Good 2 ∧ 2 = s.spatialDimensions.prod ∧ s.spatialDimensions.length ≤ 3 ∧ 0 < s.nbTimeSteps
    ∧ s.offset + 2 * (s.nbTimeSteps + 1) ≤ s.file.bytes.length := by
  refine ⟨{ Tracker.smallSerie with file := { bytes := [9, 1, 2, 3, 4, 0, 0], pos := 5 } }, ⟨rfl, by decide, by decide, ?_⟩,
    by decide, by decide, by decide, by decide⟩
  intro d hd
  have : Lif.mapFind "T" Tracker.smallSerie.dimensions = some ⟨4, 2, 2⟩ := by decide
  rw [this] at hd
  injection hd with hd
  rw [← hd]

/-! ## Configuration -/

/-- **C153** (configuration): with the directory `.colloids` in the home directory, the configuration is found or made, and is there for the next runs. -/
theorem C153_configuration_partial (mkdir : Bool) (s : IniState) (h : s.dir = true) :
    (testTrackerIni mkdir s).2 = .ok () ∧ (testTrackerIni mkdir s).1 = ⟨true, true⟩ := by
  obtain ⟨d, i⟩ := s
  simp only at h
  subst h
  cases i <;> cases mkdir <;> decide

/-- **C153** (counterexample, first run): the first run always fails. If `MKDIR` makes the directory, its success is taken for a failure, and the second
run works; if there is no such command (where names depend on capitals), all the runs fail. -/
theorem C153_first_run_counterexample (mkdir : Bool) :
    (testTrackerIni mkdir ⟨false, false⟩).2 = .error .invalidArgument
      ∧ (testTrackerIni mkdir (testTrackerIni mkdir ⟨false, false⟩).1).2 = (if mkdir then .ok () else .error .invalidArgument) := by
  cases mkdir <;> decide

end Mains
end Colloids
