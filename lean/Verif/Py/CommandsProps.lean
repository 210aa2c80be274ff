import Verif.CommonLemmas
import Verif.Files.Lemmas
import Verif.Py.CommandsModel

/-! # C264: command lines given to the programs -/

namespace Colloids
namespace Py
namespace Commands

theorem atoi_dec (n : Nat) : atoi (Files.dec n) = n := by
  have h : ∀ l : List Char, (∀ c ∈ l, Files.isDig c = true) → l.takeWhile Files.isDig = l := by
    intro l
    induction l with
    | nil => exact fun _ => rfl
    | cons c l ih =>
      intro h
      rw [List.takeWhile_cons_of_pos (h c List.mem_cons_self), ih fun d hd => h d (List.mem_cons_of_mem _ hd)]
  rw [atoi, h _ (Files.dec_digits n), Files.value_dec]

theorem extension_dat (b : List Char) : extension (b ++ ".dat".toList) = "dat".toList := by
  rw [extension, List.reverse_append]
  rfl

/-- C264. The program linkboo reads the frames of the experiment, their token and their time step. -/
theorem C264_linkboo (inTraj : List Char → R Series) (x : Xp) :
    ∃ s, readLinkboo inTraj (linkboo x) = .ok s ∧ s.pattern = x.base ++ ".dat".toList ∧ s.token = x.token ∧ s.texts = [x.dt] ∧ s.frames = List.range' x.offset x.size := by
  refine ⟨⟨x.base ++ ".dat".toList, x.token, [x.dt], x.size, x.offset⟩, ?_, rfl, rfl, rfl, rfl⟩
  rw [linkboo, readLinkboo, extension_dat, if_neg (by decide)]
  simp only [atoi_dec]

/-- C264. The program totalRdf reads the name of the first file of the experiment, its token, 200 bins and the range 15. -/
theorem C264_totalRdf (x : Xp) : readTotalRdf (totalRdf x) = .ok (x.base ++ ".dat".toList, x.token, 200, "15".toList) := by
  rw [totalRdf, readTotalRdf, atoi_dec]
  have : Files.dec 15 = "15".toList := by decide +kernel
  rw [this]

/-- C264. The program g6 reads the file it is given, the radius of the experiment, the number of bins and the range, and uses the raw bond order of degree 6. -/
theorem C264_g6 (x : Xp) (name : List Char) (nbins : Nat) (cutoff : List Char) :
    readG6 (g6 x name nbins cutoff) = .ok ⟨name, x.radius, nbins, cutoff, false, 6⟩ := by
  rw [g6, readG6, atoi_dec]
  rfl

/-- C264. The program dynamics reads the trajectories of the experiment and the mode 1, without drift. -/
theorem C264_dynamics (x : Xp) : readDynamics (dynamics x) = .ok (x.trajBase ++ ".traj".toList, 1) := by
  rw [dynamics, readDynamics, show atoi ['1'] = 1 by decide]

/-- What the program linker reads. -/
theorem link_read (x : Xp) : readLinker (link x) = .ok ⟨x.base ++ ".dat".toList, x.token, [x.radius, x.dt], x.offset, x.size⟩ := by
  rw [link, readLinker]
  simp only [atoi_dec]

/-- C264. The program linker reads the files, the token, the radius and the time step of the experiment, and its frames only if there are as many frames as the number of the first one. -/
theorem C264_link_partial (x : Xp) :
    ∃ s, readLinker (link x) = .ok s ∧ s.pattern = x.base ++ ".dat".toList ∧ s.token = x.token ∧ s.texts = [x.radius, x.dt] ∧
      (s.frames = List.range' x.offset x.size ↔ x.offset = x.size) := by
  refine ⟨_, link_read x, rfl, rfl, rfl, fun h => ?_, fun h => ?_⟩
  · have := congrArg List.length h
    simpa [Series.frames] using this
  · show List.range' x.size x.offset = _
    rw [h]

/-- C264, the part that is false. For an experiment that begins at frame 0, the program linker reads no frame; else if there are more frames than the number of the first one, it does
not read this one. -/
theorem C264_link_counterexample (x : Xp) :
    ∃ s, readLinker (link x) = .ok s ∧ (x.offset = 0 → s.frames = []) ∧ (0 < x.offset → x.offset < x.size → x.offset ∈ x.frames ∧ x.offset ∉ s.frames) := by
  refine ⟨_, link_read x, fun h => ?_, fun h0 h => ⟨?_, ?_⟩⟩
  · show List.range' x.size x.offset = []
    rw [h]
    rfl
  · rw [Xp.frames, List.mem_range'_1]
    omega
  · show x.offset ∉ List.range' x.size x.offset
    rw [List.mem_range'_1]
    omega

/-- C264, the part that is false. The program cutter refuses any command of `cut`. -/
theorem C264_cut_counterexample {F : Type} (num : List Char → Option F) (x : Xp) : readCutter num (cut x) = .error .logicError := rfl

/-- C264, the part that is false. The program boo refuses any command of `boo`, without radius. -/
theorem C264_boo_counterexample (x : Xp) : readBoo (boo x) = .error .logicError := rfl

/-- The programs accept other commands. -/
example : readLinker [['a'], ['t'], ['1'], ['2'], ['1', '0']] = .ok ⟨['a'], ['t'], [['1'], ['2']], 10, 0⟩ ∧ readBoo [['a'], ['1']] = .ok (['a'], ['1']) ∧
    readCutter (fun s => if s = ['5'] then some 5 else none) [['a'], ['5']] = .ok (some ['a'], some 5) := by decide +kernel

/-- Experiments of ten frames from frame 0 and from frame 3. -/
example : (⟨['a'], ['_', 't'], ['5'], ['1'], 0, 10, ['a']⟩ : Xp).offset = 0 ∧ 0 < (⟨['a'], ['_', 't'], ['5'], ['1'], 3, 10, ['a']⟩ : Xp).offset ∧
    (⟨['a'], ['_', 't'], ['5'], ['1'], 3, 10, ['a']⟩ : Xp).offset < (⟨['a'], ['_', 't'], ['5'], ['1'], 3, 10, ['a']⟩ : Xp).size := by decide

end Commands
end Py
end Colloids
