import Verif.Py.ExperimentModel
import Verif.Dyn.FileProps

/-! # The files of trajectories read by python -/

namespace Colloids
namespace Py
namespace Exp

/-! ## Lines -/

theorem pyLines_line (line r : List Char) (h : '\n' ∉ line) : pyLines (line ++ '\n' :: r) = (line ++ ['\n']) :: pyLines r := by
  induction line with
  | nil => simp [pyLines]
  | cons c l ih =>
    have hc : c ≠ '\n' := fun e => h (by simp [e])
    rw [List.cons_append, pyLines, if_neg hc, ih fun e => h (by simp [e])]
    rfl

theorem splitTab_none (l : List Char) (h : '\t' ∉ l) : splitTab l = [l] := by
  induction l with
  | nil => rfl
  | cons c l ih =>
    have hc : c ≠ '\t' := fun e => h (by simp [e])
    rw [splitTab, if_neg hc, ih fun e => h (by simp [e])]

theorem splitTab_one (a b : List Char) (ha : '\t' ∉ a) (hb : '\t' ∉ b) : splitTab (a ++ '\t' :: b) = [a, b] := by
  induction a with
  | nil => simp [splitTab, splitTab_none b hb]
  | cons c l ih =>
    have hc : c ≠ '\t' := fun e => ha (by simp [e])
    rw [List.cons_append, splitTab, if_neg hc, ih fun e => ha (by simp [e])]

/-! ## Numbers -/

theorem dropWhile_none {l : List Char} (h : ∀ c ∈ l, isSpace c = false) : l.dropWhile isSpace = l := by
  cases l with
  | nil => rfl
  | cons c l => rw [List.dropWhile_cons_of_neg]; simp [h c (by simp)]

theorem pyInt_show (n : Nat) : pyInt (showNat n) = .ok n := by
  have hs : ∀ c ∈ showNat n, isSpace c = false := fun c hc => digit_not_space (showNat_digit hc)
  unfold pyInt
  rw [dropWhile_none hs, dropWhile_none (fun c hc => hs c (List.mem_reverse.1 hc)), List.reverse_reverse]
  have : Nat.ofDigitChars 10 (showNat n) 0 = n := Nat.ofDigitChars_ten_toDigits
  simp only [this]
  rw [if_pos ⟨showNat_ne_nil n, List.all_eq_true.2 fun c hc => showNat_digit hc⟩]

theorem words_word (w : List Char) (hw : ∀ c ∈ w, isSpace c = false) (h0 : w ≠ []) : words w = [w] := by
  induction w with
  | nil => exact absurd rfl h0
  | cons c l ih =>
    have hc := hw c (by simp)
    rw [words, hc, if_neg (by simp)]
    cases l with
    | nil => simp [words]
    | cons d m =>
      rw [if_neg (by simp [hw d (by simp)]), ih (fun c hc => hw c (by simp [hc])) (by simp)]

theorem words_cons (w r : List Char) (s : Char) (hw : ∀ c ∈ w, isSpace c = false) (h0 : w ≠ []) (hs : isSpace s = true) :
    words (w ++ s :: r) = w :: words r := by
  induction w with
  | nil => exact absurd rfl h0
  | cons c l ih =>
    have hc := hw c (by simp)
    rw [List.cons_append, words, hc, if_neg (by simp)]
    cases l with
    | nil =>
      have h1 : words (s :: r) = words r := by rw [words, hs]; simp
      rw [List.nil_append, if_pos (by simp [hs]), h1]
    | cons d m =>
      rw [if_neg (by simp [hw d (by simp)]), ih (fun c hc => hw c (by simp [hc])) (by simp)]

theorem takeWhile_all {p : α → Bool} {l : List α} (h : ∀ c ∈ l, p c = true) : l.takeWhile p = l := by
  induction l with
  | nil => rfl
  | cons c l ih => rw [List.takeWhile_cons_of_pos (h c (by simp)), ih fun c hc => h c (by simp [hc])]

theorem words_steps (s0 : Nat) (ss : List Nat) : words (showNat s0 ++ tailText ss) = (s0 :: ss).map showNat := by
  have hs : ∀ n, ∀ c ∈ showNat n, isSpace c = false := fun n c hc => digit_not_space (showNat_digit hc)
  induction ss generalizing s0 with
  | nil => simp [tailText, words_word _ (hs s0) (showNat_ne_nil s0)]
  | cons s ss ih =>
    have : tailText (s :: ss) = '\t' :: (showNat s ++ tailText ss) := by simp [tailText]
    rw [this, words_cons _ _ _ (hs s0) (showNat_ne_nil s0) (by decide), ih]
    rfl

theorem fromstring_steps (s0 : Nat) (ss : List Nat) : fromstring (showNat s0 ++ tailText ss) = s0 :: ss := by
  unfold fromstring
  rw [words_steps, takeWhile_all, List.map_map]
  · conv_rhs => rw [← List.map_id (s0 :: ss)]
    apply List.map_congr_left
    intro n _
    exact Nat.ofDigitChars_ten_toDigits
  · intro w hw
    obtain ⟨n, -, rfl⟩ := List.mem_map.1 hw
    exact List.all_eq_true.2 fun c hc => showNat_digit hc

/-! ## Trajectories -/

theorem newline_not_digit (n : Nat) : '\n' ∉ showNat n := fun h => by
  have := showNat_digit h
  revert this; decide

theorem tab_not_digit (n : Nat) : '\t' ∉ showNat n := fun h => by
  have := showNat_digit h
  revert this; decide

theorem lines_files (l : List (Nat × Nat × List Nat)) : pyLines (filesText l)
    = l.flatMap fun x => [showNat x.1 ++ ['\n'], (showNat x.2.1 ++ tailText x.2.2) ++ ['\n']] := by
  induction l with
  | nil => rfl
  | cons x l ih =>
    have : filesText (x :: l) = showNat x.1 ++ '\n' :: ((showNat x.2.1 ++ tailText x.2.2) ++ '\n' :: filesText l) := by
      simp [filesText, trajText]
    rw [this, pyLines_line _ _ (newline_not_digit _), pyLines_line _ _ (fun h => line_no_newline _ _ _ h rfl), ih]
    rfl

theorem stream_files (l : List (Nat × Nat × List Nat)) :
    stream (l.flatMap fun x => [showNat x.1 ++ ['\n'], (showNat x.2.1 ++ tailText x.2.2) ++ ['\n']]) = .ok (l.map fun x => (x.1, x.2.1 :: x.2.2)) := by
  induction l with
  | nil => rfl
  | cons x l ih =>
    rw [List.flatMap_cons, List.cons_append, List.cons_append, List.nil_append, stream, List.dropLast_concat, List.dropLast_concat, pyInt_show, ok_bind, ih,
      ok_bind, fromstring_steps]
    rfl

theorem split_trajs {trajs : List Traj} (h : ∀ tr ∈ trajs, tr.steps ≠ []) :
    ∃ l : List (Nat × Nat × List Nat), trajs = l.map fun x => (⟨x.1, x.2.1 :: x.2.2⟩ : Traj) := by
  induction trajs with
  | nil => exact ⟨[], rfl⟩
  | cons T Ts ih =>
    obtain ⟨l, hl⟩ := ih fun tr htr => h tr (by simp [htr])
    obtain ⟨start, steps⟩ := T
    cases steps with
    | nil => exact absurd rfl (h _ (List.mem_cons_self ..))
    | cons s ss => exact ⟨(start, s, ss) :: l, by simp [hl]⟩

theorem count_odd (n : Nat) : (List.range (2 * n)).foldl (fun tr l => tr + l % 2) 0 = n := by
  induction n with
  | zero => rfl
  | succ n ih =>
    rw [show 2 * (n + 1) = 2 * n + 1 + 1 from by ring, List.range_succ, List.foldl_append, List.range_succ, List.foldl_append, ih]
    simp only [List.foldl_cons, List.foldl_nil]
    omega

/-- The text of a file, line by line. -/
theorem lines_text {G : Type} {shw : G → List Char} {f : Dyn.TrajFile G} {text : List Char} (hs : ∀ x, '\n' ∉ shw x) (hb : '\n' ∉ f.base)
    (ht : '\n' ∉ f.token) (hw : ∀ tr ∈ f.trajs, tr.steps ≠ []) (h : f.text shw = .ok text) :
    ∃ l : List (Nat × Nat × List Nat), f.trajs = l.map (fun x : Nat × Nat × List Nat => (⟨x.1, x.2.1 :: x.2.2⟩ : Traj)) ∧ pyLines text
      = ((shw f.radius ++ '\t' :: shw f.dt) ++ ['\n']) :: (f.base ++ ['\n']) :: (f.token ++ ['\n'])
        :: ((showNat f.offset ++ '\t' :: showNat f.size) ++ ['\n'])
        :: l.flatMap fun x => [showNat x.1 ++ ['\n'], (showNat x.2.1 ++ tailText x.2.2) ++ ['\n']] := by
  obtain ⟨l, hl⟩ := split_trajs hw
  refine ⟨l, hl, ?_⟩
  have hw : TrajIndex.write f.trajs = .ok (filesText l) := by
    have := write_all l []
    rw [hl]
    simpa [TrajIndex.write] using this
  unfold Dyn.TrajFile.text at h
  rw [hw, ok_bind] at h
  have h := Except.ok.inj h
  rw [← h]
  have e : ∀ a b c : List Char, a ++ '\t' :: (b ++ '\n' :: c) = (a ++ '\t' :: b) ++ '\n' :: c := by simp
  rw [e, pyLines_line _ _, pyLines_line _ _ hb, pyLines_line _ _ ht, e, pyLines_line _ _, lines_files]
  · simp [newline_not_digit]
  · simp [hs]

/-- C163. The python class reads what the C++ classes save: the header, the starting times and the positions of all the trajectories, and
their number, for all numbers of trajectories and all positions. -/
theorem C163_read {G : Type} [Zero G] {shw : G → List Char} {parse : List Char → Option G} {round : G → G} (hp : Dyn.Prints shw parse round)
    (f : Dyn.TrajFile G) (hb : '\n' ∉ f.base) (hb' : '\t' ∉ f.base) (ht : '\n' ∉ f.token) (ht' : '\t' ∉ f.token)
    (hw : ∀ tr ∈ f.trajs, tr.steps ≠ []) :
    ∃ text, f.text shw = .ok text
      ∧ readTraj parse text = .ok ⟨round f.radius, round f.dt, f.base, f.token, f.offset, f.size⟩
      ∧ loadTrajectories text = .ok (f.trajs.map (·.start), f.trajs.map (·.steps))
      ∧ nbTrajs text = .ok f.trajs.length := by
  have hnum : ∀ x, '\n' ∉ shw x ∧ '\t' ∉ shw x := fun x =>
    ⟨fun h => by have := hp.chars x _ h; revert this; decide, fun h => by have := hp.chars x _ h; revert this; decide⟩
  have hx : ∃ text, f.text shw = .ok text := by
    obtain ⟨l, hl⟩ := split_trajs hw
    have : TrajIndex.write f.trajs = .ok (filesText l) := by
      have := write_all l []
      rw [hl]
      simpa [TrajIndex.write] using this
    exact ⟨_, by unfold Dyn.TrajFile.text; rw [this, ok_bind]; rfl⟩
  obtain ⟨text, hx⟩ := hx
  obtain ⟨l, hl, hlines⟩ := lines_text (fun x => (hnum x).1) hb ht hw hx
  refine ⟨text, hx, ?_, ?_, ?_⟩
  · unfold readTraj lineOf
    rw [hlines]
    simp only [List.getD_cons_zero, List.getD_cons_succ, List.dropLast_concat]
    rw [splitTab_one _ _ (hnum _).2 (hnum _).2, splitTab_none _ hb', splitTab_none _ ht', splitTab_one _ _ (tab_not_digit _) (tab_not_digit _)]
    simp only [hp.parse, pyInt_show, ok_bind]
    rfl
  · unfold loadTrajectories
    rw [hlines]
    simp only [List.drop_succ_cons, List.drop_zero]
    rw [stream_files, ok_bind, hl]
    simp [pure_eq_ok, Function.comp_def]
  · unfold nbTrajs
    rw [hlines, if_neg (by simp)]
    simp only [List.drop_succ_cons, List.drop_zero]
    have : (l.flatMap fun x : Nat × Nat × List Nat => [showNat x.1 ++ ['\n'], (showNat x.2.1 ++ tailText x.2.2) ++ ['\n']]).length = 2 * l.length := by
      clear hl hlines
      induction l with
      | nil => rfl
      | cons x l ih => rw [List.flatMap_cons, List.length_append, ih]; simp; ring
    rw [this, count_odd, hl]
    simp

/-- C163. The trajectories that python reads are those that the C++ constructor reads in the same file. -/
theorem C163_same_as_cpp {trajs : List Traj} (h : ∀ tr ∈ trajs, Writable tr) (h0 h1 h2 h3 : List Char)
    (hn : '\n' ∉ h0 ∧ '\n' ∉ h1 ∧ '\n' ∉ h2 ∧ '\n' ∉ h3) :
    ∃ text, TrajIndex.write trajs = .ok text ∧ TrajIndex.read text = .ok trajs
      ∧ loadTrajectories (h0 ++ '\n' :: (h1 ++ '\n' :: (h2 ++ '\n' :: (h3 ++ '\n' :: text)))) = .ok (trajs.map (·.start), trajs.map (·.steps)) := by
  obtain ⟨text, ht, hr⟩ := C04_round_trip trajs h
  refine ⟨text, ht, hr, ?_⟩
  obtain ⟨l, hl⟩ := split_trajs fun tr htr => (h tr htr).1
  have hw : TrajIndex.write trajs = .ok (filesText l) := by
    have := write_all l []
    rw [hl]
    simpa [TrajIndex.write] using this
  rw [ht] at hw
  have hw := Except.ok.inj hw
  unfold loadTrajectories
  rw [pyLines_line _ _ hn.1, pyLines_line _ _ hn.2.1, pyLines_line _ _ hn.2.2.1, pyLines_line _ _ hn.2.2.2, hw, lines_files]
  simp only [List.drop_succ_cons, List.drop_zero]
  rw [stream_files, ok_bind, hl]
  simp [pure_eq_ok, Function.comp_def]

example : loadTrajectories ['1', '\t', '2', '\n', 'a', '\n', 'b', '\n', '0', '\t', '2', '\n', '0', '\n', '1', '\t', '1', '2', '\n', '1', '\n', '3', '\n']
    = .ok ([0, 1], [[1, 12], [3]]) := by decide +kernel

/-- C163 fails on a file whose last line has no end of line, that the C++ reader accepts: python drops the last digit. -/
theorem C163_cut_counterexample :
    ∃ header text : List Char, TrajIndex.read text = .ok [⟨0, [1, 12]⟩] ∧ (pyLines header).length = 4
      ∧ loadTrajectories (header ++ text) = .ok ([0], [[1, 1]]) :=
  ⟨['1', '\t', '2', '\n', 'a', '\n', 'b', '\n', '0', '\t', '2', '\n'], ['0', '\n', '1', '\t', '1', '2'], by decide +kernel, by decide +kernel, by decide +kernel⟩

/-- C163. In an empty file the number of trajectories is a variable that does not exist. -/
theorem C163_empty_counterexample : nbTrajs [] = .error .logicError ∧ loadTrajectories [] = .ok ([], []) := ⟨rfl, rfl⟩

/-! ## Names -/

theorem isDig_dot : Files.isDig '.' = false := by decide

theorem splitext_dat {a e : List Char} (ha : ∃ c ∈ a, c ≠ '.') (he : '.' ∉ e) : splitext (a ++ '.' :: e) = a := by
  unfold splitext
  have e2 : Files.rfind (a ++ ['.'] ++ e) ['.'] = some a.length := by
    apply Files.rfind_last
    intro hi
    have : '.' ∈ e := by
      have := hi.subset (a := '.') (by simp)
      have e : (a ++ ['.'] ++ e).drop (a.length + 1) = e := by
        rw [List.drop_left' (by simp)]
      rwa [e] at this
    exact he this
  rw [show a ++ '.' :: e = a ++ ['.'] ++ e from by simp, e2]
  have h1 : (a ++ ['.'] ++ e).take a.length = a := by simp
  simp only [h1]
  rw [if_neg]
  obtain ⟨c, hc, hne⟩ := ha
  rw [List.all_eq_true]
  intro h
  have := h c hc
  simp [hne] at this

/-- C163. From the pattern kept in the file, python makes the names of the files of positions that the C++ classes use, for all the times of
the experiment; `.dat` is always the extension. -/
theorem C163_names {G : Type} {h tok d : List Char} (hn : Files.Name h tok d ['.', 'd', 'a', 't']) (hh : ∃ c ∈ h ++ tok, c ≠ '.')
    (hd : Header G) (hp : hd.pattern = h ++ tok ++ d ++ ['.', 'd', 'a', 't']) (ht : hd.token = tok) :
    ∃ f, Files.make hd.pattern hd.token hd.size hd.offset = .ok f ∧ readPattern hd.pattern hd.token = .ok (h, d.length)
      ∧ ∃ l, enum hd h d.length [] ['d', 'a', 't'] = .ok l ∧ l.length = hd.size
        ∧ ∀ i, i < hd.size → ∃ n, f.name i = .ok n ∧ l[i]? = some (hd.offset + i, n) := by
  have hm := hn.make hd.size hd.offset
  refine ⟨_, by rw [hp, ht]; exact hm, ?_, ?_⟩
  · rw [hp, ht]
    unfold readPattern
    have e1 : splitext (h ++ tok ++ d ++ ['.', 'd', 'a', 't']) = h ++ tok ++ d := by
      obtain ⟨c, hc, hne⟩ := hh
      exact splitext_dat ⟨c, List.mem_append_left _ hc, hne⟩ (by decide)
    have e2 : Files.rfind (h ++ tok ++ d) tok = some h.length := by
      apply Files.rfind_last
      intro hi
      apply hn.last
      have e3 : (h ++ tok ++ d ++ ['.', 'd', 'a', 't']).drop (h.length + 1) = (h ++ tok ++ d).drop (h.length + 1) ++ ['.', 'd', 'a', 't'] := by
        rw [List.drop_append_of_le_length]
        have : 0 < tok.length := List.length_pos_of_ne_nil hn.tok_ne
        simp only [List.length_append]
        omega
      rw [e3]
      exact hi.trans (List.prefix_append _ _).isInfix
    rw [e1, e2]
    have h1 : (h ++ tok ++ d).take h.length = h := by simp
    have h2 : (h ++ tok ++ d).drop (h.length + tok.length) = d := by
      rw [← List.length_append, List.drop_left]
    simp only [h1, h2]
    rw [takeWhile_all hn.digits]
  · have hpc : '%' ∉ h ++ [] ++ hd.token ++ ['d', 'a', 't'] := by
      rw [ht]
      have := hn.plainH
      have := hn.plainTok
      simp [*]
    refine ⟨(List.range' hd.offset hd.size).map fun t => (t, h ++ [] ++ hd.token ++ Files.pad d.length t ++ '.' :: ['d', 'a', 't']), ?_, by simp, ?_⟩
    · unfold enum
      apply TreeIndex.mapM_ok_of
      intro t _
      unfold fileName
      rw [if_neg hpc]
      rfl
    · intro i hi
      refine ⟨_, by unfold Files.FileSerie.name; exact Files.render_pattern _ _ _ _ _, ?_⟩
      rw [List.getElem?_map, List.getElem?_range' hi]
      simp [ht, Nat.add_comm]

example : readPattern ['x', '_', 't', '0', '0', '.', 'd', 'a', 't'] ['_', 't'] = .ok (['x'], 2)
    ∧ fileName ['x'] 2 ['_', 't'] [] ['d', 'a', 't'] 7 = .ok ['x', '_', 't', '0', '7', '.', 'd', 'a', 't'] := by
  refine ⟨by decide +kernel, ?_⟩
  unfold fileName Files.pad
  rw [Files.dec]
  rfl

end Exp
end Py
end Colloids
