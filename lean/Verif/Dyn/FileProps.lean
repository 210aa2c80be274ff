import Verif.Dyn.FileModel
import Verif.Dyn.CageLemmas
import Verif.Dyn.AvgProps
import Verif.Traj.Props
import Verif.Files.Props

/-! # Trajectory files -/

namespace Colloids
namespace Dyn

/-- How numbers are printed and read: what is printed is made of characters of numbers, and is read as a rounded
value. -/
structure Prints {G : Type} (shw : G → List Char) (parse : List Char → Option G) (round : G → G) : Prop where
  ne : ∀ x, shw x ≠ []
  chars : ∀ x, ∀ c ∈ shw x, isNumChar c = true
  parse : ∀ x, parse (shw x) = some (round x)

theorem numChar_not_space {c : Char} (h : isNumChar c = true) : isSpace c = false := by
  simp only [isNumChar, Bool.or_eq_true, beq_iff_eq] at h
  rcases h with ((((h | rfl) | rfl) | rfl) | rfl) | rfl
  · exact digit_not_space h
  all_goals decide

theorem dropWhile_ws {p : Char → Bool} (ws r : List Char) (h : ∀ c ∈ ws, p c = true) :
    (ws ++ r).dropWhile p = r.dropWhile p := by
  induction ws with
  | nil => rfl
  | cons c ws ih =>
    rw [List.cons_append, List.dropWhile_cons_of_pos (h c (by simp))]
    exact ih fun c hc => h c (by simp [hc])

theorem span_append {p : Char → Bool} (l r : List Char) (h : ∀ c ∈ l, p c = true) (hr : ∀ c ∈ r.head?, p c = false) :
    (l ++ r).takeWhile p = l ∧ (l ++ r).dropWhile p = r := by
  induction l with
  | nil =>
    cases r with
    | nil => simp
    | cons c r => have := hr c (by simp); simp [this]
  | cons x xs ih =>
    have hx := h x (by simp)
    have := ih (fun c hc => h c (by simp [hc]))
    simp [hx, this]

variable {G : Type} [Zero G] {shw : G → List Char} {parse : List Char → Option G} {round : G → G}

theorem readDouble_show (hp : Prints shw parse round) (ws : List Char) (hws : ∀ c ∈ ws, isSpace c = true) (x : G)
    (r : List Char) (hr : ∀ c ∈ r.head?, isNumChar c = false) (old : G) :
    readDouble parse { rest := ws ++ (shw x ++ r) } old = ({ rest := r, eof := r.isEmpty, fail := false }, round x) := by
  obtain ⟨c, cs, hc⟩ := List.exists_cons_of_ne_nil (hp.ne x)
  have hd : (ws ++ (shw x ++ r)).dropWhile isSpace = shw x ++ r := by
    rw [dropWhile_ws _ _ hws, hc, List.cons_append, List.dropWhile_cons_of_neg]
    simp [numChar_not_space (hp.chars x c (by simp [hc]))]
  obtain ⟨h1, h2⟩ := span_append (shw x) r (hp.chars x) hr
  have hne : (shw x ++ r).isEmpty = false := by simp [hc]
  unfold readDouble
  simp only [IStream.good, Bool.not_false, Bool.and_self, Bool.not_true, Bool.false_eq_true, if_false, hd, hne, h1, h2,
    hp.parse]

theorem readTrajs_text {trajs : List Traj} (h : ∀ tr ∈ trajs, Writable tr) :
    ∃ text, TrajIndex.write trajs = .ok text ∧ readTrajs { rest := '\n' :: text } = .ok trajs := by
  have hl : ∃ l : List (Nat × Nat × List Nat),
      trajs = l.map (fun x => (⟨x.1, x.2.1 :: x.2.2⟩ : Traj)) := by
    induction trajs with
    | nil => exact ⟨[], rfl⟩
    | cons T Ts ih =>
      obtain ⟨l, hl⟩ := ih (fun tr htr => h tr (by simp [htr]))
      obtain ⟨start, steps⟩ := T
      cases steps with
      | nil => exact absurd rfl (h _ (List.mem_cons_self ..)).1
      | cons s ss => exact ⟨(start, s, ss) :: l, by simp [hl]⟩
  obtain ⟨l, rfl⟩ := hl
  have hb : ∀ x ∈ l, x.1 < szMod ∧ x.2.1 < szMod ∧ ∀ s ∈ x.2.2, s < szMod := by
    intro x hx
    obtain ⟨-, h2, h3⟩ := h _ (List.mem_map.2 ⟨x, hx, rfl⟩)
    simp only [szMod]
    exact ⟨h2, h3 _ (by simp), fun s hs => h3 s (by simp [hs])⟩
  refine ⟨filesText l, ?_, ?_⟩
  · have := write_all l []
    simpa [TrajIndex.write] using this
  · have hlen : l.length ≤ (filesText l).length := by
      clear * -
      induction l with
      | nil => simp
      | cons x xs ih =>
        simp only [filesText, List.map_cons, List.flatten_cons, List.length_append,
          List.length_cons, List.length_nil] at *
        omega
    have hs : ({ rest := '\n' :: filesText l } : IStream).readNat 0 = ({ rest := filesText l } : IStream).readNat 0 := by
      unfold IStream.readNat
      rw [show ('\n' :: filesText l).dropWhile isSpace = (filesText l).dropWhile isSpace from
        List.dropWhile_cons_of_pos (by decide)]
      simp [IStream.good]
    have := readLoop_all l ((filesText l).length + 1 + 1) (by omega) hb 0 []
    unfold readTrajs
    rw [hs]
    simpa using this

/-- C126. What `save` writes is read back by the constructor: same names, same trajectories, numbers as rounded by the
printing. -/
theorem C126_text (hp : Prints shw parse round) (f : TrajFile G) (hb : '\n' ∉ f.base) (ht : '\n' ∉ f.token)
    (ho : f.offset < 2 ^ 64) (hs : f.size < 2 ^ 64) (htr : ∀ tr ∈ f.trajs, Writable tr) :
    ∃ text, f.text shw = .ok text ∧
      TrajFile.parse parse text = .ok { f with radius := round f.radius, dt := round f.dt } := by
  obtain ⟨t, h1, h2⟩ := readTrajs_text htr
  have ho' : f.offset < szMod := by simpa [szMod] using ho
  have hs' : f.size < szMod := by simpa [szMod] using hs
  refine ⟨_, by unfold TrajFile.text; rw [h1, ok_bind, pure_eq_ok], ?_⟩
  unfold TrajFile.parse
  have e1 := readDouble_show hp [] (by simp) f.radius ('\t' :: (shw f.dt ++ '\n' :: (f.base ++ '\n' :: (f.token ++ '\n' ::
    (showNat f.offset ++ '\t' :: (showNat f.size ++ '\n' :: t)))))) (by simp; decide) 0
  rw [List.nil_append] at e1
  have e2 := readDouble_show hp ['\t'] (by simp; decide) f.dt ('\n' :: (f.base ++ '\n' :: (f.token ++ '\n' ::
    (showNat f.offset ++ '\t' :: (showNat f.size ++ '\n' :: t))))) (by simp; decide) 0
  have e3 := getline_line f.base (f.token ++ '\n' :: (showNat f.offset ++ '\t' :: (showNat f.size ++ '\n' :: t)))
    (fun c hc h => hb (h ▸ hc))
  have e4 := getline_line f.token (showNat f.offset ++ '\t' :: (showNat f.size ++ '\n' :: t)) (fun c hc h => ht (h ▸ hc))
  have e5 := readNat_show [] (by simp) f.offset ho' ('\t' :: (showNat f.size ++ '\n' :: t)) (by simp) 0
  rw [List.nil_append] at e5
  have e6 := readNat_show ['\t'] (by simp; decide) f.size hs' ('\n' :: t) (by simp) 0
  simp only [List.singleton_append, List.isEmpty_cons] at e1 e2 e5 e6
  simp only [e1, e2, IStream.get, IStream.good, Bool.not_false, Bool.and_self, e3, e4, e5, e6, h2, ok_bind, pure_eq_ok]

theorem folder_noFolder (s : List Char) : folder s ++ noFolder s = s := by
  unfold folder noFolder
  rw [← List.reverse_append, List.takeWhile_append_dropWhile, List.reverse_reverse]

theorem folder_append (a b : List Char) (hb : ∀ c ∈ b, isSlash c = false) : folder (a ++ b) = folder a := by
  unfold folder
  rw [List.reverse_append, dropWhile_ws]
  intro c hc
  simp [hb c (List.mem_reverse.1 hc)]

/-- C126. If there is no slash after the last token in the name given to `linker`, the trajectory file is in the folder
of the positions and refers to the name that was given. -/
theorem C126_names_partial {filename token : List Char} {pos : Nat} (hr : Files.rfind filename token = some pos)
    (hs : ∀ c ∈ filename.drop pos, isSlash c = false) :
    folder (linkerNames filename token).1 ++ (linkerNames filename token).2 = filename := by
  unfold linkerNames
  simp only [hr]
  rw [folder_append _ _ (by decide)]
  conv_rhs => rw [← folder_noFolder filename]
  congr 1
  conv_rhs => rw [← List.take_append_drop pos filename]
  rw [folder_append _ _ hs]

theorem inverse_eq {G : Type} {D : DynParts G} (hw : Wf D) :
    TrajIndex.makeInverse D.trajectories.trajs (D.positions.map fun ps => ps.pos.length) = .ok D.trajectories.inverse := by
  have hold : ∀ tr T t p, D.trajectories.trajs[tr]? = some T → HoldsAt T t p → look D.trajectories.inverse t p = some tr := by
    intro tr T t p hT hh
    obtain ⟨inv, h1, h2⟩ := invert_ok.1 ((hw.inverse t p tr).2 ((convert_ok hw).2 ⟨T, hT, hh⟩))
    unfold look
    rw [h1]
    exact h2
  obtain ⟨inv, i1, i2, i3, -⟩ := makeInverse_spec (ts := D.trajectories.trajs)
    (sizes := D.positions.map (fun ps => ps.pos.length)) hw.nonempty (fun T hT => hw.fits' hT) (by
      intro T hT t p hh
      obtain ⟨i, hi⟩ := List.mem_iff_getElem?.1 hT
      have := hold i T t p hi hh
      unfold look at this
      obtain ⟨row, h1, h2⟩ := Option.bind_eq_some_iff.1 this
      refine ⟨row.length, ?_, (List.getElem?_eq_some_iff.1 h2).1⟩
      rw [← hw.frames, List.getElem?_map, h1]
      rfl) (by
      rw [List.pairwise_iff_getElem]
      rintro i j hi hj hij t p ⟨h1, h2⟩
      have a := hold i _ t p (List.getElem?_eq_getElem hi) h1
      have b := hold j _ t p (List.getElem?_eq_getElem hj) h2
      rw [a] at b
      have := Option.some.inj b
      omega)
  rw [i1]
  congr 1
  have hl : inv.map List.length = D.trajectories.inverse.map List.length := by rw [i2, hw.frames]
  have hlen : inv.length = D.trajectories.inverse.length := by simpa using congrArg List.length hl
  apply List.ext_getElem hlen
  intro t h1 h2
  have hrow : inv[t].length = D.trajectories.inverse[t].length := by
    have := congrArg (·[t]?) hl
    simpa [List.getElem?_map, List.getElem?_eq_getElem h1, List.getElem?_eq_getElem h2] using this
  apply List.ext_getElem hrow
  intro p h3 h4
  have hinv : D.trajectories.invert t p = .ok (D.trajectories.inverse[t][p]) :=
    invert_ok.2 ⟨_, List.getElem?_eq_getElem h2, List.getElem?_eq_getElem h4⟩
  obtain ⟨T, hT, hh⟩ := (convert_ok hw).1 ((hw.inverse t p _).1 hinv)
  have := i3 _ T t p hT hh
  unfold look at this
  rw [List.getElem?_eq_getElem h1] at this
  simpa [List.getElem?_eq_getElem h3] using this

/-- C126. A film that `linker` saved can be opened again: the positions are those of the files, the trajectories (and
their inverse) are the same, radius and time step are rounded by the printing. Missing: names with a slash after the
token (`C126_directories_counterexample`) and the displacements removed before the linking
(`C126_drift_counterexample`). -/
theorem C126_reopen_partial (hp : Prints shw parse round) {D : DynParts G} (hw : Wf D) (fs : FS G) {filename token : List Char}
    {pos : Nat} (hr : Files.rfind filename token = some pos) (hs : ∀ c ∈ filename.drop pos, isSlash c = false)
    (hn : '\n' ∉ filename) (ht : '\n' ∉ token) {size offset : Nat} (hsz : size < 2 ^ 64) (hof : offset < 2 ^ 64)
    (htr : ∀ tr ∈ D.trajectories.trajs, tr.start < 2 ^ 64 ∧ ∀ p ∈ tr.steps, p < 2 ^ 64) (dt : G) {text : List Char}
    (hsave : TrajFile.text shw ⟨D.radius, dt, (linkerNames filename token).2, token, offset, size, D.trajectories.trajs⟩ = .ok text)
    (hfs : fs.text (linkerNames filename token).1 = some text) {f : Files.FileSerie}
    (hf : Files.make filename token size offset = .ok f) {frames : List (Particles G)}
    (hfr : fillFrames fs f (round D.radius) = .ok frames)
    (hlen : frames.map (fun ps => ps.pos.length) = D.positions.map fun ps => ps.pos.length) :
    openTraj fs parse (linkerNames filename token).1
      = .ok (⟨frames, D.trajectories, round D.radius, none, []⟩, round dt) := by
  have hbase : '\n' ∉ (linkerNames filename token).2 := by
    intro h
    apply hn
    rw [← folder_noFolder filename]
    exact List.mem_append_right _ h
  obtain ⟨text', h1, h2⟩ := C126_text hp (f := ⟨D.radius, dt, (linkerNames filename token).2, token, offset, size,
    D.trajectories.trajs⟩) hbase ht hof hsz
    (fun tr h => ⟨hw.nonempty tr h, (htr tr h).1, (htr tr h).2⟩)
  rw [hsave] at h1
  cases h1
  unfold openTraj
  rw [hfs]
  simp only [h2, ok_bind]
  rw [C126_names_partial hr hs, hf, ok_bind, hfr, ok_bind, hlen, inverse_eq hw]
  rfl

/-- C126. Time steps in different folders: `linker` accepts the name, but keeps only its last part, without the token.
The film cannot be opened again (unless the token is also in an upper folder). -/
theorem C126_directories_counterexample (hp : Prints shw parse round) (fs : FS G) {h tok d t : List Char}
    (hname : Files.Name h tok d t) (hn : '\n' ∉ h ++ tok ++ d ++ t) (hnf : ¬ tok <:+: folder h ++ noFolder t)
    (hslash : ∃ c ∈ t, isSlash c = true)
    {f : TrajFile G} (htr : ∀ tr ∈ f.trajs, Writable tr) (hsz : f.size < 2 ^ 64) (hof : f.offset < 2 ^ 64)
    (hbase : f.base = (linkerNames (h ++ tok ++ d ++ t) tok).2) (htok : f.token = tok) {text : List Char}
    (hsave : f.text shw = .ok text) (hfs : fs.text (linkerNames (h ++ tok ++ d ++ t) tok).1 = some text) :
    (∃ g, Files.make (h ++ tok ++ d ++ t) tok f.size f.offset = .ok g) ∧
      openTraj fs parse (linkerNames (h ++ tok ++ d ++ t) tok).1 = .error .invalidArgument := by
  refine ⟨⟨_, hname.make _ _⟩, ?_⟩
  have hrf : Files.rfind (h ++ tok ++ d ++ t) tok = some h.length := by
    have := Files.rfind_last h tok (d ++ t) (by simpa [List.append_assoc] using hname.last)
    simpa [List.append_assoc] using this
  have hbase' : (linkerNames (h ++ tok ++ d ++ t) tok).2 = noFolder t := by
    unfold linkerNames noFolder
    simp only
    rw [List.reverse_append]
    obtain ⟨c, hc, hcs⟩ := hslash
    rw [List.takeWhile_append]
    rw [if_neg]
    intro hl
    have := List.takeWhile_prefix (fun c => !isSlash c) (l := t.reverse) |>.eq_of_length hl
    have hm : c ∈ t.reverse.takeWhile fun c => !isSlash c := by rw [this]; exact List.mem_reverse.2 hc
    have := List.all_takeWhile (p := fun c => !isSlash c) (l := t.reverse)
    rw [List.all_eq_true] at this
    have := this c hm
    simp [hcs] at this
  have hname1 : (linkerNames (h ++ tok ++ d ++ t) tok).1 = h ++ ['.', 't', 'r', 'a', 'j'] := by
    unfold linkerNames
    simp only [hrf]
    rw [List.append_assoc, List.append_assoc, List.take_left']
    rfl
  obtain ⟨text', h1, h2⟩ := C126_text hp f (by
    rw [hbase, hbase']
    intro hm
    apply hn
    apply List.mem_append_right
    rw [← folder_noFolder t]
    exact List.mem_append_right _ hm) (by
    rw [htok]; intro hm; apply hn; simp [hm]) hof hsz htr
  rw [hsave] at h1
  cases h1
  unfold openTraj
  rw [hfs]
  simp only [h2, ok_bind]
  rw [hbase, hbase', htok, hname1, folder_append _ _ (by decide)]
  have hnone : Files.rfind (folder h ++ noFolder t) tok = none := by
    rw [Files.rfind_none]
    exact hnf
  unfold Files.make
  rw [hnone]
  rfl

/-- C126. Displacements that are removed before the linking are not saved: if a `.displ` file gives a non null
displacement, the film that is opened again does not have the positions of the film that was linked. -/
theorem C126_drift_counterexample {G : Type} [Field G] [LinearOrder G] [IsStrictOrderedRing G] (D : DynParts G)
    (lines : List (G × G)) {offset : Nat} (hlen : D.positions.length ≤ lines.length) (hne : ∀ ps ∈ D.positions, ps.pos ≠ [])
    {t : Nat} (ht : t + 1 < D.positions.length - offset) {d : G × G} (hd : lines[offset + t + 1]? = some d) (hd0 : d ≠ 0) :
    (removeDriftFile D (some (displFile lines)) offset).positions ≠ D.positions := by
  obtain ⟨w, -, h2, h3, -, -⟩ := C68_file_partial D lines offset hlen (by omega)
  intro heq
  have hw : ∀ s < D.positions.length, w s = 0 := by
    intro s hs
    have := h2 s
    rw [heq, List.getElem?_eq_getElem hs] at this
    have e := Option.some.inj this
    have hp : D.positions[s].pos = (D.positions[s].translate (w s)).pos := congrArg Particles.pos e
    have hn0 := hne _ (List.getElem_mem hs)
    cases hc : D.positions[s].pos with
    | nil => exact absurd hc hn0
    | cons x l =>
      rw [Particles.translate, hc] at hp
      simp only [List.map_cons, List.cons.injEq] at hp
      have := hp.1
      simpa using this
  have := h3 t d ht hd
  rw [hw _ (by omega), hw _ (by omega), zero_add] at this
  apply hd0
  have h0 := congrFun this 0
  have h1 := congrFun this 1
  simp at h0 h1
  exact Prod.ext h0.symm h1.symm

/-- The hypotheses of `C126_names_partial`. -/
example : Files.rfind ['a', '/', 'b', '_', 't', '0', '.', 'd'] ['_', 't'] = some 3 ∧
    (∀ c ∈ ['a', '/', 'b', '_', 't', '0', '.', 'd'].drop 3, isSlash c = false) ∧
    linkerNames ['a', '/', 'b', '_', 't', '0', '.', 'd'] ['_', 't']
      = (['a', '/', 'b', '.', 't', 'r', 'a', 'j'], ['b', '_', 't', '0', '.', 'd']) := by decide +kernel

/-- The hypotheses of `C126_directories_counterexample`, for `a_t0/p.d`. -/
example : Files.Name ['a'] ['_', 't'] ['0'] ['/', 'p', '.', 'd'] ∧
    ¬ ['_', 't'] <:+: folder ['a'] ++ noFolder ['/', 'p', '.', 'd'] ∧ (∃ c ∈ ['/', 'p', '.', 'd'], isSlash c = true) ∧
    '\n' ∉ ['a'] ++ ['_', 't'] ++ ['0'] ++ ['/', 'p', '.', 'd'] := by
  refine ⟨⟨by decide, ⟨_, _, rfl, by decide⟩, by decide, by decide, by decide, by decide⟩, by decide, by decide, by decide⟩

/-- Whole numbers, as printed and read. -/
example : Prints (G := Nat) showNat (fun l => some (Nat.ofDigitChars 10 l 0)) id :=
  ⟨showNat_ne_nil, fun x c h => by simp [isNumChar, showNat_digit h],
    fun x => by simpa [showNat] using (Nat.ofDigitChars_ten_toDigits : Nat.ofDigitChars 10 (Nat.toDigits 10 x) 0 = x)⟩

/-- The hypotheses of `C126_text`. -/
example : ∃ text, TrajFile.text showNat (⟨1, 2, ['a'], ['_', 't'], 0, 2, [⟨0, [3, 4]⟩, ⟨1, [0]⟩]⟩ : TrajFile Nat) = .ok text ∧
    TrajFile.parse (fun l => some (Nat.ofDigitChars 10 l 0)) text
      = .ok ⟨1, 2, ['a'], ['_', 't'], 0, 2, [⟨0, [3, 4]⟩, ⟨1, [0]⟩]⟩ :=
  C126_text (round := id) ⟨showNat_ne_nil, fun x c h => by simp [isNumChar, showNat_digit h],
    fun x => by simpa [showNat] using (Nat.ofDigitChars_ten_toDigits : Nat.ofDigitChars 10 (Nat.toDigits 10 x) 0 = x)⟩
    _ (by decide) (by decide) (by simp) (by simp) (by simp [Writable])

/-- The hypotheses of `C126_drift_counterexample`. -/
example : (removeDriftFile exTwo (some (displFile [(0, 0), (1, 0), (0, 0)])) 0).positions ≠ exTwo.positions :=
  C126_drift_counterexample exTwo _ (by simp [exTwo]) (by simp [exTwo]) (t := 0) (by simp [exTwo]) (d := (1, 0)) rfl
    (by simp)

/-- A particle seen in two frames. -/
def exFilm : DynParts Nat :=
  ⟨[⟨[fun _ => 1], ⟨fun _ => 0, fun _ => 10⟩, 3, none⟩, ⟨[fun _ => 2], ⟨fun _ => 0, fun _ => 10⟩, 3, none⟩],
   ⟨[⟨0, [0, 0]⟩], [[0], [0]]⟩, 3, none, []⟩

theorem exFilm_wf : Wf exFilm := by
  refine ⟨by decide, by decide, by decide, by decide, ?_⟩
  intro t p tr
  rw [invert_ok]
  unfold TrajIndex.convert
  rw [bind_ok]
  simp only [getR_ok]
  match tr with
  | 0 =>
    simp only [exFilm, List.getElem?_cons_zero, Option.some.injEq, exists_eq_left']
    rw [at_eq (by simp) (by simp [szMod])]
    match t with
    | 0 | 1 | _ + 2 =>
      match p with
      | 0 | _ + 1 => simp
  | tr + 1 =>
    match t with
    | 0 | 1 | _ + 2 =>
      match p with
      | 0 | _ + 1 => simp [exFilm]

/-- The hypotheses of `C126_reopen_partial`: the film is saved from `a/b_t0.d` and opened again. -/
example : ∃ fs : FS Nat, ∃ D' : DynParts Nat,
    openTraj fs (fun l => some (Nat.ofDigitChars 10 l 0)) ['a', '/', 'b', '.', 't', 'r', 'a', 'j'] = .ok (D', 5) ∧
      D'.trajectories = exFilm.trajectories := by
  have hp : Prints (G := Nat) showNat (fun l => some (Nat.ofDigitChars 10 l 0)) id :=
    ⟨showNat_ne_nil, fun x c h => by simp [isNumChar, showNat_digit h],
      fun x => by simpa [showNat] using (Nat.ofDigitChars_ten_toDigits : Nat.ofDigitChars 10 (Nat.toDigits 10 x) 0 = x)⟩
  obtain ⟨text, h1, -⟩ := C126_text hp ⟨3, 5, ['b', '_', 't', '0', '.', 'd'], ['_', 't'], 0, 2, [⟨0, [0, 0]⟩]⟩
    (by decide) (by decide) (by simp) (by simp) (by simp [Writable])
  have hn : linkerNames ['a', '/', 'b', '_', 't', '0', '.', 'd'] ['_', 't']
      = (['a', '/', 'b', '.', 't', 'r', 'a', 'j'], ['b', '_', 't', '0', '.', 'd']) := by decide +kernel
  have hm : Files.Name ['a', '/', 'b'] ['_', 't'] ['0'] ['.', 'd'] :=
    ⟨by decide, ⟨_, _, rfl, by decide⟩, by decide, by decide, by decide, by decide⟩
  have hf : Files.make ['a', '/', 'b', '_', 't', '0', '.', 'd'] ['_', 't'] 2 0
      = .ok ⟨Files.patternOf ['a', '/', 'b'] ['_', 't'] 1 ['.', 'd'], ['_', 't'], 2, 0⟩ := hm.make 2 0
  have key := C126_reopen_partial hp exFilm_wf
    ⟨fun _ => some text, fun _ _ => .ok ⟨[fun _ => 1], ⟨fun _ => 0, fun _ => 10⟩, 3, none⟩⟩
    (filename := ['a', '/', 'b', '_', 't', '0', '.', 'd']) (token := ['_', 't']) (pos := 3) (by decide +kernel)
    (by decide) (by decide) (by decide) (size := 2) (offset := 0) (by simp) (by simp) (by simp [exFilm]) 5
    (by rw [hn]; exact h1) (by rw [hn]) hf
    (frames := List.replicate 2 ⟨[fun _ => 1], ⟨fun _ => 0, fun _ => 10⟩, 3, none⟩) (by
      unfold fillFrames Files.FileSerie.name
      simp [Files.render_pattern, List.range_succ, pure_eq_ok])
    (by simp [exFilm])
  rw [hn] at key
  exact ⟨_, _, key, rfl⟩

end Dyn
end Colloids
