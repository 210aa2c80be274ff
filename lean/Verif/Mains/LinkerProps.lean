import Verif.Mains.LinkerModel
import Verif.Mains.CutterProps
import Verif.Dyn.FileProps
import Verif.Dyn.LinkProps

/-! # Properties of the program `linker` -/

namespace Colloids
namespace Mains

open Dyn Files Particles

variable {G : Type} [Field G] [LinearOrder G]

theorem Wf.step_lt {D : DynParts G} (hw : Wf D) (hN : D.positions.length < 2 ^ 64)
    (hs : ∀ ps ∈ D.positions, ps.pos.length < 2 ^ 64) {T : Traj} (hT : T ∈ D.trajectories.trajs) :
    T.start < 2 ^ 64 ∧ ∀ p ∈ T.steps, p < 2 ^ 64 := by
  have hfit := hw.fits T hT
  refine ⟨by omega, fun p hp => ?_⟩
  obtain ⟨tr, htr⟩ := List.mem_iff_getElem?.1 hT
  obtain ⟨i, hi⟩ := List.mem_iff_getElem?.1 hp
  have hc : D.trajectories.convert (T.start + i) tr = .ok p := (convert_ok hw).2 ⟨T, htr, by omega, by
    rw [Nat.add_sub_cancel_left]; exact hi⟩
  obtain ⟨ps, x, h1, h2, -⟩ := at_of_convert hw hc
  have := hs ps (List.mem_of_getElem? h1)
  have := (List.getElem?_eq_some_iff.1 h2).1
  omega

/-- The particles do not depend on the radius. -/
theorem ofDat_radius {junk : Coord G} {file : Option (List (Dat.Num G))} {r : G} {ps : Particles G} (h : Dat.ofDat junk file r = .ok ps) (r' : G) :
    Dat.ofDat junk file r' = .ok { ps with radius := r' } := by
  cases file with
  | none => cases h
  | some l =>
    simp only [Dat.ofDat] at h ⊢
    cases h
    rfl

theorem ofDat_fields {junk : Coord G} {file : Option (List (Dat.Num G))} {r : G} {ps : Particles G} (h : Dat.ofDat junk file r = .ok ps) :
    ps.radius = r ∧ ps.index = none := by
  cases file with
  | none => cases h
  | some l =>
    simp only [Dat.ofDat] at h
    have := Except.ok.inj h
    rw [← this]
    exact ⟨rfl, rfl⟩

/-- Positions that are linked in a film: at successive times in the same trajectory. -/
def LinkedAt (D : DynParts G) (t p q : Nat) : Prop :=
  ∃ tr, D.trajectories.convert t tr = .ok p ∧ D.trajectories.convert (t + 1) tr = .ok q

/-- A film with the positions of the frames, where each particle is in one and only one trajectory. Two positions are linked only if they are nearer than
a diameter, and two positions of successive times that are nearer are linked unless one of them is linked to a position that is at least as near. The
distances are those of the positions translated by `w`. -/
structure LinkedFilm (D : DynParts G) (frame : Nat → Particles G) (span : Nat) (radius : G) (w : Nat → Coord G) : Prop where
  wf : Wf D
  positions : D.positions = (List.range span).map frame
  once : ∀ i < span, ∀ p < (frame i).pos.length, ∃! tr, D.trajectories.convert i tr = .ok p
  near : ∀ i p q, LinkedAt D i p q → ∃ x y, (frame i).pos[p]? = some x ∧ (frame (i + 1)).pos[q]? = some y ∧
    NearerThan (y + w (i + 1)) (x + w i) (2 * radius)
  best : ∀ i p q x y, i + 1 < span → (frame i).pos[p]? = some x → (frame (i + 1)).pos[q]? = some y →
    NearerThan (y + w (i + 1)) (x + w i) (2 * radius) →
    ∃ p' q' x' y', LinkedAt D i p' q' ∧ (p' = p ∨ q' = q) ∧ (frame i).pos[p']? = some x' ∧ (frame (i + 1)).pos[q']? = some y' ∧
      sqDist (y' + w (i + 1)) (x' + w i) ≤ sqDist (y + w (i + 1)) (x + w i)

theorem linker_core [IsStrictOrderedRing G] {P : RParams G} {H : Heur 3 G} (hP : P.Valid) (hH : H.Valid P) {shw : G → List Char}
    {parse : List Char → Option G} {round : G → G} (hp : Prints shw parse round) (junk : Coord G) {h tok d t : List Char}
    (hn : Name h tok d t) (h0 : '0' ∉ tok) (hs : ∀ c ∈ tok ++ d ++ t, isSlash c = false) (hnl : '\n' ∉ h ++ tok ++ d ++ t) (radius dt : G)
    {span offset : Nat} (hpos : 0 < span) (hspan : span < 2 ^ 64) (hoff : offset < 2 ^ 64) (disk : FilmDisk G)
    (frame : Nat → Particles G)
    (hin : ∀ f i name, Files.make (h ++ tok ++ d ++ t) tok span offset = .ok f → i < span → f.name i = .ok name →
      Dat.ofDat junk (disk.nums name) (round radius) = .ok (frame i) ∧ (frame i).pos.length < 2 ^ 64)
    (w : Nat → Coord G)
    (hd : ∀ i : Nat, (removeDriftFile (⟨(List.range span).map fun i => { frame i with radius := radius }, ⟨[], []⟩, radius, none, []⟩ : DynParts G)
      (disk.nums (h ++ ['.', 'd', 'i', 's', 'p', 'l'])) offset).positions[i]? =
        ((List.range span).map fun i => { frame i with radius := radius })[i]?.map (fun ps => ps.translate (w i))) :
    ∃ disk', linker P H shw junk (h ++ tok ++ d ++ t) tok radius dt (some span) offset disk = .ok disk' ∧
      disk'.nums = disk.nums ∧ (∀ name, name ≠ h ++ ['.', 't', 'r', 'a', 'j'] → disk'.text name = disk.text name) ∧
      ∃ D : DynParts G, openTraj (disk'.fs junk) parse (h ++ ['.', 't', 'r', 'a', 'j']) = .ok (D, round dt) ∧
        D.index = none ∧ D.radius = round radius ∧ LinkedFilm D frame span radius w := by
  have hmake := hn.make span offset
  have hhead := C39_head hn h0 span offset _ hmake
  have hname : ∀ i, ∃ name, FileSerie.name ⟨patternOf h tok d.length t, tok, span, offset⟩ i = .ok name := fun i =>
    ⟨_, render_pattern _ _ _ _ _⟩
  choose name hname using hname
  have hget : ∀ r : G, fillFrames (disk.fs junk) ⟨patternOf h tok d.length t, tok, span, offset⟩ r =
      .ok ((List.range span).map fun i => { frame i with radius := r }) := by
    intro r
    unfold fillFrames
    refine TreeIndex.mapM_ok_of _ _ _ (fun i hi => ?_)
    rw [hname i, ok_bind]
    exact ofDat_radius (hin _ i _ hmake (List.mem_range.1 hi) (hname i)).1 r
  have hrf : Files.rfind (h ++ tok ++ d ++ t) tok = some h.length := by
    have := Files.rfind_last h tok (d ++ t) (by simpa [List.append_assoc] using hn.last)
    simpa [List.append_assoc] using this
  have hl1 : (linkerNames (h ++ tok ++ d ++ t) tok).1 = h ++ ['.', 't', 'r', 'a', 'j'] := by
    unfold linkerNames
    simp only [hrf]
    rw [List.append_assoc, List.append_assoc, List.take_left]
  have hidx : ∀ i < span, (frame i).index = none := by
    intro i hi
    exact (ofDat_fields (hin _ i _ hmake hi (hname i)).1).2
  have hrad : ∀ i < span, (frame i).radius = round radius := by
    intro i hi
    exact (ofDat_fields (hin _ i _ hmake hi (hname i)).1).1
  have hdp := hd
  have hdr : (removeDriftFile (⟨(List.range span).map fun i => { frame i with radius := radius }, ⟨[], []⟩, radius, none, []⟩ : DynParts G)
      (disk.nums (h ++ ['.', 'd', 'i', 's', 'p', 'l'])) offset).radius = radius := by
    unfold removeDriftFile
    split <;> rfl
  set D0 := removeDriftFile (⟨(List.range span).map fun i => { frame i with radius := radius }, ⟨[], []⟩, radius, none, []⟩ : DynParts G)
      (disk.nums (h ++ ['.', 'd', 'i', 's', 'p', 'l'])) offset with hD0
  have hD0p : D0.positions = (List.range span).map fun i => Particles.translate { frame i with radius := radius } (w i) := by
    refine List.ext_getElem? (fun i => ?_)
    rw [hdp i, List.getElem?_map, List.getElem?_map]
    by_cases hi : i < span
    · rw [List.getElem?_range hi]; rfl
    · rw [List.getElem?_eq_none (by simpa using hi)]; rfl
  obtain ⟨D', k1, k2, k3, k4, k5, k6⟩ := C64_link hP hH D0
    (by rw [hD0p]; simp; omega) (by rw [hD0p]; simp; omega) (by
      intro ps hps
      rw [hD0p] at hps
      simp only [List.mem_map, List.mem_range] at hps
      obtain ⟨i, hi, rfl⟩ := hps
      refine .inl ?_
      simp [Particles.translate, hidx i hi])
  rw [hdr] at k3 k5 k6
  rw [hD0p, List.map_map] at k4
  have hframes : (List.range span).map frame = (List.range span).map (fun i => { frame i with radius := round radius }) := by
    refine List.map_congr_left (fun i hi => ?_)
    rw [← hrad i (List.mem_range.1 hi)]
  have hposs : D'.positions.map (fun ps => ps.pos) = (List.range span).map (fun i => (frame i).pos.map (fun x => x + w i)) := by
    rw [k4]; rfl
  have hlen : D'.positions.length = span := by
    have := congrArg List.length hposs
    simpa using this
  have hat : ∀ i ps, D'.positions[i]? = some ps → ps.pos = (frame i).pos.map (fun x => x + w i) ∧ i < span := by
    intro i ps hps
    have := congrArg (fun l => l[i]?) hposs
    have hi : i < span := by have := (List.getElem?_eq_some_iff.1 hps).1; omega
    simp only [List.getElem?_map, hps, Option.map_some, List.getElem?_range hi] at this
    exact ⟨Option.some.inj this, hi⟩
  have hat' : ∀ i, i < span → ∃ ps, D'.positions[i]? = some ps ∧ ps.pos = (frame i).pos.map (fun x => x + w i) := by
    intro i hi
    exact ⟨D'.positions[i]'(by omega), by simp [hlen, hi], (hat i _ (by simp [hlen, hi])).1⟩
  have hsizes : ∀ ps ∈ D'.positions, ps.pos.length < 2 ^ 64 := by
    intro ps hps
    obtain ⟨i, hi⟩ := List.mem_iff_getElem?.1 hps
    obtain ⟨e, hlt⟩ := hat i ps hi
    rw [e, List.length_map]
    exact (hin _ i _ hmake hlt (hname i)).2
  have hw' : ∀ T ∈ D'.trajectories.trajs, T.start < 2 ^ 64 ∧ ∀ p ∈ T.steps, p < 2 ^ 64 := fun T hT =>
    Wf.step_lt k2 (by omega) hsizes hT
  obtain ⟨text, ht1, -⟩ := C126_text hp ⟨D'.radius, dt, (linkerNames (h ++ tok ++ d ++ t) tok).2, tok, offset, span, D'.trajectories.trajs⟩
    (by
      intro hmem
      apply hnl
      rw [← folder_noFolder (h ++ tok ++ d ++ t)]
      exact List.mem_append_right _ hmem)
    (fun hmem => hnl (by simp [hmem])) hoff hspan (fun T hT => ⟨k2.nonempty T hT, hw' T hT⟩)
  refine ⟨{ disk with text := Function.update disk.text (h ++ ['.', 't', 'r', 'a', 'j']) (some text) }, ?_, rfl,
    fun name hne => Function.update_of_ne hne _ _, ?_⟩
  · unfold linker
    simp only [hmake, ok_bind, hget, hhead, ← hD0, k1, ht1, hl1, pure_eq_ok]
  · have hopen := C126_reopen_partial hp k2
      (FilmDisk.fs junk { disk with text := Function.update disk.text (h ++ ['.', 't', 'r', 'a', 'j']) (some text) })
      hrf (by simpa [List.append_assoc] using hs) hnl (fun hmem => hnl (by simp [hmem])) hspan hoff hw' dt ht1
      (by rw [hl1]; simp [FilmDisk.fs]) hmake (frames := (List.range span).map frame)
      (by
        have e := hget (round D'.radius)
        rw [k3] at e ⊢
        rw [hframes]
        exact e)
      (by
        have := congrArg (List.map List.length) hposs
        simpa [Function.comp_def] using this.symm)
    rw [hl1, k3] at hopen
    have hwf : Wf (⟨(List.range span).map frame, D'.trajectories, round radius, none, []⟩ : DynParts G) := by
      refine ⟨k2.nonempty, fun T hT => ?_, ?_, ?_, k2.inverse⟩
      · have := k2.fits T hT
        simpa [hlen] using this
      · simp; omega
      · have e := congrArg (List.map List.length) hposs
        have := k2.frames
        simp only [List.map_map] at e ⊢
        rw [this]
        simpa [Function.comp_def] using e
    refine ⟨_, hopen, rfl, rfl, hwf, rfl, ?_, ?_, ?_⟩
    · intro i hi p hpl
      obtain ⟨row, r1, r2⟩ := hwf.row (t := i) (ps := frame i) (by simp [hi])
      have hrow : row[p]? = some (row[p]'(by omega)) := by simp
      refine ⟨row[p]'(by omega), (hwf.inverse i p _).1 (invert_ok.2 ⟨row, r1, hrow⟩), ?_⟩
      intro tr htr
      obtain ⟨row', r1', r3⟩ := invert_ok.1 ((hwf.inverse i p tr).2 htr)
      rw [r1] at r1'
      cases r1'
      rw [hrow] at r3
      exact (Option.some.inj r3).symm
    · rintro i p q ⟨tr, c1, c2⟩
      obtain ⟨ps, ps', x, y, e1, e2, e3, e4, e5⟩ := k5 tr i p (i + 1) q c1 c2 rfl
      rw [(hat i ps e1).1, List.getElem?_map] at e3
      rw [(hat _ ps' e2).1, List.getElem?_map] at e4
      obtain ⟨x, e6, rfl⟩ := Option.map_eq_some_iff.1 e3
      obtain ⟨y, e7, rfl⟩ := Option.map_eq_some_iff.1 e4
      exact ⟨x, y, e6, e7, e5⟩
    · intro i p q x y hi hx hy hnear
      obtain ⟨ps, a1, a2⟩ := hat' i (by omega)
      obtain ⟨ps', b1, b2⟩ := hat' (i + 1) hi
      obtain ⟨row, r1, r2⟩ := hwf.row (t := i) (ps := frame i) (by simp [show i < span by omega])
      have hpl := (List.getElem?_eq_some_iff.1 hx).1
      have hc := (hwf.inverse i p _).1 (invert_ok.2 ⟨row, r1, List.getElem?_eq_getElem (by omega : p < row.length)⟩)
      obtain ⟨p', q', x', y', tr', f1, f2, f3, f4, f5, f6⟩ := k6 i ps ps' p q (x + w i) (y + w (i + 1)) _ a1 b1
        (by rw [a2, List.getElem?_map, hx]; rfl) (by rw [b2, List.getElem?_map, hy]; rfl) hnear hc
      rw [a2, List.getElem?_map] at f1
      rw [b2, List.getElem?_map] at f2
      obtain ⟨x', f7, rfl⟩ := Option.map_eq_some_iff.1 f1
      obtain ⟨y', f8, rfl⟩ := Option.map_eq_some_iff.1 f2
      exact ⟨p', q', x', y', ⟨tr', f3, f4⟩, f6.symm, f7, f8, f5⟩

/-- C144. Without file of displacements, `linker` writes one file, next to the positions. The film that the other programs open with it is the film of the
positions, linked. Missing: names with a slash after the token (`C126_directories_counterexample`). -/
theorem C144_linker_partial [IsStrictOrderedRing G] {P : RParams G} {H : Heur 3 G} (hP : P.Valid) (hH : H.Valid P) {shw : G → List Char}
    {parse : List Char → Option G} {round : G → G} (hp : Prints shw parse round) (junk : Coord G) {h tok d t : List Char}
    (hn : Name h tok d t) (h0 : '0' ∉ tok) (hs : ∀ c ∈ tok ++ d ++ t, isSlash c = false) (hnl : '\n' ∉ h ++ tok ++ d ++ t) (radius dt : G)
    {span offset : Nat} (hpos : 0 < span) (hspan : span < 2 ^ 64) (hoff : offset < 2 ^ 64) (disk : FilmDisk G)
    (frame : Nat → Particles G)
    (hin : ∀ f i name, Files.make (h ++ tok ++ d ++ t) tok span offset = .ok f → i < span → f.name i = .ok name →
      Dat.ofDat junk (disk.nums name) (round radius) = .ok (frame i) ∧ (frame i).pos.length < 2 ^ 64)
    (hd : disk.nums (h ++ ['.', 'd', 'i', 's', 'p', 'l']) = none) :
    ∃ disk', linker P H shw junk (h ++ tok ++ d ++ t) tok radius dt (some span) offset disk = .ok disk' ∧
      disk'.nums = disk.nums ∧ (∀ name, name ≠ h ++ ['.', 't', 'r', 'a', 'j'] → disk'.text name = disk.text name) ∧
      ∃ D : DynParts G, openTraj (disk'.fs junk) parse (h ++ ['.', 't', 'r', 'a', 'j']) = .ok (D, round dt) ∧
        D.index = none ∧ D.radius = round radius ∧ LinkedFilm D frame span radius (fun _ => 0) := by
  refine linker_core hP hH hp junk hn h0 hs hnl radius dt hpos hspan hoff disk frame hin _ (fun i => ?_)
  have hmake := hn.make span offset
  rw [hd]
  simp only [removeDriftFile, List.getElem?_map]
  by_cases hi : i < span
  · obtain ⟨name, hname⟩ : ∃ name, FileSerie.name ⟨patternOf h tok d.length t, tok, span, offset⟩ i = .ok name := ⟨_, render_pattern _ _ _ _ _⟩
    have := (ofDat_fields (hin _ i _ hmake hi hname).1).2
    rw [List.getElem?_range hi]
    simp [Particles.translate, this, Box.translate]
  · rw [List.getElem?_eq_none (by simpa using hi)]; rfl

/-- C144. With a file of displacements, that has a line for each frame, the links are those of the positions translated by the sum of the displacements,
but for the last `offset` frames that are all translated as the frame before. The positions that are opened are those of the files. -/
theorem C144_displacements_partial [IsStrictOrderedRing G] {P : RParams G} {H : Heur 3 G} (hP : P.Valid) (hH : H.Valid P) {shw : G → List Char}
    {parse : List Char → Option G} {round : G → G} (hp : Prints shw parse round) (junk : Coord G) {h tok d t : List Char}
    (hn : Name h tok d t) (h0 : '0' ∉ tok) (hs : ∀ c ∈ tok ++ d ++ t, isSlash c = false) (hnl : '\n' ∉ h ++ tok ++ d ++ t) (radius dt : G)
    {span offset : Nat} (hpos : 0 < span) (hspan : span < 2 ^ 64) (hoff : offset < 2 ^ 64) (disk : FilmDisk G)
    (frame : Nat → Particles G)
    (hin : ∀ f i name, Files.make (h ++ tok ++ d ++ t) tok span offset = .ok f → i < span → f.name i = .ok name →
      Dat.ofDat junk (disk.nums name) (round radius) = .ok (frame i) ∧ (frame i).pos.length < 2 ^ 64)
    (lines : List (G × G)) (hlen : span ≤ lines.length) (hos : offset ≤ span)
    (hd : disk.nums (h ++ ['.', 'd', 'i', 's', 'p', 'l']) = some (displFile lines)) :
    ∃ w : Nat → Coord G, (∀ i d, i + 1 < span - offset → lines[offset + i + 1]? = some d → w (i + 1) = w i + ![d.1, d.2, 0]) ∧
      (∀ i, i + 1 < span → span - offset ≤ i + 1 → w (i + 1) = w i) ∧
    ∃ disk', linker P H shw junk (h ++ tok ++ d ++ t) tok radius dt (some span) offset disk = .ok disk' ∧
      disk'.nums = disk.nums ∧ (∀ name, name ≠ h ++ ['.', 't', 'r', 'a', 'j'] → disk'.text name = disk.text name) ∧
      ∃ D : DynParts G, openTraj (disk'.fs junk) parse (h ++ ['.', 't', 'r', 'a', 'j']) = .ok (D, round dt) ∧
        D.index = none ∧ D.radius = round radius ∧ LinkedFilm D frame span radius w := by
  obtain ⟨w, -, h1, h2, h3, -⟩ := C68_file_partial
    (⟨(List.range span).map fun i => { frame i with radius := radius }, ⟨[], []⟩, radius, none, []⟩ : DynParts G) lines offset
    (by simpa using hlen) (by simpa using hos)
  simp only [List.length_map, List.length_range] at h2 h3
  refine ⟨w, h2, h3, linker_core hP hH hp junk hn h0 hs hnl radius dt hpos hspan hoff disk frame hin w (fun i => ?_)⟩
  rw [hd]
  exact h1 i

/-- C144 does not hold with the number of arguments that the program accepts: with four of them (`argc` is 5) it reads the fifth. -/
theorem C144_arguments_counterexample (P : RParams G) (H : Heur 3 G) (shw : G → List Char) (junk : Coord G) (filename token : List Char) (radius dt : G)
    (offset : Nat) (disk : FilmDisk G) : linker P H shw junk filename token radius dt none offset disk = .error .ub := rfl

omit [Field G] [LinearOrder G] in
theorem mapM_first_error {α β : Type} (f : α → R β) (e : Fault) : ∀ l : List α, (∀ a ∈ l, (∃ b, f a = .ok b) ∨ f a = .error e) →
    (∃ a ∈ l, f a = .error e) → l.mapM f = .error e
  | [], _, h => by obtain ⟨a, ha, -⟩ := h; cases ha
  | a :: l, h1, h2 => by
    rw [List.mapM_cons]
    rcases h1 a (by simp) with ⟨b, hb⟩ | he
    · rw [hb, ok_bind, mapM_first_error f e l (fun x hx => h1 x (by simp [hx])) (by
        obtain ⟨x, hx, hxe⟩ := h2
        rcases List.mem_cons.1 hx with rfl | hx
        · rw [hb] at hxe; cases hxe
        · exact ⟨x, hx, hxe⟩), error_bind]
    · rw [he, error_bind]

/-- C144. A missing file of positions stops the program, and nothing is written. -/
theorem C144_missing {P : RParams G} {H : Heur 3 G} (shw : G → List Char) (junk : Coord G) {h tok d t : List Char} (hn : Name h tok d t)
    (radius dt : G) {span offset : Nat} (disk : FilmDisk G)
    (hin : ∀ f, Files.make (h ++ tok ++ d ++ t) tok span offset = .ok f → ∃ i < span, ∃ name, f.name i = .ok name ∧ disk.nums name = none) :
    linker P H shw junk (h ++ tok ++ d ++ t) tok radius dt (some span) offset disk = .error .invalidArgument := by
  have hmake := hn.make span offset
  obtain ⟨i, hi, name, h1, h2⟩ := hin _ hmake
  have hf : fillFrames (disk.fs junk) ⟨patternOf h tok d.length t, tok, span, offset⟩ radius = .error .invalidArgument := by
    unfold fillFrames
    refine mapM_first_error _ _ (List.range span) (fun k hk => ?_) ⟨i, List.mem_range.2 hi, ?_⟩
    · obtain ⟨name, hname⟩ : ∃ name, FileSerie.name ⟨patternOf h tok d.length t, tok, span, offset⟩ k = .ok name :=
        ⟨_, render_pattern _ _ _ _ _⟩
      rw [hname, ok_bind]
      show (∃ b, Dat.ofDat junk (disk.nums name) radius = .ok b) ∨ Dat.ofDat junk (disk.nums name) radius = .error .invalidArgument
      cases disk.nums name with
      | none => exact .inr rfl
      | some l => exact .inl ⟨_, rfl⟩
    · rw [h1, ok_bind]
      show Dat.ofDat junk (disk.nums name) radius = .error .invalidArgument
      rw [h2]
      rfl
  unfold linker
  simp only [hmake, ok_bind, hf, error_bind]

theorem nearer_translate {x y v u : Coord G} {r : G} (h : NearerThan (y + v) x r) : NearerThan (y + (u + v)) (x + u) r := by
  have e : ∀ a, (y + (u + v)) a - (x + u) a = (y + v) a - x a := fun a => by simp only [Pi.add_apply]; ring
  have : sqDist (y + (u + v)) (x + u) = sqDist (y + v) x := by
    unfold sqDist
    simp only [e]
  exact ⟨h.1, by rw [this]; exact h.2⟩

/-- C144 does not hold with a file of displacements: the film that is opened has the positions of the files, that are not corrected. If the only particle
goes further than a diameter, and less once the displacement is removed, a trajectory of the film jumps further than a diameter. -/
theorem C144_displacements_counterexample [IsStrictOrderedRing G] {P : RParams G} {H : Heur 3 G} (hP : P.Valid) (hH : H.Valid P) {shw : G → List Char}
    {parse : List Char → Option G} {round : G → G} (hp : Prints shw parse round) (junk : Coord G) {h tok d t : List Char}
    (hn : Name h tok d t) (h0 : '0' ∉ tok) (hs : ∀ c ∈ tok ++ d ++ t, isSlash c = false) (hnl : '\n' ∉ h ++ tok ++ d ++ t) (radius dt : G)
    (disk : FilmDisk G) (frame : Nat → Particles G)
    (hin : ∀ f i name, Files.make (h ++ tok ++ d ++ t) tok 2 0 = .ok f → i < 2 → f.name i = .ok name →
      Dat.ofDat junk (disk.nums name) (round radius) = .ok (frame i) ∧ (frame i).pos.length < 2 ^ 64)
    (lines : List (G × G)) (hd : disk.nums (h ++ ['.', 'd', 'i', 's', 'p', 'l']) = some (displFile lines)) {e : G × G}
    (he : lines[1]? = some e) {x y : Coord G} (hx : (frame 0).pos = [x]) (hy : (frame 1).pos = [y])
    (hnear : NearerThan (y + ![e.1, e.2, 0]) x (2 * radius)) (hfar : ¬ NearerThan y x (2 * radius)) :
    ∃ disk' D dt' tr a b, linker P H shw junk (h ++ tok ++ d ++ t) tok radius dt (some 2) 0 disk = .ok disk' ∧
      openTraj (disk'.fs junk) parse (h ++ ['.', 't', 'r', 'a', 'j']) = .ok (D, dt') ∧
      at_ D tr 0 = .ok a ∧ at_ D tr 1 = .ok b ∧ ¬ NearerThan b a (2 * radius) := by
  have hlen : 2 ≤ lines.length := (List.getElem?_eq_some_iff.1 he).1
  obtain ⟨w, w1, -, disk', h1, -, -, D, h2, -, -, hF⟩ := C144_displacements_partial hP hH hp junk hn h0 hs hnl radius dt (by omega)
    (by norm_num) (by norm_num) disk frame hin lines hlen (by omega) hd
  have hw := w1 0 e (by omega) he
  obtain ⟨p', q', x', y', ⟨tr, c1, c2⟩, -, g1, g2, -⟩ := hF.best 0 0 0 x y (by omega) (by rw [hx]; rfl) (by rw [hy]; rfl)
    (by rw [hw]; exact nearer_translate hnear)
  obtain ⟨ps, a, a1, a2, a3⟩ := at_of_convert hF.wf c1
  obtain ⟨ps', b, b1, b2, b3⟩ := at_of_convert hF.wf c2
  rw [hF.positions] at a1 b1
  simp only [List.range_succ, List.range_zero, List.nil_append, List.cons_append, List.map_cons, List.map_nil, List.getElem?_cons_zero,
    List.getElem?_cons_succ, Option.some.injEq, zero_add] at a1 b1
  subst a1 b1
  rw [hx] at a2
  rw [hy] at b2
  have ea : a = x := by simpa using List.mem_of_getElem? a2
  have eb : b = y := by simpa using List.mem_of_getElem? b2
  subst ea eb
  exact ⟨disk', D, _, tr, a, b, h1, h2, a3, b3, hfar⟩

/-- A number printed as its integer part. -/
theorem exPrints : Prints (G := ℚ) (fun x => showNat x.num.toNat) (fun l => some (Nat.ofDigitChars 10 l 0 : ℚ)) (fun x => (x.num.toNat : ℚ)) :=
  ⟨fun _ => showNat_ne_nil _, fun x c h => by simp [isNumChar, showNat_digit h],
    fun x => by
      have : Nat.ofDigitChars 10 (Nat.toDigits 10 x.num.toNat) 0 = x.num.toNat := Nat.ofDigitChars_ten_toDigits
      simp [showNat, this]⟩

/-- A disk where all the files of positions, whose names end with `d`, have one particle at the origin; and the file of displacements if there is one. -/
def exLinkDisk (displ : Option (List (Dat.Num ℚ))) : FilmDisk ℚ :=
  ⟨fun name => if name.getLast? = some 'd' then some [.nat 1, .nat 1, .nat 1, .nat 9, .nat 9, .nat 9, .nat 0, .nat 0, .nat 0] else displ, fun _ => none⟩

theorem exLink_name : Name ['a', '/', 'b'] ['_', 't'] ['0'] ['.', 'd'] :=
  ⟨by decide, ⟨_, _, rfl, by decide⟩, by decide, by decide, by decide, by decide⟩

/-- The hypotheses of `C144_linker_partial` (without displacements) and `C144_displacements_partial`. -/
example (displ : Option (List (Dat.Num ℚ))) (f : FileSerie) (i : Nat) (name : List Char)
    (hf : Files.make (['a', '/', 'b'] ++ ['_', 't'] ++ ['0'] ++ ['.', 'd']) ['_', 't'] 2 0 = .ok f) (hname : f.name i = .ok name) :
    ∃ ps : Particles ℚ, Dat.ofDat (fun _ => 0) ((exLinkDisk displ).nums name) 3 = .ok ps ∧ ps.pos.length = 1 ∧
      (exLinkDisk displ).nums (['a', '/', 'b'] ++ ['.', 'd', 'i', 's', 'p', 'l']) = displ := by
  rw [exLink_name.make 2 0] at hf
  cases hf
  unfold FileSerie.name at hname
  rw [render_pattern] at hname
  cases hname
  refine ⟨_, by simp only [exLinkDisk, List.getLast?_append]; rfl, rfl, rfl⟩

/-- The hypotheses of `C144_displacements_counterexample`: a particle that moves by 3 diameters, 3 diameters of which are the displacement. -/
example : NearerThan ((![6, 0, 0] : Coord ℚ) + ![-6, 0, 0]) ![0, 0, 0] (2 * 1) ∧ ¬ NearerThan (![6, 0, 0] : Coord ℚ) ![0, 0, 0] (2 * 1) := by
  constructor
  · refine ⟨by norm_num, ?_⟩
    simp [sqDist, Fin.sum_univ_three]
  · rintro ⟨-, h⟩
    simp [sqDist, Fin.sum_univ_three] at h
    norm_num at h

end Mains
end Colloids
