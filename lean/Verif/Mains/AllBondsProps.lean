import Verif.Mains.AllBondsModel
import Verif.Mains.LinkerProps
import Verif.Mains.RdfProgProps
import Verif.Mains.FirstMinProps
import Verif.Mains.BooProps

/-! # C147: the programs `all_bonds` and `bonds` -/

namespace Colloids
namespace Mains

open Dyn Files Particles Rdf
open Boo (GoodNgbs)
open Clusters (Ngb)

/-! ## Specification -/

/-- The first lines of a file of trajectories. -/
def trajLines (shw : ℝ → List Char) (radius dt : ℝ) (base tok : List Char) (offset span : Nat) (rest : List Char) : List Char :=
  shw radius ++ '\t' :: (shw dt ++ '\n' :: (base ++ '\n' :: (tok ++ '\n' :: (showNat offset ++ '\t' :: (showNat span ++ '\n' :: rest)))))

/-- The extension of the files of bonds. -/
def bondsExt : List Char := ['.', 'b', 'o', 'n', 'd', 's']

/-- The extension of the file of the radial distribution. -/
def rdfExt : List Char := ['.', 'r', 'd', 'f']

/-- A file of trajectories, with the numbered files of positions it refers to: the numbers start at `offset`, there are `span` of them and the file
number `offset + i` contains the particles of `frame i`, whose radius is 1. The last one is not empty. -/
structure FilmOn (parse : List Char → Option ℝ) (junk : Coord ℝ) (disk : BondDisk) (s h tok d stem e : List Char) (offset span : Nat)
    (frame : Nat → Particles ℝ) : Prop where
  traj : ∃ shw round radius dt base rest, Prints shw parse round ∧ '\n' ∉ base ∧
    disk.text (s ++ ['.', 't', 'r', 'a', 'j']) = some (trajLines shw radius dt base tok offset span rest) ∧
    folder (s ++ ['.', 't', 'r', 'a', 'j']) ++ base = h ++ tok ++ d ++ (stem ++ '.' :: e)
  name : Name h tok d (stem ++ '.' :: e)
  ext : '.' ∉ e
  tokDigits : ∀ c ∈ tok, isDig c = false
  tokLine : '\n' ∉ tok
  tokNew : ¬ tok <:+: stem ++ bondsExt
  spanPos : 0 < span
  spanLt : span < 2 ^ 64
  offsetLt : offset < 2 ^ 64
  load : ∀ files i name, Files.make (h ++ tok ++ d ++ (stem ++ '.' :: e)) tok span offset = .ok files → i < span → files.name i = .ok name →
    Dat.ofDat junk (disk.nums name) 1 = .ok (frame i) ∧ (frame i).pos.length < 2 ^ 64
  last : (frame (span - 1)).pos ≠ []

/-- A particle that is inside the sample, by more than 30 (15 diameters) along the axes where the sample is larger than 60. -/
def Inner (pos : List (Coord ℝ)) : Prop :=
  ∃ x ∈ pos, ∀ a, (∃ y ∈ pos, y a < x a) ∧ (∃ z ∈ pos, x a < z a) ∧
    ((∃ y ∈ pos, ∃ z ∈ pos, z a - y a > 60) → (∃ y ∈ pos, y a + 30 < x a) ∧ ∃ z ∈ pos, x a + 30 < z a)

/-- The radial distribution of a set of particles of radius 1, in 200 bins up to 15 diameters. -/
def FrameRdf (ps : Particles ℝ) (g : List ℝ) : Prop :=
  g.length = 200 ∧ ∃ lo hi sel, InnerSelection ps.pos 30 lo hi sel ∧ sel ≠ [] ∧ (∀ a, lo a < hi a) ∧ g[0]? = some 0 ∧
    ∀ r : Nat, 1 ≤ r → r < 200 → g[r]? = some (pairsInShell ps sel 30 (r * 30 / 200) ((r + 1) * 30 / 200)
      / (sel.length * (ps.pos.length / ((hi 0 - lo 0) * (hi 1 - lo 1) * (hi 2 - lo 2))) * (4 * Real.pi * r ^ 2 * (30 / 200) ^ 3)))

/-- The rows of the file of the distribution: the abscissa in diameters and the mean over the frames. -/
noncomputable def meanRows (span : Nat) (g : Nat → List ℝ) : List (ℝ × ℝ) :=
  (List.range 200).map (fun r : Nat => ((r : ℝ) * 15 / 200, ((List.range span).map (fun i => (g i).getD r 0)).sum / (span : ℝ)))

/-- A file of bonds with the pairs of particles nearer than `δ`, once each. -/
def BondsFile (pos : List (Coord ℝ)) (δ : ℝ) (file : Option (List Char)) : Prop :=
  ∃ bonds, loadBonds file = .ok bonds ∧ bonds.Nodup ∧
    ∀ b, b ∈ bonds ↔ b.first < b.second ∧ ∃ x y, pos[b.first]? = some x ∧ pos[b.second]? = some y ∧ NearerThan x y δ

/-- What `all_bonds` does to the disk, but for the file of the distribution: for each time `i` from 0 to `span - 1`, a file of bonds for the
positions of `frame i`, whose name is that of the file of positions with the extension `.bonds`. -/
def BondsWritten (disk disk' : BondDisk) (h tok stem : List Char) (offset span : Nat) (frame : Nat → Particles ℝ) (δ : ℝ) : Prop :=
  disk'.nums = disk.nums ∧ ∃ m : Nat → List Char, (∀ i, ∀ c ∈ m i, isDig c = true) ∧ (∀ i, Files.value (m i) = i + offset) ∧
    (∀ i < span, BondsFile (frame i).pos δ (disk'.text (h ++ tok ++ m i ++ (stem ++ bondsExt)))) ∧
    ∀ name, (∀ i < span, name ≠ h ++ tok ++ m i ++ (stem ++ bondsExt)) → disk'.text name = disk.text name

/-! ## Lemmas -/

theorem header_lines {shw : ℝ → List Char} {parse : List Char → Option ℝ} {round : ℝ → ℝ} (hp : Prints shw parse round) (radius dt : ℝ)
    {base tok : List Char} (hb : '\n' ∉ base) (ht : '\n' ∉ tok) {offset span : Nat} (ho : offset < 2 ^ 64) (hs : span < 2 ^ 64)
    (rest : List Char) : readTrajHeader parse (trajLines shw radius dt base tok offset span rest) = (base, tok, offset, span) := by
  have ho' : offset < szMod := by simpa [szMod] using ho
  have hs' : span < szMod := by simpa [szMod] using hs
  unfold readTrajHeader trajLines
  have e1 := readDouble_show hp [] (by simp) radius ('\t' :: (shw dt ++ '\n' :: (base ++ '\n' :: (tok ++ '\n' ::
    (showNat offset ++ '\t' :: (showNat span ++ '\n' :: rest)))))) (by simp; decide) 0
  rw [List.nil_append] at e1
  have e2 := readDouble_show hp ['\t'] (by simp; decide) dt ('\n' :: (base ++ '\n' :: (tok ++ '\n' ::
    (showNat offset ++ '\t' :: (showNat span ++ '\n' :: rest))))) (by simp; decide) (round radius)
  have e3 := getline_line base (tok ++ '\n' :: (showNat offset ++ '\t' :: (showNat span ++ '\n' :: rest)))
    (fun c hc h => hb (h ▸ hc))
  have e4 := getline_line tok (showNat offset ++ '\t' :: (showNat span ++ '\n' :: rest)) (fun c hc h => ht (h ▸ hc))
  have e5 := readNat_show [] (by simp) offset ho' ('\t' :: (showNat span ++ '\n' :: rest)) (by simp) 0
  rw [List.nil_append] at e5
  have e6 := readNat_show ['\t'] (by simp; decide) span hs' ('\n' :: rest) (by simp) 0
  simp only [List.singleton_append, List.isEmpty_cons] at e1 e2 e5 e6
  simp only [e1, e2, IStream.get, IStream.good, Bool.not_false, Bool.and_self, e3, e4, e5, e6]

theorem bondNames_ok {h tok d stem e : List Char} (hn : Name h tok d (stem ++ '.' :: e)) (he : '.' ∉ e)
    (htok : ∀ c ∈ tok, isDig c = false) (hnew : ¬ tok <:+: stem ++ bondsExt) (n offset : Nat) :
    ∃ f g, Files.make (h ++ tok ++ d ++ (stem ++ '.' :: e)) tok n offset = .ok f ∧ f.head = .ok h ∧ f.changeExt bondsExt = .ok g ∧
      ∃ m : Nat → List Char, (∀ t, f.name t = .ok (h ++ tok ++ m t ++ (stem ++ '.' :: e))) ∧
        (∀ t, g.name t = .ok (h ++ tok ++ m t ++ (stem ++ bondsExt))) ∧
        (∀ t, ∀ c ∈ m t, isDig c = true) ∧ (∀ t, Files.value (m t) = t + offset) := by
  have h1 := hn.make n offset
  have h0 : '0' ∉ tok := fun h0 => by have := htok _ h0; exact absurd this (by decide)
  have hext : ∃ c r, stem ++ bondsExt = c :: r ∧ isDig c = false := by
    obtain ⟨c, r, h3, h4⟩ := hn.tail
    cases stem with
    | nil => exact ⟨'.', ['b', 'o', 'n', 'd', 's'], rfl, by decide⟩
    | cons x stem =>
      rw [List.cons_append] at h3
      injection h3 with h5 h6
      subst h5
      exact ⟨x, _, rfl, h4⟩
  obtain ⟨g, g1, -, -, g2⟩ := Files.C39_extension_partial hn he h0 n offset bondsExt (by decide) hext hnew _ h1
  have h3 : ∀ t, Files.FileSerie.name ⟨Files.patternOf h tok d.length (stem ++ '.' :: e), tok, n, offset⟩ t =
      .ok (h ++ tok ++ Files.pad d.length (t + offset) ++ (stem ++ '.' :: e)) := fun t => Files.render_pattern _ _ _ _ _
  refine ⟨_, g, h1, C39_head hn h0 n offset _ h1, g1, fun t => Files.pad d.length (t + offset), h3, ?_, fun t => Files.pad_digits _ _,
    fun t => Files.value_pad _ _⟩
  intro t
  obtain ⟨m', k1, k2⟩ := g2 t
  rw [h3 t] at k1
  have k1 := Except.ok.inj k1
  have : Files.pad d.length (t + offset) = m' := List.append_cancel_left (List.append_cancel_right k1)
  rw [← this] at k2
  exact k2

/-- The loop when each step succeeds. -/
theorem bondsLoop_ok {length : ℝ} {name : Nat → R (List Char)} {nm : Nat → List Char} (hnm : ∀ t, name t = .ok (nm t))
    (hinj : ∀ t u, nm t = nm u → t = u) (ix : Nat → Particles ℝ) (ngbs : Nat → NgbList)
    (hng : ∀ t, makeNgbList Particles.geometry (ix t) length = .ok (ngbs t)) : ∀ (n a : Nat) (disk : BondDisk),
    ∃ disk', bondsLoop length name (((List.range' a n).map ix).zipIdx a) disk = (disk', .ok ()) ∧ disk'.nums = disk.nums ∧
      disk'.rdf = disk.rdf ∧ (∀ t, a ≤ t → t < a + n → disk'.text (nm t) = some (writeBonds (ngb2bonds (ngbs t)))) ∧
      ∀ name, (∀ t, a ≤ t → t < a + n → name ≠ nm t) → disk'.text name = disk.text name := by
  intro n
  induction n with
  | zero => exact fun a disk => ⟨disk, rfl, rfl, rfl, fun t h1 h2 => absurd h2 (by omega), fun _ _ => rfl⟩
  | succ n ih =>
    intro a disk
    obtain ⟨d, h1, h2, h3, h4, h5⟩ := ih (a + 1) { disk with text := Function.update disk.text (nm a) (some (writeBonds (ngb2bonds (ngbs a)))) }
    refine ⟨d, ?_, h2, h3, ?_, ?_⟩
    · rw [List.range'_succ, List.map_cons, List.zipIdx_cons, bondsLoop, hng a, ok_bind, hnm a, ok_bind]
      exact h1
    · intro t h6 h7
      by_cases e : t = a
      · subst e
        rw [h5 _ (fun u h8 _ e => by have := hinj _ _ e; omega)]
        exact Function.update_self ..
      · exact h4 t (by omega) (by omega)
    · intro name hn
      rw [h5 name (fun t h6 h7 => hn t (by omega) (by omega))]
      exact Function.update_of_ne (hn a (by omega) (by omega)) ..

/-- The neighbours written as bonds. -/
theorem bondsFile_of {ngbs : NgbList} {pos : List (Coord ℝ)} {δ : ℝ} (hg : GoodNgbs pos.length ngbs) (hsz : pos.length < 2 ^ 64)
    (h : ∀ p q, Ngb ngbs p q ↔ p ≠ q ∧ ∃ x y, pos[p]? = some x ∧ pos[q]? = some y ∧ NearerThan x y δ) :
    BondsFile pos δ (some (writeBonds (ngb2bonds ngbs))) := by
  have hsz' : pos.length < szMod := by simpa [szMod] using hsz
  have hmem : ∀ b : Bond, b ∈ ngb2bonds ngbs ↔ b.first < b.second ∧ ∃ x y, pos[b.first]? = some x ∧ pos[b.second]? = some y ∧ NearerThan x y δ := by
    intro b
    rw [mem_ngb2bonds hg.sorted]
    show b.first < b.second ∧ Ngb ngbs b.first b.second ↔ _
    rw [h]
    constructor
    · rintro ⟨h1, -, h2⟩; exact ⟨h1, h2⟩
    · rintro ⟨h1, h2⟩; exact ⟨h1, by omega, h2⟩
  refine ⟨ngb2bonds ngbs, C10_file_roundtrip _ (ngb2bonds_sorted ngbs) ?_, ?_, hmem⟩
  · intro b hb
    obtain ⟨h1, x, y, -, h2, -⟩ := (hmem b).1 hb
    have := (List.getElem?_eq_some_iff.1 h2).1
    exact ⟨h1.le, lt_trans this hsz'⟩
  · exact (ngb2bonds_sorted ngbs).imp (fun h e => by subst e; exact Bond.lt_irrefl _ h)

/-- The distribution of an indexed frame. -/
theorem frameRdf_ok {P : RParams ℝ} {H : Heur 3 ℝ} (hP : P.Valid) (hH : H.Valid P) {ps ix : Particles ℝ} (hr : ps.radius = 1)
    (hs : ∀ a, (∃ x ∈ ps.pos, P.mn ≤ x a) ∧ ∃ x ∈ ps.pos, x a ≤ P.mx) (hin : Inner ps.pos) (hix : makeRTreeIndex P H ps = .ok ix) :
    ∃ g, getRdfAll ix 200 15 = .ok g ∧ FrameRdf ps g := by
  have hne : ps.pos ≠ [] := by
    obtain ⟨x, hx, -⟩ := hin
    exact List.ne_nil_of_mem hx
  have h30 : 2 * ps.radius * 15 = 30 := by rw [hr]; norm_num
  obtain ⟨t, B, sel, h1, h2, h3, h4, h5⟩ := inner_selection hP hH ps hne hs 30
  rw [h1] at hix
  cases hix
  have hden : getNumberDensity { ps with index := some t }
      = .ok (ps.pos.length / ((B.hi 0 - B.lo 0) * (B.hi 1 - B.lo 1) * (B.hi 2 - B.lo 2))) := by
    unfold getNumberDensity
    simp only
    rw [h3, ok_bind, area3]
    rfl
  obtain ⟨g, g1, g2, g3, g4⟩ := C50_rdf hP hH h2 15 200 (by norm_num) sel (fun p hp => h5.lt p hp) _ hden
  obtain ⟨x, hx, hxa⟩ := hin
  have hlo : ∀ a, B.lo a < x a ∧ x a < B.hi a := by
    intro a
    obtain ⟨⟨y, hy, hy'⟩, ⟨z, hz, hz'⟩, -⟩ := hxa a
    exact ⟨lt_of_le_of_lt ((h5.box a).1 y hy).1 hy', lt_of_lt_of_le hz' ((h5.box a).1 z hz).2⟩
  obtain ⟨p, hp⟩ := List.mem_iff_getElem?.1 hx
  have hpsel : p ∈ sel := by
    refine h5.complete p x hp hlo (fun a ha => ?_)
    obtain ⟨hb1, ⟨y, hy, hy'⟩, z, hz, hz'⟩ := h5.box a
    obtain ⟨-, -, h6⟩ := hxa a
    obtain ⟨⟨u, hu, hu'⟩, v, hv, hv'⟩ := h6 ⟨y, hy, z, hz, by rw [hy', hz']; linarith⟩
    have := (hb1 u hu).1
    have := (hb1 v hv).2
    constructor <;> linarith
  refine ⟨g, ?_, g2, B.lo, B.hi, sel, h5, List.ne_nil_of_mem hpsel, fun a => lt_trans (hlo a).1 (hlo a).2, g3, fun r hr1 hr2 => ?_⟩
  · unfold getRdfAll
    simp only
    rw [h30, h4, ok_bind, g1]
  · have := g4 r hr1 hr2
    simp only [h30] at this
    rw [this]
    norm_num [pairsInShell, InShell]

/-- The frames, indexed. -/
theorem loadFilm_ok {P : RParams ℝ} {H : Heur 3 ℝ} (hP : P.Valid) (hH : H.Valid P) {parse : List Char → Option ℝ} {junk : Coord ℝ}
    {disk : BondDisk} {s h tok d stem e : List Char} {offset span : Nat} {frame : Nat → Particles ℝ}
    (hF : FilmOn parse junk disk s h tok d stem e offset span frame) :
    ∃ (bond : FileSerie) (m : Nat → List Char) (ix : Nat → Particles ℝ),
      loadFilm P H junk disk.nums (h ++ tok ++ d ++ (stem ++ '.' :: e)) tok offset span = .ok (bond, h, (List.range span).map ix) ∧
      (∀ t, bond.name t = .ok (h ++ tok ++ m t ++ (stem ++ bondsExt))) ∧
      (∀ t, ∀ c ∈ m t, isDig c = true) ∧ (∀ t, Files.value (m t) = t + offset) ∧
      ∀ i, makeRTreeIndex P H (frame i) = .ok (ix i) ∧ Indexed P H (ix i) ∧ (ix i).pos = (frame i).pos ∧ (ix i).radius = (frame i).radius := by
  obtain ⟨f, g, h1, h2, h3, m, m1, m2, m3, m4⟩ := bondNames_ok hF.name hF.ext hF.tokDigits hF.tokNew span offset
  have hix : ∀ i, ∃ ps, makeRTreeIndex P H (frame i) = .ok ps ∧ Indexed P H ps ∧ ps.pos = (frame i).pos ∧ ps.radius = (frame i).radius := by
    intro i
    obtain ⟨ps, k1, -, k2, -, k4⟩ := makeRTreeIndex_ok hP hH (frame i)
    exact ⟨ps, k1, .make k1, k2, k4⟩
  choose ix hix using hix
  refine ⟨g, m, ix, ?_, m2, m3, m4, hix⟩
  unfold loadFilm
  have hload : (List.range span).mapM (fun t => do
      let name ← f.name t
      Dat.ofDat junk (disk.nums name) 1) = .ok ((List.range span).map frame) := by
    refine TreeIndex.mapM_ok_of _ _ _ (fun i hi => ?_)
    rw [m1 i, ok_bind]
    exact (hF.load f i _ h1 (List.mem_range.1 hi) (m1 i)).1
  have hlast : ((List.range span).map frame).getLast? = some (frame (span - 1)) := by
    have := hF.spanPos
    rw [List.getLast?_map, List.getLast?_range]
    simp; omega
  have hidx : ((List.range span).map frame).mapM (makeRTreeIndex P H) = .ok ((List.range span).map ix) := by
    rw [List.mapM_map]
    exact TreeIndex.mapM_ok_of _ _ _ (fun i _ => (hix i).1)
  rw [h1, ok_bind]
  show (f.changeExt bondsExt >>= _) = _
  rw [h3, ok_bind, hload, ok_bind]
  simp only [hlast]
  rw [if_neg (by simpa using hF.last), hidx, ok_bind, h2, ok_bind]
  rfl

/-- The program from the distribution on. -/
theorem allBonds_run {P : RParams ℝ} {H : Heur 3 ℝ} (hP : P.Valid) (hH : H.Valid P) {parse : List Char → Option ℝ} {junk : Coord ℝ}
    {disk : BondDisk} {s h tok d stem e : List Char} {offset span : Nat} {frame : Nat → Particles ℝ}
    (hF : FilmOn parse junk disk s h tok d stem e offset span frame) :
    ∃ (bond : FileSerie) (m : Nat → List Char) (ix : Nat → Particles ℝ),
      loadFilm P H junk disk.nums (h ++ tok ++ d ++ (stem ++ '.' :: e)) tok offset span = .ok (bond, h, (List.range span).map ix) ∧
      (∀ t, bond.name t = .ok (h ++ tok ++ m t ++ (stem ++ bondsExt))) ∧
      (∀ t, ∀ c ∈ m t, isDig c = true) ∧ (∀ t, Files.value (m t) = t + offset) ∧
      (∀ i, makeRTreeIndex P H (frame i) = .ok (ix i) ∧ Indexed P H (ix i) ∧ (ix i).pos = (frame i).pos ∧ (ix i).radius = (frame i).radius) ∧
      ∀ fuel, allBonds P H parse junk (s ++ ['.', 't', 'r', 'a', 'j']) fuel disk =
        match filmRdf (h ++ rdfExt) ((List.range span).map ix) disk with
        | .error e => (disk, .error e)
        | .ok (disk, g) =>
          match bondLengthOf g fuel with
          | .error e => (disk, .error e)
          | .ok length => bondsLoop length bond.name ((List.range span).map ix).zipIdx disk := by
  obtain ⟨bond, m, ix, h1, h2, h3, h4, h5⟩ := loadFilm_ok hP hH hF
  refine ⟨bond, m, ix, h1, h2, h3, h4, h5, fun fuel => ?_⟩
  obtain ⟨shw, round, radius, dt, base, rest, t1, t2, t3, t4⟩ := hF.traj
  unfold allBonds
  rw [if_neg (by simp), t3]
  simp only [header_lines t1 radius dt t2 hF.tokLine hF.offsetLt hF.spanLt rest, t4, h1]
  rfl

theorem value_inj {m : Nat → List Char} {offset : Nat} (hv : ∀ t, Files.value (m t) = t + offset) {h tok t : List Char} (i j : Nat)
    (e : h ++ tok ++ m i ++ t = h ++ tok ++ m j ++ t) : i = j := by
  have := List.append_cancel_left (List.append_cancel_right e)
  have h1 := hv i
  rw [this, hv j] at h1
  omega

/-- The loop on the frames. -/
theorem bondsLoop_film {P : RParams ℝ} {H : Heur 3 ℝ} (hP : P.Valid) (hH : H.Valid P) {h tok stem : List Char} {offset : Nat} (span : Nat)
    {frame ix : Nat → Particles ℝ} {bond : FileSerie} {m : Nat → List Char} (h2 : ∀ t, bond.name t = .ok (h ++ tok ++ m t ++ (stem ++ bondsExt)))
    (h3 : ∀ t, ∀ c ∈ m t, isDig c = true) (h4 : ∀ t, Files.value (m t) = t + offset)
    (h5 : ∀ i, makeRTreeIndex P H (frame i) = .ok (ix i) ∧ Indexed P H (ix i) ∧ (ix i).pos = (frame i).pos ∧ (ix i).radius = (frame i).radius)
    (hr : ∀ i < span, (frame i).radius = 1 ∧ (frame i).pos.length < 2 ^ 64) (length : ℝ) :
    ∃ out : Nat → List Char, (∀ i < span, BondsFile (frame i).pos (2 * length) (some (out i))) ∧ ∀ disk,
      ∃ disk', bondsLoop length bond.name ((List.range span).map ix).zipIdx disk = (disk', .ok ()) ∧ disk'.rdf = disk.rdf ∧
        disk'.nums = disk.nums ∧ (∀ i < span, disk'.text (h ++ tok ++ m i ++ (stem ++ bondsExt)) = some (out i)) ∧
        ∀ name, (∀ i < span, name ≠ h ++ tok ++ m i ++ (stem ++ bondsExt)) → disk'.text name = disk.text name := by
  have hng := fun t => neighbours_good hP hH (h5 t).2.1 length
  choose ngbs n1 n2 n3 using hng
  refine ⟨fun t => writeBonds (ngb2bonds (ngbs t)), ?_, ?_⟩
  · intro i hi
    obtain ⟨-, -, e1, e2⟩ := h5 i
    obtain ⟨e3, e4⟩ := hr i hi
    refine bondsFile_of (by rw [← e1]; exact n2 i) e4 (fun p q => ?_)
    rw [n3 i p q, e1, e2, e3, mul_one]
  · intro disk
    obtain ⟨d, k1, k2, k3, k4, k5⟩ := bondsLoop_ok h2 (fun t u => value_inj h4 t u) ix ngbs n1 span 0 disk
    rw [← List.range_eq_range'] at k1
    exact ⟨d, k1, k3, k2, fun i hi => k4 i (by omega) (by omega), fun name hn => k5 name (fun t _ ht => hn t (by omega))⟩

theorem film_radius {parse : List Char → Option ℝ} {junk : Coord ℝ}
    {disk : BondDisk} {s h tok d stem e : List Char} {offset span : Nat} {frame : Nat → Particles ℝ}
    (hF : FilmOn parse junk disk s h tok d stem e offset span frame) : ∀ i < span, (frame i).radius = 1 ∧ (frame i).pos.length < 2 ^ 64 := by
  intro i hi
  obtain ⟨f, g, h1, -, -, m, m1, -⟩ := bondNames_ok hF.name hF.ext hF.tokDigits hF.tokNew span offset
  have := hF.load f i _ h1 hi (m1 i)
  exact ⟨(ofDat_fields this.1).1, this.2⟩

/-- The sum and the mean. -/
theorem meanRows_eq (span : Nat) (g : Nat → List ℝ) (hg : ∀ i < span, (g i).length = 200) :
    (totalG 200 ((List.range span).map g)).mapIdx (fun r v => ((r : ℝ) / 200 * 15, v / (((List.range span).map g).length : ℝ))) = meanRows span g ∧
    writtenG 200 ((List.range span).map g) = (meanRows span g).map Prod.snd ∧
    totalG 200 ((List.range span).map g) = (List.range 200).map (fun r => ((List.range span).map (fun i => (g i).getD r 0)).sum) := by
  have htot : totalG 200 ((List.range span).map g) = (List.range 200).map (fun r => ((List.range span).map (fun i => (g i).getD r 0)).sum) := by
    refine List.ext_getElem? (fun r => ?_)
    by_cases hr : r < 200
    · unfold totalG
      rw [totalG_spec 200 _ (by simpa using hg) _ List.length_replicate r 0 (by rw [List.getElem?_replicate, if_pos hr]), List.getElem?_map, List.getElem?_range hr]
      simp [Function.comp_def]
    · have hlen : (totalG 200 ((List.range span).map g)).length ≤ 200 := by
        unfold totalG
        have : ∀ (fr : List (List ℝ)) (acc : List ℝ), acc.length ≤ 200 →
            (fr.foldl (fun total g => List.zipWith (· + ·) total g) acc).length ≤ 200 := by
          intro fr
          induction fr with
          | nil => exact fun _ h => h
          | cons g fr ih => exact fun acc h => ih _ (by rw [List.length_zipWith]; omega)
        exact this _ _ List.length_replicate.le
      rw [List.getElem?_eq_none (by omega), List.getElem?_eq_none (by simpa using hr)]
  refine ⟨?_, ?_, htot⟩
  · rw [htot]
    refine List.ext_getElem? (fun r => ?_)
    unfold meanRows
    rw [List.getElem?_mapIdx, List.getElem?_map, List.getElem?_map]
    by_cases hr : r < 200
    · rw [List.getElem?_range hr]
      simp only [Option.map_some, List.length_map, List.length_range]
      rw [show (r : ℝ) / 200 * 15 = r * 15 / 200 by ring]
    · rw [List.getElem?_eq_none (by simpa using hr)]; rfl
  · unfold writtenG meanRows
    rw [htot, List.map_map, List.map_map]
    simp [Function.comp_def]

/-- The distribution, when there is no file. -/
theorem filmRdf_new {P : RParams ℝ} {H : Heur 3 ℝ} (hP : P.Valid) (hH : H.Valid P) (name : List Char) (disk : BondDisk) {span : Nat}
    (hrdf : disk.rdf name = none) {frame ix : Nat → Particles ℝ} (hr : ∀ i < span, (frame i).radius = 1)
    (hs : ∀ i < span, ∀ a, (∃ x ∈ (frame i).pos, P.mn ≤ x a) ∧ ∃ x ∈ (frame i).pos, x a ≤ P.mx)
    (hin : ∀ i < span, Inner (frame i).pos) (hix : ∀ i, makeRTreeIndex P H (frame i) = .ok (ix i)) :
    ∃ g : Nat → List ℝ, (∀ i < span, getRdfAll (ix i) 200 15 = .ok (g i) ∧ FrameRdf (frame i) (g i)) ∧
      filmRdf name ((List.range span).map ix) disk =
        .ok ({ disk with rdf := Function.update disk.rdf name (some (meanRows span g)) }, totalG 200 ((List.range span).map g)) := by
  have hg : ∀ i, ∃ g, i < span → getRdfAll (ix i) 200 15 = .ok g ∧ FrameRdf (frame i) g := by
    intro i
    by_cases hi : i < span
    · obtain ⟨g, h⟩ := frameRdf_ok hP hH (hr i hi) (hs i hi) (hin i hi) (hix i)
      exact ⟨g, fun _ => h⟩
    · exact ⟨[], fun h => absurd h hi⟩
  choose g hg using hg
  refine ⟨g, hg, ?_⟩
  have h1 : ((List.range span).map ix).mapM (fun ps => getRdfAll ps 200 15) = .ok ((List.range span).map g) := by
    rw [List.mapM_map]
    exact TreeIndex.mapM_ok_of _ _ _ (fun i hi => (hg i (List.mem_range.1 hi)).1)
  have h2 := (meanRows_eq span g (fun i hi => (hg i hi).2.1)).1
  rw [List.length_map] at h2
  unfold filmRdf
  rw [hrdf]
  simp only
  rw [h1, ok_bind, List.length_map, h2, pure_eq_ok]

theorem bondLength_mean (span : Nat) (hspan : 0 < span) (g : Nat → List ℝ) (hg : ∀ i < span, (g i).length = 200) (fuel : Nat) :
    bondLengthOf (totalG 200 ((List.range span).map g)) fuel = bondLengthOf ((meanRows span g).map Prod.snd) fuel := by
  rw [← (meanRows_eq span g hg).2.1, C106_reload _ _ (by simp; omega)]

/-! ## Theorems -/

/-- C147. `all_bonds`, when there is no file of the distribution. It writes the mean of the distributions of the frames. Let `x` be the row of this file
at the lowest bin from the highest one on. If its ordinate is not null, there is a file of bonds for each frame, with the pairs of particles nearer than its
abscissa times a diameter of 2; nothing else is changed. Otherwise the program never ends. Missing: the rounding of the numbers. -/
theorem C147_first_run_partial {P : RParams ℝ} {H : Heur 3 ℝ} (hP : P.Valid) (hH : H.Valid P) {parse : List Char → Option ℝ} {junk : Coord ℝ}
    {disk : BondDisk} {s h tok d stem e : List Char} {offset span : Nat} {frame : Nat → Particles ℝ}
    (hF : FilmOn parse junk disk s h tok d stem e offset span frame)
    (hs : ∀ i < span, ∀ a, (∃ x ∈ (frame i).pos, P.mn ≤ x a) ∧ ∃ x ∈ (frame i).pos, x a ≤ P.mx)
    (hin : ∀ i < span, Inner (frame i).pos) (hrdf : disk.rdf (h ++ rdfExt) = none) :
    ∃ g : Nat → List ℝ, (∀ i < span, FrameRdf (frame i) (g i)) ∧ ∀ p k x, HighestBin ((meanRows span g).map Prod.snd) p →
      LowestBinFrom ((meanRows span g).map Prod.snd) p k → (meanRows span g)[k]? = some x → ∀ fuel,
      (x.2 ≠ 0 → ∃ disk', allBonds P H parse junk (s ++ ['.', 't', 'r', 'a', 'j']) (fuel + 1) disk = (disk', .ok ()) ∧
        disk'.rdf = Function.update disk.rdf (h ++ rdfExt) (some (meanRows span g)) ∧
        BondsWritten disk disk' h tok stem offset span frame (2 * x.1)) ∧
      (x.2 = 0 → allBonds P H parse junk (s ++ ['.', 't', 'r', 'a', 'j']) fuel disk =
        ({ disk with rdf := Function.update disk.rdf (h ++ rdfExt) (some (meanRows span g)) }, .error .diverge)) := by
  obtain ⟨bond, m, ix, -, h2, h3, h4, h5, h6⟩ := allBonds_run hP hH hF
  have hr := film_radius hF
  obtain ⟨g, g1, g2⟩ := filmRdf_new hP hH (h ++ rdfExt) disk hrdf (fun i hi => (hr i hi).1) hs hin (fun i => (h5 i).1)
  refine ⟨g, fun i hi => (g1 i hi).2, fun p k x hp hk hx fuel => ?_⟩
  have hlen := bondLength_mean span hF.spanPos g (fun i hi => (g1 i hi).2.1)
  have hk' : ((meanRows span g).map Prod.snd)[k]? = some x.2 := by rw [List.getElem?_map, hx]; rfl
  have hx1 : (k : ℝ) / 200 * 15 = x.1 := by
    unfold meanRows at hx
    rw [List.getElem?_map] at hx
    obtain ⟨r, hr1, rfl⟩ := Option.map_eq_some_iff.1 hx
    obtain ⟨hr2, hr3⟩ := List.getElem?_eq_some_iff.1 hr1
    rw [List.getElem_range] at hr3
    subst hr3
    show (k : ℝ) / 200 * 15 = k * 15 / 200
    ring
  constructor
  · intro h0
    have hb := hlen (fuel + 1)
    rw [C106_bondLength_partial hp hk hk' h0, hx1] at hb
    obtain ⟨out, o1, o2⟩ := bondsLoop_film hP hH span h2 h3 h4 h5 hr x.1
    obtain ⟨disk', d1, d2, d3, d4, d5⟩ := o2 { disk with rdf := Function.update disk.rdf (h ++ rdfExt) (some (meanRows span g)) }
    refine ⟨disk', ?_, d2, d3, m, h3, h4, fun i hi => ?_, d5⟩
    · rw [h6, g2]
      simp only [hb]
      exact d1
    · rw [d4 i hi]
      exact o1 i hi
  · intro h0
    have hb : bondLengthOf ((meanRows span g).map Prod.snd) fuel = .error .diverge := by
      have : firstMin ((meanRows span g).map Prod.snd) fuel = .error .diverge := by
        induction fuel with
        | zero => rfl
        | succ fuel ih => rw [firstMin_step hp hk, getR_ok.2 hk', ok_bind, if_pos h0, ih]
      unfold bondLengthOf
      rw [this, error_bind]
    rw [h6, g2]
    simp only [hlen, hb]

/-- C147. When the file of the distribution exists, with 200 rows, the length is the abscissa in diameters of the lowest bin from the highest one on in
this file. It is not changed. -/
theorem C147_known_distribution_partial {P : RParams ℝ} {H : Heur 3 ℝ} (hP : P.Valid) (hH : H.Valid P) {parse : List Char → Option ℝ} {junk : Coord ℝ}
    {disk : BondDisk} {s h tok d stem e : List Char} {offset span : Nat} {frame : Nat → Particles ℝ}
    (hF : FilmOn parse junk disk s h tok d stem e offset span frame) {rows : List (ℝ × ℝ)} (hrdf : disk.rdf (h ++ rdfExt) = some rows)
    (hlen : rows.length = 200) {p k : Nat} {x : ℝ × ℝ} (hp : HighestBin (rows.map Prod.snd) p) (hk : LowestBinFrom (rows.map Prod.snd) p k)
    (hx : rows[k]? = some x) (h0 : x.2 ≠ 0) (fuel : Nat) :
    ∃ disk', allBonds P H parse junk (s ++ ['.', 't', 'r', 'a', 'j']) (fuel + 1) disk = (disk', .ok ()) ∧ disk'.rdf = disk.rdf ∧
      BondsWritten disk disk' h tok stem offset span frame (2 * (k * 15 / 200)) := by
  obtain ⟨bond, m, ix, -, h2, h3, h4, h5, h6⟩ := allBonds_run hP hH hF
  have hr := film_radius hF
  have hcol : (List.range 200).map (fun r => (rows[r]?.map Prod.snd).getD 0) = rows.map Prod.snd := by
    refine List.ext_getElem? (fun r => ?_)
    rw [List.getElem?_map, List.getElem?_map]
    by_cases hr : r < 200
    · have hr' := List.getElem?_eq_getElem (by omega : r < rows.length)
      rw [List.getElem?_range hr, Option.map_some, hr']
      rfl
    · rw [List.getElem?_eq_none (by simpa using hr), List.getElem?_eq_none (by omega)]; rfl
  have hk' : (rows.map Prod.snd)[k]? = some x.2 := by rw [List.getElem?_map, hx]; rfl
  obtain ⟨out, o1, o2⟩ := bondsLoop_film hP hH span h2 h3 h4 h5 hr (k * 15 / 200)
  obtain ⟨disk', d1, d2, d3, d4, d5⟩ := o2 disk
  refine ⟨disk', ?_, d2, d3, m, h3, h4, fun i hi => ?_, d5⟩
  · rw [h6]
    unfold filmRdf
    simp only [hrdf]
    rw [hcol, C106_bondLength_partial hp hk hk' h0 fuel]
    simp only
    rw [show (k : ℝ) / 200 * 15 = k * 15 / 200 by ring]
    exact d1
  · rw [d4 i hi]
    exact o1 i hi

/-- The film is still there after the bonds are written. -/
theorem FilmOn.after {parse : List Char → Option ℝ} {junk : Coord ℝ}
    {disk disk' : BondDisk} {s h tok d stem e : List Char} {offset span : Nat} {frame : Nat → Particles ℝ}
    (hF : FilmOn parse junk disk s h tok d stem e offset span frame) (hn : disk'.nums = disk.nums) {nm : Nat → List Char}
    (ht : ∀ name, (∀ i < span, name ≠ nm i ++ bondsExt) → disk'.text name = disk.text name) :
    FilmOn parse junk disk' s h tok d stem e offset span frame := by
  refine { hF with traj := ?_, load := ?_ }
  · obtain ⟨shw, round, radius, dt, base, rest, t1, t2, t3, t4⟩ := hF.traj
    refine ⟨shw, round, radius, dt, base, rest, t1, t2, ?_, t4⟩
    rw [ht _ (fun i _ e => ?_), t3]
    have := congrArg List.getLast? e
    simp [bondsExt] at this
  · rw [hn]
    exact hF.load

/-- C147. After a run that made the file of the distribution, another run changes nothing: the bonds found from the file are the same. -/
theorem C147_second_run_partial {P : RParams ℝ} {H : Heur 3 ℝ} (hP : P.Valid) (hH : H.Valid P) {parse : List Char → Option ℝ} {junk : Coord ℝ}
    {disk : BondDisk} {s h tok d stem e : List Char} {offset span : Nat} {frame : Nat → Particles ℝ}
    (hF : FilmOn parse junk disk s h tok d stem e offset span frame)
    (hs : ∀ i < span, ∀ a, (∃ x ∈ (frame i).pos, P.mn ≤ x a) ∧ ∃ x ∈ (frame i).pos, x a ≤ P.mx)
    (hin : ∀ i < span, Inner (frame i).pos) (hrdf : disk.rdf (h ++ rdfExt) = none) {fuel : Nat} {disk' : BondDisk}
    (hrun : allBonds P H parse junk (s ++ ['.', 't', 'r', 'a', 'j']) fuel disk = (disk', .ok ())) :
    allBonds P H parse junk (s ++ ['.', 't', 'r', 'a', 'j']) fuel disk' = (disk', .ok ()) := by
  obtain ⟨bond, m, ix, h1, h2, h3, h4, h5, h6⟩ := allBonds_run hP hH hF
  have hr := film_radius hF
  obtain ⟨g, g1, g2⟩ := filmRdf_new hP hH (h ++ rdfExt) disk hrdf (fun i hi => (hr i hi).1) hs hin (fun i => (h5 i).1)
  have hlen := bondLength_mean span hF.spanPos g (fun i hi => (g1 i hi).2.1) fuel
  rw [h6, g2] at hrun
  simp only [hlen] at hrun
  cases hb : bondLengthOf ((meanRows span g).map Prod.snd) fuel with
  | error e =>
    rw [hb] at hrun
    have := (Prod.mk.inj hrun).2
    cases this
  | ok l =>
    rw [hb] at hrun
    simp only at hrun
    obtain ⟨out, -, o2⟩ := bondsLoop_film hP hH span h2 h3 h4 h5 hr l
    obtain ⟨d1, e1, e2, e3, e4, e5⟩ := o2 { disk with rdf := Function.update disk.rdf (h ++ rdfExt) (some (meanRows span g)) }
    rw [hrun] at e1
    have := (Prod.mk.inj e1).1
    subst this
    have hF' := hF.after (disk' := disk') e3 (nm := fun i => h ++ tok ++ m i ++ stem) (by
      intro name hn
      exact e5 name (fun i hi => by simpa using hn i hi))
    obtain ⟨bond', m', ix', k1, -, -, -, -, k6⟩ := allBonds_run hP hH hF'
    rw [e3, h1] at k1
    have k1 := Except.ok.inj k1
    have kb : bond = bond' := (Prod.mk.inj k1).1
    have kx : (List.range span).map ix = (List.range span).map ix' := (Prod.mk.inj (Prod.mk.inj k1).2).2
    rw [k6, ← kb, ← kx]
    have hcol : (List.range 200).map (fun r => ((meanRows span g)[r]?.map Prod.snd).getD 0) = (meanRows span g).map Prod.snd := by
      refine List.ext_getElem? (fun r => ?_)
      unfold meanRows
      simp only [List.getElem?_map]
      by_cases hr : r < 200
      · simp only [List.getElem?_range hr, Option.map_some, Option.getD_some]
      · rw [List.getElem?_eq_none (by simpa using hr)]; rfl
    have hrd : disk'.rdf (h ++ rdfExt) = some (meanRows span g) := by
      rw [e2]
      exact Function.update_self ..
    unfold filmRdf
    simp only [hrd]
    rw [hcol, hb]
    simp only
    obtain ⟨d2, f1, f2, f3, f4, f5⟩ := o2 disk'
    rw [f1]
    congr 1
    have ht : d2.text = disk'.text := by
      funext name
      by_cases hn : ∃ i < span, name = h ++ tok ++ m i ++ (stem ++ bondsExt)
      · obtain ⟨i, hi, rfl⟩ := hn
        rw [f4 i hi, e4 i hi]
      · exact f5 name (fun i hi e => hn ⟨i, hi, e⟩)
    obtain ⟨a, b, c⟩ := d2
    obtain ⟨a', b', c'⟩ := disk'
    simp only at f2 f3 ht
    subst f2 f3 ht
    rfl

/-- C147. What `linker` has written is a film for `all_bonds`, that looks for the same files of positions. -/
theorem C147_after_linker {P : RParams ℝ} {H : Heur 3 ℝ} {shw : ℝ → List Char} {parse : List Char → Option ℝ}
    {round : ℝ → ℝ} (hpr : Prints shw parse round) (junk : Coord ℝ) {h tok d stem e : List Char} (hn : Name h tok d (stem ++ '.' :: e))
    (he : '.' ∉ e) (htok : ∀ c ∈ tok, isDig c = false) (hnew : ¬ tok <:+: stem ++ bondsExt)
    (hsl : ∀ c ∈ tok ++ d ++ (stem ++ '.' :: e), isSlash c = false) (hnl : '\n' ∉ h ++ tok ++ d ++ (stem ++ '.' :: e)) (radius dt : ℝ)
    {span offset : Nat} (hpos : 0 < span) (hspan : span < 2 ^ 64) (hoff : offset < 2 ^ 64) (film film' : FilmDisk ℝ) (frame : Nat → Particles ℝ)
    (hin : ∀ f i name, Files.make (h ++ tok ++ d ++ (stem ++ '.' :: e)) tok span offset = .ok f → i < span → f.name i = .ok name →
      Dat.ofDat junk (film.nums name) 1 = .ok (frame i) ∧ (frame i).pos.length < 2 ^ 64)
    (hlast : (frame (span - 1)).pos ≠ [])
    (hlink : linker P H shw junk (h ++ tok ++ d ++ (stem ++ '.' :: e)) tok radius dt (some span) offset film = .ok film')
    (rdf : List Char → Option (List (ℝ × ℝ))) :
    FilmOn parse junk ⟨film'.nums, film'.text, rdf⟩ h h tok d stem e offset span frame := by
  have hrf : Files.rfind (h ++ tok ++ d ++ (stem ++ '.' :: e)) tok = some h.length := by
    have := Files.rfind_last h tok (d ++ (stem ++ '.' :: e)) (by simpa [List.append_assoc] using hn.last)
    simpa [List.append_assoc] using this
  have hl1 : (linkerNames (h ++ tok ++ d ++ (stem ++ '.' :: e)) tok).1 = h ++ ['.', 't', 'r', 'a', 'j'] := by
    unfold linkerNames
    simp only [hrf]
    rw [List.append_assoc, List.append_assoc, List.take_left]
  have hfold := C126_names_partial hrf (by
    rw [List.append_assoc, List.append_assoc, List.drop_left]
    simpa [List.append_assoc] using hsl)
  rw [hl1] at hfold
  have hnl' : '\n' ∉ tok ∧ '\n' ∉ (linkerNames (h ++ tok ++ d ++ (stem ++ '.' :: e)) tok).2 := by
    refine ⟨fun hc => hnl (by simp [hc]), fun hc => hnl ?_⟩
    rw [← hfold]
    exact List.mem_append_right _ hc
  unfold linker at hlink
  simp only [bind_ok, pure_eq_ok, Except.ok.injEq] at hlink
  obtain ⟨files, -, frames, -, head, -, D, -, text, htext, rfl⟩ := hlink
  unfold TrajFile.text at htext
  rw [bind_ok] at htext
  obtain ⟨t, -, htext⟩ := htext
  have htext := Except.ok.inj htext
  refine ⟨⟨shw, round, D.radius, dt, _, t, hpr, hnl'.2, ?_, hfold⟩, hn, he, htok, hnl'.1, hnew, hpos, hspan, hoff, hin, hlast⟩
  show Function.update film.text _ (some text) _ = _
  rw [hl1, Function.update_self, ← htext]
  rfl

/-- The distribution of a small sample. -/
theorem small_total {span : Nat} {frame : Nat → Particles ℝ} {g : Nat → List ℝ} (hg : ∀ i < span, FrameRdf (frame i) (g i))
    (hsmall : ∀ i < span, ∀ x ∈ (frame i).pos, ∀ y ∈ (frame i).pos, Rdf.dist x y < 29.85) :
    (∀ x ∈ totalG 200 ((List.range span).map g), 0 ≤ x) ∧ (totalG 200 ((List.range span).map g))[199]? = some 0 := by
  have h0 : ∀ i < span, ∀ r, 0 ≤ (g i).getD r 0 := by
    intro i hi r
    obtain ⟨h1, lo, hi', sel, -, h2, h3, h4, h5⟩ := hg i hi
    rw [List.getD_eq_getElem?_getD]
    by_cases hr : r < 200
    · by_cases hr0 : r = 0
      · subst hr0; rw [h4]; simp
      · rw [h5 r (by omega) hr, Option.getD_some]
        have a := h3 0
        have b := h3 1
        have c := h3 2
        have : 0 ≤ (hi' 0 - lo 0) * (hi' 1 - lo 1) * (hi' 2 - lo 2) := by
          refine mul_nonneg (mul_nonneg ?_ ?_) ?_ <;> linarith
        have := Real.pi_pos
        positivity
    · rw [List.getElem?_eq_none (by omega)]; simp
  have hz : ∀ i < span, (g i).getD 199 0 = 0 := by
    intro i hi
    obtain ⟨h1, lo, hi', sel, -, h2, h3, h4, h5⟩ := hg i hi
    rw [List.getD_eq_getElem?_getD, h5 199 (by omega) (by omega), Option.getD_some]
    have : pairsInShell (frame i) sel 30 ((199 : Nat) * 30 / 200) (((199 : Nat) + 1) * 30 / 200) = 0 := by
      unfold pairsInShell
      rw [List.sum_eq_zero]
      intro n hn
      obtain ⟨p, hp, rfl⟩ := List.mem_map.1 hn
      rw [List.length_eq_zero_iff, List.filter_eq_nil_iff]
      intro q _ hq
      obtain ⟨-, x, y, hx, hy, -, hlo, -⟩ := (@decide_eq_true_iff _ (Classical.propDecidable _)).1 hq
      have := hsmall i hi x (List.mem_of_getElem? hx) y (List.mem_of_getElem? hy)
      norm_num at hlo this
      linarith
    rw [this]
    simp
  rw [(meanRows_eq span g (fun i hi => (hg i hi).1)).2.2]
  constructor
  · intro x hx
    obtain ⟨r, -, rfl⟩ := List.mem_map.1 hx
    refine List.sum_nonneg (fun v hv => ?_)
    obtain ⟨i, hi, rfl⟩ := List.mem_map.1 hv
    exact h0 i (List.mem_range.1 hi) r
  · rw [List.getElem?_map, List.getElem?_range (by omega), Option.map_some, List.sum_eq_zero]
    intro v hv
    obtain ⟨i, hi, rfl⟩ := List.mem_map.1 hv
    exact hz i (List.mem_range.1 hi)

/-- C147 does not hold for small samples: if all the particles of each frame are within 29.85 of each other (the last bin starts at this distance, in the unit of
the file, whatever the size of the particles), `all_bonds` never ends and writes no bonds. -/
theorem C147_small_counterexample {P : RParams ℝ} {H : Heur 3 ℝ} (hP : P.Valid) (hH : H.Valid P) {parse : List Char → Option ℝ} {junk : Coord ℝ}
    {disk : BondDisk} {s h tok d stem e : List Char} {offset span : Nat} {frame : Nat → Particles ℝ}
    (hF : FilmOn parse junk disk s h tok d stem e offset span frame)
    (hs : ∀ i < span, ∀ a, (∃ x ∈ (frame i).pos, P.mn ≤ x a) ∧ ∃ x ∈ (frame i).pos, x a ≤ P.mx)
    (hin : ∀ i < span, Inner (frame i).pos) (hrdf : disk.rdf (h ++ rdfExt) = none)
    (hsmall : ∀ i < span, ∀ x ∈ (frame i).pos, ∀ y ∈ (frame i).pos, Rdf.dist x y < 29.85) (fuel : Nat) :
    ∃ disk', allBonds P H parse junk (s ++ ['.', 't', 'r', 'a', 'j']) fuel disk = (disk', .error .diverge) ∧ disk'.text = disk.text := by
  obtain ⟨bond, m, ix, -, h2, h3, h4, h5, h6⟩ := allBonds_run hP hH hF
  have hr := film_radius hF
  obtain ⟨g, g1, g2⟩ := filmRdf_new hP hH (h ++ rdfExt) disk hrdf (fun i hi => (hr i hi).1) hs hin (fun i => (h5 i).1)
  obtain ⟨s1, s2⟩ := small_total (fun i hi => (g1 i hi).2) hsmall
  have hne : totalG 200 ((List.range span).map g) ≠ [] := by
    intro h
    rw [h] at s2
    cases s2
  have hp := maxElement_spec hne
  have hle : maxElement (totalG 200 ((List.range span).map g)) ≤ 199 := by
    obtain ⟨x, hx, -⟩ := hp
    have h1 := (List.getElem?_eq_some_iff.1 hx).1
    have h2 : (totalG 200 ((List.range span).map g)).length = 200 := by
      rw [(meanRows_eq span g (fun i hi => (g1 i hi).2.1)).2.2, List.length_map, List.length_range]
    omega
  have hb : bondLengthOf (totalG 200 ((List.range span).map g)) fuel = .error .diverge := by
    unfold bondLengthOf
    rw [C106_hang_counterexample hp s1 hle s2, error_bind]
  refine ⟨{ disk with rdf := Function.update disk.rdf (h ++ rdfExt) (some (meanRows span g)) }, ?_, rfl⟩
  rw [h6, g2]
  simp only [hb]

/-- C147 does not hold when a frame before the last one is empty: the program stops on an exception of the index, and nothing is written. Only the last frame
is checked. -/
theorem C147_empty_frame_counterexample {P : RParams ℝ} {H : Heur 3 ℝ} (hP : P.Valid) (hH : H.Valid P) {parse : List Char → Option ℝ} {junk : Coord ℝ}
    {disk : BondDisk} {s h tok d stem e : List Char} {offset span : Nat} {frame : Nat → Particles ℝ}
    (hF : FilmOn parse junk disk s h tok d stem e offset span frame)
    (hin : ∀ i < span, (frame i).pos = [] ∨ (Inner (frame i).pos ∧
      ∀ a, (∃ x ∈ (frame i).pos, P.mn ≤ x a) ∧ ∃ x ∈ (frame i).pos, x a ≤ P.mx))
    (hempty : ∃ i < span, (frame i).pos = []) (hrdf : disk.rdf (h ++ rdfExt) = none) (fuel : Nat) :
    allBonds P H parse junk (s ++ ['.', 't', 'r', 'a', 'j']) fuel disk = (disk, .error .outOfRange) := by
  obtain ⟨bond, m, ix, -, h2, h3, h4, h5, h6⟩ := allBonds_run hP hH hF
  have hr := film_radius hF
  have hem : ∀ i, (frame i).pos = [] → getRdfAll (ix i) 200 15 = .error .outOfRange := by
    intro i hi
    have := (h5 i).1
    unfold makeRTreeIndex at this
    rw [hi] at this
    have := Except.ok.inj this
    rw [← this]
    rfl
  have hm : ((List.range span).map ix).mapM (fun ps => getRdfAll ps 200 15) = .error .outOfRange := by
    rw [List.mapM_map]
    refine mapM_first_error _ _ _ (fun i hi => ?_) ?_
    · have hi := List.mem_range.1 hi
      rcases hin i hi with h | ⟨h, h'⟩
      · exact .inr (hem i h)
      · obtain ⟨g, hg, -⟩ := frameRdf_ok hP hH (hr i hi).1 h' h (h5 i).1
        exact .inl ⟨g, hg⟩
    · obtain ⟨i, hi, he⟩ := hempty
      exact ⟨i, List.mem_range.2 hi, hem i he⟩
  rw [h6]
  unfold filmRdf
  simp only [hrdf, hm, error_bind]

/-- C147. Without the file of trajectories, or with a name without extension, nothing is written. -/
theorem C147_no_trajectories (P : RParams ℝ) (H : Heur 3 ℝ) (parse : List Char → Option ℝ) (junk : Coord ℝ) (filename : List Char) (fuel : Nat)
    (disk : BondDisk) : ('.' ∉ filename → allBonds P H parse junk filename fuel disk = (disk, .error .outOfRange)) ∧
      ('.' ∈ filename → disk.text filename = none → allBonds P H parse junk filename fuel disk = (disk, .error .invalidArgument)) := by
  constructor
  · intro h
    unfold allBonds
    rw [if_pos h]
  · intro h h1
    unfold allBonds
    rw [if_neg (by simpa using h), h1]

/-- C147. A missing file of positions, or a last frame that is empty: the program stops and nothing is written. -/
theorem C147_missing {P : RParams ℝ} {H : Heur 3 ℝ} {shw : ℝ → List Char} {parse : List Char → Option ℝ} {round : ℝ → ℝ} (hpr : Prints shw parse round)
    (junk : Coord ℝ) {disk : BondDisk} {s h tok d stem e base rest : List Char} {radius dt : ℝ} {offset span : Nat} (hb : '\n' ∉ base)
    (htraj : disk.text (s ++ ['.', 't', 'r', 'a', 'j']) = some (trajLines shw radius dt base tok offset span rest))
    (hfold : folder (s ++ ['.', 't', 'r', 'a', 'j']) ++ base = h ++ tok ++ d ++ (stem ++ '.' :: e))
    (hn : Name h tok d (stem ++ '.' :: e)) (he : '.' ∉ e) (htok : ∀ c ∈ tok, isDig c = false) (htl : '\n' ∉ tok)
    (hnew : ¬ tok <:+: stem ++ bondsExt) (hspan : span < 2 ^ 64) (hoff : offset < 2 ^ 64)
    (hin : ∀ f, Files.make (h ++ tok ++ d ++ (stem ++ '.' :: e)) tok span offset = .ok f →
      (∃ i < span, ∃ name, f.name i = .ok name ∧ disk.nums name = none) ∨
      (0 < span ∧ ∃ name ps, f.name (span - 1) = .ok name ∧ Dat.ofDat junk (disk.nums name) 1 = .ok ps ∧ ps.pos = [])) (fuel : Nat) :
    allBonds P H parse junk (s ++ ['.', 't', 'r', 'a', 'j']) fuel disk = (disk, .error .invalidArgument) := by
  obtain ⟨f, g, h1, h2, h3, m, m1, -, -, -⟩ := bondNames_ok hn he htok hnew span offset
  have hcase : ∀ t, (∃ ps, (do
      let name ← f.name t
      Dat.ofDat junk (disk.nums name) 1) = .ok ps) ∨ (do
      let name ← f.name t
      Dat.ofDat junk (disk.nums name) 1 : R (Particles ℝ)) = .error .invalidArgument := by
    intro t
    rw [m1 t, ok_bind]
    cases disk.nums (h ++ tok ++ m t ++ (stem ++ '.' :: e)) with
    | none => exact .inr rfl
    | some l => exact .inl ⟨_, rfl⟩
  have hload : loadFilm P H junk disk.nums (h ++ tok ++ d ++ (stem ++ '.' :: e)) tok offset span = .error .invalidArgument := by
    unfold loadFilm
    rw [h1, ok_bind]
    show (f.changeExt bondsExt >>= _) = _
    rw [h3, ok_bind]
    by_cases hmiss : ∃ i < span, disk.nums (h ++ tok ++ m i ++ (stem ++ '.' :: e)) = none
    · obtain ⟨i, hi, hnone⟩ := hmiss
      rw [mapM_first_error _ .invalidArgument (List.range span) (fun t _ => hcase t) ⟨i, List.mem_range.2 hi, by
        rw [m1 i, ok_bind, hnone]; rfl⟩, error_bind]
    · have hex : ∀ t, ∃ ps, t < span → (do
          let name ← f.name t
          Dat.ofDat junk (disk.nums name) 1) = .ok ps := by
        intro t
        by_cases ht : t < span
        · rcases hcase t with ⟨ps, hps⟩ | hps
          · exact ⟨ps, fun _ => hps⟩
          · exfalso
            refine hmiss ⟨t, ht, ?_⟩
            rw [m1 t, ok_bind] at hps
            cases hd : disk.nums (h ++ tok ++ m t ++ (stem ++ '.' :: e)) with
            | none => rfl
            | some l => rw [hd] at hps; cases hps
        · exact ⟨⟨[], ⟨junk, junk⟩, 0, none⟩, fun h => absurd h ht⟩
      choose fr hfr using hex
      rw [TreeIndex.mapM_ok_of _ fr _ (fun i hi => hfr i (List.mem_range.1 hi)), ok_bind]
      rcases hin f h1 with ⟨i, hi, name, e1, e2⟩ | ⟨hpos, name, ps, e1, e2, e3⟩
      · rw [m1 i] at e1
        cases e1
        exact absurd ⟨i, hi, e2⟩ hmiss
      · have hlast : ((List.range span).map fr).getLast? = some (fr (span - 1)) := by
          rw [List.getLast?_map, List.getLast?_range]
          simp; omega
        have := hfr (span - 1) (by omega)
        rw [e1, ok_bind, e2] at this
        have := Except.ok.inj this
        simp only [hlast]
        rw [← this, e3]
        rfl
  unfold allBonds
  rw [if_neg (by simp), htraj]
  simp only [header_lines hpr radius dt hb htl hoff hspan rest, hfold, hload]

/-- C147 does not hold for a file of trajectories without any time: the last frame is read although there is none. -/
theorem C147_no_frames_counterexample {P : RParams ℝ} {H : Heur 3 ℝ} {shw : ℝ → List Char} {parse : List Char → Option ℝ} {round : ℝ → ℝ}
    (hpr : Prints shw parse round) (junk : Coord ℝ) {disk : BondDisk} {s h tok d stem e base rest : List Char} {radius dt : ℝ} {offset : Nat}
    (hb : '\n' ∉ base) (htraj : disk.text (s ++ ['.', 't', 'r', 'a', 'j']) = some (trajLines shw radius dt base tok offset 0 rest))
    (hfold : folder (s ++ ['.', 't', 'r', 'a', 'j']) ++ base = h ++ tok ++ d ++ (stem ++ '.' :: e))
    (hn : Name h tok d (stem ++ '.' :: e)) (he : '.' ∉ e) (htok : ∀ c ∈ tok, isDig c = false) (htl : '\n' ∉ tok)
    (hnew : ¬ tok <:+: stem ++ bondsExt) (hoff : offset < 2 ^ 64) (fuel : Nat) :
    allBonds P H parse junk (s ++ ['.', 't', 'r', 'a', 'j']) fuel disk = (disk, .error .ub) := by
  obtain ⟨f, g, h1, h2, h3, -⟩ := bondNames_ok hn he htok hnew 0 offset
  have hload : loadFilm P H junk disk.nums (h ++ tok ++ d ++ (stem ++ '.' :: e)) tok offset 0 = .error .ub := by
    unfold loadFilm
    rw [h1, ok_bind]
    show (f.changeExt bondsExt >>= _) = _
    rw [h3, ok_bind]
    rfl
  unfold allBonds
  rw [if_neg (by simp), htraj]
  simp only [header_lines hpr radius dt hb htl hoff (by norm_num : 0 < 2 ^ 64) rest, hfold, hload]

/-! ## Examples -/

/-- Three particles. -/
noncomputable def exThree : List (Coord ℝ) := [![0, 0, 0], ![1, 1, 1], ![2, 2, 2]]

/-- A disk with a film of two frames, at `a/b_t0.d` and `a/b_t1.d`. -/
noncomputable def exFilmDisk (rdf : Option (List (ℝ × ℝ))) : BondDisk :=
  ⟨fun _ => some [.nat 1, .nat 3, .nat 1, .nat 9, .nat 9, .nat 9, .nat 0, .nat 0, .nat 0, .nat 1, .nat 1, .nat 1, .nat 2, .nat 2, .nat 2],
    fun _ => some (trajLines (fun _ => ['1']) 1 1 ['b', '_', 't', '0', '.', 'd'] ['_', 't'] 0 2 []), fun _ => rdf⟩

/-- The frames of this film. -/
noncomputable def exThreeParts : Particles ℝ := ⟨exThree, ⟨fun _ => 0, ![9, 9, 9]⟩, 1, none⟩

/-- The hypotheses on the disk of the theorems on `all_bonds`. -/
theorem exFilmOn (rdf : Option (List (ℝ × ℝ))) : FilmOn (fun _ => some 1) (fun _ => 0) (exFilmDisk rdf) ['a', '/', 'b'] ['a', '/', 'b'] ['_', 't'] ['0'] []
    ['d'] 0 2 (fun _ => exThreeParts) := by
  refine ⟨⟨fun _ => ['1'], fun _ => 1, 1, 1, ['b', '_', 't', '0', '.', 'd'], [], ⟨by simp, by simp; decide, fun _ => rfl⟩, by decide, rfl, by decide⟩,
    exLink_name, by decide, by decide, by decide, by decide, by norm_num, by norm_num, by norm_num, ?_, by simp [exThreeParts, exThree]⟩
  intro files i name _ _ _
  refine ⟨?_, by simp [exThreeParts, exThree]⟩
  simp [exFilmDisk, Dat.ofDat, exThreeParts, exThree, Dat.In.readNat, Dat.In.readCoord, Dat.In.readDbl, Dat.readAll]

/-- The other hypotheses of `C147_first_run_partial`, `C147_second_run_partial` and `C147_small_counterexample`. -/
example : Inner exThree ∧ (∀ a, (∃ x ∈ exThree, (-1000 : ℝ) ≤ x a) ∧ ∃ x ∈ exThree, x a ≤ (1000 : ℝ)) ∧
    (∀ x ∈ exThree, ∀ y ∈ exThree, Rdf.dist x y < 29.85) ∧ (exFilmDisk none).rdf (['a', '/', 'b'] ++ rdfExt) = none := by
  have hin : ∀ x ∈ exThree, ∀ a, 0 ≤ x a ∧ x a ≤ 2 := by
    intro x hx a
    simp only [exThree, List.mem_cons, List.not_mem_nil, or_false] at hx
    rcases hx with rfl | rfl | rfl <;> fin_cases a <;> norm_num
  refine ⟨⟨![1, 1, 1], by simp [exThree], fun a => ⟨⟨![0, 0, 0], by simp [exThree], by fin_cases a <;> norm_num⟩,
    ⟨![2, 2, 2], by simp [exThree], by fin_cases a <;> norm_num⟩, ?_⟩⟩, fun a => ?_, ?_, rfl⟩
  · rintro ⟨y, hy, z, hz, h⟩
    have := hin y hy a
    have := hin z hz a
    linarith
  · exact ⟨⟨![0, 0, 0], by simp [exThree], by fin_cases a <;> norm_num⟩, ![0, 0, 0], by simp [exThree], by fin_cases a <;> norm_num⟩
  · intro x hx y hy
    have hsq : ∀ a, (x a - y a) * (x a - y a) ≤ 4 := by
      intro a
      have := hin x hx a
      have := hin y hy a
      nlinarith
    unfold Rdf.dist
    rw [Real.sqrt_lt' (by norm_num)]
    unfold sqDist
    have := hsq 0
    have := hsq 1
    have := hsq 2
    norm_num
    nlinarith

/-- The hypotheses of `C147_known_distribution_partial`: a file with a peak at the bin 20, flat elsewhere. -/
example : ∃ rows : List (ℝ × ℝ), (exFilmDisk (some rows)).rdf (['a', '/', 'b'] ++ rdfExt) = some rows ∧ rows.length = 200 ∧
    HighestBin (rows.map Prod.snd) 20 ∧ LowestBinFrom (rows.map Prod.snd) 20 21 ∧ rows[21]? = some (21, 1) := by
  let f : Nat → ℝ × ℝ := fun r => (r, if r = 20 then 3 else 1)
  have hget : ∀ r y, (((List.range 200).map f).map Prod.snd)[r]? = some y → y = if r = 20 then 3 else 1 := by
    intro r y h
    rw [List.map_map, List.getElem?_map] at h
    obtain ⟨r', h1, rfl⟩ := Option.map_eq_some_iff.1 h
    obtain ⟨h2, h3⟩ := List.getElem?_eq_some_iff.1 h1
    rw [List.getElem_range] at h3
    subst h3
    rfl
  have hget' : ∀ r < 200, (((List.range 200).map f).map Prod.snd)[r]? = some (if r = 20 then 3 else 1) := by
    intro r h
    rw [List.map_map, List.getElem?_map, List.getElem?_range h]
    rfl
  refine ⟨(List.range 200).map f, rfl, by rw [List.length_map, List.length_range], ⟨3, by rw [hget' 20 (by omega)]; rfl, ?_, ?_⟩,
    ⟨by omega, 1, by rw [hget' 21 (by omega)]; rfl, ?_, ?_⟩, ?_⟩
  · intro j y hy
    rw [hget j y hy]
    split <;> norm_num
  · intro j y hj hy
    rw [hget j y hy, if_neg (by omega)]
    norm_num
  · intro j y hj hy
    rw [hget j y hy]
    split <;> norm_num
  · intro j y hj hj' hy
    rw [hget j y hy, if_pos (by omega)]
    norm_num
  · rw [List.getElem?_map, List.getElem?_range (by omega)]
    norm_num [f]

/-- The hypotheses of `C147_bonds`. -/
example : Dat.ofDat (fun _ => 0) ((exFilmDisk none).nums ([] ++ '.' :: ['d'])) 1 = .ok exThreeParts ∧ exThreeParts.pos.length < 2 ^ 64 ∧
    NearerThan (![0, 0, 0] : Coord ℝ) ![1, 1, 1] (2 * 1) := by
  refine ⟨?_, by simp [exThreeParts, exThree], by norm_num, ?_⟩
  · simp [exFilmDisk, Dat.ofDat, exThreeParts, exThree, Dat.In.readNat, Dat.In.readCoord, Dat.In.readDbl, Dat.readAll]
  · simp [sqDist]
    norm_num

/-- The hypotheses of `C147_empty_frame_counterexample`: a film whose first frame, of two, is empty. -/
example : ∃ (disk : BondDisk) (frame : Nat → Particles ℝ), FilmOn (fun _ => some 1) (fun _ => 0) disk ['a', '/', 'b'] ['a', '/', 'b'] ['_', 't'] ['0'] []
    ['d'] 0 2 frame ∧ (frame 0).pos = [] ∧ (frame 1).pos = exThree ∧ disk.rdf (['a', '/', 'b'] ++ rdfExt) = none := by
  refine ⟨{ exFilmDisk none with nums := fun name =>
      if name = ['a', '/', 'b', '_', 't', '0', '.', 'd'] then some [.nat 1, .nat 0, .nat 1, .nat 9, .nat 9, .nat 9] else (exFilmDisk none).nums name },
    fun i => if i = 0 then { exThreeParts with pos := [] } else exThreeParts, ?_, rfl, rfl, rfl⟩
  refine { exFilmOn none with load := ?_, last := by simp [exThreeParts, exThree] }
  intro files i name hf hi hname
  have hload := (exFilmOn none).load files i name hf hi hname
  rw [show (['a', '/', 'b'] ++ ['_', 't'] ++ ['0'] ++ ([] ++ '.' :: ['d']) : List Char) = ['a', '/', 'b'] ++ ['_', 't'] ++ ['0'] ++ ['.', 'd'] from rfl,
    exLink_name.make 2 0] at hf
  cases hf
  unfold FileSerie.name at hname
  rw [render_pattern] at hname
  have hi' : i = 0 ∨ i = 1 := by omega
  rcases hi' with rfl | rfl
  · rw [show (['a', '/', 'b'] ++ ['_', 't'] ++ Files.pad ['0'].length (0 + 0) ++ ['.', 'd'] : List Char) = ['a', '/', 'b', '_', 't', '0', '.', 'd'] by
      decide +kernel] at hname
    cases hname
    refine ⟨?_, by simp⟩
    simp [Dat.ofDat, exThreeParts, Dat.In.readNat, Dat.In.readCoord, Dat.In.readDbl, Dat.readAll]
  · rw [show (['a', '/', 'b'] ++ ['_', 't'] ++ Files.pad ['0'].length (1 + 0) ++ ['.', 'd'] : List Char) = ['a', '/', 'b', '_', 't', '1', '.', 'd'] by
      decide +kernel] at hname
    cases hname
    dsimp only
    rw [if_neg (by decide), if_neg (by decide)]
    exact hload

/-! ## The program `bonds` -/

/-- C147. `bonds`, with a length in diameters of 2: one file is written, with the pairs of particles nearer than this length. -/
theorem C147_bonds {P : RParams ℝ} {H : Heur 3 ℝ} (hP : P.Valid) (hH : H.Valid P) (junk : Coord ℝ) {stem e : List Char} (he : '.' ∉ e) (length : ℝ)
    (fuel : Nat) {disk : BondDisk} {ps : Particles ℝ} (hd : Dat.ofDat junk (disk.nums (stem ++ '.' :: e)) 1 = .ok ps) (hsz : ps.pos.length < 2 ^ 64) :
    ∃ disk', bondsMain P H junk (stem ++ '.' :: e) (some length) fuel disk = .ok disk' ∧ disk'.nums = disk.nums ∧ disk'.rdf = disk.rdf ∧
      BondsFile ps.pos (2 * length) (disk'.text (stem ++ bondsExt)) ∧ ∀ name, name ≠ stem ++ bondsExt → disk'.text name = disk.text name := by
  obtain ⟨ix, k1, -, k2, -, k4⟩ := makeRTreeIndex_ok hP hH ps
  obtain ⟨ngbs, n1, n2, n3⟩ := neighbours_good hP hH (.make k1) length
  have hname : Files.replaceExt (stem ++ '.' :: e) bondsExt = stem ++ bondsExt := by
    simpa using Files.replaceExt_eq [] stem e bondsExt he
  refine ⟨{ disk with text := Function.update disk.text (stem ++ bondsExt) (some (writeBonds (ngb2bonds ngbs))) }, ?_, rfl, rfl, ?_, ?_⟩
  · unfold bondsMain
    rw [hd, ok_bind, k1, ok_bind]
    simp only [pure_eq_ok, ok_bind, bondsMaxLength, n1]
    rw [← hname]
    rfl
  · show BondsFile ps.pos (2 * length) (Function.update disk.text (stem ++ bondsExt) _ (stem ++ bondsExt))
    rw [Function.update_self]
    refine bondsFile_of (by rw [← k2]; exact n2) hsz (fun p q => ?_)
    rw [n3, k2, k4, (ofDat_fields hd).1, mul_one]
  · intro name hne
    exact Function.update_of_ne hne ..

/-- C147 does not hold for `bonds` without length: whatever the positions, if the program ends, the file it writes has no bonds. -/
theorem C147_bonds_counterexample {P : RParams ℝ} {H : Heur 3 ℝ} (hP : P.Valid) (hH : H.Valid P) (junk : Coord ℝ) {stem e : List Char} (he : '.' ∉ e)
    (fuel : Nat) {disk disk' : BondDisk} (hrun : bondsMain P H junk (stem ++ '.' :: e) none fuel disk = .ok disk') :
    loadBonds (disk'.text (stem ++ bondsExt)) = .ok [] := by
  have hname : Files.replaceExt (stem ++ '.' :: e) bondsExt = stem ++ bondsExt := by
    simpa using Files.replaceExt_eq [] stem e bondsExt he
  unfold bondsMain at hrun
  simp only [bind_ok, pure_eq_ok, Except.ok.injEq] at hrun
  obtain ⟨ps, -, ix, k1, g, -, l, hl, ngbs, hng, rfl⟩ := hrun
  have hl0 := C106_bonds_counterexample g fuel l hl
  subst hl0
  obtain ⟨ngbs', n1, n2, n3⟩ := neighbours_good hP hH (.make k1) 0
  rw [hng] at n1
  cases n1
  have hnil : ngb2bonds ngbs = [] := by
    rw [List.eq_nil_iff_forall_not_mem]
    intro b hb
    rw [mem_ngb2bonds n2.sorted, n3] at hb
    obtain ⟨-, -, x, y, -, -, h1, -⟩ := hb
    norm_num at h1
  show loadBonds (Function.update disk.text (Files.replaceExt (stem ++ '.' :: e) bondsExt) _ (stem ++ bondsExt)) = _
  rw [hname, Function.update_self, hnil]
  decide

end Mains
end Colloids
