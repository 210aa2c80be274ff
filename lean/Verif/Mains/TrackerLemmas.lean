import Verif.Mains.TrackerModel
import Verif.Tracker.IterProps
import Verif.Files.Props
import Verif.Dat.Props
import Mathlib.Data.List.Basic

/-! # Lemmas on the program `tracker` -/

namespace Colloids
namespace Mains

open Tracker (LifIter fillFrom trackerDims frame Follow Agree Room)
open Lif (Byte Serie)
open Files (FileSerie)

variable {G : Type} [Field G] [LinearOrder G] {I P : Type}

/-! ## Names -/

/-- The number of digits of the names of a series. -/
def trackWidth (size : Nat) : Nat := max (Files.dec (size - 1)).length 1

/-- The name of the file of a time step. -/
def stepName (path ext : List Char) (size t : Nat) : List Char := path ++ ['_', 't'] ++ Files.pad (trackWidth size) t ++ ext

/-- An extension that a series can have. -/
structure GoodExt (ext : List Char) : Prop where
  tail : ∃ c r, ext = c :: r ∧ Files.isDig c = false
  plain : '%' ∉ ext
  token : ¬ ['_', 't'] <:+: ext

theorem not_infix_of_head {ext : List Char} (h : '_' ∉ ext) : ¬ ['_', 't'] <:+: ext := by
  intro hi
  exact h (hi.subset (by simp))

theorem goodDat : GoodExt extDat := ⟨⟨'.', ['d', 'a', 't'], rfl, by decide⟩, by decide, not_infix_of_head (by decide)⟩
theorem goodInt : GoodExt extInt := ⟨⟨'.', _, rfl, by decide⟩, by decide, not_infix_of_head (by decide)⟩
theorem goodRad : GoodExt extRad := ⟨⟨'.', _, rfl, by decide⟩, by decide, not_infix_of_head (by decide)⟩

theorem trackerSerie_ok {path ext : List Char} (hp : '%' ∉ path) (he : GoodExt ext) (size : Nat) :
    ∃ f, trackerSerie path ext size = .ok f ∧ ∀ t, f.name t = .ok (stepName path ext size t) := by
  have hn : Files.Name path ['_', 't'] (List.replicate (trackWidth size) '0') ext := by
    refine ⟨Files.zeros_digits _, he.tail, ?_, hp, by decide, he.plain⟩
    have := Files.not_infix_zeros path ['_', 't'] ext (Files.dec (size - 1)).length (by decide) (by simp) he.token
    exact this
  refine ⟨_, hn.make size 0, fun t => ?_⟩
  · unfold FileSerie.name
    rw [Files.render_pattern]
    simp [stepName]

theorem stepName_inj {path ext : List Char} {size a b : Nat} (h : stepName path ext size a = stepName path ext size b) : a = b := by
  unfold stepName at h
  have h1 := List.append_cancel_right h
  have h2 := List.append_cancel_left h1
  have h3 := congrArg Files.value h2
  rwa [Files.value_pad, Files.value_pad] at h3

theorem last_append (a b : List Char) (hb : b ≠ []) : (a ++ b).getLast? = b.getLast? := by
  rw [List.getLast?_append]
  cases h : b.getLast? with
  | none => exact absurd (List.getLast?_eq_none_iff.1 h) hb
  | some x => rfl

theorem apart {a b ext ext' : List Char} (h : ext.getLast? ≠ ext'.getLast?) (h1 : ext ≠ []) (h2 : ext' ≠ []) : a ++ ext ≠ b ++ ext' := by
  intro he
  have := congrArg List.getLast? he
  rw [last_append a ext h1, last_append b ext' h2] at this
  exact h this

theorem dat_int (path : List Char) (size t u : Nat) : stepName path extDat size t ≠ stepName path extInt size u :=
  apart (by decide) (by decide) (by decide)

theorem dat_rad (path : List Char) (size t u : Nat) : stepName path extDat size t ≠ stepName path extRad size u :=
  apart (by decide) (by decide) (by decide)

theorem dat_nb (path : List Char) (size t : Nat) : stepName path extDat size t ≠ path ++ extNb :=
  apart (by decide) (by decide) (by decide)

theorem int_nb (path : List Char) (size t : Nat) : stepName path extInt size t ≠ path ++ extNb :=
  apart (by decide) (by decide) (by decide)

/-- The name of the file that tests the path. -/
def testName (path : List Char) : List Char := path ++ ['t', 'e', 's', 't', '.', 't', 'e', 's', 't']

theorem step_test (path ext : List Char) (size t : Nat) : stepName path ext size t ≠ testName path := by
  intro h
  unfold stepName testName at h
  rw [List.append_assoc, List.append_assoc] at h
  have := List.append_cancel_left h
  simp at this

theorem nb_test (path : List Char) : path ++ extNb ≠ testName path := by
  intro h
  have := List.append_cancel_left h
  simp [extNb] at this

/-! ## Disks after a loop -/

/-- The files after a time step. -/
def stepDisk (round : G → G) (path : List Char) (size : Nat) (int : Bool) (c : Nat → Particles G × List G) (disk : Disk G) (t : Nat) : Disk G :=
  let d1 : Disk G := if int then Function.update disk (stepName path extInt size t) (some ((c t).2.map fun x => .dbl (round x))) else disk
  let d2 := Function.update d1 (stepName path extDat size t) (some (Dat.exportToFile round (c t).1))
  Function.update d2 (path ++ extNb) (some ((d2 (path ++ extNb)).getD [] ++ [.nat (c t).1.pos.length]))

omit [Field G] [LinearOrder G] in
theorem exportStep_eq {path : List Char} {size : Nat} {dat int : FileSerie} (hd : ∀ t, dat.name t = .ok (stepName path extDat size t))
    (hi : ∀ t, int.name t = .ok (stepName path extInt size t)) (round : G → G) (asked : Bool) (c : Nat → Particles G × List G) (t : Nat)
    (disk : Disk G) :
    exportStep round dat (if asked then some int else none) (path ++ extNb) t t (c t) disk = (stepDisk round path size asked c disk t, .ok ()) := by
  unfold exportStep exportIntensities exportCenters stepDisk
  cases asked <;> simp [hd, hi]

/-- What the files are after the time steps of a list. -/
theorem stepDisk_fold (round : G → G) (path : List Char) (size : Nat) (int : Bool) (c : Nat → Particles G × List G) (l : List Nat) (hl : l.Nodup)
    (disk : Disk G) (old : List (Dat.Num G)) (hold : disk (path ++ extNb) = some old) :
    let out := l.foldl (stepDisk round path size int c) disk
    (∀ t ∈ l, out (stepName path extDat size t) = some (Dat.exportToFile round (c t).1))
      ∧ (int = true → ∀ t ∈ l, out (stepName path extInt size t) = some ((c t).2.map fun x => .dbl (round x)))
      ∧ out (path ++ extNb) = some (old ++ l.map fun t => .nat (c t).1.pos.length)
      ∧ ∀ name, (∀ t ∈ l, name ≠ stepName path extDat size t) → (int = true → ∀ t ∈ l, name ≠ stepName path extInt size t) →
        name ≠ path ++ extNb → out name = disk name := by
  induction l generalizing disk old with
  | nil => simp [hold]
  | cons a l ih =>
    have hnb : (stepDisk round path size int c disk a) (path ++ extNb) = some (old ++ [.nat (c a).1.pos.length]) := by
      unfold stepDisk
      cases int <;>
        simp [Function.update_of_ne (dat_nb path size a).symm, Function.update_of_ne (int_nb path size a).symm, hold]
    have ha : a ∉ l := (List.nodup_cons.1 hl).1
    obtain ⟨h1, h2, h3, h4⟩ := ih (List.nodup_cons.1 hl).2 (stepDisk round path size int c disk a) _ hnb
    have hdat : (stepDisk round path size int c disk a) (stepName path extDat size a) = some (Dat.exportToFile round (c a).1) := by
      unfold stepDisk
      rw [Function.update_of_ne (dat_nb path size a), Function.update_self]
    have hint : int = true → (stepDisk round path size int c disk a) (stepName path extInt size a)
        = some ((c a).2.map fun x => .dbl (round x)) := by
      intro hi
      unfold stepDisk
      simp only [hi, if_true]
      rw [Function.update_of_ne (int_nb path size a), Function.update_of_ne (dat_int path size a a).symm, Function.update_self]
    simp only [List.foldl_cons]
    refine ⟨?_, ?_, ?_, ?_⟩
    · intro t ht
      rcases List.mem_cons.1 ht with rfl | ht
      · rw [h4 _ (fun u hu he => ha ((stepName_inj he : t = u) ▸ hu)) (fun _ u _ => dat_int path size t u) (dat_nb path size t), hdat]
      · exact h1 t ht
    · intro hi t ht
      rcases List.mem_cons.1 ht with rfl | ht
      · rw [h4 _ (fun u _ => (dat_int path size u t).symm) (fun _ u hu he => ha ((stepName_inj he : t = u) ▸ hu)) (int_nb path size t), hint hi]
      · exact h2 hi t ht
    · rw [h3]; simp
    · intro name n1 n2 n3
      rw [h4 name (fun t ht => n1 t (List.mem_cons_of_mem _ ht)) (fun hi t ht => n2 hi t (List.mem_cons_of_mem _ ht)) n3]
      unfold stepDisk
      cases int
      · simp only [Bool.false_eq_true, if_false]
        rw [Function.update_of_ne n3, Function.update_of_ne (n1 a (by simp))]
      · simp only [if_true]
        rw [Function.update_of_ne n3, Function.update_of_ne (n1 a (by simp)), Function.update_of_ne (n2 rfl a (by simp))]

/-! ## The loops -/

theorem lifLoop_ok (conv : List Byte → I) (track : P → I → (Particles G × List G) × I) (empty : Particles G × List G) (round : G → G)
    {path : List Char} {dat int : FileSerie} {serie : Serie} {n : Nat} (hd : ∀ t, dat.name t = .ok (stepName path extDat serie.nbTimeSteps t))
    (hi : ∀ t, int.name t = .ok (stepName path extInt serie.nbTimeSteps t)) (asked : Bool)
    (hs : serie.Good n) (hn0 : 0 < n) (hroom : Room serie n) (p : P) (k : Nat) (s : LifIter I P (Particles G × List G)) (t : Nat)
    (hk : t + k = serie.nbTimeSteps) (h : Agree conv track empty serie n ⟨t, p, none⟩ s) (disk : Disk G) :
    lifLoop conv track empty round dat (if asked then some int else none) (path ++ extNb) k s t disk
      = ((List.range' t k).foldl (stepDisk round path serie.nbTimeSteps asked (fun t => (track p (conv (frame serie n n t))).1)) disk, .ok ()) := by
  induction k generalizing s t disk with
  | zero => rfl
  | succ k ih =>
    obtain ⟨s', e, h'⟩ := Tracker.deref_agree _ s h
    have ht : t < serie.nbTimeSteps := by omega
    have hc : Tracker.centersOf conv track empty serie n n (t, p) = (track p (conv (frame serie n n t))).1 := by
      unfold Tracker.centersOf
      rw [if_pos ht]
    have e' : s.deref track empty s.serie.nbTimeSteps = (s', (track p (conv (frame serie n n t))).1) := by
      rw [e]; exact congrArg _ hc
    have htime : s'.time = t := h'.time
    obtain ⟨s'', e2, h''⟩ := Tracker.next_agree hs hn0 hroom _ s' h' ht
    have hx := exportStep_eq hd hi round asked (fun t => (track p (conv (frame serie n n t))).1) t disk
    unfold lifLoop
    simp only [e', htime, hx, e2]
    rw [ih s'' (t + 1) (by omega) h'']
    rfl

omit [Field G] [LinearOrder G] in
theorem make_agree (conv : List Byte → I) (track : P → I → (Particles G × List G) × I) (empty : Particles G × List G) (serie : Serie) (n : Nat)
    (hs : serie.Good n) (hn : n = serie.spatialDimensions.prod) (hd : serie.spatialDimensions.length ≤ 3) (hnb : 0 < serie.nbTimeSteps)
    (junk : I) (p : P) :
    ∃ s : LifIter I P (Particles G × List G), LifIter.make conv serie junk p = .ok s ∧ Agree conv track empty serie n ⟨0, p, none⟩ s := by
  obtain ⟨d, hd1, -, hprod, -⟩ := Tracker.C104_dims serie.toHeader hd
  obtain ⟨s', e, h'⟩ := Tracker.seek_agree (conv := conv) (track := track) (empty := empty) hs ⟨0, p, none⟩
    (⟨serie, d.prod, junk, p, 0, none⟩ : LifIter I P _) rfl rfl rfl hs.ok (by rw [hprod, hn]) rfl 0 hnb
  refine ⟨s', ?_, h'⟩
  unfold LifIter.make
  rw [hd1, ok_bind, e]

theorem serieLoop_ok (load : Nat → R I) (track : P → I → (Particles G × List G) × I) (p : P) (round : G → G)
    {path : List Char} {dat int : FileSerie} {size : Nat} (hd : ∀ t, dat.name t = .ok (stepName path extDat size t))
    (hi : ∀ t, int.name t = .ok (stepName path extInt size t)) (asked : Bool) (img : Nat → I) (k : Nat) (t : Nat)
    (hl : ∀ u, t < u → u ≤ t + k → load u = .ok (img u)) (disk : Disk G) :
    serieLoop load track p round dat (if asked then some int else none) (path ++ extNb) k (img t) t disk
      = ((List.range' t k).foldl (stepDisk round path size asked (fun t => (track p (img t)).1)) disk, .ok ()) := by
  induction k generalizing t disk with
  | zero => rfl
  | succ k ih =>
    have hx := exportStep_eq hd hi round asked (fun t => (track p (img t)).1) t disk
    unfold serieLoop
    simp only [hx, hl (t + 1) (by omega) (by omega)]
    rw [ih (t + 1) (fun u h1 h2 => hl u (by omega) (by omega))]
    rfl

theorem serieLoop_end (load : Nat → R I) (track : P → I → (Particles G × List G) × I) (p : P) (round : G → G)
    {path : List Char} {dat int : FileSerie} {size : Nat} (hd : ∀ t, dat.name t = .ok (stepName path extDat size t))
    (hi : ∀ t, int.name t = .ok (stepName path extInt size t)) (asked : Bool) (img : Nat → I) (k : Nat) (t T : Nat) (ht : t < T)
    (hk : T ≤ t + k) (hl : ∀ u, t < u → u < T → load u = .ok (img u)) (e : Fault) (he : load T = .error e) (disk : Disk G) :
    serieLoop load track p round dat (if asked then some int else none) (path ++ extNb) k (img t) t disk
      = ((List.range' t (T - t)).foldl (stepDisk round path size asked (fun t => (track p (img t)).1)) disk, .error e) := by
  induction k generalizing t disk with
  | zero => omega
  | succ k ih =>
    have hx := exportStep_eq hd hi round asked (fun t => (track p (img t)).1) t disk
    unfold serieLoop
    obtain ⟨m, hm⟩ : ∃ m, T - t = m + 1 := ⟨T - t - 1, by omega⟩
    by_cases h1 : t + 1 = T
    · have : m = 0 := by omega
      subst this
      simp only [hx, h1, he, hm]
      rfl
    · simp only [hx, hl (t + 1) (by omega) (by omega)]
      rw [ih (t + 1) (by omega) (by omega) (fun u h1 h2 => hl u (by omega) h2), hm, show T - (t + 1) = m by omega]
      rfl

/-! ## Radii -/

/-- The files after the radii of a time step. -/
def radDisk (round : G → G) (path : List Char) (size : Nat) (r : Nat → List G) (disk : Disk G) (t : Nat) : Disk G :=
  Function.update disk (stepName path extRad size t) (some ((r t).map fun x => .dbl (round x)))

omit [Field G] [LinearOrder G] in
theorem radDisk_fold (round : G → G) (path : List Char) (size : Nat) (r : Nat → List G) (l : List Nat) (hl : l.Nodup) (disk : Disk G) :
    (∀ t ∈ l, l.foldl (radDisk round path size r) disk (stepName path extRad size t) = some ((r t).map fun x => .dbl (round x)))
      ∧ ∀ name, (∀ t ∈ l, name ≠ stepName path extRad size t) → l.foldl (radDisk round path size r) disk name = disk name := by
  induction l generalizing disk with
  | nil => simp
  | cons a l ih =>
    have ha : a ∉ l := (List.nodup_cons.1 hl).1
    obtain ⟨h1, h2⟩ := ih (List.nodup_cons.1 hl).2 (radDisk round path size r disk a)
    rw [List.foldl_cons]
    refine ⟨?_, ?_⟩
    · intro t ht
      rcases List.mem_cons.1 ht with rfl | ht
      · rw [h2 _ (fun u hu he => ha ((stepName_inj he : t = u) ▸ hu))]
        exact Function.update_self _ _ _
      · exact h1 t ht
    · intro name hname
      rw [h2 name fun t ht => hname t (List.mem_cons_of_mem _ ht)]
      exact Function.update_of_ne (hname a (by simp)) _ _

/-- The loop over the time steps: the files of radii, and `ub` at the last increment if there are not enough bytes for one more image. -/
theorem radiiLoop_run (conv : List Byte → I) (measure : I → List (Coord G) → R (List G)) (round : G → G) (junk : Coord G) (ratio : G)
    {path : List Char} {dat rad : FileSerie} {size : Nat} (hd : ∀ t, dat.name t = .ok (stepName path extDat size t))
    (hr : ∀ t, rad.name t = .ok (stepName path extRad size t)) (n off : Nat) (hn0 : 0 < n) (B : List Byte) (hB : off + n * size ≤ B.length)
    (cs : Nat → List (Coord G)) (r : Nat → List G)
    (hm : ∀ u, u < size → measure (conv ((B.drop (off + n * u)).take n)) (cs u) = .ok (r u))
    (k : Nat) (hk0 : 0 < k) (t : Nat) (hk : t + k = size) (f : Lif.IFile) (hfb : f.bytes = B) (hfp : f.pos = off + n * (t + 1)) (disk : Disk G)
    (hc : ∀ u, u < size → radiiCenters junk ratio (disk (stepName path extDat size u)) = .ok (cs u)) :
    radiiLoop conv measure round junk ratio dat rad n size k f (conv ((B.drop (off + n * t)).take n)) (cs t) t disk
      = ((List.range' t k).foldl (radDisk round path size r) disk,
          if off + n * (size + 1) ≤ B.length then .ok () else .error .ub) := by
  induction k generalizing t f disk with
  | zero => omega
  | succ k ih =>
    have hc' : ∀ u, u < size → radiiCenters junk ratio (radDisk round path size r disk t (stepName path extDat size u)) = .ok (cs u) := by
      intro u hu
      unfold radDisk
      rw [Function.update_of_ne (dat_rad path size u t)]
      exact hc u hu
    have e1 : n * (t + 1 + 1) = n * (t + 1) + n := Nat.mul_succ _ _
    unfold radiiLoop
    simp only [hm t (by omega), hr, ok_bind, pure_eq_ok]
    by_cases hk1 : k = 0
    · subst hk1
      have ht : t + 1 = size := by omega
      have hlt : ¬ t + 1 < size := by omega
      by_cases hroom : off + n * (size + 1) ≤ B.length
      · have := Tracker.fillFrom_inside n conv f (by rw [hfp, hfb]; rw [← ht] at hroom; omega)
        simp only [this, ok_bind, if_pos hroom, if_neg hlt]
        rfl
      · have : fillFrom n conv f = .error .ub := by
          unfold fillFrom
          rw [if_neg (by rw [hfp, hfb]; rw [← ht] at hroom; omega)]
        simp only [this, error_bind, if_neg hroom]
        rfl
    · have hle : off + n * (t + 1) + n ≤ B.length := by
        have : n * (t + 1 + 1) ≤ n * size := Nat.mul_le_mul_left _ (by omega)
        omega
      have := Tracker.fillFrom_inside n conv f (by rw [hfp, hfb]; exact hle)
      have h2 := hc' (t + 1) (by omega)
      unfold radDisk at h2
      simp only [this, ok_bind, hd, h2, if_pos (show t + 1 < size by omega)]
      have h3 := ih (by omega) (t + 1) (by omega) { f with pos := f.pos + n } hfb (by simp only [hfp]; omega)
        (radDisk round path size r disk t) hc'
      rw [hfb, hfp]
      rw [hfb, hfp] at h3
      exact h3

end Mains
end Colloids
