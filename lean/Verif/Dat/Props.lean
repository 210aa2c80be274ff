import Verif.Dat.Model
import Verif.CommonLemmas
import Mathlib.Data.Fin.VecNotation
import Mathlib.Tactic.FinCases
import Mathlib.Algebra.Order.Ring.Rat
import Mathlib.Tactic.NormNum

/-! # Properties of the files of coordinates -/

namespace Colloids
namespace Dat
variable {G : Type} [NatCast G] [Zero G]

/-- A coordinate as it comes back from a text. -/
def roundCoord (round : G → G) (p : Coord G) : Coord G := fun a => round (p a)

omit [Zero G] in
theorem readCoord_print (round : G → G) (p q : Coord G) (l : List (Num G)) :
    (In.mk (printCoord round p ++ l) false).readCoord q = (roundCoord round p, ⟨l, false⟩) := by
  unfold In.readCoord printCoord
  simp only [List.cons_append, List.nil_append, In.readDbl, Bool.false_eq_true, if_false]
  congr 1
  funext a
  fin_cases a <;> rfl

theorem readAll_print (round : G → G) (ps : List (Coord G)) (l : List (Num G)) :
    readAll ps.length ⟨ps.flatMap (printCoord round) ++ l, false⟩
      = ps.map (roundCoord round) := by
  induction ps with
  | nil => rfl
  | cons p ps ih =>
    rw [List.length_cons, readAll, List.flatMap_cons, List.append_assoc, readCoord_print, ih]
    rfl

/-- **C40** (what holds): reading an exported file gives the same number of particles, the coordinates
and the upper edges of the box as the text represents them, and the radius given to the constructor. The
lower edges are not in the file: see `C40_box_counterexample`. -/
theorem C40_round_trip_partial (round : G → G) (junk : Coord G) (ps : Particles G) (r : G) :
    ∃ out, ofDat junk (some (exportToFile round ps)) r = .ok out
      ∧ out.pos.length = ps.pos.length
      ∧ (∀ (i : Nat) (x : Coord G), ps.pos[i]? = some x → ∃ y : Coord G, out.pos[i]? = some y ∧ ∀ a, y a = round (x a))
      ∧ (∀ a, out.bb.hi a = round (ps.bb.hi a)) ∧ (∀ a, out.bb.lo a = 0) ∧ out.radius = r := by
  have e : ofDat junk (some (exportToFile round ps)) r
      = .ok ⟨ps.pos.map (roundCoord round), ⟨fun _ => 0, roundCoord round ps.bb.hi⟩, r, none⟩ := by
    unfold ofDat exportToFile
    simp only [List.cons_append, List.nil_append, In.readNat, Bool.false_eq_true, if_false]
    rw [readCoord_print]
    have := readAll_print round ps.pos []
    rw [List.append_nil] at this
    rw [this]
  refine ⟨_, e, by simp, ?_, fun a => rfl, fun a => rfl, rfl⟩
  intro i x hx
  exact ⟨roundCoord round x, by simp [hx], fun a => rfl⟩

/-- **C40** (counterexample): a box that does not start at the origin changes size. -/
theorem C40_box_counterexample {G : Type} [Ring G] (round : G → G) (junk : Coord G) (ps : Particles G)
    (r : G) (a : Fin 3) (hr : round (ps.bb.hi a) = ps.bb.hi a) (hlo : ps.bb.lo a ≠ 0) :
    ∃ out, ofDat junk (some (exportToFile round ps)) r = .ok out
      ∧ out.bb.hi a - out.bb.lo a ≠ ps.bb.hi a - ps.bb.lo a := by
  obtain ⟨out, h1, -, -, h2, h3, -⟩ := C40_round_trip_partial round junk ps r
  refine ⟨out, h1, ?_⟩
  rw [h2, h3, hr]
  intro h
  apply hlo
  have h' := sub_right_injective h
  exact h'.symm

/-- Numbers at the end of which the stream reads nothing more. -/
theorem readAll_end (n : Nat) (s : In G) (h : s.fail = true ∨ s.rest = []) :
    readAll n s = List.replicate n (fun _ => 0) := by
  induction n generalizing s with
  | zero => rfl
  | succ n ih =>
    have hd : ∀ (s : In G) v, s.fail = true ∨ s.rest = [] →
        (s.readDbl v).1 = v ∧ ((s.readDbl v).2.fail = true ∨ (s.readDbl v).2.rest = []) := by
      intro s v h
      unfold In.readDbl
      rcases h with h | h
      · rw [if_pos h]; exact ⟨rfl, .inl h⟩
      · split
        · exact ⟨rfl, .inr h⟩
        · rw [h]; exact ⟨rfl, .inl rfl⟩
    have h1 := hd s (0 : G) h
    have h2 := hd _ (0 : G) h1.2
    have h3 := hd _ (0 : G) h2.2
    rw [readAll, List.replicate_succ]
    congr 1
    · unfold In.readCoord
      simp only
      rw [h1.1, h2.1, h3.1]
      funext a
      fin_cases a <;> rfl
    · exact ih _ h3.2

theorem readAll_append (round : G → G) (ps : List (Coord G)) (k : Nat) (s : List (Num G)) :
    readAll (ps.length + k) ⟨ps.flatMap (printCoord round) ++ s, false⟩
      = ps.map (roundCoord round) ++ readAll k ⟨s, false⟩ := by
  induction ps with
  | nil => simp
  | cons p ps ih =>
    have : (p :: ps).length + k = (ps.length + k) + 1 := by simp; omega
    rw [this, readAll, List.flatMap_cons, List.append_assoc, readCoord_print, ih]
    rfl

/-- **C40** (truncated file): a file announcing more particles than it contains is accepted. The missing
particles are all at the origin. -/
theorem C40_truncated (round : G → G) (junk : Coord G) (ps : List (Coord G)) (k : Nat) (hi : Coord G)
    (r : G) :
    ∃ out, ofDat junk (some ([.nat 1, .nat (ps.length + k), .nat 1] ++ printCoord round hi
        ++ ps.flatMap (printCoord round))) r = .ok out
      ∧ out.pos = ps.map (fun x a => round (x a)) ++ List.replicate k (fun _ => 0) := by
  refine ⟨⟨ps.map (roundCoord round) ++ List.replicate k (fun _ => 0),
    ⟨fun _ => 0, roundCoord round hi⟩, r, none⟩, ?_, rfl⟩
  unfold ofDat
  simp only [List.cons_append, List.nil_append, In.readNat, Bool.false_eq_true, if_false]
  rw [readCoord_print]
  have := readAll_append round ps k []
  rw [List.append_nil] at this
  rw [this, readAll_end k _ (.inr rfl)]

/-- **C40** (headerless files): the coordinates printed by the library are read back by the constructor
that is given the number of particles and the box. -/
theorem C40_grv (round : G → G) (ps : List (Coord G)) (b : Box 3 G) (r : G) :
    ∃ out, ofGrv ps.length b (some (ps.flatMap (printCoord round))) r = .ok out
      ∧ out.pos = ps.map (fun x a => round (x a)) ∧ out.bb = b ∧ out.radius = r := by
  refine ⟨⟨ps.map (roundCoord round), b, r, none⟩, ?_, rfl, rfl, rfl⟩
  unfold ofGrv
  simp only
  have := readAll_print round ps []
  rw [List.append_nil] at this
  rw [this]

/-- **C40** (missing file): no file, `invalid_argument`, and nothing else is refused. -/
theorem C40_missing (junk : Coord G) (file : Option (List (Num G))) (r : G) :
    (ofDat junk file r = .error .invalidArgument ↔ file = none)
    ∧ (file ≠ none → ∃ out, ofDat junk file r = .ok out) := by
  cases file with
  | none => simp [ofDat]
  | some l => simp [ofDat]

/-! ### Rotational invariants -/

/-- Value of a number. -/
def Num.val : Num G → G
  | .nat n => (n : G)
  | .dbl x => x

omit [Zero G] in
theorem copyFrom_eq (l : List (Num G)) (pre post mid : List G) (hm : mid.length = l.length) :
    copyFrom l pre.length (pre ++ mid ++ post) = .ok (pre ++ l.map Num.val ++ post) := by
  induction l generalizing pre mid with
  | nil =>
    have := List.eq_nil_of_length_eq_zero hm
    subst this
    rfl
  | cons x l ih =>
    cases mid with
    | nil => simp at hm
    | cons y mid =>
      have h1 : ∀ v : G, setR (pre ++ y :: mid ++ post) pre.length v
          = .ok ((pre ++ [v]) ++ mid ++ post) := by
        intro v
        unfold setR
        rw [if_pos (by simp)]
        simp
      have h2 := fun v : G => ih (pre ++ [v]) mid (by simpa using hm)
      simp only [List.length_append, List.length_singleton] at h2
      cases x with
      | nat n => rw [copyFrom, h1, ok_bind, h2]; simp [Num.val]
      | dbl z => rw [copyFrom, h1, ok_bind, h2]; simp [Num.val]

omit [Zero G] in
theorem copyFrom_ub (l : List (Num G)) (i : Nat) (qw : List G) (hi : i ≤ qw.length)
    (h : qw.length < i + l.length) : copyFrom l i qw = .error .ub := by
  induction l generalizing i qw with
  | nil => simp at h; omega
  | cons x l ih =>
    have hs : ∀ v : G, (setR qw i v >>= fun qw => copyFrom l (i + 1) qw) = .error .ub := by
      intro v
      unfold setR
      split
      · rw [ok_bind]
        apply ih
        · simp; omega
        · simp at h ⊢; omega
      · rfl
    cases x with
    | nat n => rw [copyFrom]; exact hs _
    | dbl z => rw [copyFrom]; exact hs _

/-- **C40** (rotational invariants): a file with at most 8 numbers per particle is copied in the array in
order, completed with zeros; with more numbers the copy goes past the end of the array. -/
theorem C40_loadBoo (n : Nat) (l : List (Num G)) :
    (l.length ≤ 8 * n → loadBoo n (some l)
      = .ok (l.map Num.val ++ List.replicate (8 * n - l.length) 0))
    ∧ (8 * n < l.length → loadBoo n (some l) = .error .ub) := by
  constructor
  · intro h
    have := copyFrom_eq l [] (List.replicate (8 * n - l.length) (0 : G))
      (List.replicate l.length 0) (by simp)
    simp only [List.length_nil, List.nil_append, List.replicate_append_replicate] at this
    rw [show l.length + (8 * n - l.length) = 8 * n by omega] at this
    exact this
  · intro h
    exact copyFrom_ub l 0 _ (by omega) (by simpa using h)

/-- The theorems apply to a set of two particles in a shifted box. -/
example : ∃ out, ofDat (fun _ => 7) (some (exportToFile (fun x : ℚ => x)
    ⟨[![1, 2, 3], ![4, 5, 6]], ⟨fun _ => 1, fun _ => 9⟩, 1, none⟩)) 2 = .ok out
      ∧ out.pos.length = 2 ∧ out.bb.hi 0 - out.bb.lo 0 ≠ 9 - 1 := by
  obtain ⟨out, h1, h2, -, h3, h4, -⟩ := C40_round_trip_partial (fun x : ℚ => x) (fun _ => 7)
    ⟨[![1, 2, 3], ![4, 5, 6]], ⟨fun _ => 1, fun _ => 9⟩, 1, none⟩ 2
  exact ⟨out, h1, h2, by rw [h3, h4]; norm_num⟩

end Dat
end Colloids
