import Verif.Vtk.Reader
import Verif.Traj.IOLemmas
import Verif.Bonds.Lemmas

/-! # C117: the VTK file of an export reads back as the particles, the bonds and the fields -/

namespace Colloids
namespace Vtk

variable {G : Type}

/-- A word: not empty and without spaces. -/
def Word (w : List Char) : Prop := w ≠ [] ∧ ∀ c ∈ w, isSpace c = false

/-- Text made of given words. -/
def Reads (text : List Char) (ws : List (List Char)) : Prop :=
  ∀ rest, words [] (text ++ rest) = ws ++ words [] rest

theorem words_run (w : List Char) (hw : ∀ c ∈ w, isSpace c = false) (sep : Char) (hs : isSpace sep = true)
    (rest : List Char) : ∀ cur, cur ++ w ≠ [] → words cur (w ++ sep :: rest) = (cur ++ w) :: words [] rest := by
  induction w with
  | nil =>
    intro cur hne
    rw [List.append_nil] at hne
    rw [List.nil_append, words, if_pos hs, if_neg hne, List.append_nil]
  | cons c w ih =>
    intro cur _
    rw [List.cons_append, words, if_neg (by rw [hw c (by simp)]; simp),
      ih (fun x hx => hw x (by simp [hx])) _ (by simp)]
    simp

theorem reads_word {w : List Char} (hw : Word w) {sep : Char} (hs : isSpace sep = true) :
    Reads (w ++ [sep]) [w] := by
  intro rest
  have := words_run w hw.2 sep hs rest [] (by simpa using hw.1)
  simpa using this

theorem reads_nil : Reads [] [] := fun _ => by simp

theorem reads_append {a b : List Char} {u v : List (List Char)} (ha : Reads a u) (hb : Reads b v) :
    Reads (a ++ b) (u ++ v) := by
  intro rest
  rw [List.append_assoc, ha, hb, List.append_assoc]

theorem reads_space {sep : Char} (hs : isSpace sep = true) : Reads [sep] [] := by
  intro rest
  simp [words, hs]

theorem reads_flatten {α : Type} (l : List α) (f : α → List Char) (g : α → List (List Char))
    (h : ∀ x ∈ l, Reads (f x) (g x)) : Reads (l.map f).flatten (l.map g).flatten := by
  induction l with
  | nil => exact reads_nil
  | cons x l ih =>
    simpa using reads_append (h x (by simp)) (ih fun y hy => h y (by simp [hy]))

theorem word_nat (n : Nat) : Word (showNat n) :=
  ⟨showNat_ne_nil n, fun _ hc => digit_not_space (showNat_digit hc)⟩

theorem natOf_show (n : Nat) : natOf (showNat n) = some n := by
  unfold natOf
  rw [if_pos ⟨showNat_ne_nil n, List.all_eq_true.2 fun c hc => showNat_digit hc⟩]
  exact congrArg some Nat.ofDigitChars_ten_toDigits

theorem sp : isSpace ' ' = true := by decide
theorem nl : isSpace '\n' = true := by decide

theorem word_dec (w : List Char) (h : w ≠ [] ∧ w.all (fun c => !isSpace c) = true) : Word w :=
  ⟨h.1, fun c hc => by simpa using List.all_eq_true.1 h.2 c hc⟩

/-- What a program writes for a number is a word that reads back as the number, up to rounding. -/
structure Printer (G : Type) where
  print : G → List Char
  scan : List Char → Option G
  round : G → G
  word : ∀ x, Word (print x)
  back : ∀ x, scan (print x) = some (round x)

variable (P : Printer G)

/-- The words of a point. -/
def coordWords (v : Coord G) : List (List Char) := [P.print (v 0), P.print (v 1), P.print (v 2)]

theorem reads_coord (v : Coord G) : Reads (coordText P.print v) (coordWords P v) := by
  have := reads_append (reads_append (reads_append (reads_word (P.word (v 0)) sp) (reads_word (P.word (v 1)) sp))
    (reads_word (P.word (v 2)) sp)) (reads_space nl)
  simpa [coordText, coordWords] using this

/-- A point as it reads back. -/
def rounded (v : Coord G) : G × G × G := (P.round (v 0), P.round (v 1), P.round (v 2))

theorem triples_back (l : List (Coord G)) (ws : List (List Char)) :
    triples P.scan l.length ((l.map (coordWords P)).flatten ++ ws) = some (l.map (rounded P), ws) := by
  induction l with
  | nil => simp [triples]
  | cons v l ih =>
    simp only [List.length_cons, List.map_cons, List.flatten_cons, coordWords, List.cons_append, List.nil_append,
      triples, P.back]
    rw [ih]
    simp [rounded]

theorem numbers_back (l : List G) (ws : List (List Char)) :
    numbers P.scan l.length (l.map P.print ++ ws) = some (l.map P.round, ws) := by
  induction l with
  | nil => simp [numbers]
  | cons v l ih => simp [numbers, P.back, ih]

/-- The words of a bond. -/
def bondWords (b : Bond) : List (List Char) := [['2'], showNat b.low, showNat b.high]

theorem reads_bond (b : Bond) : Reads (['2', ' '] ++ b.write ++ ['\n']) (bondWords b) := by
  have := reads_append (reads_append (reads_word (word_dec ['2'] (by decide)) sp) (reads_word (word_nat b.low) sp))
    (reads_word (word_nat b.high) nl)
  simpa [Bond.write, bondWords] using this

theorem segments_back (l : List Bond) (ws : List (List Char)) :
    segments l.length ((l.map bondWords).flatten ++ ws) = some (l.map fun b => (b.low, b.high), ws) := by
  have h2 : natOf ['2'] = some 2 := natOf_show 2
  induction l with
  | nil => simp [segments]
  | cons b l ih =>
    simp only [List.length_cons, List.map_cons, List.flatten_cons, bondWords, List.cons_append, List.nil_append,
      segments, h2, natOf_show]
    rw [ih]
    simp

/-- The words of the fields. -/
def scalarsWords (s : Scalars G) : List (List Char) :=
  [kwScalars, s.name, kwDouble, kwLookup, kwDefault] ++ s.values.map P.print

def vectorsWords (v : Vectors G) : List (List Char) :=
  [kwVectors, v.name, kwDouble] ++ (v.values.map (coordWords P)).flatten

theorem reads_numbers (l : List G) :
    Reads (l.map fun x => P.print x ++ ['\n']).flatten (l.map P.print) := by
  have := reads_flatten l (fun x => P.print x ++ ['\n']) (fun x => [P.print x]) fun x _ => reads_word (P.word x) nl
  have e : (l.map fun x => [P.print x]).flatten = l.map P.print := by
    clear this
    induction l with
    | nil => rfl
    | cons x l ih => simp [ih]
  rwa [e] at this

theorem reads_scalars {s : Scalars G} {ns : List (List Char)} (hn : Reads (s.name ++ [' ']) ns) :
    Reads (scalarsText P.print s)
      ([kwScalars] ++ ns ++ [kwDouble, kwLookup, kwDefault] ++ s.values.map P.print) := by
  have := reads_append (reads_append (reads_append (reads_append (reads_append
    (reads_word (word_dec kwScalars (by decide)) sp) hn)
    (reads_word (word_dec kwDouble (by decide)) nl)) (reads_word (word_dec kwLookup (by decide)) sp))
    (reads_word (word_dec kwDefault (by decide)) nl)) (reads_numbers P s.values)
  simpa [scalarsText] using this

theorem reads_vectors {v : Vectors G} (hn : Word v.name) :
    Reads (vectorsText P.print v) (vectorsWords P v) := by
  have := reads_append (reads_append (reads_append
    (reads_word (word_dec kwVectors (by decide)) sp) (reads_word hn sp))
    (reads_word (word_dec kwDouble (by decide)) nl))
    (reads_flatten v.values _ _ fun x _ => reads_coord P x)
  simpa [vectorsText, vectorsWords] using this

/-- The words before the data. -/
def headWords (pos : List (Coord G)) (bonds : List Bond) : List (List Char) :=
  [kwAscii, kwDataset, kwPolydata, kwPoints, showNat pos.length, kwDouble] ++ (pos.map (coordWords P)).flatten ++
    ([kwLines, showNat bonds.length, showNat (bonds.length * 3)] ++ (bonds.map bondWords).flatten) ++
    [kwPointData, showNat pos.length]

/-- The text before the data, after the title. -/
def headText (pos : List (Coord G)) (bonds : List Bond) : List Char :=
  (kwAscii ++ ['\n']) ++ (kwDataset ++ [' ']) ++ (kwPolydata ++ ['\n']) ++ (kwPoints ++ [' ']) ++
    (showNat pos.length ++ [' ']) ++ (kwDouble ++ ['\n']) ++ (pos.map (coordText P.print)).flatten ++
    bondsToVTK bonds ++ ((kwPointData ++ [' ']) ++ (showNat pos.length ++ ['\n']))

theorem reads_bonds (bonds : List Bond) : Reads (bondsToVTK bonds)
    ([kwLines, showNat bonds.length, showNat (bonds.length * 3)] ++ (bonds.map bondWords).flatten) := by
  have := reads_append (reads_append (reads_append
    (reads_word (word_dec kwLines (by decide)) sp) (reads_word (word_nat bonds.length) sp))
    (reads_word (word_nat (bonds.length * 3)) nl))
    (reads_flatten bonds _ _ fun x _ => reads_bond x)
  have e : "LINES ".toList = kwLines ++ [' '] := by decide +kernel
  unfold bondsToVTK
  rw [e]
  simpa only [List.append_assoc, List.cons_append, List.nil_append] using this

theorem reads_head (pos : List (Coord G)) (bonds : List Bond) :
    Reads (headText P pos bonds) (headWords P pos bonds) := by
  have := reads_append (reads_append (reads_append (reads_append (reads_append (reads_append (reads_append (reads_append
    (reads_word (word_dec kwAscii (by decide)) nl) (reads_word (word_dec kwDataset (by decide)) sp))
    (reads_word (word_dec kwPolydata (by decide)) nl)) (reads_word (word_dec kwPoints (by decide)) sp))
    (reads_word (word_nat pos.length) sp)) (reads_word (word_dec kwDouble (by decide)) nl))
    (reads_flatten pos _ _ fun x _ => reads_coord P x)) (reads_bonds bonds))
    (reads_append (reads_word (word_dec kwPointData (by decide)) sp) (reads_word (word_nat pos.length) nl))
  simpa [headText, headWords] using this

theorem body_head (title : List Char) (pos : List (Coord G)) (bonds : List Bond) (ws : List (List Char)) :
    body P.scan title (headWords P pos bonds ++ ws) =
      (allData P.scan pos.length ws.length ws).map fun d =>
        { title := title, points := pos.map (rounded P), lines := bonds.map fun b => (b.low, b.high), data := d } := by
  have e : headWords P pos bonds ++ ws = kwAscii :: kwDataset :: kwPolydata :: kwPoints :: showNat pos.length ::
      kwDouble :: ((pos.map (coordWords P)).flatten ++ (kwLines :: showNat bonds.length ::
        showNat (bonds.length * 3) :: ((bonds.map bondWords).flatten ++ (kwPointData :: showNat pos.length :: ws)))) := by
    simp [headWords]
  rw [e]
  simp only [body, and_self, if_true, natOf_show, Option.bind_eq_bind, Option.bind_some, triples_back,
    segments_back, Nat.mul_comm bonds.length 3]
  cases allData P.scan pos.length ws.length ws <;> simp

theorem dropWhile_line (a r : List Char) (h : ∀ c ∈ a, c ≠ '\n') :
    (a ++ '\n' :: r).takeWhile (· ≠ '\n') = a ∧ ((a ++ '\n' :: r).dropWhile (· ≠ '\n')).drop 1 = r := by
  induction a with
  | nil => simp
  | cons c a ih =>
    have := h c (by simp)
    have ih := ih fun x hx => h x (by simp [hx])
    simp only [List.cons_append]
    rw [List.takeWhile_cons_of_pos (by simpa using this), List.dropWhile_cons_of_pos (by simpa using this)]
    exact ⟨by rw [ih.1], ih.2⟩

theorem version_line : ∀ c ∈ version, c ≠ '\n' := by
  have : version.all (fun c => c != '\n') = true := by decide +kernel
  intro c hc
  simpa using List.all_eq_true.1 this c hc

/-- Reading an export. -/
theorem read_export (pos : List (Coord G)) (bonds : List Bond) (scalars : List (Scalars G))
    (vectors : List (Vectors G)) (dataName : List Char) (hd : ∀ c ∈ dataName, c ≠ '\n') (ws : List (List Char))
    (hf : Reads ((scalars.map (scalarsText P.print)).flatten ++ (vectors.map (vectorsText P.print)).flatten) ws) :
    read P.scan (exportToVTK P.print pos bonds scalars vectors dataName) =
      (allData P.scan pos.length ws.length ws).map fun d =>
        { title := dataName, points := pos.map (rounded P), lines := bonds.map fun b => (b.low, b.high),
          data := d } := by
  have e : exportToVTK P.print pos bonds scalars vectors dataName =
      version ++ '\n' :: (dataName ++ '\n' :: (headText P pos bonds ++
        ((scalars.map (scalarsText P.print)).flatten ++ (vectors.map (vectorsText P.print)).flatten))) := by
    simp [exportToVTK, pointsText, headText]
  have hw := reads_append (reads_head P pos bonds) hf []
  simp only [List.append_nil, words, if_true] at hw
  unfold read
  simp only [e, (dropWhile_line _ _ version_line).1, (dropWhile_line _ _ version_line).2, (dropWhile_line _ _ hd).1,
    (dropWhile_line _ _ hd).2, if_true, hw]
  exact body_head P dataName pos bonds ws

/-- The fields as data. -/
def expected (scalars : List (Scalars G)) (vectors : List (Vectors G)) : List (Data G) :=
  (scalars.map fun s => Data.scalars s.name (s.values.map P.round)) ++
    vectors.map fun v => Data.vectors v.name (v.values.map (rounded P))

theorem allData_scalar (scan : List Char → Option G) (n fuel : Nat) (name : List Char) (ws : List (List Char)) :
    allData scan n (fuel + 1) (kwScalars :: name :: kwDouble :: kwLookup :: kwDefault :: ws) =
      (numbers scan n ws).bind fun v => (allData scan n fuel v.2).map fun r => .scalars name v.1 :: r := by
  rw [allData.eq_def]
  simp only [ne_eq, not_true_eq_false, if_false, and_self, if_true, Option.bind_eq_bind]
  congr 1
  funext v
  cases allData scan n fuel v.2 <;> rfl

theorem allData_vector (scan : List Char → Option G) (n fuel : Nat) (name : List Char) (ws : List (List Char)) :
    allData scan n (fuel + 1) (kwVectors :: name :: kwDouble :: ws) =
      (triples scan n ws).bind fun v => (allData scan n fuel v.2).map fun r => .vectors name v.1 :: r := by
  have hne : kwVectors ≠ kwScalars := by decide
  rw [allData.eq_def]
  simp only [ne_eq, not_true_eq_false, if_false, hne, if_true, Option.bind_eq_bind]
  congr 1
  funext v
  cases allData scan n fuel v.2 <;> rfl

theorem allData_vectors (n : Nat) (vectors : List (Vectors G)) (h : ∀ v ∈ vectors, v.values.length = n) :
    ∀ fuel, vectors.length ≤ fuel → allData P.scan n fuel (vectors.map (vectorsWords P)).flatten =
      some (vectors.map fun v => Data.vectors v.name (v.values.map (rounded P))) := by
  induction vectors with
  | nil => intro fuel _; simp [allData]
  | cons v vs ih =>
    intro fuel hf
    obtain ⟨fuel, rfl⟩ : ∃ k, fuel = k + 1 := ⟨fuel - 1, by simp at hf; omega⟩
    have ih := ih (fun w hw => h w (by simp [hw])) fuel (by simpa using hf)
    have hv := h v (by simp)
    have t := triples_back P v.values (vs.map (vectorsWords P)).flatten
    rw [hv] at t
    simp only [List.map_cons, List.flatten_cons, vectorsWords, List.cons_append, List.nil_append] at t ih ⊢
    rw [allData_vector, t, Option.bind_some]
    simp only
    rw [ih]
    simp

theorem allData_all (n : Nat) (scalars : List (Scalars G)) (vectors : List (Vectors G))
    (hs : ∀ s ∈ scalars, s.values.length = n) (hv : ∀ v ∈ vectors, v.values.length = n) :
    ∀ fuel, scalars.length + vectors.length ≤ fuel →
      allData P.scan n fuel ((scalars.map (scalarsWords P)).flatten ++ (vectors.map (vectorsWords P)).flatten) =
        some (expected P scalars vectors) := by
  induction scalars with
  | nil =>
    intro fuel hf
    simpa [expected] using allData_vectors P n vectors hv fuel (by simpa using hf)
  | cons s ss ih =>
    intro fuel hf
    obtain ⟨fuel, rfl⟩ : ∃ k, fuel = k + 1 := ⟨fuel - 1, by simp at hf; omega⟩
    have ih := ih (fun w hw => hs w (by simp [hw])) fuel (by simp at hf; omega)
    have hv := hs s (by simp)
    have t := numbers_back P s.values ((ss.map (scalarsWords P)).flatten ++ (vectors.map (vectorsWords P)).flatten)
    rw [hv] at t
    simp only [List.map_cons, List.flatten_cons, scalarsWords, List.cons_append, List.nil_append,
      List.append_assoc] at t ih ⊢
    rw [allData_scalar, t, Option.bind_some]
    simp only
    rw [ih]
    simp [expected]

theorem length_le_flatten {α : Type} (l : List α) (g : α → List (List Char)) (h : ∀ x ∈ l, 1 ≤ (g x).length) :
    l.length ≤ (l.map g).flatten.length := by
  induction l with
  | nil => simp
  | cons x l ih =>
    have := ih fun y hy => h y (by simp [hy])
    have := h x (by simp)
    simp only [List.map_cons, List.flatten_cons, List.length_append, List.length_cons]
    omega

/-- **C117**: a reader of the VTK format finds in the exported file the title, the positions in order, each bond once
as a line of two points in the order of the set, and every field with its name and one value per particle in order, up
to the rounding of the numbers; when the title has no newline, the names are words and the fields have one value per
particle. -/
theorem C117_vtk_partial (pos : List (Coord G)) (bonds : List Bond) (scalars : List (Scalars G))
    (vectors : List (Vectors G)) (dataName : List Char) (hd : ∀ c ∈ dataName, c ≠ '\n')
    (hs : ∀ s ∈ scalars, Word s.name ∧ s.values.length = pos.length)
    (hv : ∀ v ∈ vectors, Word v.name ∧ v.values.length = pos.length) :
    read P.scan (exportToVTK P.print pos bonds scalars vectors dataName) =
      some { title := dataName
             points := pos.map fun v => (P.round (v 0), P.round (v 1), P.round (v 2))
             lines := bonds.map fun b => (b.low, b.high)
             data := (scalars.map fun s => Data.scalars s.name (s.values.map P.round)) ++
               vectors.map fun v => Data.vectors v.name
                 (v.values.map fun u => (P.round (u 0), P.round (u 1), P.round (u 2))) } := by
  have h1 := reads_flatten scalars (scalarsText P.print) (scalarsWords P) fun s h => by
    simpa [scalarsWords] using reads_scalars P (reads_word (hs s h).1 sp)
  have h2 := reads_flatten vectors (vectorsText P.print) (vectorsWords P) fun v h => reads_vectors P (hv v h).1
  rw [read_export P pos bonds scalars vectors dataName hd _ (reads_append h1 h2),
    allData_all P pos.length scalars vectors (fun s h => (hs s h).2) (fun v h => (hv v h).2)]
  · rfl
  · have a := length_le_flatten scalars (scalarsWords P) fun s _ => by simp [scalarsWords]
    have b := length_le_flatten vectors (vectorsWords P) fun s _ => by simp [vectorsWords]
    rw [List.length_append]
    omega

/-- **C117**, counterexample: if the name of the first field is made of two words (as names with a space are), the file
cannot be read. -/
theorem C117_name_counterexample (pos : List (Coord G)) (bonds : List Bond) (s : Scalars G) (dataName : List Char)
    (hd : ∀ c ∈ dataName, c ≠ '\n') (a b : List Char) (ha : Word a) (hb : Word b) (hne : b ≠ kwDouble)
    (hs : s.name = a ++ ' ' :: b) :
    read P.scan (exportToVTK P.print pos bonds [s] [] dataName) = none := by
  have hr : Reads (s.name ++ [' ']) [a, b] := by
    rw [hs]
    simpa using reads_append (reads_word ha sp) (reads_word hb sp)
  have := reads_scalars P hr
  rw [read_export P pos bonds [s] [] dataName hd _ (by simpa using this)]
  simp [allData, hne]

/-- **C117**, counterexample: if a scalar field has more values than there are particles, the file cannot be read.
The numbers are not taken for keywords. -/
theorem C117_size_counterexample (pos : List (Coord G)) (bonds : List Bond) (s : Scalars G) (dataName : List Char)
    (hd : ∀ c ∈ dataName, c ≠ '\n') (hs : Word s.name) (hl : pos.length < s.values.length)
    (hk : ∀ x, P.print x ≠ kwScalars ∧ P.print x ≠ kwVectors) :
    read P.scan (exportToVTK P.print pos bonds [s] [] dataName) = none := by
  have := reads_scalars P (reads_word hs sp)
  rw [read_export P pos bonds [s] [] dataName hd _ (by simpa using this)]
  have hsplit : s.values.map P.print = (s.values.take pos.length).map P.print ++
      (s.values.drop pos.length).map P.print := by rw [← List.map_append, List.take_append_drop]
  have t := numbers_back P (s.values.take pos.length) ((s.values.drop pos.length).map P.print)
  rw [List.length_take, Nat.min_eq_left (by omega)] at t
  obtain ⟨x, l, hx⟩ : ∃ x l, s.values.drop pos.length = x :: l := by
    cases h : s.values.drop pos.length with
    | nil => exact absurd (List.drop_eq_nil_iff.1 h) (by omega)
    | cons x l => exact ⟨x, l, rfl⟩
  rw [hx] at t hsplit
  rw [hsplit]
  simp only [List.length_cons]
  rw [allData_scalar, t, Option.bind_some]
  simp only [List.map_cons]
  have : ∀ fuel (r : List (List Char)), allData P.scan pos.length (fuel + 1) (P.print x :: r) = none := by
    intro fuel r
    rcases r with _ | ⟨y, _ | ⟨z, r⟩⟩
    · rfl
    · rfl
    · rw [allData.eq_def]
      simp [(hk x).1, (hk x).2]
  rw [this]
  simp

/-- **C117**: the overloads without bonds write the bonds of the neighbour list, and need one. -/
theorem C117_neighbours (pos : List (Coord G)) (ngb : Option NgbList) (scalars : List (Scalars G))
    (vectors : List (Vectors G)) (dataName : List Char) (hd : ∀ c ∈ dataName, c ≠ '\n')
    (hs : ∀ s ∈ scalars, Word s.name ∧ s.values.length = pos.length)
    (hv : ∀ v ∈ vectors, Word v.name ∧ v.values.length = pos.length) :
    (ngb = none → exportToVTKNoBonds P.print pos ngb scalars vectors dataName = .error .ub) ∧
    ∀ ngbs, ngb = some ngbs → ∃ text contents,
      exportToVTKNoBonds P.print pos ngb scalars vectors dataName = .ok text ∧
      read P.scan text = some contents ∧
      contents.lines = (ngb2bonds ngbs).map fun b => (b.low, b.high) := by
  refine ⟨fun h => by subst h; rfl, fun ngbs h => ?_⟩
  subst h
  exact ⟨_, _, rfl, C117_vtk_partial P pos _ scalars vectors dataName hd hs hv, rfl⟩

/-- Numbers written as naturals. -/
def natPrinter : Printer Nat where
  print := showNat
  scan := natOf
  round := id
  word := word_nat
  back := natOf_show

example : (∀ c ∈ ['a', ' ', 't'], c ≠ '\n') ∧
    (∀ s ∈ [({ name := ['Q', '6'], values := [10, 25] } : Scalars Nat)], Word s.name ∧ s.values.length = 2) ∧
    (∀ v ∈ [({ name := ['V'], values := [fun _ => 3, fun i => i.val + 67] } : Vectors Nat)],
      Word v.name ∧ v.values.length = 2) := by
  refine ⟨by decide, ?_, ?_⟩
  · simp only [List.mem_singleton, forall_eq]
    exact ⟨word_dec _ (by decide), rfl⟩
  · simp only [List.mem_singleton, forall_eq]
    exact ⟨word_dec _ (by decide), rfl⟩

example : Word ['Q', '6'] ∧ Word ['c', 'g'] ∧ ['c', 'g'] ≠ kwDouble :=
  ⟨word_dec _ (by decide), word_dec _ (by decide), by decide⟩

example : ∀ x, natPrinter.print x ≠ kwScalars ∧ natPrinter.print x ≠ kwVectors := by
  have h : ∀ (x : Nat) (k : List Char), k.all Char.isDigit = false → showNat x ≠ k := by
    intro x k hk he
    rw [← he, List.all_eq_false] at hk
    obtain ⟨c, hc, hd⟩ := hk
    exact hd (showNat_digit hc)
  exact fun x => ⟨h x _ (by decide), h x _ (by decide)⟩

end Vtk
end Colloids
