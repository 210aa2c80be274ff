import Verif.Common
import Mathlib.Data.Complex.Basic
import Mathlib.Analysis.Real.Sqrt
import Mathlib.Data.Nat.Factorial.Basic
import Mathlib.Analysis.SpecialFunctions.Trigonometric.Basic

/-! # Bond orientational order coefficients: lib/boo_data.{hpp,cpp}

Double precision arithmetic is replaced by exact real and complex arithmetic. The tests
`1.0 + x != 1.0` are modelled by `x ≠ 0`. -/

namespace Colloids

/-- Checked access with a signed index: negative indices are out of range. -/
def getI (l : List α) (i : Int) : R α := if 0 ≤ i then getR l i.toNat else .error .ub

/-- The contents of a `BooData`, a `valarray<complex<double> >` of 36 elements,
lib/boo_data.hpp:51-61. The length is not part of the type, because lib/boo_data.cpp:307
builds a `BooData` of 16 elements. -/
abbrev BooData := List ℂ

namespace Boo

/-- Default constructor, lib/boo_data.hpp:61. -/
noncomputable def blank : BooData := List.replicate 36 0

/-- `BooData::i2l`, lib/boo_data.cpp:86-91. -/
def i2l : List Nat := [0,
  2, 2, 2,
  4, 4, 4, 4, 4,
  6, 6, 6, 6, 6, 6, 6,
  8, 8, 8, 8, 8, 8, 8, 8, 8,
  10, 10, 10, 10, 10, 10, 10, 10, 10, 10, 10]

/-- `BooData::i2m`, lib/boo_data.cpp:92-97. -/
def i2m : List Nat := [0,
  0, 1, 2,
  0, 1, 2, 3, 4,
  0, 1, 2, 3, 4, 5, 6,
  0, 1, 2, 3, 4, 5, 6, 7, 8,
  0, 1, 2, 3, 4, 5, 6, 7, 8, 9, 10]

/-- The index used to store the coefficient `(l,m)`, `m ≥ 0`: `m + l*l/4`, lib/boo_data.cpp:155. -/
def slot (l m : Nat) : Nat := m + l * l / 4

open ComplexConjugate in
/-- `BooData::operator()(l,m)`, lib/boo_data.cpp:152-160. -/
noncomputable def coef (q : BooData) (l : Nat) (m : Int) : R ℂ :=
  if 0 ≤ m then getR q (slot l m.toNat)
  else if (-m) % 2 = 0 then do
    let z ← getR q (slot l (-m).toNat)
    pure (conj z)
  else do
    let z ← getR q (slot l (-m).toNat)
    pure (-conj z)

open ComplexConjugate in
/-- `BooData::innerProduct`, lib/boo_data.cpp:163-171. -/
noncomputable def innerProduct (a b : BooData) (l : Nat) : R ℝ := do
  let sum ← (List.range' 1 l).foldlM (fun sum (m : Nat) => do
    let x ← coef a l m
    let y ← coef b l m
    pure (sum + (x * conj y).re)) (0 : ℝ)
  let x ← getR a (l * l / 4)
  let y ← getR b (l * l / 4)
  pure (sum * 2 + (x * y).re)

/-- `BooData::getSumNorm`, lib/boo_data.cpp:180-188. -/
noncomputable def sumNorm (q : BooData) (l : Nat) : R ℝ := do
  let sum ← (List.range' 1 l).foldlM (fun sum (m : Nat) => do
    let x ← getR q (m + l * l / 4)
    pure (sum + Complex.normSq x)) (0 : ℝ)
  let x ← getR q (l * l / 4)
  pure (sum * 2 + Complex.normSq x)

/-- `BooData::normedProduct`, lib/boo_data.cpp:174-177. The C++ division yields a NaN when one of
the sums of norms is null; the division of the model is meaningful only when none is. -/
noncomputable def normedProduct (a b : BooData) (l : Nat) : R ℝ := do
  let ip ← innerProduct a b l
  let na ← sumNorm a l
  let nb ← sumNorm b l
  pure (ip / √(na * nb))

/-- `BooData::getQl`, lib/boo_data.cpp:190-193. -/
noncomputable def getQl (q : BooData) (l : Nat) : R ℝ := do
  let n ← sumNorm q l
  pure √(4 * Real.pi * n / (2 * l + 1))

/-- An entry `c*sqrt(p)` of the table of 3j coefficients. -/
structure W3Entry where
  c : ℚ
  p : ℚ
  deriving DecidableEq

/-- The value of an entry. -/
noncomputable def W3Entry.val (e : W3Entry) : ℝ := (e.c : ℝ) * √(e.p : ℝ)

/-- `BooData::w3j`, lib/boo_data.cpp:38-81; `-43*sqrt(1/46189.)/2` is written `⟨-43/2, 1/46189⟩`. -/
def w3j : List W3Entry := [
    ⟨1, 1⟩,
    ⟨-1, 2/35⟩,
    ⟨1, 1/70⟩,
    ⟨1, 2/35⟩, ⟨-1, 3/35⟩,
    ⟨3, 2/1001⟩,
    ⟨-3, 1/2002⟩,
    ⟨-1/3, 11/182⟩, ⟨2, 5/1001⟩,
    ⟨1, 7/286⟩, ⟨-1/3, 5/143⟩,
    ⟨1/3, 14/143⟩, ⟨-1/3, 35/143⟩, ⟨1, 5/143⟩,
    ⟨-20, 1/46189⟩,
    ⟨10, 1/46189⟩,
    ⟨1, 11/4199⟩, ⟨-2, 105/46189⟩,
    ⟨-43/2, 1/46189⟩, ⟨3, 21/92378⟩,
    ⟨4, 1/46189⟩, ⟨5/2, 35/46189⟩, ⟨-6, 14/46189⟩,
    ⟨5/2, 11/4199⟩, ⟨-3/2, 21/4199⟩, ⟨1, 7/4199⟩,
    ⟨1, 11/4199⟩, ⟨-1, 77/8398⟩, ⟨1, 70/4199⟩, ⟨-2, 21/4199⟩,
    ⟨7, 10/96577⟩,
    ⟨-7, 5/193154⟩,
    ⟨-37, 1/965770⟩, ⟨6, 14/96577⟩,
    ⟨73, 1/965770⟩, ⟨-3, 66/482885⟩,
    ⟨-5, 5/193154⟩, ⟨-8, 3/96577⟩, ⟨6, 77/482885⟩,
    ⟨-1, 65/14858⟩, ⟨3, 5/7429⟩, ⟨-1, 42/37145⟩,
    ⟨1, 65/14858⟩, ⟨0, 0⟩, ⟨-3, 3/7429⟩, ⟨2, 66/37145⟩,
    ⟨7, 13/74290⟩, ⟨-1, 78/7429⟩, ⟨3, 26/37145⟩, ⟨-1, 33/37145⟩,
    ⟨1, 26/37145⟩, ⟨-3, 13/37145⟩, ⟨1, 273/37145⟩, ⟨-1, 429/37145⟩, ⟨3, 11/7429⟩,
    ⟨-126, 7/33393355⟩,
    ⟨63, 7/33393355⟩,
    ⟨196/3, 7/33393355⟩, ⟨-7, 462/6678671⟩,
    ⟨-259/2, 7/33393355⟩, ⟨7/3, 1001/6678671⟩,
    ⟨1097/3, 1/233753485⟩, ⟨59/6, 77/6678671⟩, ⟨-2, 6006/6678671⟩,
    ⟨4021/6, 1/233753485⟩, ⟨-113/2, 55/46750697⟩, ⟨3, 1155/13357342⟩,
    ⟨-914, 1/233753485⟩, ⟨1/3, 2926/1757545⟩, ⟨48, 33/46750697⟩, ⟨-3, 3003/6678671⟩,
    ⟨-7/3, 119/1964315⟩, ⟨65/3, 22/2750041⟩, ⟨-1, 1914/474145⟩, ⟨3, 429/5500082⟩,
    ⟨214/3, 17/13750205⟩, ⟨-3, 561/2750041⟩, ⟨-2/3, 77/392863⟩, ⟨71/3, 143/27500410⟩, ⟨-1, 2002/392863⟩,
    ⟨3, 323/723695⟩, ⟨-1/3, 1309/20677⟩, ⟨5/3, 374/144739⟩, ⟨-2, 143/144739⟩, ⟨1/3, 1001/206770⟩,
    ⟨2/3, 323/723695⟩, ⟨-1/3, 7106/723695⟩, ⟨2, 561/723695⟩, ⟨-4/3, 2431/723695⟩, ⟨2/3, 2002/103385⟩, ⟨-1, 1001/103385⟩]

/-- `BooData::w3j_l_offset`, lib/boo_data.cpp:83. -/
def w3jLOffset : List Nat := [0, 1, 5, 14, 30, 55]
/-- `BooData::w3j_m1_offset`, lib/boo_data.cpp:84. -/
def w3jM1Offset : List Nat := [0, 1, 2, 4, 6, 9, 12, 16, 20, 25, 30]

/-- The index computed by `BooData::getW3j`, lib/boo_data.cpp:103-112. The first and the last
element of the sorted array of the absolute values are their minimum and maximum. -/
def w3jIndex (l : Nat) (m1 m2 : Int) : R Nat := do
  let a := m1.natAbs
  let b := m2.natAbs
  let c := (m1 + m2).natAbs
  let lo ← getR w3jLOffset (l / 2)
  let mo ← getR w3jM1Offset (max a (max b c))
  pure (lo + mo + min a (min b c))

/-- `BooData::getW3j`, lib/boo_data.cpp:103-112. -/
def getW3j (l : Nat) (m1 m2 : Int) : R W3Entry := do
  let i ← w3jIndex l m1 m2
  getR w3j i

/-- One term of the sums of `getWl` and `getInvarients`: `getW3j(l,m1,m2) * q(l,m1) * q(l,m2) *
q(l,-(m1+m2))`, lib/boo_data.cpp:210 and 231. -/
noncomputable def wTerm (q : BooData) (l : Nat) (m1 m2 : Int) : R ℂ := do
  let w ← getW3j l m1 m2
  let x ← coef q l m1
  let y ← coef q l m2
  let z ← coef q l (-(m1 + m2))
  pure ((w.val : ℂ) * x * y * z)

/-- The integers from `-l` to `l` in the order of the loops of lib/boo_data.cpp:226-227. -/
def mRange (l : Nat) : List Int := (List.range (2 * l + 1)).map (fun i : Nat => (i : Int) - l)

/-- Division of the sum by `pow(sumQl, 1.5)` unless `1.0 + sumQl == 1.0`,
lib/boo_data.cpp:214 and 240. -/
noncomputable def wNormalize (n : ℝ) (w : ℂ) : ℂ := if n ≠ 0 then w / ((√n ^ 3 : ℝ) : ℂ) else w

/-- `BooData::getInvarients`, lib/boo_data.cpp:219-241. -/
noncomputable def getInvarients (q : BooData) (l : Nat) : R (ℝ × ℂ) := do
  let n ← sumNorm q l
  let W ← (mRange l).foldlM (fun W m1 =>
    (mRange l).foldlM (fun W m2 => do
      let m3 := -(m1 + m2)
      if -(l : Int) ≤ m3 ∧ m3 ≤ l then
        let t ← wTerm q l m1 m2
        pure (W + t)
      else pure W) W) (0 : ℂ)
  pure (√(4 * Real.pi * n / (2 * l + 1)), wNormalize n W)

/-- `BooData::getWl`, lib/boo_data.cpp:195-216. The loop on `m2` goes from `m1` to `l-m1`
(`m1 ≤ l/2`, the subtraction does not wrap). -/
noncomputable def getWl (q : BooData) (l : Nat) : R ℂ := do
  let n ← sumNorm q l
  let W ← (List.range (l / 2 + 1)).foldlM (fun W (m1 : Nat) =>
    (List.range' m1 (l - m1 + 1 - m1)).foldlM (fun W (m2 : Nat) => do
      let t ← wTerm q l m1 m2
      pure (W + t)) W) (0 : ℂ)
  pure (wNormalize n (W * 12))

/-- `BooData::toBinary`, lib/boo_data.cpp:318-326, in a buffer of doubles. -/
noncomputable def toBinary (q : BooData) (output : List ℝ) : R (List ℝ) :=
  (List.range q.length).foldlM (fun out i => do
    let z ← getR q i
    let out ← setR out (2 * i) z.re
    setR out (2 * i + 1) z.im) output

/-- `BooData::BooData(const double*)`, lib/boo_data.cpp:330-335. The buffer starts at position
`start` of an array of doubles. -/
noncomputable def ofBuffer (buff : List ℝ) (start : Nat) : R BooData :=
  (List.range 36).foldlM (fun q i => do
    let re ← getR buff (start + 2 * i)
    let im ← getR buff (start + 2 * i + 1)
    setR q i ⟨re, im⟩) blank

/-- `Particles::exportQlm`, lib/particles.cpp:543-556: the doubles written in the file. The same
local buffer of 72 doubles, first uninitialised, serves for all the particles. -/
noncomputable def exportQlm (uninit : List ℝ) (boos : List BooData) : R (List ℝ) := do
  let (file, _) ← boos.foldlM (fun (fb : List ℝ × List ℝ) q => do
    let buffer ← toBinary q fb.2
    pure (fb.1 ++ buffer, buffer)) (([] : List ℝ), uninit)
  pure file

/-- `BooData::BooData(const std::string &)`, lib/boo_data.cpp:307-313: a `valarray` of 16 elements,
36 of which are read. The values that the stream gives are the parameter. -/
noncomputable def ofString (values : Nat → ℂ) : R BooData :=
  (List.range 36).foldlM (fun q i => setR q i (values i)) (List.replicate 16 0)

/-- `operator<<(ostream&, const BooData&)`, lib/boo_data.cpp:338-344: the numbers in the text.
The parameter is the rounding of a number by its decimal representation. -/
def printBoo (round : ℝ → ℝ) (q : BooData) : List ℝ :=
  q.flatMap (fun z => [round z.re, round z.im])

/-- The loop of `operator>>`, lib/boo_data.cpp:347-356, on the numbers of a text; `none` when the
stream fails. -/
def scanBooFrom (n : Nat) (s : List ℝ) : Option (BooData × List ℝ) :=
  match n with
  | 0 => some ([], s)
  | n + 1 =>
    match s with
    | re :: im :: s =>
      match scanBooFrom n s with
      | some (q, s) => some (⟨re, im⟩ :: q, s)
      | none => none
    | _ => none

/-- `operator>>(istream&, BooData&)` on a default constructed `BooData`, lib/boo_data.cpp:347-356. -/
def scanBoo (s : List ℝ) : Option (BooData × List ℝ) := scanBooFrom 36 s

/-- `vector::resize`: default elements are added at the end, or the last elements dropped. -/
def resizeTo (d : α) (n : Nat) (l : List α) : List α := l.take n ++ List.replicate (n - l.length) d

/-- The `std::copy` of `Particles::load_qlm`, lib/particles.cpp:600-604, from the position `p` on.
`istream_iterator` becomes the end iterator once an extraction fails. The fuel is the length of
the text, which decreases at each extraction. -/
noncomputable def loadFrom (fuel : Nat) (s : List ℝ) (p : Nat) (boos : List BooData) :
    R (List BooData) :=
  match fuel with
  | 0 => pure boos
  | fuel + 1 =>
    match scanBoo s with
    | none => pure boos
    | some (q, s) => do
      let boos ← setR boos p q
      loadFrom fuel s (p + 1) boos

/-- `Particles::load_qlm`, lib/particles.cpp:593-605, for a set of `n` particles, given the numbers
in the (existing) file and the previous contents of `BOO`. -/
noncomputable def loadQlm (n : Nat) (file : List ℝ) (boos : List BooData) : R (List BooData) :=
  loadFrom (file.length + 1) file 0 (resizeTo blank n boos)

/-- The text of a q6m file: white spaces and complex numbers. -/
inductive Tok
  | ws
  | val (z : ℂ)

/-- `Particles::exportQ6m`, lib/particles.cpp:558-572. `round` as in `printBoo`. -/
noncomputable def exportQ6m (round : ℂ → ℂ) (boos : List BooData) : R (List Tok) :=
  boos.foldlM (fun file q => do
    let file ← (List.range 7).foldlM (fun file (m : Nat) => do
      let z ← coef q 6 m
      pure (file ++ [Tok.ws, Tok.val (round z)])) file
    pure (file ++ [Tok.ws])) []

/-- Whether the token is white space. -/
def Tok.isWs : Tok → Bool
  | .ws => true
  | .val _ => false

/-- State of an `ifstream`: the rest of the text and the end-of-file bit. -/
structure Stream where
  rest : List Tok
  eof : Bool

/-- `f >> z` for a complex number: skips white space; at the end of the text sets the
end-of-file bit and reads nothing. Reading the closing parenthesis does not reach the end. -/
def Stream.read (s : Stream) : Option ℂ × Stream :=
  match s.rest.dropWhile Tok.isWs with
  | .val z :: rest => (some z, ⟨rest, s.eof⟩)
  | rest => (none, ⟨rest, true⟩)

/-- One turn of the loop of `Particles::load_q6m`, lib/particles.cpp:585-587: `BOO[p][m+9]` is
designated before the extraction, which writes nothing when it fails. -/
noncomputable def q6mLine (p : Nat) (s : Stream) (boos : List BooData) :
    R (Stream × List BooData) :=
  (List.range 7).foldlM (fun (sb : Stream × List BooData) (m : Nat) => do
    let q ← getR sb.2 p
    let x ← getR q (m + 9)
    let q ← setR q (m + 9) (sb.1.read.1.getD x)
    let boos ← setR sb.2 p q
    pure (sb.1.read.2, boos)) (s, boos)

/-- The loop of `Particles::load_q6m`, lib/particles.cpp:583-589. The fuel bounds the number of
turns; it never matters since `p` cannot exceed the number of particles. -/
noncomputable def q6mLoop (fuel : Nat) (p : Nat) (s : Stream) (boos : List BooData) :
    R (List BooData) :=
  if s.eof then pure boos
  else match fuel with
    | 0 => .error .diverge
    | fuel + 1 => do
      let (s, boos) ← q6mLine p s boos
      q6mLoop fuel (p + 1) s boos

/-- `Particles::load_q6m`, lib/particles.cpp:575-590, for a set of `n` particles, given the text
of the (existing) file and the previous contents of `BOO`. -/
noncomputable def loadQ6m (n : Nat) (file : List Tok) (boos : List BooData) : R (List BooData) :=
  q6mLoop (n + 1) 0 ⟨file, false⟩ (resizeTo blank n boos)

end Boo
end Colloids
