import Verif.Lif.Spec
import Mathlib.Algebra.Field.Basic

/-! # Reading Leica `.lif` files in python: python/colloids/lif.py

The parser of XML is a parameter; an element is given by the attributes that are read. `struct.error` and `ValueError` are given as
`invalidArgument`, `IndexError`, `KeyError` and `OverflowError` as `outOfRange`, a bare `Exception` as `logicError`, `TypeError` as
`trajError`. Integers of python have no bounds.

The results kept as attributes named with two underscores (`self.__name`) are stored under another name than the one looked for with
`hasattr(self, '__name')`: they are computed again at each call. -/

namespace Colloids
namespace PyLif

open Lif (Byte leNat)

/-! ## The whole file -/

/-- `struct.unpack(..., f.read(n))` with a format of `n` bytes, python/colloids/lif.py:407, 425, 431, 433: the bytes and the new position. -/
def unpack (n : Nat) (bytes : List Byte) (pos : Nat) : R (List Byte × Nat) :=
  if ((bytes.drop pos).take n).length < n then .error .invalidArgument else .ok ((bytes.drop pos).take n, pos + n)

/-- `Reader.__readMemoryBlockHeader`, python/colloids/lif.py:424-434: the size of the memory and the new position. `wide` is false for the
first header, read before there is a version, and for the versions before 2. -/
def blockHeader (wide : Bool) (bytes : List Byte) (pos : Nat) : R (Nat × Nat) := do
  let h ← unpack 9 bytes pos
  if leNat (h.1.take 4) ≠ 112 then .error .logicError
  else if h.1[8]? ≠ some 0x2a then .error .logicError
  else do
    let m ← unpack (if wide then 8 else 4) bytes h.2
    pure (leNat m.1, m.2)

/-- `while(self.f.read(1) != b"*"): pass`, python/colloids/lif.py:404-405: the number of bytes read. At the end of the file `read` gives
an empty string for ever. -/
def skipStar : List Byte → R Nat
  | [] => .error .diverge
  | b :: l => if b = 0x2a then .ok 1 else (skipStar l).map (· + 1)

/-- The loop that indexes the offsets, python/colloids/lif.py:401-414. A position of `2 ^ 63` or more cannot be given to `seek`. -/
def index (version : Int) (bytes : List Byte) : Nat → Nat → R (List Nat)
  | 0, _ => .error .diverge
  | fuel + 1, pos =>
    if bytes.length ≤ pos then .ok []
    else do
      let m ← blockHeader (decide (2 ≤ version)) bytes pos
      let s ← skipStar (bytes.drop m.2)
      let d ← unpack 4 bytes (m.2 + s)
      let q := d.2 + leNat d.1 * 2
      if 0 < m.1 then
        if 2 ^ 63 ≤ q + m.1 then .error .outOfRange
        else do
          let rest ← index version bytes fuel (q + m.1)
          pure (q :: rest)
      else index version bytes fuel q

/-- `s[::2]` -/
def everyOther : List Byte → List Byte
  | a :: _ :: l => a :: everyOther l
  | [a] => [a]
  | [] => []

/-- `Header.getSeriesHeaders`, python/colloids/lif.py:119-127, of the elements of the header with their names. -/
def seriesHeaders {H : Type} (elements : List (String × H)) : List H :=
  ((elements.drop 1).filter fun e => e.1 ≠ "BleachPointROISet" ∧ e.1 ≠ "DCROISet").map (·.2)

/-- `Reader.__init__`, python/colloids/lif.py:379-414, with `quick`: the elements of the header and the offsets. `parse` gives the version
and the elements. -/
def reader {H : Type} (parse : List Byte → R (Int × List (String × H))) (bytes : List Byte) : R (List (String × H) × List Nat) := do
  let m ← blockHeader false bytes 0
  let x := (bytes.drop m.2).take (m.1 * 2)
  let h ← parse (everyOther x)
  let offsets ← index h.1 bytes (bytes.length + 1) (m.2 + x.length)
  pure (h.2, offsets)

/-- `Reader.getSeries`, python/colloids/lif.py:436-445: each header with its offset. -/
def getSeries {H : Type} (r : List (String × H) × List Nat) : R (List (H × Nat)) :=
  (seriesHeaders r.1).zipIdx.mapM fun x =>
    match r.2[x.2]? with
    | some o => .ok (x.1, o)
    | none => .error .outOfRange

/-! ## Headers and data of a series -/

/-- The attributes of a `DimensionDescription`. Negative numbers of elements are not considered. -/
structure Dim where
  id : Int
  n : Nat
  inc : Int
  deriving DecidableEq, Repr

/-- `dimName[...]`, python/colloids/lif.py:27-34. -/
def dimName (id : Int) : R String :=
  if id = 1 then .ok "X"
  else if id = 2 then .ok "Y"
  else if id = 3 then .ok "Z"
  else if id = 4 then .ok "T"
  else if id = 5 then .ok "Lambda"
  else if id = 6 then .ok "Rotation"
  else if id = 7 then .ok "XT Slices"
  else if id = 8 then .ok "TSlices"
  else .error .outOfRange

/-- `Serie` or `SerieHeader`: the dimensions and the sizes of the memories in the order of the XML, the file and the offset. -/
structure Serie where
  dims : List Dim
  sizes : List Nat
  file : List Byte
  offset : Nat
  deriving DecidableEq, Repr

/-- `getMemorySize`, python/colloids/lif.py:201-211. -/
def Serie.memorySize (s : Serie) : Nat := s.sizes.foldl max 0

/-- `getBytesInc` of a name, python/colloids/lif.py:293-303. The result is kept, under the name that is looked for; this matters only for
dimensions that are not known. -/
def Serie.bytesInc (s : Serie) (dim : String) : R Int :=
  s.dims.foldlM (fun acc d => do
    let name ← dimName d.id
    pure (if name = dim then d.inc else acc)) 0

/-- `getOffset`, python/colloids/lif.py:463-469. -/
def Serie.getOffset (s : Serie) (kw : List (String × Int)) : R Int := do
  let of ← kw.foldlM (fun acc e => do
    let i ← s.bytesInc e.1
    pure (acc + i * e.2)) (0 : Int)
  if (s.memorySize : Int) ≤ of then .error .outOfRange else pure (s.offset + of)

/-- `dims[k] = v` in a `dict`, given by the list of its items sorted by key. -/
def dictSet (k : Int) (v : Nat) : List (Int × Nat) → List (Int × Nat)
  | [] => [(k, v)]
  | x :: l => if x.1 < k then x :: dictSet k v l else if x.1 = k then (k, v) :: l else (k, v) :: x :: l

/-- `getBoxShape`, python/colloids/lif.py:330-339. -/
def Serie.boxShape (s : Serie) : List Nat :=
  ((s.dims.foldl (fun m d => dictSet d.id d.n m) []).filter fun e => e.1 < 4).map (·.2)

/-- `getFrameShape`, python/colloids/lif.py:341-343. -/
def Serie.frameShape (s : Serie) : List Nat := s.boxShape.reverse

/-- `get2DShape`, python/colloids/lif.py:345-347. -/
def Serie.shape2D (s : Serie) : List Nat := (s.boxShape.take 2).reverse

/-- `getNbPixelsPerFrame`, python/colloids/lif.py:349-352. -/
def Serie.pixelsPerFrame (s : Serie) : Nat := s.boxShape.prod

/-- `getNbPixelsPerSlice`, python/colloids/lif.py:354-357. -/
def Serie.pixelsPerSlice (s : Serie) : Nat := s.shape2D.prod

/-- `getNbFrames`, python/colloids/lif.py:322-328. -/
def Serie.nbFrames (s : Serie) : Nat := s.dims.foldl (fun acc d => if d.id = 4 then d.n else acc) 1

/-- An array of bytes in C order. -/
structure Arr where
  shape : List Nat
  data : List Byte
  deriving DecidableEq, Repr

/-- Place in memory of an element of an array in C order. -/
def ravel (shape idx : List Nat) : Nat := (shape.zip idx).foldl (fun acc x => acc * x.1 + x.2) 0

/-- `a[i, j, ...]` -/
def Arr.get (a : Arr) (idx : List Nat) : R Byte :=
  if idx.length = a.shape.length ∧ ∀ x ∈ a.shape.zip idx, x.2 < x.1 then
    match a.data[ravel a.shape idx]? with
    | some b => .ok b
    | none => .error .outOfRange
  else .error .outOfRange

/-- `f.seek(o)`: a negative position raises an exception. -/
def seek (o : Int) : R Nat := if o < 0 then .error .invalidArgument else .ok o.toNat

/-- `np.fromfile(f, dtype=np.ubyte, count=n).reshape(shape)`: fewer bytes at the end of the file cannot be reshaped. The array and the new
position. -/
def fromfile (file : List Byte) (pos n : Nat) (shape : List Nat) : R (Arr × Nat) :=
  if ((file.drop pos).take n).length = shape.prod then
    .ok (⟨shape, (file.drop pos).take n⟩, pos + ((file.drop pos).take n).length)
  else .error .invalidArgument

/-- `getFrame`, python/colloids/lif.py:517-529: the array and the position of the file. -/
def Serie.frameAt (s : Serie) (t : Int) : R (Arr × Nat) := do
  let o ← s.getOffset [("T", t)]
  let p ← seek o
  fromfile s.file p s.pixelsPerFrame s.frameShape

/-- The array given by `getFrame`. -/
def Serie.getFrame (s : Serie) (t : Int) : R Arr := (s.frameAt t).map (·.1)

/-- `get2DSlice`, python/colloids/lif.py:471-486. -/
def Serie.get2DSlice (s : Serie) (kw : List (String × Int)) : R Arr := do
  let names ← (s.dims.take 2).mapM fun d => dimName d.id
  if names.any (fun n => kw.any fun e => e.1 = n) then .error .logicError
  else do
    let o ← s.getOffset kw
    let p ← seek o
    let a ← fromfile s.file p s.pixelsPerSlice s.shape2D
    pure a.1

/-- The loop of `enumByFrame`: the arrays read one after the other from a position, for the times `t`, `t + 1`, ... -/
def Serie.nextFrames (s : Serie) : Nat → Nat → Nat → R (List (Nat × Arr))
  | 0, _, _ => .ok []
  | k + 1, t, pos => do
    let a ← fromfile s.file pos s.pixelsPerFrame s.frameShape
    let rest ← s.nextFrames k (t + 1) a.2
    pure ((t, a.1) :: rest)

/-- `enumByFrame`, python/colloids/lif.py:590-598, when nothing else reads the file. -/
def Serie.enumByFrame (s : Serie) : R (List (Nat × Arr)) := do
  let a ← s.frameAt 0
  let rest ← s.nextFrames (s.nbFrames - 1) 1 a.2
  pure ((0, a.1) :: rest)

/-- `enumBySlice`, python/colloids/lif.py:600-609: `range` is given the result of a true division, a `float`; nothing is read if there is no
time step. -/
def Serie.enumBySlice (s : Serie) : R (List (Nat × Nat × Arr)) := do
  let o ← s.getOffset []
  let _ ← seek o
  if s.nbFrames = 0 then pure [] else .error .trajError

/-! ## Time stamps -/

/-- What the element of a series says of its times: the numbers of the elements `TimeStamp`, the attribute `Time` of the elements
`RelTimeStamp`, and the lists `TimeStampList` with the attribute `NumberOfTimeStamps` and the numbers in the text. -/
structure Times (G : Type) where
  stamps : List (Nat × Nat)
  rel : List G
  lists : List (Option Int × List Nat)

/-- `getTimeStamps`, python/colloids/lif.py:261-279: the result and what is left of the element. The numbers of the text are given in base
16 there. -/
def getTimeStamps {G : Type} (e : Times G) : R (List Nat × Times G) :=
  match e.lists with
  | [] => .error .outOfRange
  | (declared, text) :: _ =>
    match declared with
    | some k =>
      if 0 < k then .ok (text, e)
      else .ok (e.stamps.map fun x => x.1 <<< 32 + x.2, { e with stamps := [] })
    | none => .ok (e.stamps.map fun x => x.1 <<< 32 + x.2, { e with stamps := [] })

/-- `getRelativeTimeStamps`, python/colloids/lif.py:281-290. -/
def getRelativeTimeStamps {G : Type} (e : Times G) : List G × Times G := (e.rel, { e with rel := [] })

/-- What `Reader.__init__` does of the times of a series, python/colloids/lif.py:90-99 (`quick`: the elements are removed from the text
before it is parsed) and 415-419 (not `quick`: both functions are called; the arrays made by
`np.fromregex` at 65-77 are not used and not modelled). -/
def openTimes {G : Type} (quick : Bool) (e : Times G) : R (Times G) :=
  if quick then .ok { e with stamps := [], rel := [] }
  else do
    let a ← getTimeStamps e
    pure (getRelativeTimeStamps a.2).2

/-- `getTotalDuration`, python/colloids/lif.py:245-252, of the dimensions with their lengths. -/
def totalDuration {G : Type} [Zero G] (dims : List (Dim × G)) : R G :=
  dims.foldlM (fun acc d => do
    let name ← dimName d.1.id
    pure (if name = "T" then d.2 else acc)) 0

/-- `getTimeLapse`, python/colloids/lif.py:254-259. -/
def timeLapse {G : Type} [Field G] (dims : List (Dim × G)) : R G :=
  let n : Nat := dims.foldl (fun acc d => if d.1.id = 4 then d.1.n else acc) 1
  if n = 1 then .ok 0
  else do
    let d ← totalDuration dims
    pure (d / ((n : G) - 1))

/-! ## Choices of the user -/

/-- The loops of `chooseSerieIndex` and `chooseChannel`, python/colloids/lif.py:148-156, 312-320: the answers of the user, `none` if it is
not a number. With no more answers `input` raises `EOFError`, that is not caught. -/
def ask (len : Nat) : List (Option Int) → R Int
  | [] => .error .logicError
  | none :: l => ask len l
  | some r :: l => if r < 0 ∨ (len : Int) < r then ask len l else .ok r

/-- `chooseSerieIndex`, python/colloids/lif.py:129-156, for a number of series. -/
def chooseSerieIndex (len : Nat) (answers : List (Option Int)) : R Int :=
  if len < 2 then .ok 0 else ask len answers

/-- `chooseChannel`, python/colloids/lif.py:305-320. -/
def chooseChannel (len : Nat) (answers : List (Option Int)) : R Int := ask len answers

/-- `l[r]` of a list of python. -/
def item {α : Type} (l : List α) (r : Int) : R α :=
  let i := if r < 0 then r + l.length else r
  if i < 0 then .error .outOfRange
  else match l[i.toNat]? with
    | some a => .ok a
    | none => .error .outOfRange

/-- `chooseSerieHeader` and `chooseSerie`, python/colloids/lif.py:158-159, 447-448. -/
def chooseSerie {S : Type} (series : List S) (answers : List (Option Int)) : R S := do
  let r ← chooseSerieIndex series.length answers
  item series r

/-- `isPreview`, python/colloids/lif.py:174-182, of the attachments with the attributes `Name` and `isPreviewImage`. -/
def isPreview (attachments : List (String × String)) : Bool :=
  match attachments.find? fun a => a.1 = "PreviewMarker" with
  | some a => a.2 ≠ ""
  | none => false

end PyLif
end Colloids
