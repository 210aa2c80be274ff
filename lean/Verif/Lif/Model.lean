import Verif.Common

/-!
# Reading Leica `.lif` files

Model of `multiscale/src/lifFile.cpp` and `lifFile.hpp` (the same code, but for one test on
the time stamps, is in `graphic/lifFile.cpp`).

The XML library is not modelled: a header is given by the attributes read in its
elements, and the constructor of the reader gets the parser as a parameter. Numbers of the
C++ types `int`, `unsigned int`, `size_t` and `unsigned long long` (32 bits for the first
two, 64 for the others) are wrapped explicitly.
-/

namespace Colloids.Lif

abbrev Byte := UInt8

/-- Conversion of any integer to `size_t` or `unsigned long long`. -/
def toU64 (z : Int) : Nat := (z % 2 ^ 64).toNat

/-- Conversion of a `size_t` to `int` (wraps with all the usual compilers). -/
def toI32 (n : Nat) : Int := Int.bmod n (2 ^ 32)

/-! ## Streams -/

/-- A `std::ifstream`: the bytes of the file, the position and whether `failbit` is set. -/
structure IFile where
  bytes : List Byte
  pos : Nat := 0
  failed : Bool := false
  deriving DecidableEq, Repr

/-- `file.seekg(off, ios::beg)` with `off` an unsigned number converted to the signed
`streamoff`. A negative position fails; a position after the end of the file does not.
Nothing happens on a stream that has already failed. -/
def IFile.seek (f : IFile) (off : Nat) : IFile :=
  if f.failed then f
  else if 2 ^ 63 ≤ off % 2 ^ 64 then { f with failed := true }
  else { f with pos := off % 2 ^ 64 }

/-- `file.read(buffer, n)`. Fewer than `n` bytes before the end of the file: those are
copied and the stream fails. A `n` that is negative as a `streamsize` reads nothing and
fails. Nothing happens on a stream that has already failed. Undefined behaviour if the
buffer is too small for the bytes that are copied. -/
def IFile.readInto (f : IFile) (n : Nat) (buf : List Byte) : R (IFile × List Byte) :=
  if f.failed then .ok (f, buf)
  else if 2 ^ 63 ≤ n then .ok ({ f with failed := true }, buf)
  else
    let got := (f.bytes.drop f.pos).take n
    if buf.length < got.length then .error .ub
    else .ok ({ f with pos := f.pos + got.length, failed := decide (got.length < n) },
      got ++ buf.drop got.length)

/-! ## Headers of series -/

/-- `DimensionData` (lifFile.hpp 192-221, lifFile.cpp 520-531): the attributes used. -/
structure Dim where
  dimID : Int
  numberOfElements : Int
  bytesInc : Nat
  deriving DecidableEq, Repr

/-- `DimensionData::getName` (lifFile.hpp 204-219). -/
def Dim.getName (d : Dim) : String :=
  if d.dimID = 1 then "X"
  else if d.dimID = 2 then "Y"
  else if d.dimID = 3 then "Z"
  else if d.dimID = 4 then "T"
  else if d.dimID = 5 then "Lambda"
  else if d.dimID = 6 then "Rotation"
  else if d.dimID = 7 then "XT Slices"
  else if d.dimID = 8 then "TSlices"
  else "Invalid"

/-- `std::map<std::string, T>::insert`: an entry whose key is present is not inserted. The
list is the iteration order, by increasing key. -/
def mapInsert (k : String) (v : α) : List (String × α) → List (String × α)
  | [] => [(k, v)]
  | x :: xs =>
    if x.1 < k then x :: mapInsert k v xs
    else if x.1 = k then x :: xs
    else (k, v) :: x :: xs

/-- `std::map<std::string, T>::find`. -/
def mapFind (k : String) (m : List (String × α)) : Option α :=
  (m.find? (fun e => e.1 == k)).map (·.2)

/-- `LifSerieHeader` (lifFile.hpp 52-87): the dimensions, the number of bits of the channels
and the time stamps. -/
structure Header where
  dimensions : List (String × Dim)
  /-- `ChannelData::resolution` of each channel -/
  channels : List Int
  timeStamps : List Nat := []
  deriving DecidableEq, Repr

/-- `LifSerieHeader::parseImageDescription` (lifFile.cpp 160-182), dimensions, given the
attributes of the elements in the order of the file. -/
def parseDimensions (elements : List Dim) : List (String × Dim) :=
  elements.foldl (fun m d => mapInsert d.getName d m) []

/-- `LifSerieHeader::getNbTimeSteps` (lifFile.cpp 85-90). -/
def Header.nbTimeSteps (h : Header) : Nat :=
  match mapFind "T" h.dimensions with
  | none => 1
  | some d => toU64 d.numberOfElements

/-- `LifSerieHeader::getSpatialDimensions` (lifFile.cpp 93-100): in the order of the map. -/
def Header.spatialDimensions (h : Header) : List Nat :=
  (h.dimensions.filter (fun e => decide (e.2.dimID < 4))).map
    (fun e => toU64 e.2.numberOfElements)

/-- `accumulate(dims.begin(), dims.end(), 1, multiplies<size_t>())`: the accumulator has the
type of the initial value, an `int`; each product is made in `size_t` and converted. -/
def accumulateProduct (dims : List Nat) : Int :=
  dims.foldl (fun acc d => toI32 (toU64 acc * d % 2 ^ 64)) 1

/-- `LifSerieHeader::getNbPixelsInOneTimeStep` (lifFile.cpp 103-107). -/
def Header.nbPixelsInOneTimeStep (h : Header) : Nat :=
  toU64 (accumulateProduct h.spatialDimensions)

/-- `dims.resize(2, 1)` -/
def resize2 (dims : List Nat) : List Nat := (dims ++ [1, 1]).take 2

/-- `LifSerieHeader::getNbPixelsInOneSlice` (lifFile.cpp 110-115). -/
def Header.nbPixelsInOneSlice (h : Header) : Nat :=
  toU64 (accumulateProduct (resize2 h.spatialDimensions))

/-- `LifSerieHeader::parseTimeStampList` (lifFile.cpp 185-224) when the attribute
`NumberOfTimeStamps` is not zero: the vector is resized to that number (`bad_alloc` for a
negative number is not distinguished from other exceptions) then all the numbers written in
the text of the node are copied at its beginning; undefined behaviour if there are more of
them. Going from text to numbers is not modelled. -/
def parseTimeStampsNew (declared : Int) (written : List Nat) : R (List Nat) :=
  if declared < 0 then .error .logicError
  else if declared.toNat < written.length then .error .ub
  else .ok (written ++ List.replicate (declared.toNat - written.length) 0)

/-- `LifSerieHeader::parseTimeStampList` (lifFile.cpp 185-224), older files: two halves of
32 bits for each time stamp. -/
def parseTimeStampsOld (halves : List (Nat × Nat)) : List Nat :=
  halves.map (fun hl => (hl.1 * 2 ^ 32 % 2 ^ 64 + hl.2) % 2 ^ 64 / 10000)

/-! ## Data of a series -/

/-- `LifSerie` (lifFile.hpp 89-106). -/
structure Serie extends Header where
  offset : Nat
  memorySize : Nat
  file : IFile
  deriving DecidableEq, Repr

/-- `LifSerie::LifSerie` (lifFile.cpp 255-274) on an existing file. -/
def Serie.mk' (h : Header) (bytes : List Byte) (offset memorySize : Nat) : R Serie :=
  if bytes.length ≤ offset then .error .invalidArgument
  else if bytes.length < (offset + memorySize) % 2 ^ 64 then .error .invalidArgument
  else .ok
    { h with
      offset := offset
      memorySize := memorySize
      file := { bytes := bytes, pos := bytes.length } }

/-- `LifSerie::getOffset` (lifFile.cpp 311-323). -/
def Serie.getOffset (s : Serie) (t : Nat) : R Nat :=
  if s.nbTimeSteps ≤ t then .error .outOfRange
  else if t = 0 then .ok s.offset
  else
    match mapFind "T" s.dimensions with
    | none => .ok s.offset
    | some d => .ok ((s.offset + d.bytesInc * t) % 2 ^ 64)

/-- `LifSerie::fill3DBuffer` (lifFile.cpp 280-286). -/
def Serie.fill3DBuffer (s : Serie) (buf : List Byte) (t : Nat) : R (Serie × List Byte) := do
  let n := s.nbPixelsInOneTimeStep * s.channels.length % 2 ^ 64
  let o ← s.getOffset t
  let r ← (s.file.seek o).readInto n buf
  pure ({ s with file := r.1 }, r.2)

/-- `LifSerie::fill2DBuffer` (lifFile.cpp 292-298). -/
def Serie.fill2DBuffer (s : Serie) (buf : List Byte) (t z : Nat) : R (Serie × List Byte) := do
  let n := s.nbPixelsInOneSlice * s.channels.length % 2 ^ 64
  let o ← s.getOffset t
  let r ← (s.file.seek ((o + z * n) % 2 ^ 64)).readInto n buf
  pure ({ s with file := r.1 }, r.2)

/-! ## The whole file -/

/-- Little-endian number (the code reads the bytes as a number of the machine). -/
def leNat : List Byte → Nat
  | [] => 0
  | b :: bs => b.toNat + 256 * leNat bs

/-- `readInt`, `readUnsignedInt`, `readUnsignedLongLong` (lifFile.cpp 479-499): with fewer
than `n` bytes left the buffer is used uninitialised. Returns the number and the position. -/
def readLE (n : Nat) (bytes : List Byte) (pos : Nat) : R (Nat × Nat) :=
  let got := (bytes.drop pos).take n
  if got.length < n then .error .ub else .ok (leNat got, pos + n)

/-- What `std::isspace` accepts. -/
def isSpace (b : Byte) : Bool := b == 32 || (9 ≤ b && b ≤ 13)

/-- `file >> lifChar` skips white spaces and reads a character: number of white spaces and
character; `none` if there are only white spaces till the end. -/
def getChar : List Byte → Option (Nat × Byte)
  | [] => none
  | b :: bs =>
    if isSpace b then (getChar bs).map (fun r => (r.1 + 1, r.2)) else some (0, b)

/-- `while (lifChar != TestCode) {file>>lifChar;}` (lifFile.cpp 450-451): number of bytes
consumed, or a loop without end when the stream fails at the end of the file. White
spaces are skipped; the test code is not one of them. -/
def findTest : List Byte → R Nat
  | [] => .error .diverge
  | b :: bs => if b = 0x2a then .ok 1 else (findTest bs).map (· + 1)

/-- `MemBlockCode` and `TestCode` (lifFile.cpp 392). -/
def memBlockCode : Nat := 0x70
def testCode : Byte := 0x2a

/-- Lines 394-411 (first header) and 433-441 (each block): code of a memory block, size of
the next block that is skipped, test code. A stream that fails at the test code leaves the
uninitialised `lifChar` of the first header, or the test code of the previous block, whose
size is then read uninitialised: undefined behaviour both ways. `err` is the exception. -/
def blockHead (err : Fault) (bytes : List Byte) (pos : Nat) : R Nat := do
  let r ← readLE 4 bytes pos
  if r.1 ≠ memBlockCode then .error err
  else
    match getChar (bytes.drop (r.2 + 4)) with
    | none => .error .ub
    | some (spaces, c) =>
      if c ≠ testCode then .error err else pure (r.2 + 4 + spaces + 1)

/-- Relative move `seekg(memorySize, ios::cur)` with `memorySize` converted to the signed
`streampos` (lifFile.cpp 470); a negative position fails. -/
def jump (pos memorySize : Nat) : Option Nat :=
  let z : Int := (pos : Int) + (if (2 : Nat) ^ 63 ≤ memorySize then (memorySize : Int) - 2 ^ 64
    else (memorySize : Int))
  if z < 0 then none else some z.toNat

/-- The loop on the blocks of the file (lifFile.cpp 428-473). `headers` are those not
given to a block yet. After a failed move `tellg()` is −1 and the loop goes on reading
uninitialised memory. -/
def blocks (version : Int) (bytes : List Byte) :
    Nat → List Header → Nat → R (List Serie)
  | 0, _, _ => .error .diverge
  | fuel + 1, headers, pos =>
    if bytes.length ≤ pos then .ok []
    else do
      let p ← blockHead .logicError bytes pos
      let ms ← readLE (if 2 ≤ version then 8 else 4) bytes p
      let skip ← findTest (bytes.drop ms.2)
      let descr ← readLE 4 bytes (ms.2 + skip)
      let q := descr.2 + descr.1 * 2 % 2 ^ 32
      if ms.1 = 0 then blocks version bytes fuel headers q
      else
        match headers with
        | [] => .error .logicError
        | h :: hs => do
          let s ← Serie.mk' h bytes q ms.1
          match jump q ms.1 with
          | none => .error .ub
          | some q' => do
            let rest ← blocks version bytes fuel hs q'
            pure (s :: rest)

/-- Every other byte of the XML header (lifFile.cpp 421-422); the buffer is uninitialised
where the file is too short. -/
def everyOther : List Byte → List Byte
  | a :: _ :: rest => a :: everyOther rest
  | _ => []

/-- `LifReader::LifReader` (lifFile.cpp 390-476), the parser of XML being a parameter that
gives the version of the format and the headers of the series, or throws. -/
def lifReader (parse : List Byte → R (Int × List Header)) (bytes : List Byte) :
    R (List Serie) := do
  let p ← blockHead .invalidArgument bytes 0
  let c ← readLE 4 bytes p
  let n := c.1 * 2 % 2 ^ 32
  let xml := (bytes.drop c.2).take n
  if xml.length < n then .error .ub
  else do
    let h ← parse (everyOther xml)
    blocks h.1 bytes ((h.2.length + 1) * (bytes.length + 1)) h.2 (c.2 + n)

end Colloids.Lif
