import Verif.Lif.Model

/-!
# What a `.lif` file is

The layout of the files, written as a function that makes a file from its parts, to state
what reading it should give back.
-/

namespace Colloids.Lif

/-- `n` bytes of a number, the least significant first. -/
def leBytes : Nat → Nat → List Byte
  | 0, _ => []
  | k + 1, n => UInt8.ofNat (n % 256) :: leBytes k (n / 256)

/-- A memory block of a file: the four bytes of the size of the next block, unused bytes
before the second test code, the description in 16 bits characters and the data. -/
structure Block where
  nextSize : List Byte
  unused : List Byte
  descr : List (Byte × Byte)
  data : List Byte

/-- Bytes of a text in 16 bits characters. -/
def wide (t : List (Byte × Byte)) : List Byte := t.flatMap (fun c => [c.1, c.2])

/-- Head of a block of memory. -/
def headBytes (nextSize : List Byte) : List Byte := [0x70, 0, 0, 0] ++ nextSize ++ [0x2a]

/-- A block, up to its data. -/
def Block.descrBytes (version : Int) (b : Block) : List Byte :=
  headBytes b.nextSize ++ leBytes (if 2 ≤ version then 8 else 4) b.data.length ++ b.unused
    ++ [0x2a] ++ leBytes 4 b.descr.length ++ wide b.descr

def Block.bytes (version : Int) (b : Block) : List Byte := b.descrBytes version ++ b.data

/-- The sizes fit in the numbers of the format and the unused bytes are not a test code. -/
structure Block.WF (version : Int) (b : Block) : Prop where
  nextSize : b.nextSize.length = 4
  unused : (0x2a : Byte) ∉ b.unused
  descr : b.descr.length < 2 ^ 31
  data : b.data.length < if 2 ≤ version then 2 ^ 63 else 2 ^ 32

/-- A file: the size of the first block, the XML header in 16 bits characters, the memory
blocks. -/
def fileBytes (version : Int) (nextSize : List Byte) (xml : List (Byte × Byte))
    (bs : List Block) : List Byte :=
  headBytes nextSize ++ leBytes 4 xml.length ++ wide xml ++ bs.flatMap (·.bytes version)

end Colloids.Lif
