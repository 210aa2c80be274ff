import Verif.Rdf.PeriodicModel
import Verif.Mains.CutterModel

/-! # The programs `rdf` and `periodic_rdf`: mains/rdf.cpp -/

namespace Colloids
namespace Mains

open Particles

/-- The name and the rows of the file that is written, mains/rdf.cpp:38, 72-76: `r/scale` and `g[r]`. -/
noncomputable def rdfFile (filename : List Char) (nBins : Nat) (range : ℝ) (g : List ℝ) : List Char × List (ℝ × ℝ) :=
  (Files.replaceExt filename ['.', 'r', 'd', 'f'], g.mapIdx (fun r v => (r / (nBins / range), v)))

/-- `main` of `rdf`, mains/rdf.cpp:26-86 without `use_periodic`, from the values of the arguments. `junk` is the previous contents of the box. The
header line and the printing of numbers are not modelled, nor a file that cannot be written. -/
noncomputable def rdf (P : RParams ℝ) (H : Heur 3 ℝ) (junk : Coord ℝ) (filename : List Char) (radius : ℝ) (nBins : Nat) (range : ℝ)
    (disk : Disk ℝ) : R (List Char × List (ℝ × ℝ)) := do
  let ps ← Dat.ofDat junk (disk filename) radius
  let ps ← makeRTreeIndex P H ps
  let g ← Rdf.getRdfAll ps nBins range
  pure (rdfFile filename nBins range g)

/-- `main` of `periodic_rdf`, mains/rdf.cpp:26-86 with `use_periodic`: `nb` is the number of particles and `size` the lengths of the box. -/
noncomputable def periodicRdf (P : RParams ℝ) (H : Heur 3 ℝ) (filename : List Char) (radius : ℝ) (nBins : Nat) (range : ℝ) (nb : Nat)
    (size : Coord ℝ) (disk : Disk ℝ) : R (List Char × List (ℝ × ℝ)) := do
  let ps ← Dat.ofGrv nb ⟨fun _ => 0, size⟩ (disk filename) radius
  let ps ← makeRTreeIndex P H ps
  let g ← Rdf.pgetRdfAll ps nBins range
  pure (rdfFile filename nBins range g)

end Mains
end Colloids
