import Verif.Mains.BooModel
import Verif.DynClusters.Model

/-! # The program `percolation`: mains/percolation.cpp -/

namespace Colloids
namespace Mains

/-- The neighbours of one frame from its file of bonds, `none` when the file cannot be opened,
mains/percolation.cpp:77-78. -/
def ngbsOfFile (ps : Particles ℝ) (file : Option (List Char)) : R NgbList := do
  let bonds ← loadBonds file
  makeNgbListFromBonds ps.pos.length bonds

/-- The neighbours of one frame from the positions, mains/percolation.cpp:85-86. -/
noncomputable def ngbsOfPositions (P : RParams ℝ) (H : Heur 3 ℝ) (ps : Particles ℝ) : R NgbList := do
  let ps ← Particles.makeRTreeIndex P H ps
  Particles.makeNgbList Particles.geometry ps 1.3

/-- The neighbours of all the frames and the content of the file of bonds that the program writes, if it does,
mains/percolation.cpp:73-92. The same file is truncated at each time. -/
noncomputable def percolationNgbs (P : RParams ℝ) (H : Heur 3 ℝ) (positions : List (Particles ℝ)) (files : List (Option (List Char))) :
    R (List NgbList × Option (List Char)) :=
  match (positions.zip files).mapM (fun x => ngbsOfFile x.1 x.2) with
  | .ok ngbs => .ok (ngbs, none)
  | .error .invalidArgument => do
    let ngbs ← positions.mapM (ngbsOfPositions P H)
    pure (ngbs, ngbs.getLast?.map (fun N => writeBonds (ngb2bonds N)))
  | .error e => .error e

/-- The program on a file of trajectories, mains/percolation.cpp:44-108, with the contents of the files of bonds of the frames.
The `range` of the command line is read at line 49 and not used after. The results are the contents of the
files of clusters and of the file of bonds. The names of the files are not represented. -/
noncomputable def percolation (P : RParams ℝ) (H : Heur 3 ℝ) (D : Dyn.DynParts ℝ) (_range : ℝ) (files : List (Option (List Char))) :
    R (List (List Char) × Option (List Char)) := do
  let all := List.range D.trajectories.trajs.length
  let (ngbs, bondFile) ← percolationNgbs P H D.positions files
  let D' := { D with ngbs := ngbs }
  let (members, ti) ← DynClusters.assign D' all []
  let texts ← DynClusters.save D' members ti
  pure (texts, bondFile)

end Mains
end Colloids
