import Verif.Py.LinkerModel

/-! # Trajectories that end and start in `python/colloids/track_droplet.py` -/

namespace Colloids
namespace Py
namespace Droplet

/-- `frame > nb` at a position -/
def above (nb : Nat) (f : List Nat) (q : Nat) : Bool :=
  match f[q]? with
  | some tr => decide (nb < tr)
  | none => false

/-- `np.where(linker.pos2tr[-1]>linker.nbtrajs[-2])[0]`, track_droplet.py:164 -/
def startingPos (l : Linker) : R (List Nat) := do
  let f ← last l.pos2tr
  let nb ← idx l.nbtrajs (l.nbtrajs.length - 2)
  pure ((List.range f.length).filter fun q => above nb f q)

/-- `(tr[-1], i)`, track_droplet.py:190 -/
def lastPos (x : Nat × Nat × List Nat) : R (Nat × Nat) := do
  let p ← last x.2.2
  pure (p, x.1)

/-- `terminated_pos_tr` at the time `t`, track_droplet.py:189-192 -/
def terminated (l : Linker) (t : Nat) : R (List (Nat × Nat)) := do
  let nb ← idx l.nbtrajs (l.nbtrajs.length - 2)
  let ended := ((List.range nb).zip (l.trajstart.zip l.tr2pos)).filter fun x => decide (x.2.1 + x.2.2.length = t)
  ended.mapM lastPos

end Droplet
end Py
end Colloids
