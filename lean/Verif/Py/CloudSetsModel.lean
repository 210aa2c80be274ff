import Mathlib.Algebra.Order.Field.Basic
import Verif.Common

/-! # Subsets of particles by bond orientational order: `draw_cloud`, python/colloids/clouds.py:26-63 -/

namespace Colloids
namespace Py
namespace CloudSets

/-- `split('_t')`, clouds.py:34 -/
def splitT : List Char → List (List Char)
  | [] => [[]]
  | c :: s =>
    if c = '_' ∧ s.head? = some 't' then [] :: splitT s.tail
    else match splitT s with
      | a :: l => (c :: a) :: l
      | [] => [[c]]
termination_by s => s.length
decreasing_by all_goals (simp only [List.length_cons, List.length_tail]; omega)

/-- The name of a file of order parameters, clouds.py:34, 37-41, 44 and 46: `base` is the name without its extension and `mid` is `_t`, `_space_t` or `_surf_t`. Other than two
pieces cannot be unpacked: `ValueError`. -/
def cloudName (base mid ext : List Char) : R (List Char) :=
  match splitT base with
  | [a, d] => .ok (a ++ mid ++ d ++ ext)
  | _ => .error .invalidArgument

variable {F : Type} [Field F] [LinearOrder F]

/-- The coordinates of a particle that are used -/
structure Row (F : Type) where
  q6 : F
  w4 : F

/-- `np.where(spaceCloud[:,name2column['q6']]>0)`, clouds.py:43 -/
def inside (space : List (Row F)) : List Nat := (List.range space.length).filter fun i => (space[i]?).any fun r => decide (0 < r.q6)

/-- `np.where` of a condition on the lines -/
def whereRows (p : Row F → Bool) (rows : List (Row F)) : List Nat := (List.range rows.length).filter fun i => (rows[i]?).any p

/-- `cloud[inside2]`, clouds.py:44-46; an index beyond is an `IndexError`. -/
def select {A : Type} (l : List A) (idx : List Nat) : R (List A) := idx.mapM fun i =>
  match l[i]? with
  | some a => .ok a
  | none => .error .outOfRange

/-- The subsets, clouds.py:48-63 -/
structure Subsets where
  all : List Nat
  liquid : List Nat
  crystal : List Nat
  mrco : List Nat
  fcc : List Nat
  hcp : List Nat

/-- `subsets`, clouds.py:48-63, from the lines that are kept -/
def subsets (rows : List (Row F)) : Subsets where
  all := List.range rows.length
  liquid := whereRows (fun r => decide (r.q6 < 1 / 4)) rows
  crystal := whereRows (fun r => decide (r.q6 > 7 / 20)) rows
  mrco := whereRows (fun r => decide (r.q6 < 7 / 20) && decide (r.q6 > 1 / 4)) rows
  fcc := whereRows (fun r => decide (r.q6 > 7 / 20) && decide (r.w4 < 0)) rows
  hcp := whereRows (fun r => decide (r.q6 > 7 / 20) && decide (r.w4 > 0)) rows

end CloudSets
end Py
end Colloids
