import Verif.Boo.Model
import Verif.Bonds.Model
import Mathlib.Algebra.Module.Defs
import Mathlib.Data.Real.Basic

/-! # Bond orientational order of a set of particles: lib/particles.cpp:349-518

A tensor is an element of a real vector space `V` (36 complex coefficients in the code). The spherical
harmonics of the bond between two particles are a parameter of the model. -/

namespace Colloids
namespace Boo
variable {V : Type} [AddCommGroup V] [Module ℝ V]

/-- `Particles::sphHarm_OneBond`, lib/particles.cpp:349-353: reads the positions of both particles, out
of range if there is no such particle among the `n` ones. -/
def sphHarm (n : Nat) (sph : Nat → Nat → V) (p q : Nat) : R V :=
  if p < n ∧ q < n then .ok (sph p q) else .error .ub

/-- `Particles::getBOO`, lib/particles.cpp:359-375. -/
noncomputable def getBOO (n : Nat) (ngbs : NgbList) (sph : Nat → Nat → V) (center : Nat) : R V := do
  let row ← getR ngbs center
  if row.length > 0 then
    let s ← row.foldlM (fun s q => do
      let y ← sphHarm n sph center q
      pure (s + y)) (0 : V)
    pure ((row.length : ℝ)⁻¹ • s)
  else pure 0

/-- `Particles::getCgBOO`, lib/particles.cpp:381-391. -/
noncomputable def getCgBOO (ngbs : NgbList) (boos : List V) (center : Nat) : R V := do
  let b ← getR boos center
  let row ← getR ngbs center
  let s ← row.foldlM (fun s q => do
    let y ← getR boos q
    pure (s + y)) b
  pure (((1 + row.length : Nat) : ℝ)⁻¹ • s)

/-- The array of tensors and the array of numbers of bonds. -/
structure Acc (V : Type) where
  sums : List V
  nbs : List Nat

/-- `BOO[t] += v; nbs[t]++`, for instance lib/particles.cpp:406-407. -/
def Acc.add (a : Acc V) (t : Nat) (v : V) : R (Acc V) := do
  let s ← modifyR a.sums t (· + v)
  let k ← modifyR a.nbs t (· + 1)
  pure ⟨s, k⟩

/-- Initial state, lib/particles.cpp:398-399: the array is resized, which keeps what it contained. -/
def Acc.start (n : Nat) (boos : List V) : Acc V := ⟨resizeTo 0 n boos, List.replicate n 0⟩

/-- Division of all the sums by the numbers of bonds, lib/particles.cpp:412-413. `none` stands for the
NaNs of a division by zero. -/
noncomputable def Acc.divide (n : Nat) (a : Acc V) : R (List (Option V)) :=
  (List.range n).mapM (fun p => do
    let b ← getR a.sums p
    let k ← getR a.nbs p
    pure (if k = 0 then none else some ((k : ℝ)⁻¹ • b)))

/-- Division of the sums of non null number of bonds, lib/particles.cpp:470-472. -/
noncomputable def Acc.divideSafe (n : Nat) (a : Acc V) : R (List V) :=
  (List.range n).mapM (fun p => do
    let b ← getR a.sums p
    let k ← getR a.nbs p
    pure (if k ≠ 0 then (k : ℝ)⁻¹ • b else b))

/-- `Particles::getBOOs(BOO)`, lib/particles.cpp:396-414. -/
noncomputable def getBOOs (n : Nat) (ngbs : NgbList) (sph : Nat → Nat → V) (boos : List V) :
    R (List (Option V)) := do
  let acc ← (List.range ngbs.length).foldlM (fun acc p => do
    let row ← getR ngbs p
    (fromLowerBound row (p + 1)).foldlM (fun acc q => do
      let y ← sphHarm n sph p q
      let acc ← Acc.add acc p y
      Acc.add acc q y) acc) (Acc.start n boos)
  acc.divide n

/-- `std::set_intersection` of two sorted ranges (with the number of steps as fuel). -/
def setIntersectionAux : Nat → List Nat → List Nat → List Nat
  | 0, _, _ => []
  | _ + 1, [], _ => []
  | _ + 1, _, [] => []
  | fuel + 1, a :: l, b :: l' =>
    if a < b then setIntersectionAux fuel l (b :: l')
    else if b < a then setIntersectionAux fuel (a :: l) l'
    else a :: setIntersectionAux fuel l l'

/-- `std::set_intersection` of two sorted ranges. -/
def setIntersection (l l' : List Nat) : List Nat := setIntersectionAux (l.length + l'.length) l l'

/-- `Particles::getSurfBOOs`, lib/particles.cpp:441-473. -/
noncomputable def getSurfBOOs (n : Nat) (ngbs : NgbList) (sph : Nat → Nat → V) (boos : List V) :
    R (List V) := do
  let acc ← (List.range ngbs.length).foldlM (fun acc p => do
    let row ← getR ngbs p
    (fromLowerBound row (p + 1)).foldlM (fun acc q => do
      let y ← sphHarm n sph p q
      let acc ← Acc.add acc p y
      let acc ← Acc.add acc q y
      let rowq ← getR ngbs q
      (setIntersection row rowq).foldlM (fun acc c => Acc.add acc c y) acc) acc) (Acc.start n boos)
  acc.divideSafe n

/-- `Particles::getBOOs_SurfBOOs`, lib/particles.cpp:476-519. -/
noncomputable def getBOOsSurfBOOs (n : Nat) (ngbs : NgbList) (sph : Nat → Nat → V)
    (boos surf : List V) : R (List V × List V) := do
  let acc ← (List.range ngbs.length).foldlM (fun (acc : Acc V × Acc V) p => do
    let row ← getR ngbs p
    (fromLowerBound row (p + 1)).foldlM (fun (acc : Acc V × Acc V) q => do
      let y ← sphHarm n sph p q
      let a ← Acc.add acc.1 p y
      let a ← Acc.add a q y
      let s ← Acc.add acc.2 p y
      let s ← Acc.add s q y
      let rowq ← getR ngbs q
      let s ← (setIntersection row rowq).foldlM (fun acc c => Acc.add acc c y) s
      pure (a, s)) acc) (Acc.start n boos, Acc.start n surf)
  let b ← acc.1.divideSafe n
  let s ← acc.2.divideSafe n
  pure (b, s)

/-- `Particles::getBOOs(selection, BOO)`, lib/particles.cpp:420-425. -/
noncomputable def getBOOsSel (n : Nat) (ngbs : NgbList) (sph : Nat → Nat → V) (sel : List Nat)
    (boos : List V) : R (List V) :=
  sel.foldlM (fun boos p => do
    let b ← getBOO n ngbs sph p
    setR boos p b) (resizeTo 0 n boos)

/-- `Particles::getCgBOOs`, lib/particles.cpp:431-436. -/
noncomputable def getCgBOOs (n : Nat) (ngbs : NgbList) (sel : List Nat) (boos cg : List V) :
    R (List V) :=
  sel.foldlM (fun cg p => do
    let b ← getCgBOO ngbs boos p
    setR cg p b) (resizeTo 0 n cg)

end Boo
end Colloids
