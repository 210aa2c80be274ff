import Verif.Index.Model

/-! # Spatio-temporal queries: `SpatioTemporalIndex` and its slices, lib/index.hpp:106-116, 172-199; lib/index.cpp:40-70

The class is abstract and the library has no implementation of it: the query with a time interval and a box is a
parameter, the other queries are built on it. -/

namespace Colloids

/-- `SpatioTemporalIndex`, lib/index.hpp:106-116: what an implementation must give. -/
structure STQueries (G : Type) where
  query : Nat × Nat → Box 3 G → List Nat
  overallBox : Box 3 G
  overallInterval : Nat × Nat

namespace STQueries
variable {G : Type} [Add G] [Sub G] [Mul G] [OfNat G 2] [LT G] [DecidableLT G]

/-- `operator()(BoundingBox)`, lib/index.cpp:40-43, called by `DynamicParticles::selectEnclosed`. -/
def enclosed (S : STQueries G) (b : Box 3 G) : List Nat := S.query S.overallInterval b

/-- `operator()(Interval)`, lib/index.cpp:46-49, called by `DynamicParticles::selectSpanning`. -/
def spanning (S : STQueries G) (i : Nat × Nat) : List Nat := S.query i S.overallBox

/-- `getSpanningInside`, lib/index.cpp:52-63. -/
def spanningInside (S : STQueries G) (i : Nat × Nat) (margin : G) : List Nat :=
  S.query i (insideBox S.overallBox margin false)

/-- `getInside`, lib/index.cpp:67-70. -/
def inside (S : STQueries G) (margin : G) : List Nat := S.spanningInside S.overallInterval margin

/-- `SpatioTemporalIndex_slice::operator()`, lib/index.hpp:184-189; `conv` gives the position of a trajectory at the
time of the slice. The template refers to a converter that `DynamicParticles::sliceIndex` destroys at once; here it
stays. -/
def slice (S : STQueries G) (time : Nat) (conv : Nat → R Nat) (b : Box 3 G) : R (List Nat) :=
  (S.query (time, time) b).mapM conv

end STQueries

/-- A direct implementation, to have one: all the objects are tested. -/
def bruteST {G : Type} [LT G] [DecidableLT G] (objs : List ((Nat × Nat) × Box 3 G)) (B : Box 3 G) (I : Nat × Nat) :
    STQueries G where
  query i b := (List.range objs.length).filter fun j =>
    match objs[j]? with
    | some o => decide (o.1.1 ≤ i.1) && decide (i.2 ≤ o.1.2) && b.encloses o.2
    | none => false
  overallBox := B
  overallInterval := I

end Colloids
