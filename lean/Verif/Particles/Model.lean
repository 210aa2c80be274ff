import Verif.Index.Model

/-!
# Model of `lib/particles.cpp`, `lib/particles.hpp` and `lib/periodic.cpp`: positions and neighbours

Coordinates are elements of a linearly ordered field: exact arithmetic. The spatial index is the R* tree
index made by `makeRTreeIndex`. Member functions that are `virtual` (`getDiff`, `selectEnclosed`) are
gathered in `Geometry`, so that the same model of the neighbour searches serves `Particles` and
`PeriodicParticles`.
-/

namespace Colloids

/-- `Coord`: a `valarray<double>` of three elements (lib/index.hpp). -/
abbrev Coord (G : Type) := Fin 3 → G

/-- `dot` lib/index.hpp:63 (sum of the products of the components). -/
def dot3 {G : Type} [Add G] [Mul G] (v w : Coord G) : G := v 0 * w 0 + v 1 * w 1 + v 2 * w 2

/-- `Particles` lib/particles.hpp:92-106. The neighbour list is returned by the function making it
instead of being stored. -/
structure Particles (G : Type) where
  pos : List (Coord G)
  bb : Box 3 G
  radius : G
  index : Option (RStarIndex G)

/-- The virtual members used by the neighbour searches (lib/particles.hpp:125-142). -/
structure Geometry (G : Type) where
  getDiff : Particles G → Coord G → Nat → R (Coord G)
  selectEnclosed : Particles G → Box 3 G → R (List Nat)

namespace Particles
variable {G : Type} [Field G] [LinearOrder G]

/-- `at(i)`: throws if out of range. -/
def at_ (ps : Particles G) (i : Nat) : R (Coord G) :=
  match ps.pos[i]? with
  | some x => .ok x
  | none => .error .outOfRange

/-- `Particles::bounds` lib/particles.cpp:198-208. -/
def bounds (center : Coord G) (r : G) : Box 3 G := ⟨fun a => center a - r, fun a => center a + r⟩

/-- `Particles::getDiff(Coord, size_t)` lib/particles.hpp:277-282. -/
def getDiff (ps : Particles G) (c : Coord G) (i : Nat) : R (Coord G) := do
  let x ← ps.at_ i
  return x - c

/-- `Particles::selectEnclosed` lib/particles.hpp:293-299. Without an index, release builds dereference
a null pointer (debug builds throw). -/
def selectEnclosed (ps : Particles G) (b : Box 3 G) : R (List Nat) :=
  match ps.index with
  | some t => .ok (RStarIndex.select t b)
  | none => .error .ub

/-- The members of `Particles` itself. -/
def geometry : Geometry G := ⟨getDiff, selectEnclosed⟩

/-- `Particles::push_back` lib/particles.cpp:82-87. -/
def pushBack (P : RParams G) (H : Heur 3 G) (ps : Particles G) (x : Coord G) : R (Particles G) :=
  match ps.index with
  | some t => do
    let t' ← t.insert P H ps.pos.length (bounds x 0)
    return { ps with pos := ps.pos ++ [x], index := some t' }
  | none => .ok { ps with pos := ps.pos ++ [x] }

/-- `Particles::makeRTreeIndex` lib/particles.cpp:212-220. -/
def makeRTreeIndex (P : RParams G) (H : Heur 3 G) (ps : Particles G) : R (Particles G) := do
  let t ← RStarIndex.ofBoxes P H (ps.pos.map fun x => bounds x 0)
  return { ps with index := some t }

/-- `Particles::operator*=(Coord)` lib/particles.cpp:125-134: only the upper edges of the box are
scaled, and the index is left alone. -/
def scaleBy (ps : Particles G) (v : Coord G) : Particles G :=
  { ps with bb := ⟨ps.bb.lo, fun a => ps.bb.hi a * v a⟩, pos := ps.pos.map fun x => x * v }

/-- `Particles::operator*=(double)` lib/particles.cpp:136-143. -/
def scale (ps : Particles G) (mul : G) : Particles G :=
  let q := ps.scaleBy (fun _ => mul)
  { q with radius := q.radius * mul }

/-- `Particles::operator+=` lib/particles.cpp:146-155 (the loop is parallel; its iterations are
independent). -/
def translate (ps : Particles G) (v : Coord G) : Particles G :=
  { ps with bb := ps.bb.translate v, pos := ps.pos.map (fun x => x + v),
            index := ps.index.map fun t => RTree.translate t v }

/-- The loop of `getEuclidianNeighbours` lib/particles.cpp:243-248, 261-267. -/
def keepNear (g : Geometry G) (ps : Particles G) (center : Coord G) (rSq : G) (skip : Nat → Bool)
    (cand : List Nat) : R (List Nat) :=
  cand.foldlM (fun acc p =>
    if skip p then .ok acc else do
      let diff ← g.getDiff ps center p
      return if dot3 diff diff < rSq then acc ++ [p] else acc) []

/-- `Particles::getEuclidianNeighbours(Coord, double)` lib/particles.cpp:236-250. -/
def getEuclidianNeighbours (g : Geometry G) (ps : Particles G) (center : Coord G) (range : G) :
    R (List Nat) := do
  let cand ← g.selectEnclosed ps (bounds center range)
  keepNear g ps center (range * range) (fun _ => false) cand

/-- `Particles::getEuclidianNeighbours(size_t, double)` lib/particles.cpp:255-269. -/
def getEuclidianNeighboursOf (g : Geometry G) (ps : Particles G) (center : Nat) (range : G) :
    R (List Nat) := do
  let c ← getR ps.pos center
  let cand ← g.selectEnclosed ps (bounds c range)
  keepNear g ps c (range * range) (fun p => decide (p = center)) cand

/-- `Particles::getEuclidianNeighboursBySqDist` lib/particles.cpp:273-287. -/
def getEuclidianNeighboursBySqDist (g : Geometry G) (ps : Particles G) (center : Coord G) (range : G) :
    R (List (G × Nat)) := do
  let cand ← g.selectEnclosed ps (bounds center range)
  cand.foldlM (fun acc p => do
      let diff ← g.getDiff ps center p
      return if dot3 diff diff < range * range then mmInsert (dot3 diff diff) p acc else acc) []

/-- The `while(ngb.empty())` loop of `getNearestNeighbour` lib/particles.cpp:295-302, with at most
`fuel` searches. -/
def nearestRange (g : Geometry G) (ps : Particles G) (center : Coord G) : Nat → G → R (G × List Nat)
  | 0, _ => .error .diverge
  | fuel + 1, rg => do
    let ngb ← getEuclidianNeighbours g ps center rg
    if ngb.isEmpty then nearestRange g ps center fuel (rg * (11 / 10)) else return (rg, ngb)

/-- `Particles::getNearestNeighbour` lib/particles.cpp:293-321. -/
def getNearestNeighbour (fuel : Nat) (g : Geometry G) (ps : Particles G) (center : Coord G) (range : G) :
    R Nat := do
  let r ← nearestRange g ps center fuel range
  if r.2.length = 1 then getR r.2 0 else do
    let s ← r.2.foldlM (fun (s : G × Nat) p => do
      let diff ← g.getDiff ps center p
      return if dot3 diff diff < s.1 then (dot3 diff diff, p) else s) (r.1 * r.1, ps.pos.length)
    return s.2

/-- `Particles::makeNgbList(double)` lib/particles.cpp:326-334. -/
def makeNgbList (g : Geometry G) (ps : Particles G) (bondLength : G) : R (List (List Nat)) :=
  (List.range ps.pos.length).mapM fun p =>
    getEuclidianNeighboursOf g ps p (2 * bondLength * ps.radius)

/-- `Particles::cut` lib/particles.cpp:93-103. The result is a `Particles`, whatever the class of the
original, and has the default radius. -/
def cut (P : RParams G) (H : Heur 3 G) (ps : Particles G) (sep : G) : R (Particles G) := do
  let t ← RStarIndex.ofBoxes P H []
  ps.pos.foldlM (fun out x => do
    let ngb ← getEuclidianNeighbours geometry out x sep
    if ngb.isEmpty then pushBack P H out x else return out) ⟨[], ps.bb, 1, some t⟩

/-- `Particles::removeShortRange` lib/particles.cpp:109-121. -/
def removeShortRange (P : RParams G) (H : Heur 3 G) (g : Geometry G) (ps : Particles G) (sep : G) :
    R (Particles G) :=
  match ps.index with
  | none => .error .logicError
  | some _ =>
    (List.range ps.pos.length).foldlM (fun out p => do
      let ngb ← getEuclidianNeighboursOf g ps p sep
      if ngb.isEmpty then do
        let x ← getR ps.pos p
        pushBack P H out x
      else return out) ⟨[], ps.bb, 1, none⟩

/-- `Particles::selectInside_noindex` lib/particles.cpp:171-191: `upper` starts at zero, `lower` at the
first particle. -/
def selectInsideNoIndex (ps : Particles G) (margin : G) (noZ : Bool) : R (List Nat) := do
  let front ← getR ps.pos 0
  let upper := ps.pos.foldl (fun u x => fun a => max (u a) (x a)) (fun _ => 0)
  let lower := ps.pos.foldl (fun u x => fun a => min (u a) (x a)) front
  let upper' : Coord G := fun a => if a.val < 3 - noZ.toNat then upper a - margin else upper a
  let lower' : Coord G := fun a => if a.val < 3 - noZ.toNat then lower a + margin else lower a
  (List.range ps.pos.length).foldlM (fun ret p => do
    let x ← getR ps.pos p
    return if (List.finRange 3).all (fun a => decide (x a ≤ upper' a)) &&
      (List.finRange 3).all (fun a => decide (lower' a ≤ x a)) then ret ++ [p] else ret) []

end Particles

namespace Periodic
variable {G : Type} [Field G] [LinearOrder G]

/-- `PeriodicParticles::getPeriod` lib/periodic.hpp:61-64. -/
def getPeriod (ps : Particles G) (a : Fin 3) : G := ps.bb.hi a - ps.bb.lo a

/-- One component of `periodify` lib/periodic.cpp:31-32. -/
def wrap1 (L v : G) : G :=
  let v := if v > L / 2 then v - L else v
  if v ≤ -L / 2 then v + L else v

/-- `PeriodicParticles::periodify` lib/periodic.cpp:27-34. -/
def periodify (ps : Particles G) (v : Coord G) : Coord G := fun a => wrap1 (getPeriod ps a) (v a)

/-- `PeriodicParticles::getDiff(Coord, size_t)` lib/periodic.cpp:38-44. -/
def getDiff (ps : Particles G) (c : Coord G) (i : Nat) : R (Coord G) := do
  let d ← Particles.getDiff ps c i
  return periodify ps d

/-- `PeriodicParticles::getDiff(size_t, size_t)` lib/periodic.cpp:46-52. -/
def getDiffBetween (ps : Particles G) (i j : Nat) : R (Coord G) := do
  let y ← ps.at_ j
  let x ← ps.at_ i
  return periodify ps (y - x)

/-- The translations visited by `selectEnclosed` lib/periodic.cpp:89-98: -1, 0 or 1 period on each
axis. -/
def shifts (ps : Particles G) : List (Coord G) :=
  ([-1, 0, 1] : List Int).flatMap fun i : Int => ([-1, 0, 1] : List Int).flatMap fun j : Int =>
    ([-1, 0, 1] : List Int).map fun k : Int => fun a : Fin 3 =>
      match a with
      | 0 => (i : G) * getPeriod ps 0
      | 1 => (j : G) * getPeriod ps 1
      | 2 => (k : G) * getPeriod ps 2

/-- `PeriodicParticles::selectEnclosed` lib/periodic.cpp:78-116. -/
def selectEnclosed (ps : Particles G) (b : Box 3 G) : R (List Nat) :=
  if ps.bb.encloses b then ps.selectEnclosed b else do
    let total ← (shifts ps).mapM fun v => ps.selectEnclosed (b.translate v)
    return sortUnique total.flatten

/-- The members overridden by `PeriodicParticles`. -/
def geometry : Geometry G := ⟨getDiff, selectEnclosed⟩

/-- `PeriodicParticles::selectInside` and `selectInside_noindex` lib/periodic.cpp:66-72,
lib/periodic.hpp:54. -/
def selectInside (ps : Particles G) : List Nat := List.range ps.pos.length

end Periodic
end Colloids
