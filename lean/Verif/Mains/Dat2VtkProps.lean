import Verif.Mains.Dat2VtkModel
import Verif.Mains.CutterProps
import Verif.Vtk.Props
import Verif.Bonds.Props

/-! # C143: the program `dat2vtk` -/

namespace Colloids
namespace Mains

variable {G : Type} [NatCast G] [Zero G] [One G]

/-- The numbers of a `.cloud` file: the eight invariants of each particle, q4 q6 q8 q10 w4 w6 w8 w10. -/
def cloudOf (n : Nat) (v : Nat → Fin 8 → G) : List (Dat.Num G) :=
  (List.range n).flatMap (fun p => (List.finRange 8).map (fun i => .dbl (v p i)))

theorem cloud_length (n : Nat) (v : Nat → Fin 8 → G) : (cloudOf n v).length = 8 * n := by
  unfold cloudOf
  induction n with
  | zero => rfl
  | succ n ih =>
    rw [List.range_succ, List.flatMap_append, List.length_append, ih]
    simp
    omega

theorem cloud_get (n : Nat) (v : Nat → Fin 8 → G) {p : Nat} (hp : p < n) (i : Fin 8) :
    (cloudOf n v)[8 * p + i.val]? = some (.dbl (v p i)) := by
  induction n with
  | zero => omega
  | succ n ih =>
    have e : cloudOf (n + 1) v = cloudOf n v ++ (List.finRange 8).map (fun i => .dbl (v n i)) := by
      unfold cloudOf
      rw [List.range_succ, List.flatMap_append]
      simp
    rw [e]
    by_cases h : p < n
    · rw [List.getElem?_append_left (by rw [cloud_length]; omega), ih h]
    · have hpn : p = n := by omega
      subst hpn
      rw [List.getElem?_append_right (by rw [cloud_length]; omega), cloud_length, Nat.add_sub_cancel_left]
      simp

theorem columnOf_cloud (n : Nat) (v : Nat → Fin 8 → G) (i : Fin 8) :
    columnOf ((cloudOf n v).map Dat.Num.val) n i.val = (List.range n).map (fun p => v p i) := by
  unfold columnOf
  refine List.map_congr_left (fun p hp => ?_)
  have := cloud_get n v (List.mem_range.1 hp) i
  rw [List.getD_eq_getElem?_getD, List.getElem?_map, this]
  rfl

theorem load_cloud (n : Nat) (v : Nat → Fin 8 → G) : Dat.loadBoo n (some (cloudOf n v)) = .ok ((cloudOf n v).map Dat.Num.val) := by
  have := (Dat.C40_loadBoo n (cloudOf n v)).1 (by rw [cloud_length])
  rw [this, cloud_length]
  simp

/-- C143, what holds: a second argument being given and the path having the token, the file that is written is read back with the positions, the bonds, and
the fields Q4, Q6, cgQ4 and cgQ6 of the invariants. The other fields are named W4, W6, cgW4, cgW6 but are the invariants q8 and q10. -/
theorem C143_vtk_partial (P : Vtk.Printer G) (junk : Coord G) (arg : List Char) (args : List (List Char)) {h t e : List Char} (he : '.' ∉ e)
    (ht : ¬ ['_', 't'] <:+: (h ++ ['_', 't'] ++ t).drop (h.length + 1)) (disk : Disk G) (texts : List Char → Option (List Char))
    (parts : Particles G) (hparts : Dat.ofDat junk (disk (h ++ ['_', 't'] ++ t ++ '.' :: e)) 1 = .ok parts)
    (bonds : List Bond) (hs : IsBondSet bonds) (hb : ∀ b ∈ bonds, b.low ≤ b.high ∧ b.high < szMod)
    (hbonds : texts (h ++ ['_', 't'] ++ t ++ ['.', 'b', 'o', 'n', 'd', 's']) = some (writeBonds bonds))
    (v w : Nat → Fin 8 → G) (hv : disk (h ++ ['_', 't'] ++ t ++ ['.', 'c', 'l', 'o', 'u', 'd']) = some (cloudOf parts.pos.length v))
    (hw : disk (h ++ ['_', 's', 'p', 'a', 'c', 'e'] ++ ['_', 't'] ++ t ++ ['.', 'c', 'l', 'o', 'u', 'd']) =
      some (cloudOf parts.pos.length w)) :
    ∃ text, dat2vtk P.print junk ((h ++ ['_', 't'] ++ t ++ '.' :: e) :: arg :: args) disk texts =
        .ok (h ++ ['_', 't'] ++ t ++ ['.', 'v', 't', 'k'], text) ∧
      Vtk.read P.scan text = some
        { title := ['p', 'a', 'r', 't', 'i', 'c', 'l', 'e', 's']
          points := parts.pos.map fun x => (P.round (x 0), P.round (x 1), P.round (x 2))
          lines := bonds.map fun b => (b.low, b.high)
          data := [.scalars ['Q', '4'] ((List.range parts.pos.length).map fun p => P.round (v p 0)),
            .scalars ['Q', '6'] ((List.range parts.pos.length).map fun p => P.round (v p 1)),
            .scalars ['W', '4'] ((List.range parts.pos.length).map fun p => P.round (v p 2)),
            .scalars ['W', '6'] ((List.range parts.pos.length).map fun p => P.round (v p 3)),
            .scalars ['c', 'g', 'Q', '4'] ((List.range parts.pos.length).map fun p => P.round (w p 0)),
            .scalars ['c', 'g', 'Q', '6'] ((List.range parts.pos.length).map fun p => P.round (w p 1)),
            .scalars ['c', 'g', 'W', '4'] ((List.range parts.pos.length).map fun p => P.round (w p 2)),
            .scalars ['c', 'g', 'W', '6'] ((List.range parts.pos.length).map fun p => P.round (w p 3))] } := by
  have hr : Files.replaceExt (h ++ ['_', 't'] ++ t ++ '.' :: e) [] = h ++ ['_', 't'] ++ t := by
    have := Files.replaceExt_eq [] (h ++ ['_', 't'] ++ t) e [] he
    simpa using this
  have hf := Files.rfind_last h ['_', 't'] t ht
  have hsp : (h ++ ['_', 't'] ++ t).take h.length ++ ['_', 's', 'p', 'a', 'c', 'e'] ++ (h ++ ['_', 't'] ++ t).drop h.length ++
      ['.', 'c', 'l', 'o', 'u', 'd'] = h ++ ['_', 's', 'p', 'a', 'c', 'e'] ++ ['_', 't'] ++ t ++ ['.', 'c', 'l', 'o', 'u', 'd'] := by
    rw [List.append_assoc h, List.take_left, List.drop_left]
    simp
  let col : (Nat → Fin 8 → G) → Fin 8 → List G := fun v i => (List.range parts.pos.length).map fun p => v p i
  refine ⟨Vtk.exportToVTK P.print parts.pos bonds
    [⟨['Q', '4'], col v 0⟩, ⟨['Q', '6'], col v 1⟩, ⟨['W', '4'], col v 2⟩, ⟨['W', '6'], col v 3⟩,
      ⟨['c', 'g', 'Q', '4'], col w 0⟩, ⟨['c', 'g', 'Q', '6'], col w 1⟩, ⟨['c', 'g', 'W', '4'], col w 2⟩, ⟨['c', 'g', 'W', '6'], col w 3⟩]
    [] ['p', 'a', 'r', 't', 'i', 'c', 'l', 'e', 's'], ?_, ?_⟩
  · simp only [dat2vtk, hr, hf, hparts, ok_bind, hbonds, C10_file_roundtrip bonds hs hb, hv, load_cloud, hsp, hw, pure_eq_ok]
    have e : (List.range 4).map (columnOf ((cloudOf parts.pos.length v).map Dat.Num.val) parts.pos.length) ++
        (List.range 4).map (columnOf ((cloudOf parts.pos.length w).map Dat.Num.val) parts.pos.length) =
        [(List.range parts.pos.length).map fun p => v p 0, (List.range parts.pos.length).map fun p => v p 1,
         (List.range parts.pos.length).map fun p => v p 2, (List.range parts.pos.length).map fun p => v p 3,
         (List.range parts.pos.length).map fun p => w p 0, (List.range parts.pos.length).map fun p => w p 1,
         (List.range parts.pos.length).map fun p => w p 2, (List.range parts.pos.length).map fun p => w p 3] := by
      have c := columnOf_cloud parts.pos.length v
      have d := columnOf_cloud parts.pos.length w
      rw [show List.range 4 = [(0 : Fin 8).val, (1 : Fin 8).val, (2 : Fin 8).val, (3 : Fin 8).val] from rfl]
      simp only [List.map_cons, List.map_nil, c, d, List.cons_append, List.nil_append]
    rw [e]
    simp [List.zipIdx, fieldName, col]
  · refine (Vtk.C117_vtk_partial P parts.pos bonds _ [] _ (by decide) ?_ (by simp)).trans ?_
    · intro s hs
      simp only [List.mem_cons, List.not_mem_nil, or_false] at hs
      rcases hs with rfl | rfl | rfl | rfl | rfl | rfl | rfl | rfl <;>
        exact ⟨⟨by simp, by simp [isSpace]⟩, by simp [col]⟩
    · simp [Function.comp_def, col]

/-- C143 does not hold for the third-order invariants: when q8 and w4 of a particle are printed differently, the field W4 of the file is not w4. -/
theorem C143_w4_counterexample (P : Vtk.Printer G) (junk : Coord G) (arg : List Char) (args : List (List Char)) {h t e : List Char} (he : '.' ∉ e)
    (ht : ¬ ['_', 't'] <:+: (h ++ ['_', 't'] ++ t).drop (h.length + 1)) (disk : Disk G) (texts : List Char → Option (List Char))
    (parts : Particles G) (hparts : Dat.ofDat junk (disk (h ++ ['_', 't'] ++ t ++ '.' :: e)) 1 = .ok parts)
    (bonds : List Bond) (hs : IsBondSet bonds) (hb : ∀ b ∈ bonds, b.low ≤ b.high ∧ b.high < szMod)
    (hbonds : texts (h ++ ['_', 't'] ++ t ++ ['.', 'b', 'o', 'n', 'd', 's']) = some (writeBonds bonds))
    (v w : Nat → Fin 8 → G) (hv : disk (h ++ ['_', 't'] ++ t ++ ['.', 'c', 'l', 'o', 'u', 'd']) = some (cloudOf parts.pos.length v))
    (hw : disk (h ++ ['_', 's', 'p', 'a', 'c', 'e'] ++ ['_', 't'] ++ t ++ ['.', 'c', 'l', 'o', 'u', 'd']) =
      some (cloudOf parts.pos.length w)) (p : Nat) (hp : p < parts.pos.length) (hne : P.round (v p 2) ≠ P.round (v p 4)) :
    ∃ name text contents values, dat2vtk P.print junk ((h ++ ['_', 't'] ++ t ++ '.' :: e) :: arg :: args) disk texts = .ok (name, text) ∧
      Vtk.read P.scan text = some contents ∧ Vtk.Data.scalars ['W', '4'] values ∈ contents.data ∧
      values[p]? ≠ some (P.round (v p 4)) := by
  obtain ⟨text, h1, h2⟩ := C143_vtk_partial P junk arg args he ht disk texts parts hparts bonds hs hb hbonds v w hv hw
  refine ⟨_, text, _, (List.range parts.pos.length).map fun p => P.round (v p 2), h1, h2, by simp, ?_⟩
  rw [List.getElem?_map, List.getElem?_range hp, Option.map_some]
  intro h
  exact hne (Option.some.inj h)

/-- C143 does not hold with the syntax that the program shows: with the name of the file as only argument nothing is done. -/
theorem C143_one_argument_counterexample (print : G → List Char) (junk : Coord G) (filename : List Char) (disk : Disk G)
    (texts : List Char → Option (List Char)) : dat2vtk print junk [filename] disk texts = .error .invalidArgument := rfl

/-- C143 does not hold for a file out of a series: without the token `_t` in the path, and all the files being there, the program stops. -/
theorem C143_no_token_counterexample (print : G → List Char) (junk : Coord G) (arg : List Char) (args : List (List Char)) {stem e : List Char}
    (he : '.' ∉ e) (ht : ¬ ['_', 't'] <:+: stem) (disk : Disk G) (texts : List Char → Option (List Char)) (parts : Particles G)
    (hparts : Dat.ofDat junk (disk (stem ++ '.' :: e)) 1 = .ok parts) (bonds : List Bond) (hs : IsBondSet bonds)
    (hb : ∀ b ∈ bonds, b.low ≤ b.high ∧ b.high < szMod)
    (hbonds : texts (stem ++ ['.', 'b', 'o', 'n', 'd', 's']) = some (writeBonds bonds)) (v : Nat → Fin 8 → G)
    (hv : disk (stem ++ ['.', 'c', 'l', 'o', 'u', 'd']) = some (cloudOf parts.pos.length v)) :
    dat2vtk print junk ((stem ++ '.' :: e) :: arg :: args) disk texts = .error .outOfRange := by
  have hr : Files.replaceExt (stem ++ '.' :: e) [] = stem := by
    have := Files.replaceExt_eq [] stem e [] he
    simpa using this
  simp only [dat2vtk, hr, (Files.rfind_none _ _).2 ht, hparts, ok_bind, hbonds, C10_file_roundtrip bonds hs hb, hv, load_cloud, error_bind]

/-- A disk with one particle, its invariants being the numbers from 0 to 7. -/
def exVtkDisk : Disk Nat := fun name =>
  if name = ['a', '_', 't', '1', '.', 'd', 'a', 't'] then some [.nat 1, .nat 1, .nat 1, .nat 9, .nat 9, .nat 9, .nat 3, .nat 4, .nat 5]
  else some (cloudOf 1 (fun _ i => i.val))

/-- The hypotheses of the theorems of C143. -/
example : (¬ ['_', 't'] <:+: (['a'] ++ ['_', 't'] ++ ['1']).drop 2) ∧
    (∃ parts, Dat.ofDat (fun _ => 0) (exVtkDisk (['a'] ++ ['_', 't'] ++ ['1'] ++ '.' :: ['d', 'a', 't'])) 1 = .ok parts ∧ parts.pos.length = 1 ∧
      exVtkDisk (['a'] ++ ['_', 't'] ++ ['1'] ++ ['.', 'c', 'l', 'o', 'u', 'd']) = some (cloudOf parts.pos.length (fun _ i => i.val)) ∧
      exVtkDisk (['a'] ++ ['_', 's', 'p', 'a', 'c', 'e'] ++ ['_', 't'] ++ ['1'] ++ ['.', 'c', 'l', 'o', 'u', 'd']) =
        some (cloudOf parts.pos.length (fun _ i => i.val))) ∧
    IsBondSet [] ∧ Vtk.natPrinter.round 2 ≠ Vtk.natPrinter.round 4 := by
  refine ⟨?_, ⟨_, rfl, rfl, rfl, rfl⟩, by simp [IsBondSet], by decide⟩
  rw [← Files.rfind_none]
  decide +kernel

end Mains
end Colloids
