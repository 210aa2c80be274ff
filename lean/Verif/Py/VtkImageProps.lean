import Verif.CommonLemmas
import Verif.Py.VtkImageModel

/-! # C262: images of LIF files as VTK files -/

namespace Colloids
namespace Py
namespace VtkImage

open PyLif
open Lif (Byte)

theorem frame_inv {s : Serie} {t : Int} {a : Arr} (h : s.getFrame t = .ok a) :
    ∃ o p, s.getOffset [("T", t)] = .ok o ∧ seek o = .ok p ∧ a.shape = s.frameShape ∧ a.data = (s.file.drop p).take s.pixelsPerFrame ∧ a.data.length = s.frameShape.prod := by
  rw [Serie.getFrame, Serie.frameAt] at h
  cases h1 : s.getOffset [("T", t)] with
  | error e =>
    rw [h1] at h
    exact absurd h (by simp [error_bind, Except.map])
  | ok o =>
    rw [h1, ok_bind] at h
    cases h2 : seek o with
    | error e =>
      rw [h2] at h
      exact absurd h (by simp [error_bind, Except.map])
    | ok p =>
      rw [h2, ok_bind, fromfile] at h
      split at h
      · rename_i hl
        simp only [Except.map, Except.ok.injEq] at h
        subst h
        exact ⟨o, p, rfl, h2, rfl, rfl, hl⟩
      · exact absurd h (by simp [Except.map])

/-- A pixel of a frame of three dimensions. -/
theorem get3 {a : Arr} {X Y Z : Nat} (hs : a.shape = [Z, Y, X]) (hl : a.data.length = Z * Y * X) {x y z : Nat} (hx : x < X) (hy : y < Y) (hz : z < Z) :
    ∃ b, a.get [z, y, x] = .ok b ∧ a.data[(z * Y + y) * X + x]? = some b := by
  have hlt : (z * Y + y) * X + x < a.data.length := by
    rw [hl]
    have h1 : z * Y + y + 1 ≤ Z * Y := by
      calc z * Y + y + 1 ≤ z * Y + Y := by omega
        _ = (z + 1) * Y := by rw [Nat.succ_mul]
        _ ≤ Z * Y := Nat.mul_le_mul_right _ hz
    calc (z * Y + y) * X + x < (z * Y + y) * X + X := by omega
      _ = (z * Y + y + 1) * X := by rw [Nat.succ_mul]
      _ ≤ Z * Y * X := Nat.mul_le_mul_right _ h1
  refine ⟨a.data[(z * Y + y) * X + x], ?_, List.getElem?_eq_getElem hlt⟩
  rw [Arr.get, hs, if_pos]
  · have : ravel [Z, Y, X] [z, y, x] = (z * Y + y) * X + x := by simp [ravel]
    rw [this, List.getElem?_eq_getElem hlt]
  · simp [hx, hy, hz]

theorem place (X Y x y z : Nat) : x + X * (y + Y * z) = (z * Y + y) * X + x := by
  rw [Nat.mul_comm X, Nat.mul_comm Y, Nat.add_comm y, Nat.add_comm x]

/-- C262. In the file of `getVTK` for a series of three dimensions, the point of coordinates x, y, z is the pixel of column x, line y and slice z of `getFrame`, and there
are as many points as pixels. -/
theorem C262_getVTK_partial (s : Serie) (t : Int) (a : Arr) (X Y Z : Nat) (hb : s.boxShape = [X, Y, Z]) (h : s.getFrame t = .ok a) :
    ∃ v, getVTK s t = .ok v ∧ v.dims = [X, Y, Z] ∧ v.points = X * Y * Z ∧ v.comps = 1 ∧ v.data.length = X * Y * Z ∧
      ∀ x < X, ∀ y < Y, ∀ z < Z, ∃ b, a.get [z, y, x] = .ok b ∧ v.at x y z 0 = some b := by
  obtain ⟨o, p, h1, h2, h3, h4, h5⟩ := frame_inv h
  have hf : s.frameShape = [Z, Y, X] := by rw [Serie.frameShape, hb]; rfl
  have hp : s.pixelsPerFrame = X * Y * Z := by rw [Serie.pixelsPerFrame, hb]; simp [Nat.mul_assoc]
  have hl : a.data.length = Z * Y * X := by rw [h5, hf]; simp [Nat.mul_assoc]
  refine ⟨⟨[X, Y, Z], X * Y * Z, 1, a.data⟩, ?_, rfl, rfl, rfl, ?_, fun x hx y hy z hz => ?_⟩
  · rw [getVTK, hb, three, if_pos (by simp), ok_bind, h1, ok_bind, h2, ok_bind, h4, hp]
    rfl
  · show a.data.length = _
    rw [hl, Nat.mul_comm, Nat.mul_comm Z, Nat.mul_assoc]
  · obtain ⟨b, h6, h7⟩ := get3 (h3.trans hf) hl hx hy hz
    refine ⟨b, h6, ?_⟩
    simp only [Vtk.at]
    rw [Nat.mul_one, Nat.add_zero, place, h7]

/-- C262, the part that is false. For a series of images of two dimensions, `getVTK` is an error, whatever the time step. -/
theorem C262_flat_counterexample (s : Serie) (t : Int) (X Y : Nat) (hb : s.boxShape = [X, Y]) : getVTK s t = .error .invalidArgument := by
  rw [getVTK, hb, three, if_neg (by simp)]
  rfl

theorem loop_eq (shape : List Nat) (n c : Nat) (dims : List Nat) (hd : three (shape ++ List.replicate (3 - shape.length) 1) = .ok dims) (k : Nat) (rest : List Byte) :
    loop shape n c k rest = .ok ((List.range k).map fun t => ⟨dims, n, c, (rest.drop (t * (n * c))).take (n * c)⟩) := by
  induction k generalizing rest with
  | zero => rfl
  | succ k ih =>
    rw [loop, hd, ok_bind, ih, ok_bind, List.range_succ_eq_map, List.map_cons, List.map_map]
    simp only [Nat.zero_mul, List.drop_zero]
    show Except.ok _ = _
    congr 2
    apply List.map_congr_left
    intro t _
    simp only [Function.comp, List.drop_drop, Nat.succ_eq_add_one]
    rw [Nat.succ_mul, Nat.add_comm]

theorem offset_T {s : Serie} {inc t o : Int} (hi : s.bytesInc "T" = .ok inc) (h : s.getOffset [("T", t)] = .ok o) : o = s.offset + inc * t := by
  rw [Serie.getOffset, List.foldlM_cons, hi] at h
  simp only [ok_bind, List.foldlM_nil, pure_bind, Int.zero_add] at h
  split at h
  · exact absurd h (by simp)
  · exact (Except.ok.inj h).symm

theorem offset_nil {s : Serie} (hm : 0 < s.memorySize) : s.getOffset [] = .ok (s.offset : Int) := by
  have : ¬ (s.memorySize : Int) ≤ 0 := by omega
  rw [Serie.getOffset, List.foldlM_nil]
  simp only [pure_bind, if_neg this, Int.add_zero]
  rfl

/-- The files of the script for a series of one channel whose frames follow each other in the file. -/
theorem script_eq (s : Serie) (hm : 0 < s.memorySize) (inc : Int) (hi : s.bytesInc "T" = .ok inc) (hinc : inc = s.pixelsPerFrame ∨ s.nbFrames ≤ 1) (dims : List Nat)
    (hd : three (s.frameShape ++ List.replicate (3 - s.frameShape.length) 1) = .ok dims) :
    ∃ out, script s 1 = .ok out ∧ out.length = s.nbFrames ∧ ∀ t < s.nbFrames, ∀ a, s.getFrame t = .ok a → out[t]? = some ⟨dims, s.pixelsPerFrame, 1, a.data⟩ := by
  refine ⟨(List.range s.nbFrames).map fun t => ⟨dims, s.pixelsPerFrame, 1, ((s.file.drop s.offset).drop (t * (s.pixelsPerFrame * 1))).take (s.pixelsPerFrame * 1)⟩, ?_, ?_,
    fun t ht a ha => ?_⟩
  · rw [script, offset_nil hm, ok_bind, seek, if_neg (by omega), ok_bind, Int.toNat_natCast]
    exact loop_eq _ _ _ _ hd _ _
  · rw [List.length_map, List.length_range]
  · obtain ⟨o, p, h1, h2, -, h4, -⟩ := frame_inv ha
    have ho := offset_T hi h1
    rw [seek] at h2
    split at h2
    · exact absurd h2 (by simp)
    · have hp : p = s.offset + t * s.pixelsPerFrame := by
        rw [← Except.ok.inj h2, ho]
        rcases hinc with rfl | h0
        · rw [Int.mul_comm]
          omega
        · obtain rfl : t = 0 := by omega
          simp
      rw [List.getElem?_map, List.getElem?_range ht, Option.map_some, h4, hp, List.drop_drop, Nat.mul_one]

/-- C262. The script writes a file by time step; for a series of one channel whose frames, if there are several, follow each other, with as many slices as columns, the point of coordinates x, y, z
of the file of time t is the pixel of column x, line y and slice z of this frame. -/
theorem C262_script_partial (s : Serie) (hm : 0 < s.memorySize) (inc : Int) (hi : s.bytesInc "T" = .ok inc) (hinc : inc = s.pixelsPerFrame ∨ s.nbFrames ≤ 1) (X Y : Nat) (hb : s.boxShape = [X, Y, X]) :
    ∃ out, script s 1 = .ok out ∧ out.length = s.nbFrames ∧ ∀ t < s.nbFrames, ∀ a, s.getFrame t = .ok a →
      ∃ v, out[t]? = some v ∧ v.dims = [X, Y, X] ∧ v.points = X * Y * X ∧ ∀ x < X, ∀ y < Y, ∀ z < X, ∃ b, a.get [z, y, x] = .ok b ∧ v.at x y z 0 = some b := by
  have hf : s.frameShape = [X, Y, X] := by rw [Serie.frameShape, hb]; rfl
  obtain ⟨out, h1, h2, h3⟩ := script_eq s hm inc hi hinc [X, Y, X] (by rw [hf]; rfl)
  refine ⟨out, h1, h2, fun t ht a ha => ⟨_, h3 t ht a ha, rfl, ?_, fun x hx y hy z hz => ?_⟩⟩
  · rw [Serie.pixelsPerFrame, hb]; simp [Nat.mul_assoc]
  · obtain ⟨o, p, -, -, h4, -, h5⟩ := frame_inv ha
    obtain ⟨b, h6, h7⟩ := get3 (h4.trans hf) (by rw [h5, hf]; simp [Nat.mul_assoc]) hx hy hz
    refine ⟨b, h6, ?_⟩
    simp only [Vtk.at]
    rw [Nat.mul_one, Nat.add_zero, place, h7]

/-- C262. For a series of square images of one channel that follow each other, the point of coordinates x, y, 0 of the file of time t written by the script is the pixel of column x
and line y of this image, and there is a single slice. -/
theorem C262_square_partial (s : Serie) (hm : 0 < s.memorySize) (inc : Int) (hi : s.bytesInc "T" = .ok inc) (hinc : inc = s.pixelsPerFrame ∨ s.nbFrames ≤ 1) (X : Nat) (hb : s.boxShape = [X, X]) :
    ∃ out, script s 1 = .ok out ∧ out.length = s.nbFrames ∧ ∀ t < s.nbFrames, ∀ a, s.getFrame t = .ok a →
      ∃ v, out[t]? = some v ∧ v.dims = [X, X, 1] ∧ v.points = X * X ∧ ∀ x < X, ∀ y < X, ∃ b, a.get [y, x] = .ok b ∧ v.at x y 0 0 = some b := by
  have hf : s.frameShape = [X, X] := by rw [Serie.frameShape, hb]; rfl
  obtain ⟨out, h1, h2, h3⟩ := script_eq s hm inc hi hinc [X, X, 1] (by rw [hf]; rfl)
  refine ⟨out, h1, h2, fun t ht a ha => ⟨_, h3 t ht a ha, rfl, ?_, fun x hx y hy => ?_⟩⟩
  · rw [Serie.pixelsPerFrame, hb]; simp
  · obtain ⟨o, p, -, -, h4, -, h5⟩ := frame_inv ha
    have hlt : y * X + x < a.data.length := by
      rw [h5, hf]
      calc y * X + x < y * X + X := by omega
        _ = (y + 1) * X := by rw [Nat.succ_mul]
        _ ≤ X * X := Nat.mul_le_mul_right _ hy
        _ = [X, X].prod := by simp
    refine ⟨a.data[y * X + x], ?_, ?_⟩
    · rw [Arr.get, h4, hf, if_pos (by simp [hx, hy])]
      have : ravel [X, X] [y, x] = y * X + x := by simp [ravel]
      rw [this, List.getElem?_eq_getElem hlt]
    · simp only [Vtk.at]
      rw [Nat.mul_zero, Nat.add_zero, Nat.mul_one, Nat.add_zero, Nat.mul_comm, Nat.add_comm, List.getElem?_eq_getElem hlt]

/-- C262, the part that is false. With fewer slices than columns, the dimensions are in the reverse order and the first point of the second line of the file is a pixel of the first
line of the frame, the one of the column of the number of slices. -/
theorem C262_order_counterexample (s : Serie) (hm : 0 < s.memorySize) (inc : Int) (hi : s.bytesInc "T" = .ok inc) (hinc : inc = s.pixelsPerFrame ∨ s.nbFrames ≤ 1) (X Y Z : Nat) (hb : s.boxShape = [X, Y, Z])
    (hz : 0 < Z) (hx : Z < X) (hy : 0 < Y) :
    ∃ out, script s 1 = .ok out ∧ ∀ t < s.nbFrames, ∀ a, s.getFrame t = .ok a →
      ∃ v, out[t]? = some v ∧ v.dims = [Z, Y, X] ∧ ∃ b, a.get [0, 0, Z] = .ok b ∧ v.at 0 1 0 0 = some b := by
  have hf : s.frameShape = [Z, Y, X] := by rw [Serie.frameShape, hb]; rfl
  obtain ⟨out, h1, h2, h3⟩ := script_eq s hm inc hi hinc [Z, Y, X] (by rw [hf]; rfl)
  refine ⟨out, h1, fun t ht a ha => ⟨_, h3 t ht a ha, rfl, ?_⟩⟩
  obtain ⟨o, p, -, -, h4, -, h5⟩ := frame_inv ha
  obtain ⟨b, h6, h7⟩ := get3 (h4.trans hf) (by rw [h5, hf]; simp [Nat.mul_assoc]) hx hy hz
  refine ⟨b, h6, ?_⟩
  simp only [Vtk.at]
  simpa using h7

/-- Two frames of three columns, two lines and two slices. -/
def sample : Serie := ⟨[⟨1, 3, 1⟩, ⟨2, 2, 3⟩, ⟨3, 2, 6⟩, ⟨4, 2, 12⟩], [24], (List.range 26).map UInt8.ofNat, 2⟩

example : sample.boxShape = [3, 2, 2] ∧ 0 < sample.memorySize ∧ sample.bytesInc "T" = .ok (sample.pixelsPerFrame : Int) ∧
    (⟨[⟨1, 2, 1⟩, ⟨2, 2, 2⟩], [4], [], 0⟩ : Serie).bytesInc "T" = .ok 0 ∧ (⟨[⟨1, 2, 1⟩, ⟨2, 2, 2⟩], [4], [], 0⟩ : Serie).nbFrames = 1 ∧ (sample.getFrame 1).toOption.isSome = true ∧
    1 < sample.nbFrames := by decide +kernel

/-- Two frames of two columns, two lines and two slices, and an image. -/
example : (⟨[⟨1, 2, 1⟩, ⟨2, 2, 2⟩, ⟨3, 2, 4⟩, ⟨4, 2, 8⟩], [16], [], 2⟩ : Serie).boxShape = [2, 2, 2] ∧
    (⟨[⟨1, 2, 1⟩, ⟨2, 3, 2⟩], [6], [], 0⟩ : Serie).boxShape = [2, 3] ∧ (⟨[⟨1, 2, 1⟩, ⟨2, 2, 2⟩], [4], [], 0⟩ : Serie).boxShape = [2, 2] := by decide +kernel

end VtkImage
end Py
end Colloids
