import Verif.Lif.LocatorModel
import Verif.Lif.SerieProps

/-!
# Properties of the tracking of series (C76)
-/

namespace Colloids.Lif

/-- Bytes of slice `z` of time step `t` of a series of one channel of 8 bits, with slices of
`n` pixels. -/
def sliceOf (s : Serie) (inc n t z : Nat) : List Byte :=
  (s.file.bytes.drop (s.offset + inc * t + n * z)).take n

theorem fill2D_slice (s : Serie) (inc : Nat) (hs : s.Good inc) (X Y Z : Nat)
    (hd : s.spatialDimensions = [X, Y, Z]) (hX : 0 < X) (hY : 0 < Y) (hZ : 0 < Z)
    (hl : X * Y * Z < 2 ^ 31) (hc : s.channels.length = 1) (hinc : X * Y * Z ≤ inc)
    (buf : List Byte) (hb : buf.length = X * Y) (t : Nat) (ht : t < s.nbTimeSteps)
    (z : Nat) (hz : z < Z) :
    ∃ s', s.fill2DBuffer buf t z = .ok (s', sliceOf s inc (X * Y) t z)
      ∧ s'.toHeader = s.toHeader ∧ s'.offset = s.offset ∧ s'.file.bytes = s.file.bytes
      ∧ s'.Good inc := by
  obtain ⟨s', h, h1, h2, h3, h4⟩ := C49_slices s inc hs X Y Z hd hX hY hZ hl
    (by rw [hc, Nat.mul_one]; exact hinc) buf (by rw [hc, Nat.mul_one]; exact hb) t ht z hz
  refine ⟨s', ?_, h1, h2, h3, h4⟩
  rw [h]
  have h5 : X * Y * (z + 1) ≤ X * Y * Z := Nat.mul_le_mul_left _ (by omega)
  rw [Nat.mul_succ] at h5
  rw [hc, Nat.mul_one, Nat.mul_one, List.drop_take, List.drop_drop, List.take_take,
    min_eq_left (by omega)]
  rfl

/-- What links a locator to the series it reads, at any moment. -/
structure Locator.Reads {C : Type} (l : Locator C) (s : Serie) (inc X Y Z : Nat) : Prop where
  header : l.serie.toHeader = s.toHeader
  offset : l.serie.offset = s.offset
  bytes : l.serie.file.bytes = s.file.bytes
  good : l.serie.Good inc
  slice : l.slice.length = X * Y
  totalZ : l.totalZ = Z
  totalT : l.totalT = s.nbTimeSteps
  dims : l.dims = [X, Y, Z]

/-- The setting of the claims: a stack of one channel of 8 bits. -/
structure Serie.Stack (s : Serie) (inc X Y Z : Nat) : Prop where
  good : s.Good inc
  dims : s.spatialDimensions = [X, Y, Z]
  posX : 0 < X
  posY : 0 < Y
  posZ : 0 < Z
  small : X * Y * Z < 2 ^ 31
  channel : s.channels.length = 1
  inc : X * Y * Z ≤ inc
  steps : 0 < s.nbTimeSteps

theorem C76_new {C : Type} (s : Serie) (inc X Y Z : Nat) (h : s.Stack inc X Y Z) :
    ∃ l : Locator C, Locator.new s = .ok l ∧ l.t = 0 ∧ l.frames = [] ∧ l.Reads s inc X Y Z := by
  unfold Locator.new
  rw [getOffset_good s inc h.good 0 h.steps, ok_bind]
  have hoff : (s.file.seek (s.offset + inc * 0)).bytes = s.file.bytes
      ∧ (s.file.seek (s.offset + inc * 0)).failed = false := by
    have h1 := h.good.inside
    have h2 := h.good.small
    unfold IFile.seek
    rw [if_neg (by simp [h.good.ok]), if_neg (by omega)]
    exact ⟨rfl, h.good.ok⟩
  simp only [h.dims]
  have g0 : getR [X, Y, Z] 0 = .ok X := rfl
  have g1 : getR [X, Y, Z] 1 = .ok Y := rfl
  rw [g0, ok_bind, g1, ok_bind, pure_eq_ok]
  refine ⟨_, rfl, rfl, rfl, rfl, rfl, hoff.1, ⟨hoff.2, ?_, ?_, h.good.inc⟩, ?_, rfl, rfl, rfl⟩
  · show s.offset + inc * s.nbTimeSteps ≤ _
    rw [hoff.1]; exact h.good.inside
  · rw [hoff.1]; exact h.good.small
  · simp

/-- C76. Tracking a stack, whenever there is a time step left: each slice is given to the
finder once, in the order of the slices — but they are the slices of the time step 0, not of
the current one; what is missing is that the slices are those of `l.t`, and it is false
(see below) but for `l.t = 0`. -/
theorem C76_slices_partial {C : Type} (find : List Byte → List C) (s : Serie) (inc X Y Z : Nat)
    (h : s.Stack inc X Y Z) (l : Locator C) (hr : l.Reads s inc X Y Z) (ht : l.t < l.totalT) :
    ∃ l', l.fillTimeStep find = .ok l'
      ∧ l'.frames = (List.range Z).map (fun z => find (sliceOf s inc (X * Y) 0 z))
      ∧ l'.t = l.t ∧ l'.Reads s inc X Y Z := by
  unfold Locator.fillTimeStep
  rw [hr.totalZ]
  suffices ∀ k, k ≤ Z → ∃ l', (List.range k).foldlM (fun l _ => l.fillNextSlice find) l.clear
      = .ok l' ∧ l'.frames = (List.range k).map (fun z => find (sliceOf s inc (X * Y) 0 z))
      ∧ l'.t = l.t ∧ l'.Reads s inc X Y Z from this Z le_rfl
  intro k
  induction k with
  | zero =>
    intro _
    refine ⟨l.clear, rfl, rfl, rfl, hr.header, hr.offset, hr.bytes, hr.good, ?_, hr.totalZ,
      hr.totalT, hr.dims⟩
    simp [Locator.clear, hr.slice]
  | succ k ih =>
    intro hk
    obtain ⟨l1, e1, f1, t1, r1⟩ := ih (by omega)
    have hd : l1.serie.spatialDimensions = [X, Y, Z] := by rw [r1.header]; exact h.dims
    have hc : l1.serie.channels.length = 1 := by rw [r1.header]; exact h.channel
    have hst : 0 < l1.serie.nbTimeSteps := by rw [r1.header]; exact h.steps
    obtain ⟨s2, e2, g1, g2, g3, g4⟩ := fill2D_slice l1.serie inc r1.good X Y Z hd h.posX h.posY
      h.posZ h.small hc h.inc l1.slice r1.slice 0 hst k (by omega)
    have hsl : sliceOf l1.serie inc (X * Y) 0 k = sliceOf s inc (X * Y) 0 k := by
      unfold sliceOf
      rw [r1.bytes, r1.offset]
    rw [hsl] at e2
    have hfl : l1.frames.length = k := by rw [f1]; simp
    refine ⟨{ l1 with serie := s2, slice := sliceOf s inc (X * Y) 0 k, frames := l1.frames ++ [find (sliceOf s inc (X * Y) 0 k)] }, ?_, ?_, t1, ?_⟩
    · rw [List.range_succ, foldlM_append_ok]
      refine ⟨_, e1, ?_⟩
      have hcond : ¬ (l1.totalT ≤ l1.t ∨ l1.totalZ ≤ l1.frames.length) := by
        have := hr.totalT
        have := r1.totalT
        have := r1.totalZ
        omega
      simp only [List.foldlM_cons, List.foldlM_nil]
      unfold Locator.fillNextSlice
      rw [if_neg hcond, hfl, e2]
      rfl
    · simp [List.range_succ, f1]
    · have hlen : (sliceOf s inc (X * Y) 0 k).length = X * Y := by
        have a1 := h.good.inside
        have a2 : X * Y * (k + 1) ≤ X * Y * Z := Nat.mul_le_mul_left _ hk
        rw [Nat.mul_succ] at a2
        have a3 : inc * 1 ≤ inc * s.nbTimeSteps := Nat.mul_le_mul_left _ h.steps
        have a4 := h.inc
        unfold sliceOf
        simp
        omega
      exact ⟨g1.trans r1.header, g2.trans r1.offset, g3.trans r1.bytes, g4, hlen, r1.totalZ,
        r1.totalT, r1.dims⟩

/-- C76 fails after the first time step: on any stack the frames found in a locator that has
already given centers are those of the first time step. -/
theorem C76_time_counterexample {C : Type} (find : List Byte → List C) (s : Serie)
    (inc X Y Z : Nat) (h : s.Stack inc X Y Z) (l : Locator C) (hr : l.Reads s inc X Y Z)
    (t : Nat) (ht : t < l.totalT) :
    ∃ l1 l0, ({ l with t := t } : Locator C).fillTimeStep find = .ok l1
      ∧ ({ l with t := 0 } : Locator C).fillTimeStep find = .ok l0 ∧ l1.frames = l0.frames := by
  have hr1 : ({ l with t := t } : Locator C).Reads s inc X Y Z :=
    ⟨hr.header, hr.offset, hr.bytes, hr.good, hr.slice, hr.totalZ, hr.totalT, hr.dims⟩
  have hr0 : ({ l with t := 0 } : Locator C).Reads s inc X Y Z :=
    ⟨hr.header, hr.offset, hr.bytes, hr.good, hr.slice, hr.totalZ, hr.totalT, hr.dims⟩
  obtain ⟨l1, e1, f1, -⟩ := C76_slices_partial find s inc X Y Z h _ hr1 ht
  obtain ⟨l0, e0, f0, -⟩ := C76_slices_partial find s inc X Y Z h _ hr0
    (by simp only; omega)
  exact ⟨l1, l0, e1, e0, by rw [f1, f0]⟩

/-- Two time steps of a stack of one plane of 2 × 2 pixels. -/
def exMovie : Serie :=
  { dimensions := parseDimensions [⟨1, 2, 1⟩, ⟨2, 2, 2⟩, ⟨3, 1, 4⟩, ⟨4, 2, 4⟩], channels := [8],
    offset := 1, memorySize := 8, file := { bytes := [0, 1, 2, 3, 4, 5, 6, 7, 8] } }

theorem exMovie_stack : exMovie.Stack 4 2 2 1 where
  good := ⟨rfl, by decide +kernel, by decide +kernel, by
    have : mapFind "T" exMovie.dimensions = some ⟨4, 2, 4⟩ := by decide +kernel
    intro d hd
    rw [this] at hd
    cases hd
    rfl⟩
  dims := by decide +kernel
  posX := by decide
  posY := by decide
  posZ := by decide
  small := by decide
  channel := by decide
  inc := by decide
  steps := by decide +kernel

/-- The second call does see the first time step (bytes 1 to 4) instead of the second one
(bytes 5 to 8). -/
example : (do
    let l ← Locator.new (C := List Byte) exMovie
    let l ← l.fillTimeStep (fun b => [b])
    let r ← l.getCenters (P := List Byte) (fun f => .ok f.flatten) id
    let l ← r.1.fillTimeStep (fun b => [b])
    pure (r.2, l.t, l.frames)) = .ok ([[1, 2, 3, 4]], 1, [[[1, 2, 3, 4]]]) := by
  decide +kernel

/-- C76. After the last time step, the end of the file is reported. -/
theorem C76_end {C : Type} (find : List Byte → List C) (l : Locator C) (ht : l.totalT ≤ l.t)
    (hz : 0 < l.totalZ) : l.fillTimeStep find = .error .outOfRange := by
  unfold Locator.fillTimeStep
  obtain ⟨n, hn⟩ : ∃ n, l.totalZ = n + 1 := ⟨l.totalZ - 1, by omega⟩
  rw [hn, List.range_succ_eq_map, List.foldlM_cons]
  have : l.clear.fillNextSlice find = .error .outOfRange := by
    unfold Locator.fillNextSlice
    rw [if_pos (show l.clear.totalT ≤ l.clear.t ∨ _ from Or.inl ht)]
  rw [this]
  rfl

/-- C76. Each call of `get_centers` is one more time step. -/
theorem C76_next {C P : Type} (blobs : List (List C) → R (List P)) (stretch : P → P)
    (l : Locator C) (b : List P) (hb : blobs l.frames = .ok b) :
    ∃ l', l.getCenters blobs stretch = .ok (l', b.map stretch) ∧ l'.t = l.t + 1
      ∧ l'.frames = l.frames := by
  unfold Locator.getCenters
  rw [hb, ok_bind]
  exact ⟨_, rfl, rfl, rfl⟩

/-- C76. In square slices row `i` and column `j` is the pixel `y = i`, `x = j`. -/
theorem C76_square {C : Type} (find : List Byte → List C) (s : Serie) (inc N Z : Nat)
    (h : s.Stack inc N N Z) (l : Locator C) (hr : l.Reads s inc N N Z) (ht : l.t < l.totalT)
    (hz : l.frames.length < Z) (x y : Nat) (hx : x < N) (hy : y < N) :
    ∃ l', l.fillNextSlice find = .ok l'
      ∧ l'.pixel y x = s.file.bytes[s.offset + x + N * y + N * N * l.frames.length]? := by
  have hd : l.serie.spatialDimensions = [N, N, Z] := by rw [hr.header]; exact h.dims
  have hc : l.serie.channels.length = 1 := by rw [hr.header]; exact h.channel
  have hst : 0 < l.serie.nbTimeSteps := by rw [hr.header]; exact h.steps
  obtain ⟨s2, e2, -⟩ := fill2D_slice l.serie inc hr.good N N Z hd h.posX h.posY
      h.posZ h.small hc h.inc l.slice hr.slice 0 hst l.frames.length hz
  unfold Locator.fillNextSlice
  have hcond : ¬ (l.totalT ≤ l.t ∨ l.totalZ ≤ l.frames.length) := by
    have := hr.totalZ
    omega
  rw [if_neg hcond, e2, ok_bind, pure_eq_ok]
  refine ⟨_, rfl, ?_⟩
  unfold Locator.pixel sliceOf
  simp only [hr.dims]
  have h1 : y * N + x < N * N := by
    have : (y + 1) * N ≤ N * N := Nat.mul_le_mul_right _ (by omega)
    rw [Nat.succ_mul] at this
    omega
  show (List.take (N * N) _)[y * N + x]? = _
  rw [List.getElem?_take_of_lt h1, List.getElem?_drop, hr.bytes, hr.offset]
  congr 1
  ring

/-- C76 fails when slices are not square: the pixel `x = 0`, `y = 1` is neither on row 1 of
column 0 nor on row 0 of column 1, whatever the sizes: the rows of the image that is tracked
are not lines of the slice. -/
theorem C76_rectangular_counterexample {C : Type} (find : List Byte → List C) (s : Serie)
    (inc X Y Z : Nat) (h : s.Stack inc X Y Z) (l : Locator C) (hr : l.Reads s inc X Y Z)
    (ht : l.t < l.totalT) (hz : l.frames.length < Z) (hX : 2 ≤ X) (hY : 2 ≤ Y) (hne : X ≠ Y) :
    ∃ l' i j, l.fillNextSlice find = .ok l' ∧ i < X ∧ j < Y
      ∧ l'.pixel i j = s.file.bytes[s.offset + X + X * Y * l.frames.length]?
      ∧ i * Y + j = X ∧ ¬ (i = 1 ∧ j = 0) ∧ ¬ (i = 0 ∧ j = 1) := by
  have hd : l.serie.spatialDimensions = [X, Y, Z] := by rw [hr.header]; exact h.dims
  have hc : l.serie.channels.length = 1 := by rw [hr.header]; exact h.channel
  have hst : 0 < l.serie.nbTimeSteps := by rw [hr.header]; exact h.steps
  obtain ⟨s2, e2, -⟩ := fill2D_slice l.serie inc hr.good X Y Z hd h.posX h.posY
      h.posZ h.small hc h.inc l.slice hr.slice 0 hst l.frames.length hz
  unfold Locator.fillNextSlice
  have hcond : ¬ (l.totalT ≤ l.t ∨ l.totalZ ≤ l.frames.length) := by
    have := hr.totalZ
    omega
  rw [if_neg hcond, e2, ok_bind, pure_eq_ok]
  have hdm := Nat.div_add_mod X Y
  have hml := Nat.mod_lt X h.posY
  have hdl : X / Y < X := Nat.div_lt_self h.posX hY
  have hidx : X / Y * Y + X % Y = X := by rw [Nat.mul_comm]; exact hdm
  refine ⟨_, X / Y, X % Y, rfl, hdl, hml, ?_, hidx, ?_, ?_⟩
  · unfold Locator.pixel sliceOf
    simp only [hr.dims]
    have h1 : X < X * Y := by
      have : X * 2 ≤ X * Y := Nat.mul_le_mul_left _ hY
      omega
    show (List.take (X * Y) _)[X / Y * Y + X % Y]? = _
    rw [hidx, List.getElem?_take_of_lt h1, List.getElem?_drop, hr.bytes, hr.offset]
    congr 1
    ring
  · rintro ⟨h1, h2⟩
    rw [h1, h2] at hidx
    omega
  · rintro ⟨h1, h2⟩
    rw [h1, h2] at hidx
    omega

/-- A series with two channels of one plane of 2 × 2 pixels. -/
def exTwo : Serie :=
  { dimensions := parseDimensions [⟨1, 2, 1⟩, ⟨2, 2, 2⟩], channels := [8, 8],
    offset := 0, memorySize := 8, file := { bytes := [1, 2, 3, 4, 5, 6, 7, 8] } }

/-- C76 fails with two channels: eight bytes are written in the buffer of four. -/
theorem C76_channels_counterexample :
    ∃ l, Locator.new (C := Unit) exTwo = .ok l ∧ l.slice.length = 4
      ∧ (l.fillTimeStep (fun _ => [])).map (fun l => l.frames) = .error .ub := by
  refine ⟨{ serie := exTwo, dims := [2, 2], t := 0, totalT := 1, totalZ := 1,
            slice := List.replicate 4 0, frames := [] }, ?_, rfl, by decide +kernel⟩
  have h1 : exTwo.getOffset 0 = .ok 0 := by decide +kernel
  have h2 : exTwo.spatialDimensions = [2, 2] := by decide +kernel
  have h3 : exTwo.nbTimeSteps = 1 := by decide +kernel
  unfold Locator.new
  rw [h1, ok_bind, h2, h3]
  rfl

/-- C76 fails with a single dimension (a line scan): the second dimension is read after the
end of the vector. -/
theorem C76_line_counterexample {C : Type} (s : Serie) (d : Nat) (ht : 0 < s.nbTimeSteps)
    (hd : s.spatialDimensions = [d]) : Locator.new (C := C) s = .error .ub := by
  unfold Locator.new
  have : s.getOffset 0 = .ok s.offset := by
    unfold Serie.getOffset
    rw [if_neg (by omega), if_pos rfl]
  rw [this, ok_bind, hd]
  rfl

end Colloids.Lif
