import Verif.Lif.HeaderLemmas

/-!
# Properties of the series of a `.lif` file (C49, C75)
-/

namespace Colloids.Lif

/-! ## The dimensions -/

/-- C49. Whatever the order of the dimensions in the file, the spatial dimensions are given
in the order X, Y, Z, and the number of time steps is that of T, or 1 without T. -/
theorem C49_dimensions (es : List Dim) (hn : (es.map Dim.dimID).Nodup)
    (hv : ∀ d ∈ es, 1 ≤ d.dimID ∧ d.dimID ≤ 8) (x y z : Dim) (hx : x ∈ es) (hy : y ∈ es)
    (hz : z ∈ es) (hx1 : x.dimID = 1) (hy1 : y.dimID = 2) (hz1 : z.dimID = 3)
    (ch : List Int) (ts : List Nat) :
    let h : Header := { dimensions := parseDimensions es, channels := ch, timeStamps := ts }
    h.spatialDimensions
        = [toU64 x.numberOfElements, toU64 y.numberOfElements, toU64 z.numberOfElements]
      ∧ (∀ t ∈ es, t.dimID = 4 → h.nbTimeSteps = toU64 t.numberOfElements)
      ∧ ((∀ t ∈ es, t.dimID ≠ 4) → h.nbTimeSteps = 1) := by
  intro h
  have hnames := names_nodup es hn hv
  have hsort := parseDimensions_sorted es
  have hinj : ∀ a ∈ es, ∀ b ∈ es, a.dimID = b.dimID → a = b := by
    intro a ha b hb hab
    exact List.inj_on_of_nodup_map hn ha hb hab
  have nx : x.getName = "X" := by simp [Dim.getName, hx1]
  have ny : y.getName = "Y" := by simp [Dim.getName, hy1]
  have nz : z.getName = "Z" := by simp [Dim.getName, hz1]
  refine ⟨?_, ?_, ?_⟩
  · have hfil : (parseDimensions es).filter (fun e => decide (e.2.dimID < 4))
        = [("X", x), ("Y", y), ("Z", z)] := by
      have s1 : ((parseDimensions es).filter (fun e => decide (e.2.dimID < 4))).Pairwise
          (fun a b => a.1 < b.1) := hsort.filter _
      have s2 : [("X", x), ("Y", y), ("Z", z)].Pairwise
          (fun a b : String × Dim => a.1 < b.1) := by
        have h1 : "X" < "Y" := by decide
        have h2 : "X" < "Z" := by decide
        have h3 : "Y" < "Z" := by decide
        refine .cons (fun a ha => ?_) (.cons (fun a ha => ?_) (.cons (by simp) .nil))
        · simp only [List.mem_cons, List.not_mem_nil, or_false] at ha
          rcases ha with rfl | rfl
          · exact h1
          · exact h2
        · simp only [List.mem_cons, List.not_mem_nil, or_false] at ha
          subst ha
          exact h3
      have irr : ∀ a b : String × Dim, a.1 < b.1 → a ≠ b := by
        rintro a b hab rfl
        exact lt_irrefl _ hab
      refine List.Perm.eq_of_pairwise (le := fun a b : String × Dim => a.1 < b.1)
        (fun a b _ _ h1 h2 => absurd (lt_trans h1 h2) (lt_irrefl _)) s1 s2 ?_
      refine (List.perm_ext_iff_of_nodup (s1.imp (irr _ _)) (s2.imp (irr _ _))).2 ?_
      rintro ⟨n, d⟩
      rw [List.mem_filter, mem_parseDimensions es hnames]
      simp only [decide_eq_true_eq, List.mem_cons, List.not_mem_nil, or_false, Prod.mk.injEq]
      constructor
      · rintro ⟨⟨hd, rfl⟩, h4⟩
        have := hv d hd
        have : d.dimID = 1 ∨ d.dimID = 2 ∨ d.dimID = 3 := by omega
        rcases this with h | h | h
        · have := hinj d hd x hx (by rw [h, hx1])
          subst this
          exact Or.inl ⟨nx, rfl⟩
        · have := hinj d hd y hy (by rw [h, hy1])
          subst this
          exact Or.inr (Or.inl ⟨ny, rfl⟩)
        · have := hinj d hd z hz (by rw [h, hz1])
          subst this
          exact Or.inr (Or.inr ⟨nz, rfl⟩)
      · rintro (⟨rfl, rfl⟩ | ⟨rfl, rfl⟩ | ⟨rfl, rfl⟩)
        · exact ⟨⟨hx, nx.symm⟩, by omega⟩
        · exact ⟨⟨hy, ny.symm⟩, by omega⟩
        · exact ⟨⟨hz, nz.symm⟩, by omega⟩
    show List.map _ (List.filter _ (parseDimensions es)) = _
    rw [hfil]
    rfl
  · intro t ht ht4
    have : mapFind "T" h.dimensions = some t := by
      refine mapFind_sorted _ hsort _ _ ?_
      rw [mem_parseDimensions es hnames]
      exact ⟨ht, by simp [Dim.getName, ht4]⟩
    unfold Header.nbTimeSteps
    rw [this]
  · intro ht
    have : mapFind "T" h.dimensions = none := by
      refine mapFind_none _ _ ?_
      rintro ⟨n, d⟩ he
      rw [mem_parseDimensions es hnames] at he
      obtain ⟨hd, hnn⟩ := he
      simp only at hnn ⊢
      have h8 := hv d hd
      have h4 := ht d hd
      rw [hnn]
      obtain ⟨i, a, b⟩ := d
      simp only at h8 h4 ⊢
      have hi : i = 1 ∨ i = 2 ∨ i = 3 ∨ i = 5 ∨ i = 6 ∨ i = 7 ∨ i = 8 := by omega
      rcases hi with rfl | rfl | rfl | rfl | rfl | rfl | rfl <;> simp [Dim.getName]
    unfold Header.nbTimeSteps
    rw [this]

/-- A stack of 2 planes of 3 rows of 4 pixels, at 5 time steps; the file gives T first. -/
def exDims : List Dim := [⟨4, 5, 24⟩, ⟨1, 4, 1⟩, ⟨3, 2, 12⟩, ⟨2, 3, 4⟩]

example : (exDims.map Dim.dimID).Nodup ∧ (∀ d ∈ exDims, 1 ≤ d.dimID ∧ d.dimID ≤ 8)
    ∧ ({ dimensions := parseDimensions exDims, channels := [8] } : Header).spatialDimensions
      = [4, 3, 2] := by decide +kernel

/-- C49. The numbers of pixels are the products of the dimensions, as long as they are less
than `2 ^ 31`. -/
theorem C49_pixels (h : Header) (hpos : ∀ d ∈ h.spatialDimensions, 0 < d)
    (hl : h.spatialDimensions.prod < 2 ^ 31) :
    h.nbPixelsInOneTimeStep = h.spatialDimensions.prod
      ∧ h.nbPixelsInOneSlice = (h.spatialDimensions.take 2).prod := by
  have hu : ∀ n : Nat, n < 2 ^ 31 → toU64 (n : Int) = n := by
    intro n hn
    unfold toU64
    omega
  constructor
  · unfold Header.nbPixelsInOneTimeStep
    rw [accumulate_ok _ hpos hl, hu _ hl]
  · unfold Header.nbPixelsInOneSlice
    have hr : (resize2 h.spatialDimensions).prod = (h.spatialDimensions.take 2).prod := by
      unfold resize2
      match h.spatialDimensions with
      | [] => rfl
      | [a] => simp
      | a :: b :: r => simp
    have hle : (h.spatialDimensions.take 2).prod ≤ h.spatialDimensions.prod := by
      have : (h.spatialDimensions.take 2).prod * (h.spatialDimensions.drop 2).prod
          = h.spatialDimensions.prod := by
        rw [← List.prod_append, List.take_append_drop]
      rw [← this]
      refine Nat.le_mul_of_pos_right _ (natProd_pos _ (fun x hx => hpos x (List.mem_of_mem_drop hx)))
    rw [accumulate_ok, hr, hu _ (by omega)]
    · intro d hd
      unfold resize2 at hd
      have := List.mem_of_mem_take hd
      rcases List.mem_append.1 this with h1 | h1
      · exact hpos d h1
      · simp at h1; omega
    · rw [hr]; omega

/-- C49 fails on large stacks: 512 planes of 2048 × 2048 pixels make `2 ^ 31` pixels, a
number that the accumulator, an `int`, cannot hold. -/
theorem C49_large_counterexample :
    let h : Header := { dimensions := parseDimensions [⟨1, 2048, 1⟩, ⟨2, 2048, 2048⟩,
      ⟨3, 512, 2048 * 2048⟩], channels := [8] }
    h.spatialDimensions = [2048, 2048, 512] ∧ h.nbPixelsInOneTimeStep ≠ 2048 * 2048 * 512
      ∧ h.nbPixelsInOneTimeStep = 2 ^ 64 - 2 ^ 31 := by
  decide +kernel

/-! ## Offsets -/

/-- C49. `getOffset` throws on time steps out of range and on no other. -/
theorem C49_range (s : Serie) (t : Nat) :
    (s.nbTimeSteps ≤ t ↔ s.getOffset t = .error .outOfRange)
      ∧ (t < s.nbTimeSteps → ∃ o, s.getOffset t = .ok o) := by
  unfold Serie.getOffset
  constructor
  · constructor
    · intro h; rw [if_pos h]
    · intro h
      by_contra hc
      rw [if_neg hc] at h
      split at h
      · cases h
      · split at h <;> cases h
  · intro h
    rw [if_neg (by omega)]
    split
    · exact ⟨_, rfl⟩
    · split <;> exact ⟨_, rfl⟩

/-- What is expected of a series: its file is open and not in failure, holds the data, and
`inc` is the distance between two time steps. -/
structure Serie.Good (s : Serie) (inc : Nat) : Prop where
  ok : s.file.failed = false
  inside : s.offset + inc * s.nbTimeSteps ≤ s.file.bytes.length
  small : s.file.bytes.length < 2 ^ 63
  inc : ∀ d, mapFind "T" s.dimensions = some d → d.bytesInc = inc

theorem getOffset_good (s : Serie) (inc : Nat) (hs : s.Good inc) (t : Nat)
    (ht : t < s.nbTimeSteps) : s.getOffset t = .ok (s.offset + inc * t) := by
  have h1 := hs.inside
  have h2 := hs.small
  have h3 : inc * t ≤ inc * s.nbTimeSteps := Nat.mul_le_mul_left _ (by omega)
  unfold Serie.getOffset
  rw [if_neg (by omega)]
  split
  · rename_i h0; subst h0; simp
  · rename_i h0
    have hn : s.nbTimeSteps ≠ 1 := by omega
    unfold Header.nbTimeSteps at hn
    cases hm : mapFind "T" s.dimensions with
    | none => rw [hm] at hn; simp at hn
    | some d =>
      simp only
      rw [hs.inc d hm, Nat.mod_eq_of_lt (by omega)]

/-- Reading inside the file. -/
theorem readInto_inside (f : IFile) (hf : f.failed = false) (o n : Nat) (buf : List Byte)
    (ho : o + n ≤ f.bytes.length) (hl : f.bytes.length < 2 ^ 63) (hb : buf.length = n) :
    (f.seek o).readInto n buf
      = .ok ({ bytes := f.bytes, pos := o + n, failed := false },
          (f.bytes.drop o).take n) := by
  have hseek : f.seek o = { bytes := f.bytes, pos := o, failed := false } := by
    unfold IFile.seek
    rw [if_neg (by simp [hf]), if_neg (by omega)]
    have hm : o % 2 ^ 64 = o := Nat.mod_eq_of_lt (by omega)
    rw [hm]
    cases f
    simp_all
  rw [hseek]
  unfold IFile.readInto
  have hlen : ((f.bytes.drop o).take n).length = n := by simp; omega
  simp only [Bool.false_eq_true, if_false]
  rw [if_neg (by omega), if_neg (by omega)]
  simp only [hlen, lt_irrefl, decide_false]
  rw [List.drop_of_length_le (l := buf) (by omega), List.append_nil]

/-- C49. Reading a time step that exists in a buffer of the right size gives the bytes at
the place of this time step, and leaves the series as it was (so that any sequence of such
calls gives the right bytes). -/
theorem C49_frame (s : Serie) (inc : Nat) (hs : s.Good inc) (n : Nat)
    (hn : n = s.nbPixelsInOneTimeStep * s.channels.length) (hinc : n ≤ inc) (buf : List Byte)
    (hb : buf.length = n) (t : Nat) (ht : t < s.nbTimeSteps) :
    ∃ s', s.fill3DBuffer buf t
        = .ok (s', (s.file.bytes.drop (s.offset + inc * t)).take n)
      ∧ s'.toHeader = s.toHeader ∧ s'.offset = s.offset ∧ s'.file.bytes = s.file.bytes
      ∧ s'.Good inc := by
  have h1 := hs.inside
  have h2 := hs.small
  have h3 : inc * (t + 1) ≤ inc * s.nbTimeSteps := Nat.mul_le_mul_left _ (by omega)
  rw [Nat.mul_succ] at h3
  have hm : s.nbPixelsInOneTimeStep * s.channels.length % 2 ^ 64 = n := by
    rw [← hn]; exact Nat.mod_eq_of_lt (by omega)
  refine ⟨{ s with file := { bytes := s.file.bytes, pos := s.offset + inc * t + n, failed := false } },
    ?_, rfl, rfl, rfl, ⟨rfl, hs.inside, hs.small, hs.inc⟩⟩
  unfold Serie.fill3DBuffer
  simp only [hm]
  rw [getOffset_good s inc hs t ht, ok_bind, readInto_inside _ hs.ok _ n buf (by omega) h2 hb,
    ok_bind, pure_eq_ok]

/-- Reading all the time steps, each in the same buffer, one after the other. -/
def readFrames (s : Serie) (buf : List Byte) (ts : List Nat) : R (Serie × List Byte) :=
  ts.foldlM (fun st t => do
    let r ← st.1.fill3DBuffer buf t
    pure (r.1, st.2 ++ r.2)) (s, [])

theorem take_add_drop {α : Type} (l : List α) (a b : Nat) :
    l.take a ++ (l.drop a).take b = l.take (a + b) := by
  rw [List.take_add]

/-- C49. The time steps, one after the other, are the whole of the data when the distance
between time steps is their size: no byte is missed or read twice. -/
theorem C49_all_frames (s : Serie) (n : Nat) (hs : s.Good n)
    (hn : n = s.nbPixelsInOneTimeStep * s.channels.length) (buf : List Byte)
    (hb : buf.length = n) :
    ∃ s', readFrames s buf (List.range s.nbTimeSteps)
      = .ok (s', (s.file.bytes.drop s.offset).take (n * s.nbTimeSteps)) := by
  suffices ∀ k, k ≤ s.nbTimeSteps → ∃ s', readFrames s buf (List.range k)
        = .ok (s', (s.file.bytes.drop s.offset).take (n * k))
      ∧ s'.toHeader = s.toHeader ∧ s'.offset = s.offset ∧ s'.file.bytes = s.file.bytes
      ∧ s'.Good n by
    obtain ⟨s', h, -⟩ := this _ le_rfl
    exact ⟨s', h⟩
  intro k
  induction k with
  | zero => intro _; exact ⟨s, by simp [readFrames, pure_eq_ok], rfl, rfl, rfl, hs⟩
  | succ k ih =>
    intro hk
    obtain ⟨s1, e1, h1, h2, h3, h4⟩ := ih (by omega)
    have hts : s1.nbTimeSteps = s.nbTimeSteps := by rw [h1]
    obtain ⟨s2, e2, g1, g2, g3, g4⟩ := C49_frame s1 n h4 n (by rw [h1]; exact hn) le_rfl buf hb k
      (by omega)
    refine ⟨s2, ?_, by rw [g1, h1], by rw [g2, h2], by rw [g3, h3], g4⟩
    unfold readFrames at e1 ⊢
    rw [List.range_succ, foldlM_append_ok]
    refine ⟨_, e1, ?_⟩
    rw [List.foldlM_cons, e2]
    simp only [ok_bind, pure_eq_ok, List.foldlM_nil]
    rw [h3, h2, Nat.mul_succ, ← take_add_drop, List.drop_drop]

/-- C49. The slices of a time step, one after the other, are the time step. -/
theorem C49_slices (s : Serie) (inc : Nat) (hs : s.Good inc) (X Y Z : Nat)
    (hd : s.spatialDimensions = [X, Y, Z]) (hX : 0 < X) (hY : 0 < Y) (hZ : 0 < Z)
    (hl : X * Y * Z < 2 ^ 31) (hinc : X * Y * Z * s.channels.length ≤ inc) (buf : List Byte)
    (hb : buf.length = X * Y * s.channels.length) (t : Nat) (ht : t < s.nbTimeSteps)
    (z : Nat) (hz : z < Z) :
    ∃ s', s.fill2DBuffer buf t z = .ok (s',
        (((s.file.bytes.drop (s.offset + inc * t)).take (X * Y * Z * s.channels.length)).drop
          (X * Y * s.channels.length * z)).take (X * Y * s.channels.length))
      ∧ s'.toHeader = s.toHeader ∧ s'.offset = s.offset ∧ s'.file.bytes = s.file.bytes
      ∧ s'.Good inc := by
  have hpos : ∀ d ∈ s.spatialDimensions, 0 < d := by
    rw [hd]
    intro d h
    simp at h
    rcases h with rfl | rfl | rfl <;> assumption
  have hprod : s.spatialDimensions.prod = X * Y * Z := by rw [hd]; simp; ring
  obtain ⟨-, hp⟩ := C49_pixels s.toHeader hpos (by rw [hprod]; exact hl)
  have hp' : s.nbPixelsInOneSlice = X * Y := by rw [hp, hd]; simp
  have h1 := hs.inside
  have h2 := hs.small
  have h3 : inc * (t + 1) ≤ inc * s.nbTimeSteps := Nat.mul_le_mul_left _ (by omega)
  rw [Nat.mul_succ] at h3
  have h4 : X * Y * s.channels.length * (z + 1) ≤ X * Y * s.channels.length * Z :=
    Nat.mul_le_mul_left _ (by omega)
  have h5 : X * Y * s.channels.length * Z = X * Y * Z * s.channels.length := by ring
  rw [Nat.mul_succ] at h4
  refine ⟨{ s with file := { bytes := s.file.bytes, pos := s.offset + inc * t
      + X * Y * s.channels.length * z + X * Y * s.channels.length, failed := false } },
    ?_, rfl, rfl, rfl, ⟨rfl, hs.inside, hs.small, hs.inc⟩⟩
  unfold Serie.fill2DBuffer
  have hm : s.nbPixelsInOneSlice * s.channels.length % 2 ^ 64 = X * Y * s.channels.length := by
    rw [hp']; exact Nat.mod_eq_of_lt (by omega)
  simp only [hm]
  have hm2 : (s.offset + inc * t + z * (X * Y * s.channels.length)) % 2 ^ 64
      = s.offset + inc * t + X * Y * s.channels.length * z := by
    rw [Nat.mul_comm z, Nat.mod_eq_of_lt (by omega)]
  rw [getOffset_good s inc hs t ht, ok_bind, hm2,
    readInto_inside _ hs.ok _ _ buf (by omega) h2 hb, ok_bind, pure_eq_ok]
  dsimp only
  rw [List.drop_take, List.drop_drop, List.take_take, min_eq_left (by omega)]

/-- C49. When the header says that pixels are stored with X first, then Y, then Z, slice `z`
holds the pixels that the header places at `z`: byte `c` of the pixel `(x, y)` of the buffer
is the byte of the file at the sum of the increments. -/
theorem C49_plane (s : Serie) (inc : Nat) (hs : s.Good inc) (X Y Z : Nat)
    (hd : s.spatialDimensions = [X, Y, Z]) (hX : 0 < X) (hY : 0 < Y) (hZ : 0 < Z)
    (hl : X * Y * Z < 2 ^ 31) (hinc : X * Y * Z * s.channels.length ≤ inc) (buf : List Byte)
    (hb : buf.length = X * Y * s.channels.length) (t : Nat) (ht : t < s.nbTimeSteps)
    (z : Nat) (hz : z < Z) (incX incY incZ : Nat) (hix : incX = s.channels.length)
    (hiy : incY = incX * X) (hiz : incZ = incY * Y) :
    ∃ s' b, s.fill2DBuffer buf t z = .ok (s', b) ∧
      ∀ x y c, x < X → y < Y → c < s.channels.length →
        b[(y * X + x) * s.channels.length + c]?
          = s.file.bytes[s.offset + inc * t + incX * x + incY * y + incZ * z + c]? := by
  obtain ⟨s', h, -⟩ := C49_slices s inc hs X Y Z hd hX hY hZ hl hinc buf hb t ht z hz
  refine ⟨s', _, h, ?_⟩
  intro x y c hx hy hc
  generalize s.channels.length = C at *
  subst incZ incY incX
  have h1 : (y * X + x) * C + c < X * Y * C := by
    have a1 : (y * X + x + 1) ≤ X * Y := by
      have : (y + 1) * X ≤ Y * X := Nat.mul_le_mul_right _ (by omega)
      rw [Nat.succ_mul] at this
      rw [Nat.mul_comm X Y]; omega
    have : (y * X + x + 1) * C ≤ X * Y * C := Nat.mul_le_mul_right _ a1
    rw [Nat.succ_mul] at this
    omega
  have h2 : X * Y * C * (z + 1) ≤ X * Y * C * Z := Nat.mul_le_mul_left _ (by omega)
  rw [Nat.mul_succ] at h2
  have h3 : X * Y * C * Z = X * Y * Z * C := by ring
  rw [List.getElem?_take_of_lt h1, List.getElem?_drop, List.getElem?_take_of_lt (by omega),
    List.getElem?_drop]
  congr 1
  ring

/-- A series of 5 time steps of 2 planes of 3 rows of 4 pixels after 7 other bytes. -/
def exSerie : Serie :=
  { dimensions := parseDimensions exDims, channels := [8], offset := 7, memorySize := 120,
    file := { bytes := (List.range 127).map UInt8.ofNat } }

theorem exSerie_good : exSerie.Good 24 :=
  ⟨rfl, by decide +kernel, by decide +kernel, by
    have : mapFind "T" exSerie.dimensions = some ⟨4, 5, 24⟩ := by decide +kernel
    intro d hd
    rw [this] at hd
    cases hd
    rfl⟩

example : exSerie.spatialDimensions = [4, 3, 2] ∧ exSerie.nbTimeSteps = 5
    ∧ exSerie.nbPixelsInOneTimeStep * exSerie.channels.length = 24
    ∧ (exSerie.fill2DBuffer (List.replicate 12 0) 3 1).map (·.2)
      = .ok ((List.range 12).map (fun i => UInt8.ofNat (7 + 24 * 3 + 12 + i))) := by
  decide +kernel

/-- C49 fails for slices out of range: they are not refused, the first slice of the next
time step is read, whatever the series. -/
theorem C49_slice_range_counterexample (s : Serie) (X Y Z : Nat)
    (hs : s.Good (X * Y * Z * s.channels.length))
    (hd : s.spatialDimensions = [X, Y, Z]) (hX : 0 < X) (hY : 0 < Y) (hZ : 0 < Z)
    (hl : X * Y * Z < 2 ^ 31) (buf : List Byte)
    (t : Nat) (ht : t + 1 < s.nbTimeSteps) :
    s.fill2DBuffer buf t Z = s.fill2DBuffer buf (t + 1) 0 := by
  have hpos : ∀ d ∈ s.spatialDimensions, 0 < d := by
    rw [hd]
    intro d h
    simp at h
    rcases h with rfl | rfl | rfl <;> assumption
  have hprod : s.spatialDimensions.prod = X * Y * Z := by rw [hd]; simp; ring
  obtain ⟨-, hp⟩ := C49_pixels s.toHeader hpos (by rw [hprod]; exact hl)
  have hp' : s.nbPixelsInOneSlice = X * Y := by rw [hp, hd]; simp
  have h1 := hs.inside
  have h2 := hs.small
  have h3 : X * Y * Z * s.channels.length * (t + 1)
      ≤ X * Y * Z * s.channels.length * s.nbTimeSteps := Nat.mul_le_mul_left _ (by omega)
  have h4 : X * Y * Z * s.channels.length * 1
      ≤ X * Y * Z * s.channels.length * s.nbTimeSteps := Nat.mul_le_mul_left _ (by omega)
  have h5 : X * Y * s.channels.length * 1 ≤ X * Y * s.channels.length * Z :=
    Nat.mul_le_mul_left _ hZ
  have h6 : X * Y * s.channels.length * Z = X * Y * Z * s.channels.length := by ring
  unfold Serie.fill2DBuffer
  have hm : s.nbPixelsInOneSlice * s.channels.length % 2 ^ 64 = X * Y * s.channels.length := by
    rw [hp']; exact Nat.mod_eq_of_lt (by omega)
  simp only [hm]
  rw [getOffset_good s _ hs t (by omega), getOffset_good s _ hs (t + 1) ht]
  simp only [ok_bind]
  have e : s.offset + X * Y * Z * s.channels.length * t + Z * (X * Y * s.channels.length)
      = s.offset + X * Y * Z * s.channels.length * (t + 1)
        + 0 * (X * Y * s.channels.length) := by ring
  rw [e]

/-- C49 fails after a slice out of the file has been asked for: the stream stays in failure,
and the next time steps are not read, without any error; the buffer keeps what it had. -/
theorem C49_failure_counterexample :
    ∃ s', exSerie.fill2DBuffer (List.replicate 12 0) 4 2 = .ok (s', List.replicate 12 0)
      ∧ (s'.fill3DBuffer (List.replicate 24 0) 1).map (·.2) = .ok (List.replicate 24 0)
      ∧ (exSerie.fill3DBuffer (List.replicate 24 0) 1).map (·.2)
        = .ok ((List.range 24).map (fun i => UInt8.ofNat (31 + i))) := by
  refine ⟨{ exSerie with file := { exSerie.file with pos := 127, failed := true } }, ?_⟩
  decide +kernel

/-- C49 fails with more than 8 bits per pixel: the number of bytes that is read is the
number of pixels. Here two pixels of 16 bits: only the first is read. -/
theorem C49_resolution_counterexample :
    let s : Serie :=
      { dimensions := parseDimensions [⟨1, 2, 2⟩, ⟨2, 1, 4⟩], channels := [16], offset := 0,
        memorySize := 4, file := { bytes := [1, 2, 3, 4] } }
    (s.fill3DBuffer [0, 0, 0, 0] 0).map (·.2) = .ok [1, 2, 0, 0] := by
  decide +kernel

/-- C49 fails when the microscope scans Z before Y: slice 1 should hold the pixels at
`z = 1`, of bytes `2, 3` and `6, 7` (and `10, 11`) according to the increments of the
header; bytes `6` to `11` are read. -/
theorem C49_xzy_counterexample :
    let s : Serie :=
      { dimensions := parseDimensions [⟨1, 2, 1⟩, ⟨3, 2, 2⟩, ⟨2, 3, 4⟩], channels := [8],
        offset := 0, memorySize := 12, file := { bytes := (List.range 12).map UInt8.ofNat } }
    s.spatialDimensions = [2, 3, 2]
      ∧ (s.fill2DBuffer (List.replicate 6 0) 0 1).map (·.2) = .ok [6, 7, 8, 9, 10, 11] := by
  decide +kernel

/-- C49. The constructor of a series checks that the data are inside the file, for sizes
whose sum with the offset is less than `2 ^ 64`. -/
theorem C49_inside (h : Header) (bytes : List Byte) (offset size : Nat)
    (hl : offset + size < 2 ^ 64) :
    (offset < bytes.length ∧ offset + size ≤ bytes.length ↔
      ∃ s, Serie.mk' h bytes offset size = .ok s)
      ∧ (∀ s, Serie.mk' h bytes offset size = .ok s →
          s.toHeader = h ∧ s.offset = offset ∧ s.memorySize = size ∧ s.file.bytes = bytes
            ∧ s.file.failed = false) := by
  unfold Serie.mk'
  rw [Nat.mod_eq_of_lt hl]
  constructor
  · constructor
    · rintro ⟨h1, h2⟩
      rw [if_neg (by omega), if_neg (by omega)]
      exact ⟨_, rfl⟩
    · rintro ⟨s, hs⟩
      split at hs
      · cases hs
      · split at hs
        · cases hs
        · omega
  · intro s hs
    split at hs
    · cases hs
    · split at hs
      · cases hs
      · cases hs
        exact ⟨rfl, rfl, rfl, rfl, rfl⟩

/-- C49 fails for a size so large that the sum with the offset is wrapped: it is accepted. -/
theorem C49_wrap_counterexample (h : Header) :
    ∃ s, Serie.mk' h [1, 2, 3] 2 (2 ^ 64 - 1) = .ok s ∧ s.memorySize = 2 ^ 64 - 1 := by
  refine ⟨{ h with offset := 2, memorySize := 2 ^ 64 - 1, file := { bytes := [1, 2, 3], pos := 3 } },
    ?_, rfl⟩
  unfold Serie.mk'
  rw [if_neg (by decide), if_neg (by decide)]
  rfl

/-! ## C75: time stamps -/

/-- C75. Newer files: when there are not more numbers than declared, they are the first time
stamps; there are as many time stamps as declared. -/
theorem C75_new_partial (declared : Nat) (written : List Nat) (h : written.length ≤ declared) :
    ∃ ts, parseTimeStampsNew declared written = .ok ts ∧ ts.length = declared
      ∧ ∀ i (hi : i < written.length), ts[i]? = some written[i] := by
  unfold parseTimeStampsNew
  rw [if_neg (by omega), if_neg (by simp; omega)]
  refine ⟨_, rfl, by simp; omega, ?_⟩
  intro i hi
  rw [List.getElem?_append_left hi, List.getElem?_eq_getElem hi]

/-- C75 fails when there are more numbers than declared: they are written after the end of
the vector. -/
theorem C75_overrun_counterexample (declared : Nat) (written : List Nat)
    (h : declared < written.length) :
    parseTimeStampsNew declared written = .error .ub := by
  unfold parseTimeStampsNew
  rw [if_neg (by omega), if_pos (by simpa using h)]

/-- C75. Older files: each time stamp is the number of 64 bits made of its two halves,
divided by 10000 (from 100 ns to ms). -/
theorem C75_old (halves : List (Nat × Nat)) (i : Nat) (hi lo : Nat)
    (h : halves[i]? = some (hi, lo)) (hh : hi < 2 ^ 32) (hl : lo < 2 ^ 32) :
    (parseTimeStampsOld halves)[i]? = some ((hi * 2 ^ 32 + lo) / 10000) := by
  unfold parseTimeStampsOld
  rw [List.getElem?_map, h]
  simp only [Option.map_some]
  have h1 : hi * 2 ^ 32 % 2 ^ 64 = hi * 2 ^ 32 := Nat.mod_eq_of_lt (by omega)
  rw [h1, Nat.mod_eq_of_lt (by omega)]

example : (parseTimeStampsOld [(1, 5), (30000, 0)])[1]? = some 12884901888 := by decide +kernel

/-- C75 fails as to the unit: the same time, 3 seconds, is 3000 in older files and 30000000
in newer ones. -/
theorem C75_unit_counterexample :
    parseTimeStampsOld [(0, 30000000)] = [3000]
      ∧ parseTimeStampsNew 1 [30000000] = .ok [30000000] := by decide +kernel

end Colloids.Lif
