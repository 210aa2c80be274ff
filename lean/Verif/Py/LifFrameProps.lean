import Verif.Py.LifModel
import Verif.CommonLemmas
import Mathlib.Algebra.BigOperators.Group.List.Basic
import Mathlib.Data.List.Zip
import Mathlib.Tactic.Ring
import Mathlib.Tactic.Linarith
import Mathlib.Data.List.Nodup

/-! # C161: the frames and the slices of a series read in python -/

namespace Colloids
namespace PyLif

open Lif (Byte)

/-- `sp` are the spatial dimensions of a series, by increasing number; the series has each dimension once, all of them known. -/
structure Spatial (s : Serie) (sp : List Dim) : Prop where
  perm : sp.Perm (s.dims.filter fun d => d.id < 4)
  sorted : sp.Pairwise (fun a b => a.id < b.id)
  nodup : (s.dims.map (·.id)).Nodup
  known : ∀ d ∈ s.dims, 1 ≤ d.id ∧ d.id ≤ 8

/-- Dimensions stored one after the other without gaps, the first one being the fastest. -/
def Packed : Nat → List Dim → Prop
  | _, [] => True
  | k, d :: l => d.inc = k ∧ Packed (k * d.n) l

/-- The number of bytes between two time steps. -/
def TimeInc (s : Serie) (i : Nat) : Prop :=
  (∃ d ∈ s.dims, d.id = 4 ∧ d.inc = i) ∨ ((∀ d ∈ s.dims, d.id ≠ 4) ∧ i = 0)

/-! ## The shape -/

theorem dictSet_perm (k : Int) (v : Nat) (m : List (Int × Nat)) (h : k ∉ m.map (·.1)) : (dictSet k v m).Perm ((k, v) :: m) := by
  induction m with
  | nil => exact List.Perm.refl _
  | cons x m ih =>
    simp only [List.map_cons, List.mem_cons, not_or] at h
    unfold dictSet
    split
    · exact ((ih h.2).cons x).trans (List.Perm.swap _ _ _)
    · rw [if_neg fun e => h.1 e.symm]

theorem dictSet_sorted (k : Int) (v : Nat) (m : List (Int × Nat)) (h : k ∉ m.map (·.1)) (hs : m.Pairwise fun a b => a.1 < b.1) :
    (dictSet k v m).Pairwise fun a b => a.1 < b.1 := by
  induction m with
  | nil => simp [dictSet]
  | cons x m ih =>
    simp only [List.map_cons, List.mem_cons, not_or] at h
    obtain ⟨h1, h2⟩ := List.pairwise_cons.1 hs
    unfold dictSet
    split
    · rename_i hx
      refine List.pairwise_cons.2 ⟨fun y hy => ?_, ih h.2 h2⟩
      rcases List.mem_cons.1 ((dictSet_perm k v m h.2).mem_iff.1 hy) with rfl | hy
      · exact hx
      · exact h1 y hy
    · rename_i hx
      rw [if_neg fun e => h.1 e.symm]
      have hk : k < x.1 := by
        have := h.1
        omega
      refine List.pairwise_cons.2 ⟨fun y hy => ?_, hs⟩
      rcases List.mem_cons.1 hy with rfl | hy
      · exact hk
      · have := h1 y hy
        exact hk.trans this

theorem dict_all (ds : List Dim) : ∀ m : List (Int × Nat), (ds.map (·.id)).Nodup → (∀ d ∈ ds, d.id ∉ m.map (·.1)) →
    m.Pairwise (fun a b => a.1 < b.1) →
    (ds.foldl (fun m d => dictSet d.id d.n m) m).Perm ((ds.map fun d => (d.id, d.n)) ++ m)
      ∧ (ds.foldl (fun m d => dictSet d.id d.n m) m).Pairwise fun a b => a.1 < b.1 := by
  induction ds with
  | nil => intro m _ _ h; exact ⟨List.Perm.refl _, h⟩
  | cons d ds ih =>
    intro m hn hm hs
    simp only [List.map_cons, List.nodup_cons] at hn
    have hd := hm d (by simp)
    have hp := dictSet_perm d.id d.n m hd
    obtain ⟨h1, h2⟩ := ih (dictSet d.id d.n m) hn.2 (by
      intro e he
      have : e.id ∉ ((d.id, d.n) :: m).map (·.1) := by
        simp only [List.map_cons, List.mem_cons, not_or]
        exact ⟨fun h => hn.1 (List.mem_map.2 ⟨e, he, h⟩), hm e (by simp [he])⟩
      exact fun h => this ((hp.map (·.1)).mem_iff.1 h)) (dictSet_sorted _ _ _ hd hs)
    refine ⟨?_, h2⟩
    rw [List.foldl_cons, List.map_cons, List.cons_append]
    exact h1.trans ((hp.append_left _).trans List.perm_middle)

theorem boxShape_eq {s : Serie} {sp : List Dim} (h : Spatial s sp) : s.boxShape = sp.map (·.n) := by
  obtain ⟨h1, h2⟩ := dict_all s.dims [] h.nodup (by simp) List.Pairwise.nil
  rw [List.append_nil] at h1
  have hperm : ((s.dims.foldl (fun m d => dictSet d.id d.n m) []).filter fun e => e.1 < 4).Perm (sp.map fun d => (d.id, d.n)) := by
    refine (h1.filter _).trans ?_
    rw [List.filter_map]
    exact (h.perm.map _).symm
  have heq : ((s.dims.foldl (fun m d => dictSet d.id d.n m) []).filter fun e => e.1 < 4) = sp.map fun d => (d.id, d.n) := by
    refine List.Perm.eq_of_pairwise (le := fun a b : Int × Nat => a.1 < b.1) (fun a b _ _ hab hba => ?_) (h2.filter _) ?_ hperm
    · exact absurd (hab.trans hba) (lt_irrefl _)
    · exact List.pairwise_map.2 h.sorted
  unfold Serie.boxShape
  rw [heq, List.map_map]
  rfl

/-! ## The offsets -/

theorem dimName_inj {i j : Int} {n : String} (hi : dimName i = .ok n) (hj : dimName j = .ok n) : i = j := by
  have key : ∀ {i : Int} {n : String}, dimName i = .ok n → (i = 1 ∧ n = "X") ∨ (i = 2 ∧ n = "Y") ∨ (i = 3 ∧ n = "Z") ∨ (i = 4 ∧ n = "T")
      ∨ (i = 5 ∧ n = "Lambda") ∨ (i = 6 ∧ n = "Rotation") ∨ (i = 7 ∧ n = "XT Slices") ∨ (i = 8 ∧ n = "TSlices") := by
    intro i n h
    unfold dimName at h
    split at h
    · exact .inl ⟨‹_›, (Except.ok.inj h).symm⟩
    split at h
    · exact .inr (.inl ⟨‹_›, (Except.ok.inj h).symm⟩)
    split at h
    · exact .inr (.inr (.inl ⟨‹_›, (Except.ok.inj h).symm⟩))
    split at h
    · exact .inr (.inr (.inr (.inl ⟨‹_›, (Except.ok.inj h).symm⟩)))
    split at h
    · exact .inr (.inr (.inr (.inr (.inl ⟨‹_›, (Except.ok.inj h).symm⟩))))
    split at h
    · exact .inr (.inr (.inr (.inr (.inr (.inl ⟨‹_›, (Except.ok.inj h).symm⟩)))))
    split at h
    · exact .inr (.inr (.inr (.inr (.inr (.inr (.inl ⟨‹_›, (Except.ok.inj h).symm⟩))))))
    split at h
    · exact .inr (.inr (.inr (.inr (.inr (.inr (.inr ⟨‹_›, (Except.ok.inj h).symm⟩))))))
    · cases h
  rcases key hi with ⟨rfl, rfl⟩ | ⟨rfl, rfl⟩ | ⟨rfl, rfl⟩ | ⟨rfl, rfl⟩ | ⟨rfl, rfl⟩ | ⟨rfl, rfl⟩ | ⟨rfl, rfl⟩ | ⟨rfl, rfl⟩ <;>
    rcases key hj with ⟨rfl, h⟩ | ⟨rfl, h⟩ | ⟨rfl, h⟩ | ⟨rfl, h⟩ | ⟨rfl, h⟩ | ⟨rfl, h⟩ | ⟨rfl, h⟩ | ⟨rfl, h⟩ <;>
    first | rfl | (exfalso; revert h; decide)

theorem dimName_known {i : Int} (h : 1 ≤ i ∧ i ≤ 8) : ∃ n, dimName i = .ok n := by
  rcases (by omega : i = 1 ∨ i = 2 ∨ i = 3 ∨ i = 4 ∨ i = 5 ∨ i = 6 ∨ i = 7 ∨ i = 8) with rfl | rfl | rfl | rfl | rfl | rfl | rfl | rfl <;>
    exact ⟨_, rfl⟩

theorem inc_skip (name : String) (ds : List Dim) (hk : ∀ d ∈ ds, 1 ≤ d.id ∧ d.id ≤ 8) (hn : ∀ d ∈ ds, dimName d.id ≠ .ok name) (a : Int) :
    ds.foldlM (fun acc d => do
      let n ← dimName d.id
      pure (if n = name then d.inc else acc)) a = (.ok a : R Int) := by
  induction ds with
  | nil => rfl
  | cons d ds ih =>
    obtain ⟨n, h⟩ := dimName_known (hk d (by simp))
    have hne : n ≠ name := fun e => hn d (by simp) (by rw [h, e])
    rw [List.foldlM_cons, h, ok_bind, if_neg hne, pure_eq_ok, ok_bind]
    exact ih (fun e he => hk e (by simp [he])) fun e he => hn e (by simp [he])

theorem bytesInc_mem {s : Serie} (hk : ∀ d ∈ s.dims, 1 ≤ d.id ∧ d.id ≤ 8) (hn : (s.dims.map (·.id)).Nodup) {d : Dim} (hd : d ∈ s.dims)
    {name : String} (h : dimName d.id = .ok name) : s.bytesInc name = .ok d.inc := by
  obtain ⟨l, r, hlr⟩ := List.append_of_mem hd
  unfold Serie.bytesInc
  rw [hlr] at hk hn ⊢
  rw [List.map_append, List.map_cons, List.nodup_append] at hn
  obtain ⟨-, h2, h3⟩ := hn
  rw [List.nodup_cons] at h2
  rw [List.foldlM_append, inc_skip name l (fun e he => hk e (by simp [he])), ok_bind, List.foldlM_cons, h, ok_bind, if_pos rfl, pure_eq_ok,
    ok_bind, inc_skip name r (fun e he => hk e (by simp [he]))]
  · intro e he hc
    exact h2.1 (List.mem_map.2 ⟨e, he, dimName_inj hc h⟩)
  · intro e he hc
    exact h3 e.id (List.mem_map.2 ⟨e, he, rfl⟩) d.id (by simp) (dimName_inj hc h)

theorem bytesInc_absent {s : Serie} (hk : ∀ d ∈ s.dims, 1 ≤ d.id ∧ d.id ≤ 8) {name : String} (h : ∀ d ∈ s.dims, dimName d.id ≠ .ok name) :
    s.bytesInc name = .ok 0 := inc_skip name s.dims hk h 0

theorem bytesInc_T {s : Serie} {sp : List Dim} (h : Spatial s sp) {i : Nat} (hi : TimeInc s i) : s.bytesInc "T" = .ok i := by
  rcases hi with ⟨d, hd, h4, hinc⟩ | ⟨hn, rfl⟩
  · rw [← hinc]
    exact bytesInc_mem h.known h.nodup hd (by rw [h4]; rfl)
  · refine bytesInc_absent h.known fun d hd hc => hn d hd ?_
    exact dimName_inj hc (rfl : dimName 4 = .ok "T")

theorem getOffset_T {s : Serie} {sp : List Dim} (h : Spatial s sp) {i : Nat} (hi : TimeInc s i) (t : Int) :
    s.getOffset [("T", t)] = if (s.memorySize : Int) ≤ i * t then .error .outOfRange else .ok (s.offset + i * t) := by
  unfold Serie.getOffset
  simp only [List.foldlM_cons, List.foldlM_nil, bytesInc_T h hi, ok_bind, pure_eq_ok, zero_add]

/-! ## The places in memory -/

/-- Place of an element, in the units of the fastest dimension. -/
def horner (l : List (Nat × Nat)) : Nat := l.foldr (fun x acc => acc * x.1 + x.2) 0

theorem ravel_reverse (ns idx : List Nat) (h : idx.length = ns.length) : ravel ns.reverse idx.reverse = horner (ns.zip idx) := by
  unfold ravel horner
  have : ns.reverse.zip idx.reverse = (ns.zip idx).reverse := (List.reverse_zipWith h.symm).symm
  rw [this, List.foldl_reverse]

theorem horner_packed (sp : List Dim) : ∀ (k : Nat) (idx : List Nat), Packed k sp →
    ((sp.zip idx).map fun x => x.1.inc * (x.2 : Int)).sum = k * (horner ((sp.map (·.n)).zip idx) : Int) := by
  induction sp with
  | nil => intro k idx _; simp [horner]
  | cons d sp ih =>
    intro k idx hp
    cases idx with
    | nil => simp [horner]
    | cons i idx =>
      obtain ⟨h1, h2⟩ := hp
      have := ih (k * d.n) idx h2
      simp only [List.zip_cons_cons, List.map_cons, List.sum_cons, this, h1]
      simp only [horner, List.foldr_cons]
      push_cast
      ring

theorem horner_lt (l : List (Nat × Nat)) (h : ∀ x ∈ l, x.2 < x.1) : horner l < (l.map (·.1)).prod := by
  induction l with
  | nil => simp [horner]
  | cons x l ih =>
    have h1 := ih fun y hy => h y (by simp [hy])
    have h2 := h x (by simp)
    simp only [horner, List.foldr_cons, List.map_cons, List.prod_cons]
    simp only [horner] at h1
    generalize List.foldr (fun x acc => acc * x.1 + x.2) 0 l = a at h1 ⊢
    generalize (l.map (·.1)).prod = p at h1 ⊢
    calc a * x.1 + x.2 < a * x.1 + x.1 := by omega
      _ = x.1 * (a + 1) := by ring
      _ ≤ x.1 * p := Nat.mul_le_mul_left _ h1

/-- Reading an array and looking at one of its elements. -/
theorem fromfile_get (file : List Byte) (p : Nat) (ns : List Nat) (hlen : p + ns.prod ≤ file.length) :
    ∃ a, fromfile file p ns.prod ns.reverse = .ok (a, p + ns.prod) ∧ a.shape = ns.reverse ∧ a.data = (file.drop p).take ns.prod
      ∧ ∀ idx : List Nat, idx.length = ns.length → (∀ x ∈ ns.zip idx, x.2 < x.1) →
        ∃ b, a.get idx.reverse = .ok b ∧ file[p + horner (ns.zip idx)]? = some b := by
  have hl : ((file.drop p).take ns.prod).length = ns.prod := by
    rw [List.length_take, List.length_drop]
    omega
  refine ⟨⟨ns.reverse, (file.drop p).take ns.prod⟩, ?_, rfl, rfl, ?_⟩
  · unfold fromfile
    rw [if_pos (by rw [hl, List.prod_reverse]), hl]
  · intro idx hi hb
    have hh := horner_lt _ hb
    rw [List.map_fst_zip (by omega)] at hh
    have hlt : p + horner (ns.zip idx) < file.length := by omega
    refine ⟨file[p + horner (ns.zip idx)], ?_, List.getElem?_eq_getElem hlt⟩
    unfold Arr.get
    dsimp only
    rw [if_pos, ravel_reverse _ _ hi, List.getElem?_take_of_lt hh, List.getElem?_drop, List.getElem?_eq_getElem hlt]
    refine ⟨by simp [hi], fun x hx => ?_⟩
    have : ns.reverse.zip idx.reverse = (ns.zip idx).reverse := (List.reverse_zipWith hi.symm).symm
    rw [this, List.mem_reverse] at hx
    exact hb x hx

/-- C161. The frame of a time step has the spatial dimensions of the series, the last index being that of the first dimension; when these are
stored without gaps in the order X, Y, Z, each element is the byte at the place given by the increments of the header. -/
theorem C161_frame_partial (s : Serie) (sp : List Dim) (h : Spatial s sp) (hp : Packed 1 sp) (i t : Nat) (hi : TimeInc s i)
    (hm : i * t < s.memorySize) (hf : s.offset + i * t + (sp.map (·.n)).prod ≤ s.file.length) :
    ∃ a, s.getFrame t = .ok a ∧ a.shape = (sp.map (·.n)).reverse
      ∧ ∀ idx : List Nat, idx.length = sp.length → (∀ x ∈ sp.zip idx, x.2 < x.1.n) →
        ∃ (b : Byte) (o : Nat), a.get idx.reverse = .ok b ∧ (o : Int) = s.offset + i * t + ((sp.zip idx).map fun x => x.1.inc * (x.2 : Int)).sum
          ∧ s.file[o]? = some b := by
  obtain ⟨a, h1, h2, -, h3⟩ := fromfile_get s.file (s.offset + i * t) (sp.map (·.n)) hf
  refine ⟨a, ?_, h2, ?_⟩
  · unfold Serie.getFrame Serie.frameAt
    rw [getOffset_T h hi, if_neg (by exact_mod_cast not_le.2 hm), ok_bind]
    have hs : seek ((s.offset : Int) + i * t) = .ok (s.offset + i * t) := by
      unfold seek
      rw [if_neg (by exact_mod_cast not_lt.2 (Nat.zero_le _))]
      congr 1
    rw [hs, ok_bind]
    unfold Serie.pixelsPerFrame Serie.frameShape
    rw [boxShape_eq h, h1]
    rfl
  · intro idx hl hb
    obtain ⟨b, hb1, hb2⟩ := h3 idx (by simpa using hl) (by
      intro x hx
      rw [List.zip_map_left] at hx
      obtain ⟨y, hy, rfl⟩ := List.mem_map.1 hx
      exact hb y hy)
    refine ⟨b, _, hb1, ?_, hb2⟩
    rw [horner_packed sp 1 idx hp]
    push_cast
    ring

/-- A series of 2 by 3 by 2 pixels and 2 time steps in the order X, Y, Z, T, and the same in the order X, Z, Y, T. -/
def xyz : Serie := ⟨[⟨1, 2, 1⟩, ⟨2, 3, 2⟩, ⟨3, 2, 6⟩, ⟨4, 2, 12⟩], [24], (List.range 30).map UInt8.ofNat, 5⟩
def xzy : Serie := ⟨[⟨1, 2, 1⟩, ⟨3, 2, 2⟩, ⟨2, 3, 4⟩, ⟨4, 2, 12⟩], [24], (List.range 30).map UInt8.ofNat, 5⟩

example : Spatial xyz [⟨1, 2, 1⟩, ⟨2, 3, 2⟩, ⟨3, 2, 6⟩] ∧ Packed 1 [⟨1, 2, 1⟩, ⟨2, 3, 2⟩, ⟨3, 2, 6⟩] ∧ TimeInc xyz 12 :=
  ⟨⟨by decide, by decide, by decide, by decide⟩, by simp [Packed], .inl ⟨⟨4, 2, 12⟩, by decide, rfl, rfl⟩⟩

example : (xyz.getFrame 1).bind (fun a => a.get [1, 2, 0]) = .ok 27 := by decide +kernel

/-- What `getFrame` reads, whatever the order of the dimensions. -/
theorem frame_any {s : Serie} {sp : List Dim} (h : Spatial s sp) {i t : Nat} (hi : TimeInc s i) (hm : i * t < s.memorySize)
    (hf : s.offset + i * t + (sp.map (·.n)).prod ≤ s.file.length) :
    ∃ a, s.frameAt t = .ok (a, s.offset + i * t + (sp.map (·.n)).prod) ∧ a.shape = (sp.map (·.n)).reverse
      ∧ a.data = (s.file.drop (s.offset + i * t)).take (sp.map (·.n)).prod
      ∧ ∀ idx : List Nat, idx.length = sp.length → (∀ x ∈ (sp.map (·.n)).zip idx, x.2 < x.1) →
        ∃ b, a.get idx.reverse = .ok b ∧ s.file[s.offset + i * t + horner ((sp.map (·.n)).zip idx)]? = some b := by
  obtain ⟨a, h1, h2, h2', h3⟩ := fromfile_get s.file (s.offset + i * t) (sp.map (·.n)) hf
  refine ⟨a, ?_, h2, h2', fun idx hl hb => h3 idx (by simpa using hl) hb⟩
  unfold Serie.frameAt
  rw [getOffset_T h hi, if_neg (by exact_mod_cast not_le.2 hm), ok_bind]
  have hs : seek ((s.offset : Int) + i * t) = .ok (s.offset + i * t) := by
    unfold seek
    rw [if_neg (by exact_mod_cast not_lt.2 (Nat.zero_le _))]
    congr 1
  rw [hs, ok_bind]
  unfold Serie.pixelsPerFrame Serie.frameShape
  rw [boxShape_eq h, h1]

/-- C161 fails for a series in the order X, Z, Y, that the documentation of `getFrame` gives as supported: the element of indices
`[z, y, x]` is read at `x + X * (y + Y * z)` and not where the header says that voxel is, `x + X * (z + Z * y)`. Those are different for
example for `x = 0, y = 0, z = 1`. -/
theorem C161_xzy_counterexample (s : Serie) (X Y Z i t : Nat) (rest : List Dim)
    (hd : s.dims = [⟨1, X, 1⟩, ⟨3, Z, X⟩, ⟨2, Y, (X : Int) * Z⟩] ++ rest) (hr : ∀ d ∈ rest, 4 ≤ d.id ∧ d.id ≤ 8)
    (hn : (rest.map (·.id)).Nodup) (hi : TimeInc s i) (hm : i * t < s.memorySize) (hX : 1 ≤ X) (hY : 2 ≤ Y) (hZ : 2 ≤ Z)
    (hf : s.offset + i * t + X * Y * Z ≤ s.file.length) :
    (∃ a, s.getFrame t = .ok a ∧ a.shape = [Z, Y, X] ∧ ∀ x y z, x < X → y < Y → z < Z →
      ∃ b, a.get [z, y, x] = .ok b ∧ s.file[s.offset + i * t + (x + X * (y + Y * z))]? = some b)
    ∧ 0 + X * (0 + Y * 1) ≠ 0 + X * (1 + Z * 0) := by
  have hs : Spatial s [⟨1, X, 1⟩, ⟨2, Y, (X : Int) * Z⟩, ⟨3, Z, X⟩] := by
    refine ⟨?_, by simp, ?_, ?_⟩
    · rw [hd, List.filter_append]
      have h0 : rest.filter (fun d => decide (d.id < 4)) = [] := by
        refine List.filter_eq_nil_iff.2 fun d hd => ?_
        have := hr d hd
        simp
        omega
      rw [h0, List.append_nil]
      simp only [List.filter_cons, List.filter_nil]
      norm_num
      exact List.Perm.swap _ _ _
    · rw [hd]
      simp only [List.cons_append, List.nil_append, List.map_cons, List.nodup_cons, List.mem_cons, List.mem_map]
      refine ⟨?_, ?_, ?_, hn⟩ <;> push Not
      · refine ⟨by norm_num, by norm_num, fun d hd => ?_⟩
        have := hr d hd
        omega
      · refine ⟨by norm_num, fun d hd => ?_⟩
        have := hr d hd
        omega
      · intro d hd
        have := hr d hd
        omega
    · rw [hd]
      intro d hd
      simp only [List.cons_append, List.nil_append, List.mem_cons] at hd
      rcases hd with rfl | rfl | rfl | hd
      · norm_num
      · norm_num
      · norm_num
      · have := hr d hd
        omega
  constructor
  · obtain ⟨a, h1, h2, -, h3⟩ := frame_any hs (t := t) hi hm (by simpa [mul_assoc] using hf)
    refine ⟨a, by unfold Serie.getFrame; rw [h1]; rfl, by simpa using h2, fun x y z hx hy hz => ?_⟩
    obtain ⟨b, hb1, hb2⟩ := h3 [x, y, z] rfl (by simp [hx, hy, hz])
    refine ⟨b, by simpa using hb1, ?_⟩
    rw [← hb2]
    congr 1
    simp only [horner, List.map_cons, List.map_nil, List.zip_cons_cons, List.zip_nil_right, List.foldr_cons, List.foldr_nil]
    ring
  · intro he
    have : Y = 1 := by
      have h1 : X * Y = X * 1 := by linarith
      exact Nat.eq_of_mul_eq_mul_left (by omega) h1
    omega

example : (xzy.getFrame 0).bind (fun a => a.get [1, 0, 0]) = .ok 11 ∧ xzy.file[5 + 2]? = some 7 := by decide +kernel

/-- C161. A time step after the data of the series is refused; with a memory of `n` time steps those before are not. -/
theorem C161_range (s : Serie) (sp : List Dim) (h : Spatial s sp) (i t n : Nat) (hi : TimeInc s i) (hm : s.memorySize = i * n) (h0 : 0 < i)
    (hf : s.offset + s.memorySize ≤ s.file.length) (hpix : (sp.map (·.n)).prod ≤ i) :
    (n ≤ t → s.getFrame t = .error .outOfRange) ∧ (t < n → ∃ a, s.getFrame t = .ok a) := by
  constructor
  · intro hn
    unfold Serie.getFrame Serie.frameAt
    rw [getOffset_T h hi, if_pos]
    · rfl
    · rw [hm]
      exact_mod_cast Nat.mul_le_mul_left i hn
  · intro ht
    have hlt : i * t + i ≤ i * n := by
      calc i * t + i = i * (t + 1) := by ring
        _ ≤ i * n := Nat.mul_le_mul_left i ht
    obtain ⟨a, h1, -⟩ := frame_any h (t := t) hi (by omega) (by omega)
    exact ⟨a, by unfold Serie.getFrame; rw [h1]; rfl⟩

example : xyz.getFrame 2 = .error .outOfRange := by decide +kernel

theorem foldl_max_spec (l : List Nat) (a : Nat) : a ≤ l.foldl max a ∧ (∀ x ∈ l, x ≤ l.foldl max a) ∧ (l.foldl max a = a ∨ l.foldl max a ∈ l) := by
  induction l generalizing a with
  | nil => simp
  | cons c l ih =>
    obtain ⟨h1, h2, h3⟩ := ih (max a c)
    rw [List.foldl_cons]
    refine ⟨by omega, ?_, ?_⟩
    · intro x hx
      rcases List.mem_cons.1 hx with rfl | hx
      · omega
      · exact h2 x hx
    · rcases h3 with h3 | h3
      · rcases max_choice a c with e | e
        · left; rw [h3, e]
        · right; rw [h3, e]; simp
      · right; exact List.mem_cons_of_mem _ h3

/-- C161. When the header has several memories, a time step is accepted if it begins in one of them, and refused otherwise. -/
theorem C161_memories (s : Serie) (sp : List Dim) (h : Spatial s sp) (i t : Nat) (hi : TimeInc s i) :
    ((∀ m ∈ s.sizes, m ≤ i * t) → s.getOffset [("T", (t : Int))] = .error .outOfRange)
    ∧ ((∃ m ∈ s.sizes, i * t < m) → s.getOffset [("T", (t : Int))] = .ok (s.offset + i * t)) := by
  obtain ⟨-, h2, h3⟩ := foldl_max_spec s.sizes 0
  rw [getOffset_T h hi]
  unfold Serie.memorySize
  constructor
  · intro hall
    rw [if_pos]
    have : s.sizes.foldl max 0 ≤ i * t := by
      rcases h3 with h3 | h3
      · omega
      · exact hall _ h3
    exact_mod_cast this
  · rintro ⟨m, hm, hlt⟩
    rw [if_neg]
    have := h2 m hm
    intro hc
    have hc : s.sizes.foldl max 0 ≤ i * t := by exact_mod_cast hc
    omega

theorem nbFrames_foldl (l : List Dim) (hn : (l.map (·.id)).Nodup) (a : Nat) :
    ((∀ d ∈ l, d.id ≠ 4) → l.foldl (fun acc d => if d.id = 4 then d.n else acc) a = a)
    ∧ ∀ d ∈ l, d.id = 4 → l.foldl (fun acc d => if d.id = 4 then d.n else acc) a = d.n := by
  induction l generalizing a with
  | nil => simp
  | cons c l ih =>
    rw [List.map_cons, List.nodup_cons] at hn
    constructor
    · intro h
      rw [List.foldl_cons, if_neg (h c (by simp))]
      exact (ih hn.2 a).1 fun d hd => h d (by simp [hd])
    · intro d hd h4
      rw [List.foldl_cons]
      rcases List.mem_cons.1 hd with rfl | hd
      · rw [if_pos h4]
        refine (ih hn.2 _).1 fun e he h => hn.1 (List.mem_map.2 ⟨e, he, ?_⟩)
        rw [h, h4]
      · exact (ih hn.2 _).2 d hd h4

/-- Two memories, the second of which is larger. -/
example : Spatial { xyz with sizes := [6, 24] } [⟨1, 2, 1⟩, ⟨2, 3, 2⟩, ⟨3, 2, 6⟩] ∧ TimeInc { xyz with sizes := [6, 24] } 12
    ∧ ∃ m ∈ ({ xyz with sizes := [6, 24] } : Serie).sizes, 12 * 1 < m :=
  ⟨⟨by decide, by decide, by decide, by decide⟩, .inl ⟨⟨4, 2, 12⟩, by decide, rfl, rfl⟩, 24, by decide, by decide⟩

/-- C161. The number of frames is that of the dimension of time, and 1 for a series that has none. -/
theorem C161_number (s : Serie) (hn : (s.dims.map (·.id)).Nodup) :
    ((∀ d ∈ s.dims, d.id ≠ 4) → s.nbFrames = 1) ∧ ∀ d ∈ s.dims, d.id = 4 → s.nbFrames = d.n := nbFrames_foldl s.dims hn 1

example : (xyz.dims.map (·.id)).Nodup ∧ xyz.nbFrames = 2 := by decide

/-- C161 fails for negative time steps: they are not refused, and the bytes before the series (of another series or of the header) are given
as a frame. -/
theorem C161_negative_counterexample (s : Serie) (sp : List Dim) (h : Spatial s sp) (i t : Nat) (hi : TimeInc s i) (h0 : 0 < i) (ht : 0 < t)
    (hm : 0 < s.memorySize) (ho : i * t ≤ s.offset) (hf : s.offset - i * t + (sp.map (·.n)).prod ≤ s.file.length) :
    ∃ a, s.getFrame (-(t : Int)) = .ok a ∧ a.data = (s.file.drop (s.offset - i * t)).take (sp.map (·.n)).prod := by
  obtain ⟨a, h1, -, h2, -⟩ := fromfile_get s.file (s.offset - i * t) (sp.map (·.n)) hf
  refine ⟨a, ?_, h2⟩
  have hpos : 0 < i * t := Nat.mul_pos h0 ht
  have e : (i : Int) * (-(t : Int)) = -((i * t : Nat) : Int) := by push_cast; ring
  unfold Serie.getFrame Serie.frameAt
  rw [getOffset_T h hi, e, if_neg (by omega), ok_bind]
  have hs : seek ((s.offset : Int) + -((i * t : Nat) : Int)) = .ok (s.offset - i * t) := by
    unfold seek
    rw [if_neg (by omega)]
    congr 1
    omega
  rw [hs, ok_bind]
  unfold Serie.pixelsPerFrame Serie.frameShape
  rw [boxShape_eq h, h1]
  rfl

example : ({ xyz with offset := 12 } : Serie).getFrame (-1) = .ok ⟨[2, 3, 2], (List.range 12).map UInt8.ofNat⟩ := by decide +kernel

/-! ## Frame by frame -/

theorem nextFrames_ok (s : Serie) (m : Nat) : ∀ (k t pos : Nat), s.pixelsPerFrame = m → s.frameShape.prod = m → pos + k * m ≤ s.file.length →
    s.nextFrames k t pos = .ok ((List.range k).map fun j => (t + j, ⟨s.frameShape, (s.file.drop (pos + j * m)).take m⟩)) := by
  intro k
  induction k with
  | zero => intros; rfl
  | succ k ih =>
    intro t pos h1 h2 hlen
    have hl : ((s.file.drop pos).take m).length = m := by
      rw [List.length_take, List.length_drop]
      have : (k + 1) * m = k * m + m := by ring
      omega
    unfold Serie.nextFrames fromfile
    rw [h1, hl, if_pos h2.symm, ok_bind]
    dsimp only
    rw [ih (t + 1) (pos + m) h1 h2 (by
      have : (k + 1) * m = k * m + m := by ring
      omega), ok_bind, pure_eq_ok, List.range_succ_eq_map, List.map_cons, List.map_map]
    congr 2
    · simp
    · refine List.map_congr_left fun j _ => ?_
      simp only [Function.comp, Prod.mk.injEq, Arr.mk.injEq, true_and]
      refine ⟨by omega, ?_⟩
      congr 2
      rw [Nat.succ_eq_add_one]
      ring

/-- What `enumByFrame` gives: the bytes of the file cut in arrays of the size of a frame, from the beginning of the series. -/
theorem enum_any {s : Serie} {sp : List Dim} (h : Spatial s sp) {i : Nat} (hi : TimeInc s i) (hm : 0 < s.memorySize) (h1 : 1 ≤ s.nbFrames)
    (hf : s.offset + s.nbFrames * (sp.map (·.n)).prod ≤ s.file.length) :
    ∃ l, s.enumByFrame = .ok l ∧ l.length = s.nbFrames ∧ ∀ t < s.nbFrames,
      l[t]? = some (t, ⟨(sp.map (·.n)).reverse, (s.file.drop (s.offset + t * (sp.map (·.n)).prod)).take (sp.map (·.n)).prod⟩) := by
  generalize hN : s.nbFrames = N at h1 hf
  obtain ⟨k, rfl⟩ : ∃ k, N = k + 1 := ⟨N - 1, by omega⟩
  generalize hP : (sp.map (·.n)).prod = P at hf ⊢
  have hk : (k + 1) * P = k * P + P := by ring
  obtain ⟨a, ha, hsh, hda, -⟩ := frame_any h (t := 0) hi (by simpa using hm) (by rw [hP]; simp; omega)
  rw [hP] at ha hda
  have hpp : s.pixelsPerFrame = P := by rw [Serie.pixelsPerFrame, boxShape_eq h, hP]
  have hfs : s.frameShape.prod = P := by rw [Serie.frameShape, boxShape_eq h, List.prod_reverse, hP]
  have hn := nextFrames_ok s P k 1 (s.offset + i * 0 + P) hpp hfs (by simp; omega)
  refine ⟨(0, a) :: (List.range k).map fun j => (1 + j, ⟨s.frameShape, (s.file.drop (s.offset + i * 0 + P + j * P)).take P⟩), ?_, by simp, ?_⟩
  · unfold Serie.enumByFrame
    rw [hN]
    have ha' : s.frameAt 0 = .ok (a, s.offset + i * 0 + P) := by simpa using ha
    rw [ha', ok_bind]
    dsimp only
    rw [Nat.add_sub_cancel, hn, ok_bind, pure_eq_ok]
  · intro t ht
    have hae : a = ⟨(sp.map (·.n)).reverse, (s.file.drop (s.offset + i * 0)).take P⟩ := by
      rw [← hsh, ← hda]
    cases t with
    | zero => simp [hae]
    | succ t =>
      have : t < k := by omega
      simp only [List.getElem?_cons_succ, List.getElem?_map, List.getElem?_range this, Option.map_some, Option.some.injEq, Prod.mk.injEq,
        Arr.mk.injEq]
      refine ⟨by omega, by rw [Serie.frameShape, boxShape_eq h], ?_⟩
      congr 2
      ring

/-- C161. Taking the frames one after the other gives each time step with its frame, if the data of a time step are one frame. -/
theorem C161_enum_partial (s : Serie) (sp : List Dim) (h : Spatial s sp) (i : Nat) (hi : TimeInc s i) (hpix : i = (sp.map (·.n)).prod) (h0 : 0 < i)
    (h1 : 1 ≤ s.nbFrames) (hm : s.memorySize = i * s.nbFrames) (hf : s.offset + s.memorySize ≤ s.file.length) :
    ∃ l, s.enumByFrame = .ok l ∧ l.length = s.nbFrames ∧ ∀ t < s.nbFrames, ∃ a, s.getFrame t = .ok a ∧ l[t]? = some (t, a) := by
  have hmul : i * s.nbFrames = s.nbFrames * i := Nat.mul_comm _ _
  obtain ⟨l, hl1, hl2, hl3⟩ := enum_any h hi (by rw [hm]; exact Nat.mul_pos h0 h1) h1 (by rw [← hpix]; omega)
  refine ⟨l, hl1, hl2, fun t ht => ?_⟩
  have hlt : i * t + i ≤ i * s.nbFrames := by
    calc i * t + i = i * (t + 1) := by ring
      _ ≤ i * s.nbFrames := Nat.mul_le_mul_left i ht
  obtain ⟨a, ha, hsh, hda, -⟩ := frame_any h (t := t) hi (by omega) (by omega)
  refine ⟨a, by unfold Serie.getFrame; rw [ha]; rfl, ?_⟩
  rw [← hpix] at hda
  rw [hl3 t ht, ← hsh, ← hpix, Nat.mul_comm t i, ← hda]

example : (xyz.enumByFrame).map (fun l => l.map (·.1)) = .ok [0, 1] := by decide +kernel

/-- C161 fails for a series of several channels: the data of a time step are `channels` frames, and what `enumByFrame` gives for the time
step `t` begins at the frame number `t` of the file, that is inside the data of the time step `t / channels`. -/
theorem C161_channels_counterexample (s : Serie) (sp : List Dim) (h : Spatial s sp) (i channels : Nat) (hi : TimeInc s i)
    (hpix : i = channels * (sp.map (·.n)).prod) (hc : 2 ≤ channels) (h0 : 0 < (sp.map (·.n)).prod) (h1 : 2 ≤ s.nbFrames)
    (hm : s.memorySize = i * s.nbFrames) (hf : s.offset + s.memorySize ≤ s.file.length) :
    ∃ l a, s.enumByFrame = .ok l ∧ s.getFrame 1 = .ok a ∧ a.data = (s.file.drop (s.offset + i)).take (sp.map (·.n)).prod
      ∧ ∃ a', l[1]? = some (1, a') ∧ a'.data = (s.file.drop (s.offset + (sp.map (·.n)).prod)).take (sp.map (·.n)).prod
      ∧ (sp.map (·.n)).prod < i := by
  generalize hP : (sp.map (·.n)).prod = P at *
  have hPi : 2 * P ≤ i := by rw [hpix]; exact Nat.mul_le_mul_right P hc
  have hb : i * 2 ≤ i * s.nbFrames := Nat.mul_le_mul_left i h1
  have hb2 : s.nbFrames * P ≤ i * s.nbFrames := by
    rw [Nat.mul_comm i]
    exact Nat.mul_le_mul_left _ (by omega)
  obtain ⟨l, hl1, -, hl3⟩ := enum_any h hi (by omega) (by omega) (by rw [hP]; omega)
  obtain ⟨a, ha, -, hda, -⟩ := frame_any h (t := 1) hi (by omega) (by rw [hP]; omega)
  rw [hP] at hda
  refine ⟨l, a, hl1, ?_, by simpa using hda, _, hl3 1 (by omega), ?_, by omega⟩
  · unfold Serie.getFrame
    have : s.frameAt 1 = s.frameAt ((1 : Nat) : Int) := rfl
    rw [this, ha]
    rfl
  · simp [hP]

/-- Two channels of two pixels, one after the other, at each of two time steps. -/
def twoChannels : Serie := ⟨[⟨1, 2, 1⟩, ⟨2, 1, 2⟩, ⟨4, 2, 4⟩], [8], [10, 11, 12, 13, 14, 15, 16, 17], 0⟩

example : Spatial twoChannels [⟨1, 2, 1⟩, ⟨2, 1, 2⟩] ∧ TimeInc twoChannels 4 ∧ 4 = 2 * (([⟨1, 2, 1⟩, ⟨2, 1, 2⟩] : List Dim).map (·.n)).prod
    ∧ 2 ≤ twoChannels.nbFrames ∧ twoChannels.memorySize = 4 * twoChannels.nbFrames ∧ twoChannels.offset + twoChannels.memorySize ≤ twoChannels.file.length :=
  ⟨⟨by decide, by decide, by decide, by decide⟩, .inl ⟨⟨4, 2, 4⟩, by decide, rfl, rfl⟩, by decide, by decide, by decide, by decide⟩

example : ∃ l a a', twoChannels.enumByFrame = .ok l ∧ twoChannels.getFrame 1 = .ok a ∧ a.data = [14, 15] ∧ l[1]? = some (1, a') ∧ a'.data = [12, 13] :=
  ⟨[(0, ⟨[1, 2], [10, 11]⟩), (1, ⟨[1, 2], [12, 13]⟩)], ⟨[1, 2], [14, 15]⟩, ⟨[1, 2], [12, 13]⟩, by decide +kernel, by decide +kernel, rfl, rfl, rfl⟩

/-- C161 fails for `enumBySlice`: whatever the series, an exception (`TypeError` of `range`) is raised before the first slice. -/
theorem C161_by_slice_counterexample (s : Serie) (hm : 0 < s.memorySize) (h1 : 1 ≤ s.nbFrames) : s.enumBySlice = .error .trajError := by
  have : s.getOffset [] = .ok s.offset := by
    unfold Serie.getOffset
    simp only [List.foldlM_nil, pure_eq_ok, ok_bind]
    rw [if_neg (by omega)]
    simp
  unfold Serie.enumBySlice
  rw [this, ok_bind]
  unfold seek
  rw [if_neg (by omega), ok_bind, if_neg (by omega)]

/-! ## Slices -/

/-- C161. For a series in the order X, Y, Z the slice `z` of a time step is the plane `z` of its frame. -/
theorem C161_slice (s : Serie) (X Y Z i t z : Nat) (rest : List Dim)
    (hd : s.dims = [⟨1, X, 1⟩, ⟨2, Y, X⟩, ⟨3, Z, (X : Int) * Y⟩] ++ rest) (hr : ∀ d ∈ rest, 4 ≤ d.id ∧ d.id ≤ 8)
    (hn : (rest.map (·.id)).Nodup) (hi : TimeInc s i) (hm : i * t + X * Y * Z ≤ s.memorySize) (hX : 1 ≤ X) (hY : 1 ≤ Y) (hz : z < Z)
    (hf : s.offset + s.memorySize ≤ s.file.length) :
    ∃ a f, s.get2DSlice [("T", t), ("Z", z)] = .ok a ∧ a.shape = [Y, X] ∧ s.getFrame t = .ok f
      ∧ ∀ x y, x < X → y < Y → ∃ b, a.get [y, x] = .ok b ∧ f.get [z, y, x] = .ok b := by
  have hs : Spatial s [⟨1, X, 1⟩, ⟨2, Y, X⟩, ⟨3, Z, (X : Int) * Y⟩] := by
    refine ⟨?_, by simp, ?_, ?_⟩
    · rw [hd, List.filter_append]
      have h0 : rest.filter (fun d => decide (d.id < 4)) = [] := by
        refine List.filter_eq_nil_iff.2 fun d hd => ?_
        have := hr d hd
        simp
        omega
      rw [h0, List.append_nil]
      simp only [List.filter_cons, List.filter_nil]
      norm_num
    · rw [hd]
      simp only [List.cons_append, List.nil_append, List.map_cons, List.nodup_cons, List.mem_cons, List.mem_map]
      refine ⟨?_, ?_, ?_, hn⟩ <;> push Not
      · refine ⟨by norm_num, by norm_num, fun d hd => ?_⟩
        have := hr d hd
        omega
      · refine ⟨by norm_num, fun d hd => ?_⟩
        have := hr d hd
        omega
      · intro d hd
        have := hr d hd
        omega
    · rw [hd]
      intro d hd
      simp only [List.cons_append, List.nil_append, List.mem_cons] at hd
      rcases hd with rfl | rfl | rfl | hd
      · norm_num
      · norm_num
      · norm_num
      · have := hr d hd
        omega
  have hbox := boxShape_eq hs
  have hzz : X * Y * z + X * Y ≤ X * Y * Z := by
    calc X * Y * z + X * Y = X * Y * (z + 1) := by ring
      _ ≤ X * Y * Z := Nat.mul_le_mul_left _ hz
  have hpos : 0 < X * Y := Nat.mul_pos hX hY
  obtain ⟨f, hf1, -, -, hf3⟩ := frame_any hs (t := t) hi (by omega) (by simp [← mul_assoc]; omega)
  obtain ⟨a, ha1, ha2, -, ha3⟩ := fromfile_get s.file (s.offset + (i * t + X * Y * z)) [X, Y] (by simp; omega)
  refine ⟨a, f, ?_, by simpa using ha2, by unfold Serie.getFrame; rw [hf1]; rfl, fun x y hx hy => ?_⟩
  · have hZ : s.bytesInc "Z" = .ok ((X : Int) * Y) :=
      bytesInc_mem (d := ⟨3, Z, (X : Int) * Y⟩) hs.known hs.nodup (by rw [hd]; simp) rfl
    have ho : s.getOffset [("T", t), ("Z", z)] = .ok ((s.offset : Int) + (i * t + X * Y * z)) := by
      unfold Serie.getOffset
      simp only [List.foldlM_cons, List.foldlM_nil, bytesInc_T hs hi, hZ, ok_bind, pure_eq_ok, zero_add]
      rw [if_neg]
      have : ((i * t + X * Y * z : Nat) : Int) < s.memorySize := by exact_mod_cast (by omega : i * t + X * Y * z < s.memorySize)
      push_cast at this
      omega
    have hk : seek ((s.offset : Int) + (i * t + X * Y * z)) = .ok (s.offset + (i * t + X * Y * z)) := by
      have e : (s.offset : Int) + (i * t + X * Y * z) = ((s.offset + (i * t + X * Y * z) : Nat) : Int) := by push_cast; rfl
      rw [e]
      unfold seek
      rw [if_neg (by omega)]
      congr 1
    unfold Serie.get2DSlice
    rw [hd]
    simp only [List.cons_append, List.nil_append, List.take_succ_cons, List.take_zero, List.mapM_cons, List.mapM_nil]
    have n1 : dimName 1 = .ok "X" := rfl
    have n2 : dimName 2 = .ok "Y" := rfl
    simp only [n1, n2, ok_bind, pure_eq_ok]
    rw [if_neg (by simp), ho, ok_bind, hk, ok_bind]
    have h2 : s.shape2D = [X, Y].reverse := by
      rw [Serie.shape2D, hbox]
      rfl
    have h3 : s.pixelsPerSlice = [X, Y].prod := by
      rw [Serie.pixelsPerSlice, h2, List.prod_reverse]
    rw [h2, h3, ha1]
    rfl
  · obtain ⟨b, hb1, hb2⟩ := ha3 [x, y] rfl (by simp [hx, hy])
    obtain ⟨b', hb1', hb2'⟩ := hf3 [x, y, z] rfl (by simp [hx, hy, hz])
    have : s.offset + (i * t + X * Y * z) + horner ([X, Y].zip [x, y]) = s.offset + i * t
        + horner ((([⟨1, X, 1⟩, ⟨2, Y, X⟩, ⟨3, Z, (X : Int) * Y⟩] : List Dim).map (·.n)).zip [x, y, z]) := by
      simp only [horner, List.map_cons, List.map_nil, List.zip_cons_cons, List.zip_nil_right, List.foldr_cons, List.foldr_nil]
      ring
    rw [this, hb2'] at hb2
    have := Option.some.inj hb2
    subst this
    exact ⟨_, by simpa using hb1, by simpa using hb1'⟩

example : (xyz.get2DSlice [("T", 1), ("Z", 1)]).bind (fun a => a.get [2, 0]) = .ok 27 := by decide +kernel

/-- C161. The two first dimensions of the series cannot be given to `get2DSlice`. -/
theorem C161_slice_refused (s : Serie) (kw : List (String × Int)) (d : Dim) (hd : d ∈ s.dims.take 2) (name : String) (hk : ∀ d ∈ s.dims, 1 ≤ d.id ∧ d.id ≤ 8)
    (hn : dimName d.id = .ok name) (v : Int) (hv : (name, v) ∈ kw) : s.get2DSlice kw = .error .logicError := by
  have hall : ∀ l : List Dim, (∀ d ∈ l, 1 ≤ d.id ∧ d.id ≤ 8) → ∃ ns, (l.mapM fun d => dimName d.id) = .ok ns
      ∧ ∀ d ∈ l, ∀ n, dimName d.id = .ok n → n ∈ ns := by
    intro l
    induction l with
    | nil => intro _; exact ⟨[], rfl, by simp⟩
    | cons e l ih =>
      intro h
      obtain ⟨ns, h1, h2⟩ := ih fun d hd => h d (by simp [hd])
      obtain ⟨n, hn⟩ := dimName_known (h e (by simp))
      refine ⟨n :: ns, by rw [List.mapM_cons, hn, ok_bind, h1, ok_bind, pure_eq_ok], ?_⟩
      intro d hd m hm
      rcases List.mem_cons.1 hd with rfl | hd
      · rw [hn] at hm
        have := Except.ok.inj hm
        simp [this]
      · exact List.mem_cons_of_mem _ (h2 d hd m hm)
  obtain ⟨ns, h1, h2⟩ := hall (s.dims.take 2) fun e he => hk e (List.mem_of_mem_take he)
  unfold Serie.get2DSlice
  rw [h1, ok_bind, if_pos]
  rw [List.any_eq_true]
  refine ⟨name, h2 d hd name hn, ?_⟩
  rw [List.any_eq_true]
  exact ⟨(name, v), hv, by simp⟩

/-- C161 fails for slices in the order X, Z, Y: the plane of the two first dimensions of the file has `Z` rows, and `get2DSlice` gives an
array of `Y` rows, the size of another plane. -/
theorem C161_slice_counterexample : ∃ a, xzy.get2DSlice [("Y", 1)] = .ok a ∧ a.shape = [3, 2]
    ∧ (xzy.dims.take 2).map (fun d => (d.id, d.n)) = [(1, 2), (3, 2)] := by
  exact ⟨⟨[3, 2], [9, 10, 11, 12, 13, 14]⟩, by decide +kernel, rfl, rfl⟩

end PyLif
end Colloids
