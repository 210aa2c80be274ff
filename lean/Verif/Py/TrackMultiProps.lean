import Mathlib.Data.List.Forall2
import Verif.CommonLemmas
import Verif.Py.TrackMultiModel
import Verif.Py.TrackOctaveProps

/-!
# `MultiscaleBlobFinder` of `python/colloids/track.py`
-/

namespace Colloids
namespace Py
namespace Track

/-- half a shape, rounded up -/
def halfS (s : List Nat) : List Nat := s.map fun n => (n + 1) / 2

/-- a shape and its halves -/
def chainS : Nat → List Nat → List (List Nat)
  | 0, _ => []
  | n + 1, s => s :: chainS n (halfS s)

theorem range_map_chain (f : Nat → List Nat) (h : ∀ o, f (o + 1) = halfS (f o)) (n : Nat) :
    (List.range n).map f = chainS n (f 0) := by
  induction n generalizing f with
  | zero => rfl
  | succ n ih =>
    rw [List.range_succ_eq_map, List.map_cons, List.map_map, chainS, ← h 0]
    congr 1
    exact ih (f ∘ Nat.succ) fun o => h (o + 1)

theorem ceil_half (x : ℚ) (hx : 0 ≤ x) : ⌈x / 2⌉.toNat = (⌈x⌉.toNat + 1) / 2 := by
  have h0 : 0 ≤ ⌈x⌉ := Int.ceil_nonneg hx
  have h : ⌈x / 2⌉ = (⌈x⌉ + 1) / 2 := by
    rw [Int.ceil_eq_iff]
    have h1 := Int.ceil_lt_add_one x
    have h2 := Int.le_ceil x
    have h3 : ((2 * ((⌈x⌉ + 1) / 2) : Int) : ℚ) ≤ ((⌈x⌉ + 1 : Int) : ℚ) := by
      exact_mod_cast Int.mul_ediv_self_le (by norm_num)
    have h4 : ((⌈x⌉ : Int) : ℚ) ≤ ((2 * ((⌈x⌉ + 1) / 2) : Int) : ℚ) := by
      exact_mod_cast (by omega : ⌈x⌉ ≤ 2 * ((⌈x⌉ + 1) / 2))
    push_cast at h3 h4
    constructor <;> linarith
  rw [h]
  omega

theorem shapesOf_chain (shape : List Nat) (n : Nat) (up : Bool) :
    shapesOf shape n up = chainS n (if up then shape.map (2 * ·) else shape) := by
  unfold shapesOf
  rw [range_map_chain]
  · congr 1
    cases up with
    | true =>
      rw [if_pos rfl]
      refine List.map_congr_left fun s _ => ?_
      have : (s : ℚ) * (2 : ℚ) ^ (((1 : Nat) : Int) - ((0 : Nat) : Int)) = ((2 * s : Nat) : ℚ) := by
        push_cast
        norm_num
        ring
      rw [this, Int.ceil_natCast]
      rfl
    | false =>
      rw [if_neg (by decide)]
      conv_rhs => rw [← List.map_id shape]
      refine List.map_congr_left fun s _ => ?_
      have : (s : ℚ) * (2 : ℚ) ^ (((0 : Nat) : Int) - ((0 : Nat) : Int)) = ((s : Nat) : ℚ) := by
        norm_num
      rw [this, Int.ceil_natCast]
      rfl
  · intro o
    unfold halfS
    rw [List.map_map]
    refine List.map_congr_left fun s _ => ?_
    rw [Function.comp_apply, ← ceil_half _ (by positivity)]
    congr 2
    rw [mul_div_assoc]
    congr 1
    rw [eq_div_iff (by norm_num), ← zpow_add_one₀ (by norm_num)]
    congr 1
    push_cast
    ring

theorem filter_chain (n : Nat) (s : List Nat) :
    ∃ m, m ≤ n ∧ ((chainS n s).filter fun s => s.all fun n => decide (8 < n)) = chainS m s ∧
      (m = 0 ↔ n = 0 ∨ ∃ a ∈ s, a ≤ 8) := by
  induction n generalizing s with
  | zero => exact ⟨0, le_refl 0, rfl, by simp⟩
  | succ n ih =>
    by_cases h : ∃ a ∈ s, a ≤ 8
    · refine ⟨0, Nat.zero_le _, ?_, by simp [h]⟩
      obtain ⟨m, _, e, hm⟩ := ih (halfS s)
      obtain ⟨a, ha, h8⟩ := h
      have : m = 0 := hm.2 (Or.inr ⟨(a + 1) / 2, List.mem_map.2 ⟨a, ha, rfl⟩, by omega⟩)
      rw [this] at e
      have hneg : ¬ (s.all fun n => decide (8 < n)) = true := by
        intro hh
        have := of_decide_eq_true (List.all_eq_true.1 hh a ha)
        omega
      change (s :: chainS n (halfS s)).filter _ = []
      rw [List.filter_cons, if_neg hneg, e]
      rfl
    · obtain ⟨m, hm, e, _⟩ := ih (halfS s)
      refine ⟨m + 1, by omega, ?_, by simp [h]⟩
      have hpos : (s.all fun n => decide (8 < n)) = true := by
        refine List.all_eq_true.2 fun a ha => decide_eq_true ?_
        by_contra hh
        exact h ⟨a, ha, by omega⟩
      change (s :: chainS n (halfS s)).filter _ = s :: chainS m (halfS s)
      rw [List.filter_cons, if_pos hpos, e]

theorem octavesOf_chain {shape : List Nat} {n : Nat} {up : Bool} {oct : List (List Nat)}
    (h : octavesOf shape n up = .ok oct) :
    ∃ m, oct = (if up then chainS m (shape.map (2 * ·)) else List.replicate shape.length 0 :: chainS m shape) ∧
      (m = 0 ↔ ∃ a ∈ (if up then shape.map (2 * ·) else shape), a ≤ 8) := by
  unfold octavesOf at h
  split at h
  · cases h
  · rename_i hn
    obtain ⟨m, _, e, h0⟩ := filter_chain n (if up then shape.map (2 * ·) else shape)
    have hn : n ≠ 0 := fun e => hn (Or.inl e)
    refine ⟨m, ?_, ?_⟩
    · dsimp only at h
      rw [shapesOf_chain, e] at h
      cases h
      cases up <;> rfl
    · rw [h0]
      simp [hn]

/-- the filters and the layers of a finder have the shape of the image -/
structure KeepsShape (find : OctaveFinder) (blur : ℝ → Img → Img) : Prop where
  layer : ∀ o im k, (find o im k).2.shape = im.shape
  blur : ∀ k im, (blur k im).shape = im.shape

theorem keepsShape_exists : ∃ find blur, KeepsShape find blur :=
  ⟨fun _ im _ => ([], im), fun _ im => im, ⟨fun _ _ _ => rfl, fun _ _ => rfl⟩⟩

theorem iter_halfS (s : List Nat) (i : Nat) : halfS^[i] s = s.map ((fun n => (n + 1) / 2)^[i]) := by
  induction i generalizing s with
  | zero => simp
  | succ i ih =>
    rw [Function.iterate_succ_apply, ih, halfS, List.map_map]
    rfl

theorem nextOctaves_ok {find : OctaveFinder} {blur : ℝ → Img → Img} (K : KeepsShape find blur) (k : ℝ) (m o : Nat)
    (layer : Img) :
    ∃ l, nextOctaves find k o (chainS m (halfS layer.shape)) layer = .ok l ∧ l.length = m ∧
      ∀ (i : Nat) (b : List Blob), l[i]? = some b →
        ∃ (im : Img), b = (find (o + i) im k).1 ∧ im.shape = halfS^[i + 1] layer.shape := by
  induction m generalizing o layer with
  | zero => exact ⟨[], rfl, rfl, fun i b h => by simp at h⟩
  | succ m ih =>
    obtain ⟨l, hl, hlen, hs⟩ := ih (o + 1) (find o layer.half k).2
    have e : (find o layer.half k).2.shape = halfS layer.shape := by rw [K.layer]; rfl
    rw [e] at hl hs
    refine ⟨(find o layer.half k).1 :: l, ?_, by simp [hlen], ?_⟩
    · rw [chainS, nextOctaves]
      have : octCall find o (halfS layer.shape) layer.half k = .ok (find o layer.half k) := if_pos rfl
      rw [this, ok_bind, hl, ok_bind]
      rfl
    · intro i b hb
      cases i with
      | zero =>
        simp only [List.getElem?_cons_zero, Option.some.injEq] at hb
        exact ⟨layer.half, hb.symm, rfl⟩
      | succ i =>
        rw [List.getElem?_cons_succ] at hb
        obtain ⟨im, h1, h2⟩ := hs i b hb
        refine ⟨im, by rw [h1]; congr 2; omega, by rw [h2]; rfl⟩

/-- what `octaveBlobs` does with the octaves of the constructor -/
theorem octaveBlobs_ok {find : OctaveFinder} {blur : ℝ → Img → Img} (K : KeepsShape find blur) {im : Img}
    {n : Nat} {up0 : Bool} {oct : List (List Nat)} (h : octavesOf im.shape n up0 = .ok oct) (k : ℝ) (up : Bool)
    (hup : up = true → up0 = true) (hne : oct ≠ []) :
    ∃ l, octaveBlobs find blur oct im k up = .ok l ∧ l.length = oct.length - (if up then 0 else 1) ∧
      ∀ (i : Nat) (b : List Blob), l[i]? = some b → ∃ (o : Nat) (im' : Img) (k' : ℝ), b = (find o im' k').1 ∧
        im'.shape = halfS^[i] (if up then im.shape.map (2 * ·) else im.shape) := by
  obtain ⟨m, e, -⟩ := octavesOf_chain h
  have half2 : halfS (im.shape.map (2 * ·)) = im.shape := by
    unfold halfS
    rw [List.map_map]
    conv_rhs => rw [← List.map_id im.shape]
    refine List.map_congr_left fun s _ => ?_
    simp only [Function.comp_apply, id]
    omega
  -- the octaves after the first
  have tail : ∃ m', oct.drop 1 = chainS m' im.shape ∧ oct.length = m' + 1 := by
    have len : ∀ m s, (chainS m s).length = m := by
      intro m
      induction m with
      | zero => intro s; rfl
      | succ m ih => intro s; simp [chainS, ih]
    cases up0 with
    | true =>
      rw [if_pos rfl] at e
      cases m with
      | zero => exact absurd e hne
      | succ m =>
        refine ⟨m, ?_, by rw [e, len]⟩
        rw [e, chainS, half2]
        rfl
    | false =>
      rw [if_neg (by decide)] at e
      exact ⟨m, by rw [e]; rfl, by rw [e, List.length_cons, len]⟩
  have main : ∀ m', ∃ l, (match chainS m' im.shape with
      | [] => (.ok [] : R (List (List Blob)))
      | s :: rest => (do
        let r ← octCall find 1 s (blur k im) 1.6
        let l ← nextOctaves find k 2 rest r.2
        pure (r.1 :: l))) = .ok l ∧ l.length = m' ∧
      ∀ (i : Nat) (b : List Blob), l[i]? = some b → ∃ (o : Nat) (im' : Img) (k' : ℝ), b = (find o im' k').1 ∧
        im'.shape = halfS^[i] im.shape := by
    intro m'
    cases m' with
    | zero => exact ⟨[], rfl, rfl, fun i b h => by simp at h⟩
    | succ m' =>
      obtain ⟨l, hl, hlen, hs⟩ := nextOctaves_ok K k m' 2 (find 1 (blur k im) 1.6).2
      have e1 : (find 1 (blur k im) 1.6).2.shape = im.shape := by rw [K.layer, K.blur]
      rw [e1] at hl hs
      refine ⟨(find 1 (blur k im) 1.6).1 :: l, ?_, by simp [hlen], ?_⟩
      · rw [chainS]
        dsimp only
        have : octCall find 1 im.shape (blur k im) 1.6 = .ok (find 1 (blur k im) 1.6) := if_pos (K.blur k im).symm
        rw [this, ok_bind, hl, ok_bind]
        rfl
      · intro i b hb
        cases i with
        | zero =>
          simp only [List.getElem?_cons_zero, Option.some.injEq] at hb
          exact ⟨1, blur k im, 1.6, hb.symm, by rw [K.blur]; rfl⟩
        | succ i =>
          rw [List.getElem?_cons_succ] at hb
          obtain ⟨im', h1, h2⟩ := hs i b hb
          exact ⟨_, im', k, h1, h2⟩
  obtain ⟨m', ht, hlen⟩ := tail
  obtain ⟨l, hl, hl', hs⟩ := main m'
  cases up with
  | false =>
    refine ⟨l, ?_, by rw [hl', hlen]; rfl, by simpa using hs⟩
    rw [octaveBlobs, ht, if_neg (by decide), pure_eq_ok, ok_bind, ← hl]
    cases chainS m' im.shape <;> rfl
  | true =>
    have h0 : up0 = true := hup rfl
    rw [h0, if_pos rfl] at e
    have hm : m ≠ 0 := by
      rintro rfl
      exact hne e
    obtain ⟨m1, rfl⟩ := Nat.exists_eq_succ_of_ne_zero hm
    have hd : oct.headD [] = im.shape.map (2 * ·) := by rw [e]; rfl
    refine ⟨(find 0 (blur k im.repeat2) k).1 :: l, ?_, by rw [List.length_cons, hl', hlen]; rfl, ?_⟩
    · rw [octaveBlobs, ht, if_pos rfl, hd]
      have : octCall find 0 (im.shape.map (2 * ·)) (blur k im.repeat2) k = .ok (find 0 (blur k im.repeat2) k) :=
        if_pos (K.blur k im.repeat2).symm
      rw [this, ok_bind, pure_eq_ok, ok_bind]
      revert hl
      cases chainS m' im.shape with
      | nil =>
        intro hl
        cases hl
        rfl
      | cons s rest =>
        intro hl
        dsimp only at hl ⊢
        cases h1 : octCall find 1 s (blur k im) 1.6 with
        | error e => rw [h1] at hl; cases hl
        | ok r =>
          rw [h1, ok_bind] at hl
          rw [ok_bind]
          cases h2 : nextOctaves find k 2 rest r.2 with
          | error e => rw [h2] at hl; cases hl
          | ok l2 =>
            rw [h2, ok_bind] at hl
            rw [ok_bind]
            cases hl
            rfl
    · intro i b hb
      cases i with
      | zero =>
        simp only [List.getElem?_cons_zero, Option.some.injEq] at hb
        exact ⟨0, _, k, hb.symm, by rw [K.blur]; rfl⟩
      | succ i =>
        rw [List.getElem?_cons_succ] at hb
        obtain ⟨o, im', k', h1, h2⟩ := hs i b hb
        refine ⟨o, im', k', h1, ?_⟩
        rw [h2, if_pos rfl, Function.iterate_succ_apply, half2]

/-- the call, with the octaves of the constructor -/
theorem multiscale_eq {find : OctaveFinder} {blur : ℝ → Img → Img} (K : KeepsShape find blur) {im : Img}
    {n : Nat} {up0 : Bool} {oct : List (List Nat)} (h : octavesOf im.shape n up0 = .ok oct) (sort : Sorter) (k : ℝ)
    (up rm : Bool) (hne : oct ≠ []) :
    ∃ l, octaveBlobs find blur oct im k (up && up0) = .ok l ∧
      l.length = oct.length - (if (up && up0) then 0 else 1) ∧
      (∀ (i : Nat) (b : List Blob), l[i]? = some b → ∃ (o : Nat) (im' : Img) (k' : ℝ), b = (find o im' k').1 ∧
        im'.shape = halfS^[i] (if (up && up0) then im.shape.map (2 * ·) else im.shape)) ∧
      multiscale find blur sort oct im k up0 up rm = (mergeOctaves (up && up0) l).bind fun c =>
        if c.length < 2 then .ok c else if !rm then .ok c else .ok (keepIntense (sort c)) := by
  obtain ⟨l, h1, h2, h3⟩ := octaveBlobs_ok K h k (up && up0) (fun e => (Bool.and_eq_true _ _ ▸ e).2) hne
  refine ⟨l, h1, h2, h3, ?_⟩
  unfold multiscale
  dsimp only
  rw [if_neg hne, h1, ok_bind]
  rfl

/-- **C195** With an image of the shape given to the constructor, no octave ever refuses the image it is
given, whatever the size, odd or even, and the dimension.  The call succeeds, unless octave -1 is not wanted and there
is no other octave. -/
theorem C195_shapes {find : OctaveFinder} {blur : ℝ → Img → Img} (K : KeepsShape find blur) (im : Img)
    (n : Nat) (up0 : Bool) (oct : List (List Nat)) (h : octavesOf im.shape n up0 = .ok oct) (sort : Sorter) (k : ℝ)
    (up rm : Bool) :
    (∃ c, multiscale find blur sort oct im k up0 up rm = .ok c) ∨
      ((up && up0) = false ∧ oct.length = 1 ∧
        multiscale find blur sort oct im k up0 up rm = .error .invalidArgument) := by
  by_cases hne : oct = []
  · left
    refine ⟨[], ?_⟩
    unfold multiscale
    dsimp only
    rw [if_pos hne]
    rfl
  · obtain ⟨l, h1, h2, h3, e⟩ := multiscale_eq K h sort k up rm hne
    rw [e]
    by_cases hl : l = []
    · right
      have h0 : oct.length ≠ 0 := fun e => hne (List.length_eq_zero_iff.1 e)
      rw [hl] at h2
      cases hu : (up && up0) with
      | true =>
        rw [hu] at h2
        simp at h2
        exact absurd h2.symm h0
      | false =>
        rw [hu] at h2
        simp only [List.length_nil, Bool.false_eq_true, if_false] at h2
        refine ⟨rfl, by omega, ?_⟩
        rw [hl]
        rfl
    · left
      unfold mergeOctaves
      rw [if_neg hl]
      generalize (l.zipIdx.flatMap _) = c
      dsimp only [Except.bind]
      split
      · exact ⟨_, rfl⟩
      · split
        · exact ⟨_, rfl⟩
        · exact ⟨_, rfl⟩

theorem keep_spec (s acc : List Blob) (done : List Blob) (hs : (done ++ s).Pairwise fun a b => a.v ≤ b.v)
    (h1 : acc.Sublist done) (h2 : acc.Pairwise fun a b => overlaps b a = false)
    (h3 : ∀ b ∈ done, b ∈ acc ∨ ∃ a ∈ acc, overlaps b a = true ∧ a.v ≤ b.v) :
    let out := s.foldl (fun out i => if out.any fun j => overlaps i j then out else out ++ [i]) acc
    out.Sublist (done ++ s) ∧ (out.Pairwise fun a b => overlaps b a = false) ∧
      ∀ b ∈ done ++ s, b ∈ out ∨ ∃ a ∈ out, overlaps b a = true ∧ a.v ≤ b.v := by
  induction s generalizing acc done with
  | nil => simpa using ⟨h1, h2, h3⟩
  | cons i s ih =>
    rw [List.foldl_cons, List.append_cons done i s]
    have le : ∀ a ∈ done, a.v ≤ i.v := fun a ha =>
      (List.pairwise_append.1 hs).2.2 a ha i List.mem_cons_self
    rw [List.append_cons done i s] at hs
    by_cases hany : (acc.any fun j => overlaps i j) = true
    · rw [if_pos hany]
      refine ih acc (done ++ [i]) hs (h1.trans (List.sublist_append_left _ _)) h2 ?_
      intro b hb
      rcases List.mem_append.1 hb with hb | hb
      · exact h3 b hb
      · rw [List.mem_singleton.1 hb]
        obtain ⟨a, ha, ho⟩ := List.any_eq_true.1 hany
        exact Or.inr ⟨a, ha, ho, le a (h1.subset ha)⟩
    · rw [if_neg hany]
      refine ih (acc ++ [i]) (done ++ [i]) hs (h1.append (List.Sublist.refl _)) ?_ ?_
      · refine List.pairwise_append.2 ⟨h2, List.pairwise_singleton _ _, ?_⟩
        intro a ha b hb
        rw [List.mem_singleton.1 hb]
        by_contra hh
        exact hany (List.any_eq_true.2 ⟨a, ha, by simpa using hh⟩)
      · intro b hb
        rcases List.mem_append.1 hb with hb | hb
        · rcases h3 b hb with h | ⟨a, ha, h⟩
          · exact Or.inl (List.mem_append_left _ h)
          · exact Or.inr ⟨a, List.mem_append_left _ ha, h⟩
        · exact Or.inl (List.mem_append_right _ hb)

/-- `argsort`: a permutation, in order of the values -/
structure SortsByValue (sort : Sorter) : Prop where
  perm : ∀ l, (sort l).Perm l
  le : ∀ l, (sort l).Pairwise fun a b => a.v ≤ b.v

open Classical in
theorem sortsByValue_exists : ∃ sort, SortsByValue sort := by
  refine ⟨fun l => l.mergeSort fun a b => decide (a.v ≤ b.v), ⟨fun l => List.mergeSort_perm _ _, fun l => ?_⟩⟩
  have := List.pairwise_mergeSort (le := fun a b : Blob => decide (a.v ≤ b.v))
    (fun a b c h1 h2 => by simp only [decide_eq_true_eq] at *; linarith)
    (fun a b => by
      rcases le_total a.v b.v with h | h
      · simp [h]
      · simp [h]) l
  simpa using this

/-- **C195** The blobs returned when the overlaps are removed are among those returned when they are not, each one
at most as many times; no two of them are closer than the sum of their radii; and every
blob that was removed overlaps one that is kept and at least as intense (difference of Gaussians at least as
low). -/
theorem C195_overlap (find : OctaveFinder) (blur : ℝ → Img → Img) (sort : Sorter) (S : SortsByValue sort)
    (oct : List (List Nat)) (im : Img) (k : ℝ) (up0 up : Bool) (all : List Blob)
    (h : multiscale find blur sort oct im k up0 up false = .ok all) :
    ∃ out, multiscale find blur sort oct im k up0 up true = .ok out ∧ List.Subperm out all ∧
      (out.Pairwise fun a b => (a.r + b.r) ^ 2 ≤ ((a.pos.zip b.pos).map fun x => (x.1 - x.2) ^ 2).sum) ∧
      ∀ b ∈ all, b ∈ out ∨ ∃ a ∈ out, a.v ≤ b.v ∧
        ((b.pos.zip a.pos).map fun x => (x.1 - x.2) ^ 2).sum < (b.r + a.r) ^ 2 := by
  unfold multiscale at h ⊢
  dsimp only at h ⊢
  by_cases hne : oct = []
  · rw [if_pos hne] at h ⊢
    cases h
    exact ⟨[], rfl, List.Subperm.refl _, List.Pairwise.nil, fun b hb => by simp at hb⟩
  · rw [if_neg hne] at h ⊢
    cases h1 : octaveBlobs find blur oct im k (up && up0) with
    | error e => rw [h1] at h; cases h
    | ok l =>
      rw [h1, ok_bind] at h
      rw [ok_bind]
      cases h2 : mergeOctaves (up && up0) l with
      | error e => rw [h2] at h; cases h
      | ok c =>
        rw [h2, ok_bind] at h
        rw [ok_bind]
        have hall : all = c := by
          split at h
          · cases h; rfl
          · rw [if_pos (by decide)] at h
            cases h; rfl
        subst hall
        by_cases h3 : all.length < 2
        · rw [if_pos h3]
          refine ⟨all, rfl, List.Subperm.refl _, ?_, fun b hb => Or.inl hb⟩
          match all, h3 with
          | [], _ => exact List.Pairwise.nil
          | [a], _ => exact List.pairwise_singleton _ _
        · rw [if_neg h3, if_neg (by decide)]
          obtain ⟨k1, k2, k3⟩ := keep_spec (sort all) [] [] (by simpa using S.le all) (List.Sublist.refl _)
            List.Pairwise.nil (fun b hb => by simp at hb)
          refine ⟨_, rfl, k1.subperm.trans (S.perm all).subperm, ?_, ?_⟩
          · refine k2.imp ?_
            intro a b hab
            unfold overlaps at hab
            have hab := of_decide_eq_false hab
            have e : ((a.pos.zip b.pos).map fun x => (x.1 - x.2) ^ 2) =
                ((b.pos.zip a.pos).map fun x => (x.1 - x.2) ^ 2) := by
              rw [← List.zip_swap, List.map_map]
              refine List.map_congr_left fun x _ => ?_
              simp only [Function.comp_apply, Prod.fst_swap, Prod.snd_swap]
              ring
            rw [e, add_comm a.r]
            exact not_lt.1 hab
          · intro b hb
            rcases k3 b (by simpa using (S.perm all).mem_iff.2 hb) with h | ⟨a, ha, ho, hv⟩
            · exact Or.inl h
            · exact Or.inr ⟨a, ha, hv, of_decide_eq_true ho⟩

theorem half_iter (i n : Nat) : (2 : ℝ) ^ i * (((fun n => (n + 1) / 2)^[i] n : Nat) - 1 : ℝ) ≤ (n : ℝ) - 1 := by
  induction i generalizing n with
  | zero => simp
  | succ i ih =>
    have h1 := ih ((n + 1) / 2)
    have h2 : ((2 * ((n + 1) / 2) : Nat) : ℝ) ≤ ((n + 1 : Nat) : ℝ) := by
      exact_mod_cast Nat.mul_div_le (n + 1) 2
    push_cast at h2
    rw [Function.iterate_succ_apply, pow_succ']
    nlinarith

/-- **C195** If the finder of one octave returns coordinates inside of the image it is given, all the coordinates returned
are in the image, between 0 and the size less half a pixel, whatever the number of octaves. -/
theorem C195_inside {find : OctaveFinder} {blur : ℝ → Img → Img} (K : KeepsShape find blur)
    (hin : ∀ o im k, ∀ b ∈ (find o im k).1, List.Forall₂ (fun (p : ℝ) (n : Nat) => 0 ≤ p ∧ p ≤ n - 1) b.pos im.shape)
    (im : Img) (n : Nat) (up0 : Bool) (oct : List (List Nat)) (h : octavesOf im.shape n up0 = .ok oct)
    (sort : Sorter) (S : SortsByValue sort) (k : ℝ) (up rm : Bool) (c : List Blob)
    (hc : multiscale find blur sort oct im k up0 up rm = .ok c) :
    ∀ b ∈ c, List.Forall₂ (fun (p : ℝ) (s : Nat) => 0 ≤ p ∧ p ≤ s - 1 / 2) b.pos im.shape := by
  -- it is enough to look at the blobs before the removal
  have key : ∀ (all : List Blob), multiscale find blur sort oct im k up0 up false = .ok all →
      ∀ b ∈ all, List.Forall₂ (fun (p : ℝ) (s : Nat) => 0 ≤ p ∧ p ≤ s - 1 / 2) b.pos im.shape := by
    intro all hall b hb
    by_cases hne : oct = []
    · unfold multiscale at hall
      dsimp only at hall
      rw [if_pos hne] at hall
      cases hall
      simp at hb
    · obtain ⟨l, -, -, hl, e⟩ := multiscale_eq K h sort k up false hne
      rw [e] at hall
      unfold mergeOctaves at hall
      split at hall
      · cases hall
      · dsimp only [Except.bind] at hall
        have ha : all = l.zipIdx.flatMap fun c =>
            c.1.map (Blob.scale ((2 : ℝ) ^ ((c.2 : Int) - ((if (up && up0) then 1 else 0 : Nat) : Int)))) := by
          revert hall
          generalize (l.zipIdx.flatMap _) = c
          intro hall
          split at hall
          · cases hall; rfl
          · rw [if_pos (by decide)] at hall
            cases hall; rfl
        rw [ha] at hb
        obtain ⟨⟨bl, i⟩, hi, hb⟩ := List.mem_flatMap.1 hb
        obtain ⟨b0, hb0, rfl⟩ := List.mem_map.1 hb
        rw [List.mem_zipIdx_iff_getElem?] at hi
        obtain ⟨o, im', k', e1, e2⟩ := hl i bl hi
        dsimp only at hb0
        rw [e1] at hb0
        have hp := hin o im' k' b0 hb0
        rw [e2, iter_halfS] at hp
        unfold Blob.scale
        dsimp only
        rw [List.forall₂_map_left_iff]
        have hi := half_iter i
        cases hu : (up && up0) with
        | true =>
          rw [hu, if_pos rfl, List.map_map, List.forall₂_map_right_iff] at hp
          refine hp.imp ?_
          intro p s ⟨h0, h1⟩
          have h2 := hi (2 * s)
          have e : (2 : ℝ) ^ ((i : Int) - (((if true = true then 1 else 0 : Nat)) : Int)) = 2 ^ i / 2 := by
            rw [if_pos rfl, Nat.cast_one, zpow_sub_one₀ (by norm_num), zpow_natCast]
            rfl
          rw [e]
          have hpos : (0 : ℝ) < 2 ^ i := by positivity
          refine ⟨by positivity, ?_⟩
          have h3 : (2 : ℝ) ^ i * p ≤ 2 ^ i * (((fun n => (n + 1) / 2)^[i] (2 * s) : Nat) - 1 : ℝ) :=
            mul_le_mul_of_nonneg_left h1 hpos.le
          push_cast at h2
          linarith
        | false =>
          rw [hu, if_neg (by decide), List.forall₂_map_right_iff] at hp
          refine hp.imp ?_
          intro p s ⟨h0, h1⟩
          have h2 := hi s
          have e : (2 : ℝ) ^ ((i : Int) - (((if false = true then 1 else 0 : Nat)) : Int)) = 2 ^ i := by
            rw [if_neg (by decide), Nat.cast_zero, sub_zero, zpow_natCast]
          rw [e]
          have hpos : (0 : ℝ) < 2 ^ i := by positivity
          refine ⟨by positivity, ?_⟩
          have h3 : (2 : ℝ) ^ i * p ≤ 2 ^ i * (((fun n => (n + 1) / 2)^[i] s : Nat) - 1 : ℝ) :=
            mul_le_mul_of_nonneg_left h1 hpos.le
          linarith
  cases rm with
  | false => exact key c hc
  | true =>
    rcases C195_shapes K im n up0 oct h sort k up false with ⟨all, hall⟩ | ⟨h1, h2, h3⟩
    · obtain ⟨out, ho, hsub, -, -⟩ := C195_overlap find blur sort S oct im k up0 up all hall
      rw [hc] at ho
      cases ho
      exact fun b hb => key all hall b (hsub.subset hb)
    · rcases C195_shapes K im n up0 oct h sort k up true with ⟨all, hall⟩ | ⟨-, -, h4⟩
      · exfalso
        have hne : oct ≠ [] := by
          rintro rfl
          simp at h2
        obtain ⟨l, -, hlen, -, e⟩ := multiscale_eq K h sort k up true hne
        rw [h1, h2] at hlen
        have hl : l = [] := List.length_eq_zero_iff.1 hlen
        rw [e, hl] at hc
        cases hc
      · rw [hc] at h4
        cases h4

/-- **C195** Counterexample: an image with a side from 5 to 8 pixels can only be analysed in octave -1: asking not to
use octave -1 is an error of `vstack`, not an empty result. -/
theorem C195_empty_counterexample (find : OctaveFinder) (blur : ℝ → Img → Img) (sort : Sorter) (im : Img) (n : Nat)
    (hne : im.shape ≠ []) (h5 : ∀ s ∈ im.shape, 5 ≤ s) (h8 : ∃ s ∈ im.shape, s ≤ 8) (k : ℝ) (rm : Bool) :
    (∃ oct, octavesOf im.shape (n + 1) true = .ok oct ∧
      multiscale find blur sort oct im k true false rm = .error .invalidArgument) ∧
    ∃ oct, octavesOf im.shape (n + 1) false = .ok oct ∧
      multiscale find blur sort oct im k false true rm = .error .invalidArgument := by
  have run : ∀ (s : List Nat) (up0 up : Bool), (up && up0) = false →
      multiscale find blur sort [s] im k up0 up rm = .error .invalidArgument := by
    intro s up0 up h
    unfold multiscale octaveBlobs
    simp only [h]
    rfl
  have hok : ∀ up0, ∃ oct, octavesOf im.shape (n + 1) up0 = .ok oct := fun up0 =>
    ⟨_, by unfold octavesOf; rw [if_neg (by simp [hne])]⟩
  obtain ⟨s8, hs8, hle⟩ := h8
  constructor
  · obtain ⟨oct, h⟩ := hok true
    refine ⟨oct, h, ?_⟩
    unfold octavesOf at h
    rw [if_neg (by simp [hne])] at h
    simp only [if_true] at h
    rw [shapesOf_chain, if_pos rfl] at h
    have e1 : chainS (n + 1) (im.shape.map (2 * ·)) =
        im.shape.map (2 * ·) :: chainS n (halfS (im.shape.map (2 * ·))) := rfl
    have hh : halfS (im.shape.map (2 * ·)) = im.shape := by
      unfold halfS
      rw [List.map_map]
      conv_rhs => rw [← List.map_id im.shape]
      refine List.map_congr_left fun s _ => ?_
      simp only [Function.comp_apply, id]
      omega
    obtain ⟨m, -, e2, h0⟩ := filter_chain n im.shape
    rw [h0.2 (Or.inr ⟨s8, hs8, hle⟩)] at e2
    have hpos : ((im.shape.map (2 * ·)).all fun n => decide (8 < n)) = true := by
      refine List.all_eq_true.2 fun a ha => decide_eq_true ?_
      obtain ⟨s, hs, rfl⟩ := List.mem_map.1 ha
      have := h5 s hs
      omega
    rw [e1, hh, List.filter_cons, if_pos hpos, e2] at h
    cases h
    exact run _ true false rfl
  · obtain ⟨oct, h⟩ := hok false
    refine ⟨oct, h, ?_⟩
    obtain ⟨m, e, h0⟩ := octavesOf_chain h
    rw [h0.2 ⟨s8, hs8, hle⟩] at e
    rw [e]
    exact run _ false true rfl

/-- **C195** Counterexample: the blobs of the octave of the image itself have the radii of `k = 1.6`, whatever the `k` of the call: this
octave is called without `k`.  And the layer given to the next octave is only twice as blurred as the image given to this one, as the comment
says, if `k` is 1.6. -/
theorem C195_k_counterexample (find : OctaveFinder) (blur : ℝ → Img → Img) (hb : ∀ k im, (blur k im).shape = im.shape)
    (sort : Sorter) (im : Img) (s0 : List Nat) (k : ℝ) (nbl : Nat) (hn : 0 < nbl) (x v : ℝ) (pos : List ℝ)
    (hf : ∀ im k, (find 1 im k).1 = [⟨pos, scale2radius x k nbl 2, v⟩]) (hk : 0 < k) (hk' : k ≠ 1.6) :
    (∃ r, multiscale find blur sort [s0, im.shape] im k false false true = .ok [⟨pos, r, v⟩] ∧
      r ≠ scale2radius x k nbl 2) ∧
    layerVar (k ^ 2) 1.6 nbl nbl ≠ (2 * k) ^ 2 := by
  constructor
  · refine ⟨scale2radius x 1.6 nbl 2, ?_, ?_⟩
    · unfold multiscale octaveBlobs
      have h1 : octCall find 1 im.shape (blur k im) 1.6 = .ok (find 1 (blur k im) 1.6) := if_pos (hb k im).symm
      simp only [Bool.and_self, Bool.false_eq_true, if_false, reduceCtorEq, List.drop_one, List.tail_cons, h1,
        pure_eq_ok, ok_bind, nextOctaves, hf, mergeOctaves, List.nil_append, List.zipIdx_cons, List.zipIdx_nil,
        List.flatMap_cons, List.flatMap_nil, List.map_cons, List.map_nil, List.append_nil, List.length_singleton,
        Nat.one_lt_two, if_true, Blob.scale]
      simp
    · intro e
      unfold scale2radius at e
      have hn' : (0 : ℝ) < nbl := by exact_mod_cast hn
      have h2 : (1 : ℝ) < (2 : ℝ) ^ ((2.0 : ℝ) / nbl) := Real.one_lt_rpow (by norm_num) (by positivity)
      have hs : 0 < √(2 * 2 * Real.log 2 / nbl / ((2 : ℝ) ^ ((2.0 : ℝ) / nbl) - 1)) := by
        have := Real.log_pos (by norm_num : (1 : ℝ) < 2)
        have : 0 < (2 : ℝ) ^ ((2.0 : ℝ) / nbl) - 1 := by linarith
        positivity
      have hp : 0 < (2 : ℝ) ^ ((x + 1) / nbl) := by positivity
      have := mul_right_cancel₀ hp.ne' (mul_right_cancel₀ hs.ne' e)
      exact hk' this.symm
  · rw [layerVar_eq _ _ (by norm_num)]
    have hn' : (nbl : ℝ) ≠ 0 := by exact_mod_cast hn.ne'
    rw [div_self hn', Real.rpow_one]
    intro e
    have : k ^ 2 = 1.6 ^ 2 := by norm_num at e ⊢; linarith
    exact hk' ((pow_left_inj₀ hk.le (by norm_num) (by norm_num)).1 this)

/-- the center of mass of a line of pixels -/
noncomputable def lineCenter (n : Nat) (v : Nat → ℝ) : ℝ :=
  (∑ i ∈ Finset.range n, v i * i) / ∑ i ∈ Finset.range n, v i

theorem sum_repeat (n : Nat) (f : Nat → ℝ) :
    ∑ i ∈ Finset.range (2 * n), f i = ∑ i ∈ Finset.range n, (f (2 * i) + f (2 * i + 1)) := by
  induction n with
  | zero => simp
  | succ n ih => rw [Nat.mul_succ, Finset.sum_range_succ, Finset.sum_range_succ, Finset.sum_range_succ, ih]; ring

/-- **C195** Counterexample: the coordinates of octave -1 are a quarter of a pixel too large.  The pixels are repeated, so the
center of the image given to octave -1 is twice the one of the image and half a pixel more, which is not removed: a finder
exact in its octave is not exact. -/
theorem C195_position_counterexample (sort : Sorter) (n : Nat) (im : Img) (hs : im.shape = [n])
    (hm : ∑ i ∈ Finset.range n, im.val [i] ≠ 0) (find : OctaveFinder) (k r v : ℝ)
    (hf : ∀ o im' m, im'.shape = [m] → (find o im' k).1 = [⟨[lineCenter m fun i => im'.val [i]], r, v⟩]) :
    multiscale find (fun _ im => im) sort [[2 * n]] im k true true true =
      .ok [⟨[lineCenter n (fun i => im.val [i]) + 1 / 4], r / 2, v⟩] := by
  have hr : im.repeat2.shape = [2 * n] := by unfold Img.repeat2; rw [hs]; rfl
  have h1 : octCall find 0 [2 * n] im.repeat2 k = .ok (find 0 im.repeat2 k) := if_pos hr.symm
  have hc : lineCenter (2 * n) (fun i => im.repeat2.val [i]) = 2 * lineCenter n (fun i => im.val [i]) + 1 / 2 := by
    unfold lineCenter
    rw [sum_repeat, sum_repeat]
    have e0 : ∀ i, im.repeat2.val [2 * i] = im.val [i] := by
      intro i
      unfold Img.repeat2
      simp only [List.map_cons, List.map_nil]
      congr 2
      omega
    have e1 : ∀ i, im.repeat2.val [2 * i + 1] = im.val [i] := by
      intro i
      unfold Img.repeat2
      simp only [List.map_cons, List.map_nil]
      congr 2
      omega
    simp only [e0, e1]
    have a1 : ∑ i ∈ Finset.range n, (im.val [i] * ((2 * i : Nat) : ℝ) + im.val [i] * ((2 * i + 1 : Nat) : ℝ)) =
        4 * (∑ i ∈ Finset.range n, im.val [i] * i) + ∑ i ∈ Finset.range n, im.val [i] := by
      rw [Finset.mul_sum, ← Finset.sum_add_distrib]
      refine Finset.sum_congr rfl fun i _ => ?_
      push_cast
      ring
    have a2 : ∑ i ∈ Finset.range n, (im.val [i] + im.val [i]) = 2 * ∑ i ∈ Finset.range n, im.val [i] := by
      rw [Finset.mul_sum]
      exact Finset.sum_congr rfl fun i _ => by ring
    rw [a1, a2]
    field_simp
    ring
  unfold multiscale octaveBlobs
  simp only [Bool.and_self, if_true, reduceCtorEq, if_false, List.headD_cons, h1, ok_bind, pure_eq_ok,
    List.drop_one, List.tail_cons, mergeOctaves, hf 0 im.repeat2 (2 * n) hr, hc, List.zipIdx_cons, List.zipIdx_nil,
    List.flatMap_cons, List.flatMap_nil, List.map_cons, List.map_nil, List.append_nil, List.length_singleton,
    Nat.one_lt_two, Blob.scale]
  have e : (2 : ℝ) ^ (((0 : Nat) : Int) - ((1 : Nat) : Int)) = 1 / 2 := by norm_num
  simp only [if_false, ok_bind, e, List.length_singleton, Nat.one_lt_two, if_true]
  have e1 : 1 / 2 * (2 * lineCenter n (fun i => im.val [i]) + 1 / 2) = lineCenter n (fun i => im.val [i]) + 1 / 4 := by
    ring
  have e2 : 1 / 2 * r = r / 2 := by ring
  rw [e1, e2]

/-- the constructor accepts an odd image: three octaves of 33, 17 and 9 -/
example : octavesOf [33] 4 false = .ok [[0], [33], [17], [9]] := by
  have h := shapesOf_chain [33] 4 false
  unfold octavesOf
  rw [if_neg (by simp), h]
  decide

/-- a finder that returns the center of every line of pixels meets the hypotheses of the counterexample of the
position; the middle pixel of three, once lit, is found at 1.25 -/
example (sort : Sorter) : multiscale (fun _ im _ => ([⟨[lineCenter (im.shape.headD 0) fun i => im.val [i]], 1, -1⟩], im))
    (fun _ im => im) sort [[2 * 3]] ⟨[3], fun ix => if ix = [1] then 1 else 0⟩ 1.6 true true true =
      .ok [⟨[1 + 1 / 4], 1 / 2, -1⟩] := by
  rw [C195_position_counterexample sort 3 _ rfl (by simp [Finset.sum_range_succ]) _ 1.6 1 (-1)
    (fun o im' m h => by rw [h]; rfl)]
  simp [lineCenter, Finset.sum_range_succ]

/-- a finder that returns the first corner of the image meets the hypothesis of `C195_inside` -/
example : ∀ (o : Nat) (im : Img) (k : ℝ), ∀ b ∈ ((fun _ im _ => (if im.shape.all fun n => decide (1 ≤ n) then
      [⟨im.shape.map fun _ => 0, k, -1⟩] else [], im) : OctaveFinder) o im k).1,
    List.Forall₂ (fun (p : ℝ) (n : Nat) => 0 ≤ p ∧ p ≤ n - 1) b.pos im.shape := by
  intro o im k b hb
  dsimp only at hb
  split at hb
  · rename_i h
    rw [List.mem_singleton.1 hb]
    dsimp only
    rw [List.forall₂_map_left_iff, List.forall₂_same]
    intro n hn
    have : 1 ≤ n := of_decide_eq_true (List.all_eq_true.1 h n hn)
    have : (1 : ℝ) ≤ n := by exact_mod_cast this
    exact ⟨le_refl _, by linarith⟩
  · simp at hb

end Track
end Py
end Colloids
