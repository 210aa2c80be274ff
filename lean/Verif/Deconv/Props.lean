import Verif.Deconv.DftLemmas
import Verif.Deconv.LineLemmas

/-!
# Properties of the deconvolution (C77–C79)
-/

namespace Colloids.Deconv

open ZMod

/-! ## C77: every line along the axis, once -/

/-- Address in memory of the pixel of coordinates `idx` in an image of sizes `sizes`, the last
coordinate being the fastest. -/
def flat : List Nat → List Nat → Nat
  | _ :: ss, i :: is => i * ss.prod + flat ss is
  | _, _ => 0

/-- Coordinates inside the image. -/
def Inside (sizes idx : List Nat) : Prop := List.Forall₂ (fun i s => i < s) idx sizes

theorem flat_lt (sizes idx : List Nat) (h : Inside sizes idx) : flat sizes idx < sizes.prod := by
  induction h with
  | nil => simp [flat]
  | @cons i s is ss hi _ ih =>
    simp only [flat, List.prod_cons]
    have : (i + 1) * ss.prod ≤ s * ss.prod := Nat.mul_le_mul_right _ hi
    rw [Nat.succ_mul] at this
    omega

theorem flat_split (sizes idx : List Nat) (h : Inside sizes idx) (axis n k : Nat)
    (hn : sizes[axis]? = some n) (hk : idx[axis]? = some k) :
    flat sizes idx = (flat (sizes.take axis) (idx.take axis) * n + k)
        * (sizes.drop (axis + 1)).prod + flat (sizes.drop (axis + 1)) (idx.drop (axis + 1))
      ∧ k < n ∧ Inside (sizes.take axis) (idx.take axis)
      ∧ Inside (sizes.drop (axis + 1)) (idx.drop (axis + 1)) := by
  induction h generalizing axis with
  | nil => simp at hn
  | @cons i s is ss hi htl ih =>
    cases axis with
    | zero =>
      simp only [List.getElem?_cons_zero, Option.some.injEq] at hn hk
      subst hn hk
      exact ⟨by simp [flat], hi, List.Forall₂.nil, htl⟩
    | succ a =>
      simp only [List.getElem?_cons_succ] at hn hk
      obtain ⟨h1, h2, h3, h4⟩ := ih a hn hk
      refine ⟨?_, h2, List.Forall₂.cons hi h3, h4⟩
      simp only [flat, List.take_succ_cons, List.drop_succ_cons]
      rw [h1, prod_split ss a n hn]
      ring

theorem inside_set (sizes idx : List Nat) (h : Inside sizes idx) (axis n k : Nat)
    (hn : sizes[axis]? = some n) (hk : k < n) : Inside sizes (idx.set axis k) := by
  induction h generalizing axis with
  | nil => simp at hn
  | @cons i s is ss hi htl ih =>
    cases axis with
    | zero =>
      simp only [List.getElem?_cons_zero, Option.some.injEq] at hn
      subst hn
      exact List.Forall₂.cons hk htl
    | succ a =>
      simp only [List.getElem?_cons_succ] at hn
      exact List.Forall₂.cons hi (ih a hn)

/-- C77. Convolving along an axis replaces each line along this axis by its convolution: the
pixel `idx` of the result is the element `idx[axis]` of what the operation makes of the
pixels that differ from `idx` along the axis only, whatever the number of dimensions. -/
theorem C77_convolve {α : Type} [Inhabited α] (op : List α → R (List α)) (sizes : List Nat)
    (data : List α) (hd : data.length = sizes.prod) (hpos : ∀ s ∈ sizes, 0 < s)
    (axis n : Nat) (hn : sizes[axis]? = some n)
    (hop : ∀ l, l.length = n → ∃ out, op l = .ok out ∧ out.length = n) :
    ∃ d', convolve op sizes data axis = .ok d' ∧ d'.length = sizes.prod
      ∧ ∀ idx k, Inside sizes idx → idx[axis]? = some k →
        ∃ ln out, ln.length = n
          ∧ (∀ u, u < n → ln[u]? = data[flat sizes (idx.set axis u)]?)
          ∧ op ln = .ok out ∧ d'[flat sizes idx]? = out[k]? := by
  have hdata : data = tab sizes.prod (fun i => data[i]?.getD default) := by
    rw [← hd]; exact eq_tab data
  have hP : 0 < (sizes.take axis).prod := by
    have : ∀ l : List Nat, (∀ x ∈ l, 0 < x) → 0 < l.prod := by
      intro l
      induction l with
      | nil => simp
      | cons a l ih =>
        intro h
        rw [List.prod_cons]
        exact Nat.mul_pos (h a (by simp)) (ih (fun x hx => h x (by simp [hx])))
    exact this _ (fun x hx => hpos x (List.mem_of_mem_take hx))
  let F : List α → Nat → α := fun l k =>
    match op l with
    | .ok out => out[k]?.getD default
    | .error _ => default
  have hF : ∀ l, l.length = n → op l = .ok (tab n (F l)) := by
    intro l hl
    obtain ⟨out, ho, hlen⟩ := hop l hl
    have : tab n (F l) = out := by
      conv_rhs => rw [eq_tab out, hlen]
      refine tab_congr (fun i _ => ?_)
      simp only [F, ho]
    rw [this, ho]
  have hmain := convolve_tab op F sizes axis n hn hP hF (fun i => data[i]?.getD default)
  rw [← hdata] at hmain
  refine ⟨_, hmain, tab_length _ _, ?_⟩
  intro idx k hin hk
  obtain ⟨h1, h2, h3, h4⟩ := flat_split sizes idx hin axis n k hn hk
  have hj := flat_lt _ _ h4
  have hlt := flat_lt _ _ hin
  obtain ⟨a1, a2, a3⟩ := (addr_iff n _ _ k _ _ h2 hj).1 h1
  refine ⟨tab n (fun k => data[(flat (sizes.take axis) (idx.take axis) * n + k)
        * (sizes.drop (axis + 1)).prod
        + flat (sizes.drop (axis + 1)) (idx.drop (axis + 1))]?.getD default), _,
      tab_length _ _, ?_, hF _ (tab_length _ _), ?_⟩
  · intro u hu
    have hset := inside_set sizes idx hin axis n u hn hu
    have hk' : (idx.set axis u)[axis]? = some u := by
      have : axis < idx.length := by
        by_contra hc
        rw [List.getElem?_eq_none (by omega)] at hk
        cases hk
      simp [this]
    obtain ⟨b1, -⟩ := flat_split sizes _ hset axis n u hn hk'
    have hset1 : (idx.set axis u).take axis = idx.take axis := List.take_set_of_le (le_refl _)
    have hset2 : (idx.set axis u).drop (axis + 1) = idx.drop (axis + 1) :=
      List.drop_set_of_lt (by omega)
    rw [hset1, hset2] at b1
    have hlt' := flat_lt _ _ hset
    rw [b1] at hlt' ⊢
    rw [← hd] at hlt'
    simp [tab, hu, List.getElem?_eq_getElem hlt']
  · simp only [tab, List.getElem?_map, List.getElem?_range hlt, List.getElem?_range h2,
      Option.map_some, a1, a2, a3]

/-- C77. An axis that the image does not have is refused. -/
theorem C77_wrong_axis {α : Type} (op : List α → R (List α)) (sizes : List Nat) (data : List α)
    (axis : Nat) (h : sizes.length ≤ axis) :
    convolve op sizes data axis = .error .invalidArgument
      ∧ linesOf sizes data axis = .error .invalidArgument := by
  unfold convolve linesOf
  rw [if_pos h, if_pos h]
  exact ⟨rfl, rfl⟩

example : convolve (fun l : List Nat => .ok l.reverse) [2, 3, 2] (List.range 12) 1
    = .ok [4, 5, 2, 3, 0, 1, 10, 11, 8, 9, 6, 7] := by decide +kernel

example : flat [2, 3, 2] [1, 2, 0] = 10 ∧ Inside [2, 3, 2] [1, 2, 0] := by
  refine ⟨by decide, ?_⟩
  unfold Inside
  decide

/-! ## C78: the convolution of a line -/

/-- C78. With a kernel of at least `n/2+1` values, the Fourier coefficients of the result are
those of the line times the kernel. -/
theorem C78_filter (kernel x : List ℝ) (hx : x ≠ []) (hk : x.length / 2 < kernel.length) :
    ∃ y, convolver kernel x = .ok y ∧ y.length = x.length
      ∧ ∀ k (hkk : k < kernel.length), k ≤ x.length / 2 →
        forward y k = (kernel[k] : ℂ) * forward x k := by
  obtain ⟨n, hn⟩ : ∃ n, x.length = n := ⟨_, rfl⟩
  have : NeZero n := ⟨by
    rw [← hn]
    exact fun h => hx (List.length_eq_zero_iff.1 h)⟩
  rw [hn] at hk ⊢
  refine ⟨_, convolver_ok kernel x n hn hk, by simp, ?_⟩
  intro k hkk hk2
  rw [forward_eq _ n (by simp), signal_convolver, forward_eq x n hn]
  unfold filtered
  rw [LinearEquiv.apply_symm_apply]
  congr 2
  unfold fullKernel
  have hn0 : 0 < n := Nat.pos_of_ne_zero (NeZero.ne n)
  rw [ZMod.val_cast_of_lt (by omega), min_eq_left (by omega)]
  simp [hkk]

/-- C78. The coefficients that the code computes (`k ≤ n/2`) determine the line: the result of
the convolution is the only line with the coefficients of `C78_filter`. -/
theorem C78_unique (x y : List ℝ) (hl : x.length = y.length)
    (h : ∀ k, k ≤ x.length / 2 → forward x k = forward y k) : x = y := by
  obtain ⟨n, hn⟩ : ∃ n, x.length = n := ⟨_, rfl⟩
  rcases Nat.eq_zero_or_pos n with h0 | h0
  · rw [h0] at hn
    rw [hn] at hl
    rw [List.length_eq_zero_iff.1 hn, List.length_eq_zero_iff.1 hl.symm]
  have : NeZero n := ⟨by omega⟩
  have hy : y.length = n := by omega
  have hall : 𝓕 (signal n x) = 𝓕 (signal n y) := by
    funext k
    have hkn := ZMod.val_lt k
    have hcast : ((k.val : Nat) : ZMod n) = k := by simp
    by_cases hk : k.val ≤ n / 2
    · have := h k.val (by omega)
      rw [forward_eq x n hn, forward_eq y n hy, hcast] at this
      exact this
    · have := h (n - k.val) (by omega)
      rw [forward_eq x n hn, forward_eq y n hy] at this
      have hneg : ((n - k.val : Nat) : ZMod n) = -k := by
        rw [Nat.cast_sub (by omega)]
        simp
      rw [hneg] at this
      have := congrArg (starRingEnd ℂ) this
      rwa [conj_dft, conj_dft, neg_neg] at this
  have hs : signal n x = signal n y := (dft (N := n) (E := ℂ)).injective hall
  apply List.ext_getElem hl
  intro i h1 h2
  have := congrFun hs (i : ZMod n)
  unfold signal at this
  rw [ZMod.val_cast_of_lt (by omega)] at this
  simpa [h1, h2] using this

/-- C78. The kernel of ones leaves the lines as they are. -/
theorem C78_identity (kernel x : List ℝ) (hx : x ≠ []) (hk : x.length / 2 < kernel.length)
    (h1 : ∀ k ∈ kernel, k = 1) : convolver kernel x = .ok x := by
  obtain ⟨y, hy, hl, hf⟩ := C78_filter kernel x hx hk
  rw [hy, C78_unique y x hl]
  intro k hk2
  rw [hl] at hk2
  rw [hf k (by omega) hk2, h1 _ (List.getElem_mem _)]
  simp

/-- C78. Convolving twice is convolving by the product of the kernels. -/
theorem C78_twice (k1 k2 x : List ℝ) (hx : x ≠ []) (h1 : x.length / 2 < k1.length)
    (h2 : x.length / 2 < k2.length) :
    (convolver k1 x >>= convolver k2) = convolver (List.zipWith (· * ·) k1 k2) x := by
  obtain ⟨y, hy, hly, hfy⟩ := C78_filter k1 x hx h1
  have hyne : y ≠ [] := by
    intro h
    rw [h] at hly
    exact hx (List.length_eq_zero_iff.1 hly.symm)
  obtain ⟨z, hz, hlz, hfz⟩ := C78_filter k2 y hyne (by omega)
  obtain ⟨w, hw, hlw, hfw⟩ := C78_filter (List.zipWith (· * ·) k1 k2) x hx
    (by simp; omega)
  rw [hy, ok_bind, hz, hw]
  congr 1
  refine C78_unique z w (by omega) (fun k hk => ?_)
  rw [hfz k (by omega) (by omega), hfy k (by omega) (by omega),
    hfw k (by simp; omega) (by omega), List.getElem_zipWith]
  push_cast
  ring

/-- C78. A kernel that is too short is read out of range. -/
theorem C78_short (kernel x : List ℝ) (hk : kernel.length ≤ x.length / 2) :
    convolver kernel x = .error .ub := by
  unfold convolver
  have : ∀ m, kernel.length < m → (List.range m).mapM (fun (k : Nat) => do
      let f ← getR kernel k
      (pure (forward x k * ((f / (x.length : Nat) : ℝ) : ℂ)) : R ℂ)) = .error .ub := by
    intro m
    induction m with
    | zero => intro h; omega
    | succ m ih =>
      intro h
      rw [List.range_succ, List.mapM_append]
      by_cases hm : kernel.length < m
      · rw [ih hm]; rfl
      · have hm' : m = kernel.length := by omega
        rw [mapM_tab _ (fun (k : Nat) => forward x k * (((kernel[k]?.getD 0) / (x.length : Nat) : ℝ) : ℂ)) m
          (fun k hk' => by
            have hlt : k < kernel.length := by omega
            rw [getR_of_lt hlt, ok_bind, pure_eq_ok]
            simp [hlt]), ok_bind]
        have : getR kernel m = .error .ub := getR_eq_ub (by omega)
        simp only [List.mapM_cons, this]
        rfl
  simp only
  rw [this _ (by omega)]
  rfl

/-- C78 on an image: with the size of kernel that `OctaveFinder3D::load_deconv_kernel`
demands, `convolve` reads nothing out of range and the coefficients of each line along
the axis are multiplied by the kernel. -/
theorem C78_image (kernel : List ℝ) (sizes : List Nat) (data : List ℝ)
    (hd : data.length = sizes.prod) (hpos : ∀ s ∈ sizes, 0 < s) (axis n : Nat)
    (hn : sizes[axis]? = some n) (hk : kernel.length = n / 2 + 1) :
    ∃ d', convolve (convolver kernel) sizes data axis = .ok d' ∧ d'.length = sizes.prod
      ∧ ∀ idx, Inside sizes idx →
        ∃ ln ln', ln.length = n ∧ ln'.length = n
          ∧ (∀ u, u < n → ln[u]? = data[flat sizes (idx.set axis u)]?)
          ∧ (∀ u, u < n → ln'[u]? = d'[flat sizes (idx.set axis u)]?)
          ∧ ∀ k (hkk : k < kernel.length), forward ln' k = (kernel[k] : ℂ) * forward ln k := by
  have hn0 : 0 < n := hpos n (List.mem_of_getElem? hn)
  have hop : ∀ l : List ℝ, l.length = n → ∃ out, convolver kernel l = .ok out ∧ out.length = n := by
    intro l hl
    obtain ⟨y, h1, h2, -⟩ := C78_filter kernel l
      (fun h => by rw [h] at hl; simp at hl; omega) (by omega)
    exact ⟨y, h1, by omega⟩
  obtain ⟨d', h1, h2, h3⟩ := C77_convolve (convolver kernel) sizes data hd hpos axis n hn hop
  refine ⟨d', h1, h2, ?_⟩
  intro idx hin
  have hax : axis < idx.length := by
    have := hin.length_eq
    by_contra hc
    rw [List.getElem?_eq_none (by omega)] at hn
    cases hn
  have hset : ∀ u, (idx.set axis u)[axis]? = some u := by intro u; simp [hax]
  obtain ⟨line, out, hl, hline, ho, -⟩ := h3 _ 0 (inside_set sizes idx hin axis n 0 hn hn0) (hset 0)
  obtain ⟨y, hy1, hy2, hy3⟩ := C78_filter kernel line
    (fun h => by rw [h] at hl; simp at hl; omega) (by omega)
  rw [hy1] at ho
  have ho' : out = y := (Except.ok.inj ho).symm
  subst out
  refine ⟨line, y, hl, by omega, ?_, ?_, ?_⟩
  · intro u hu
    rw [hline u hu, List.set_set]
  · intro u hu
    obtain ⟨line2, out2, hl2, hline2, ho2, he⟩ :=
      h3 _ u (inside_set sizes idx hin axis n u hn hu) (hset u)
    have : line2 = line := by
      apply List.ext_getElem?
      intro v
      by_cases hv : v < n
      · rw [hline2 v hv, hline v hv, List.set_set, List.set_set]
      · rw [List.getElem?_eq_none (by omega), List.getElem?_eq_none (by omega)]
    subst line2
    rw [hy1] at ho2
    have ho2' : out2 = y := (Except.ok.inj ho2).symm
    subst out2
    exact he.symm
  · intro k hkk
    exact hy3 k hkk (by omega)

end Colloids.Deconv
