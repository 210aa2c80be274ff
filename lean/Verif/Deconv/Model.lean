import Verif.Common
import Mathlib.Algebra.BigOperators.Group.List.Basic
import Mathlib.Data.Complex.Basic
import Mathlib.Data.Real.Sqrt
import Mathlib.Algebra.Order.Floor.Ring
import Mathlib.Analysis.SpecialFunctions.Trigonometric.Basic

/-!
# Deconvolution

Model of `multiscale/src/deconvolution.cpp`. Images are continuous (the code asserts it):
a list of sizes and the pixels in the order of memory. Single precision is replaced by real
and complex numbers. FFTW is replaced by the sums that its manual says it computes.
-/

namespace Colloids.Deconv

/-! ## Lines of an image -/

section Lines

variable {α : Type}

/-- `Convolver::fill` (deconvolution.cpp 56-62): the elements of a line. -/
def readLine (data : List α) (start step n : Nat) : R (List α) :=
  (List.range n).mapM (fun k => getR data (start + k * step))

/-- The end of `Convolver::operator()` (deconvolution.cpp 50-54): the line is written. -/
def writeLine (data : List α) (start step n : Nat) (line : List α) : R (List α) :=
  (List.range n).foldlM (fun d k => do
    let v ← getR line k
    setR d (start + k * step) v) data

/-- `convolve` (deconvolution.cpp 135-153), with `op` what the `Convolver` does to a line.
The number of lines starts as in `get_spectrum_1d` (lines 87-96). -/
def convolve (op : List α → R (List α)) (sizes : List Nat) (data : List α) (axis : Nat) :
    R (List α) :=
  if sizes.length ≤ axis then .error .invalidArgument
  else do
    let n ← getR sizes axis
    let step := (sizes.drop (axis + 1)).prod
    let nbplanes := (sizes.take axis).prod
    if nbplanes = 0 then .error .ub
    else
      let planestep := sizes.prod / nbplanes
      (List.range nbplanes).foldlM (fun d i =>
        (List.range step).foldlM (fun d j => do
          let line ← readLine d (i * planestep + j) step n
          let out ← op line
          writeLine d (i * planestep + j) step n out) d) data

/-- The lines that `get_spectrum_1d` reads (deconvolution.cpp 76-106), in order. -/
def linesOf (sizes : List Nat) (data : List α) (axis : Nat) : R (List (List α)) :=
  if sizes.length ≤ axis then .error .invalidArgument
  else do
    let n ← getR sizes axis
    let step := (sizes.drop (axis + 1)).prod
    let nbplanes := (sizes.take axis).prod
    if nbplanes = 0 then .error .ub
    else
      let planestep := sizes.prod / nbplanes
      (List.range nbplanes).foldlM (fun acc i =>
        (List.range step).foldlM (fun acc j => do
          let line ← readLine data (i * planestep + j) step n
          pure (acc ++ [line])) acc) []

end Lines

/-! ## One line -/

/-- `fftwf_plan_dft_r2c_1d`: the unnormalised discrete Fourier transform,
`Σ x_j exp(-2πi jk/n)`, given for `k ≤ n/2`. -/
noncomputable def forward (x : List ℝ) (k : Nat) : ℂ :=
  ((List.range x.length).map (fun (j : Nat) =>
    ((x[j]?.getD 0 : ℝ) : ℂ) *
      Complex.exp (-(2 * Real.pi * Complex.I * j * k / x.length)))).sum

/-- `fftwf_plan_dft_c2r_1d` on `n` reals: the unnormalised inverse transform
`Σ g_k exp(2πi jk/n)` of the `n/2+1` first coefficients completed by Hermitian symmetry. -/
noncomputable def backward (g : List ℂ) (n : Nat) (j : Nat) : ℝ :=
  (((List.range n).map (fun (k : Nat) =>
    (if k ≤ n / 2 then g[k]?.getD 0 else (starRingEnd ℂ) (g[n - k]?.getD 0)) *
      Complex.exp (2 * Real.pi * Complex.I * j * k / n))).sum).re

/-- `Convolver::operator()` (deconvolution.cpp 39-55) on the values of a line, without
windowing. The `n/2+1` first elements of the kernel are read. -/
noncomputable def convolver (kernel : List ℝ) (x : List ℝ) : R (List ℝ) := do
  let n := x.length
  let g ← (List.range (n / 2 + 1)).mapM (fun (k : Nat) => do
    let f ← getR kernel k
    pure (forward x k * ((f / n : ℝ) : ℂ)))
  pure ((List.range n).map (fun j => backward g n j))

/-- `Convolver::set_hanning` (deconvolution.cpp 69-74). With a single point 0 is divided by
0: not a number, `none`. -/
noncomputable def hanning (n : Nat) : List (Option ℝ) :=
  (List.range n).map (fun (i : Nat) =>
    if n - 1 = 0 then none
    else some (1 / 2 * (1 - Real.cos (2 * Real.pi * i / ((n - 1 : Nat) : ℝ)))))

/-- The windowing in `Convolver::fill` (deconvolution.cpp 63-67). Not a number times anything
is not a number. -/
noncomputable def applyWindow (w : List (Option ℝ)) (x : List ℝ) : List (Option ℝ) :=
  x.zipWith (fun v f => f.map (fun f => v * f)) w

/-- `get_spectrum_1d` (deconvolution.cpp 76-111), coefficient `u`, from the transforms of the
lines: mean of the squared norms minus squared norm of the mean. -/
noncomputable def spectrumOf (fs : List ℂ) : ℝ :=
  let icount : ℝ := 1 / fs.length
  (fs.map Complex.normSq).sum * icount - Complex.normSq (fs.sum * (icount : ℂ))

/-- `get_spectrum_1d` without windowing: the `n/2+1` coefficients. -/
noncomputable def spectrum1d (sizes : List Nat) (data : List ℝ) (axis : Nat) : R (List ℝ) := do
  let lines ← linesOf sizes data axis
  let n ← getR sizes axis
  pure ((List.range (n / 2 + 1)).map (fun u => spectrumOf (lines.map (fun l => forward l u))))

/-- `get_deconv_kernel` (deconvolution.cpp 113-133) given the two spectra. The conversion to
`size_t` of a negative number is undefined behaviour (spectra are
never empty). The test
`1.0f + b * b > 1.0f` is modelled by `b ≠ 0`, the square root of a negative number (not a number) by `none`. -/
noncomputable def deconvKernel (bad good : List ℝ) (sizeRatio : ℝ) : R (List (Option ℝ)) := do
  let qratio : ℝ := bad.length * sizeRatio / good.length
  let m : ℝ := ((good.length : ℝ) - 1) * qratio
  if m ≤ -1 then .error .ub
  else
    let scaled ← (List.range (min bad.length ⌊m⌋₊)).mapM (fun (i : Nat) => do
      let q : ℝ := i / qratio
      let nq := ⌊q⌋₊
      let dq := q - nq
      let a ← getR good nq
      let b ← getR good (nq + 1)
      pure ((1 - dq) * a + dq * b))
    (List.range bad.length).mapM (fun (i : Nat) => do
      let b ← getR bad i
      if i < scaled.length then do
        let s ← getR scaled i
        if b ≠ 0 then pure (if s / b < 0 then none else some (Real.sqrt (s / b)))
        else pure (some 1)
      else pure (some 1))

end Colloids.Deconv
