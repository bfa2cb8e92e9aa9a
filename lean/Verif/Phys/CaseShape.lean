import Mathlib.Analysis.SpecialFunctions.Gaussian.GaussianIntegral
import Mathlib.MeasureTheory.Integral.IntervalIntegral.FundThmCalculus
import Mathlib.MeasureTheory.Integral.IntervalIntegral.IntegrationByParts
import Verif.Phys.CaseModel

/-! # Shapes of the scalar advection case (property C104) -/

set_option linter.unusedSectionVars false

namespace AmrWind.Case

open MeasureTheory

/-- Specification: the average of `f` over the cell with centre `x` and size `dx`. -/
noncomputable def cellMean (f : ℝ → ℝ) (x dx : ℝ) : ℝ := (∫ s in (x - dx / 2)..(x + dx / 2), f s) / dx

theorem erf_diff (a b : ℝ) : erf b - erf a = 2 / Real.sqrt Real.pi * ∫ t in a..b, Real.exp (-t ^ 2) := by
  unfold erf
  have h : ∀ a b : ℝ, IntervalIntegrable (fun t : ℝ => Real.exp (-t ^ 2)) volume a b := fun a b =>
    (by fun_prop : Continuous fun t : ℝ => Real.exp (-t ^ 2)).intervalIntegrable a b
  rw [← mul_sub, intervalIntegral.integral_interval_sub_left (h 0 b) (h 0 a)]

/-- The integral of a Gaussian over an interval, by `erf`. -/
theorem gauss_integral {w : ℝ} (hw : 0 < w) (x0 a b : ℝ) :
    ∫ s in a..b, Real.exp (-(s - x0) ^ 2 / (2 * w ^ 2)) =
      Real.sqrt (Real.pi / 2) * w * (erf ((b - x0) / (Real.sqrt 2 * w)) - erf ((a - x0) / (Real.sqrt 2 * w))) := by
  have h2 : 0 < Real.sqrt 2 := Real.sqrt_pos.mpr (by norm_num)
  have hc : 0 < Real.sqrt 2 * w := by positivity
  rw [erf_diff]
  have e : (fun s : ℝ => Real.exp (-(s - x0) ^ 2 / (2 * w ^ 2))) = fun s => (fun t => Real.exp (-t ^ 2)) (s / (Real.sqrt 2 * w) - x0 / (Real.sqrt 2 * w)) := by
    funext s
    show _ = Real.exp _
    congr 1
    rw [← sub_div, div_pow, mul_pow, Real.sq_sqrt (by norm_num)]
    ring
  rw [e, intervalIntegral.integral_comp_div_sub (f := fun t => Real.exp (-t ^ 2)) hc.ne' (x0 / (Real.sqrt 2 * w)), smul_eq_mul, ← sub_div, ← sub_div]
  have hs : Real.sqrt (Real.pi / 2) * (2 / Real.sqrt Real.pi) = Real.sqrt 2 := by
    rw [Real.sqrt_div Real.pi_pos.le]
    have hp : 0 < Real.sqrt Real.pi := Real.sqrt_pos.mpr Real.pi_pos
    field_simp
    exact (Real.sq_sqrt (by norm_num : (0 : ℝ) ≤ 2)).symm
  calc Real.sqrt 2 * w * _ = (Real.sqrt (Real.pi / 2) * (2 / Real.sqrt Real.pi)) * w * _ := by rw [hs]
    _ = _ := by ring

/-- **C104**: the Gaussian pulse is the exact average over the cell of the Gaussian, in every cell whose centre lies within six widths of the pulse, and
zero in the others. -/
theorem gauss_average {w dx : ℝ} (hw : 0 < w) (x x0 amp : ℝ) :
    gaussPulse x dx x0 amp w =
      if |x - x0| < 6 * w then cellMean (fun s => amp * Real.exp (-(s - x0) ^ 2 / (2 * w ^ 2))) x dx else 0 := by
  unfold gaussPulse cellMean
  split_ifs with h
  · rw [intervalIntegral.integral_const_mul, gauss_integral hw]
    have e1 : x - x0 + dx / 2 = x + dx / 2 - x0 := by ring
    have e2 : x - x0 - dx / 2 = x - dx / 2 - x0 := by ring
    rw [e1, e2]
    ring
  · rfl

/-- **C104**: likewise in two dimensions: the average over the cell of the product of the Gaussians. -/
theorem gauss2_average {w v dx dy : ℝ} (hw : 0 < w) (hv : 0 < v) (x y x0 y0 amp : ℝ) :
    gaussPulse2 x y dx dy x0 y0 amp w v =
      if |x - x0| < 6 * w ∧ |y - y0| < 6 * v then
        cellMean (fun t => cellMean (fun s => amp * Real.exp (-(s - x0) ^ 2 / (2 * w ^ 2)) * Real.exp (-(t - y0) ^ 2 / (2 * v ^ 2))) x dx) y dy
      else 0 := by
  unfold gaussPulse2
  split_ifs with h
  · have e1 : x - x0 + dx / 2 = x + dx / 2 - x0 := by ring
    have e2 : x - x0 - dx / 2 = x - dx / 2 - x0 := by ring
    have e3 : y - y0 + dy / 2 = y + dy / 2 - y0 := by ring
    have e4 : y - y0 - dy / 2 = y - dy / 2 - y0 := by ring
    rw [e1, e2, e3, e4]
    set A := erf ((x + dx / 2 - x0) / (Real.sqrt 2 * w)) - erf ((x - dx / 2 - x0) / (Real.sqrt 2 * w)) with hA
    set B := erf ((y + dy / 2 - y0) / (Real.sqrt 2 * v)) - erf ((y - dy / 2 - y0) / (Real.sqrt 2 * v)) with hB
    have f : (fun t => cellMean (fun s => amp * Real.exp (-(s - x0) ^ 2 / (2 * w ^ 2)) * Real.exp (-(t - y0) ^ 2 / (2 * v ^ 2))) x dx) =
        fun t => amp * (Real.sqrt (Real.pi / 2) * w * A) / dx * Real.exp (-(t - y0) ^ 2 / (2 * v ^ 2)) := by
      funext t
      unfold cellMean
      rw [intervalIntegral.integral_mul_const, intervalIntegral.integral_const_mul, gauss_integral hw, ← hA]
      ring
    rw [f]
    unfold cellMean
    rw [intervalIntegral.integral_const_mul, gauss_integral hv, ← hB]
    have hp : Real.sqrt (Real.pi / 2) * Real.sqrt (Real.pi / 2) = Real.pi / 2 := Real.mul_self_sqrt (by have := Real.pi_pos; positivity)
    calc Real.pi / 2 * amp * w * v * A * B / dx / dy = (Real.sqrt (Real.pi / 2) * Real.sqrt (Real.pi / 2)) * amp * w * v * A * B / dx / dy := by rw [hp]
      _ = _ := by ring
  · rfl

/-- The pulse itself: `amp` within half a width of `x0`. -/
noncomputable def square (x0 amp w s : ℝ) : ℝ := if |s - x0| < w / 2 then amp else 0

/-- The integral of the square pulse from minus infinity, up to a constant. -/
theorem square_integral {w : ℝ} (hw : 0 < w) (x0 amp a b : ℝ) (hab : a ≤ b) :
    ∫ s in a..b, square x0 amp w s = amp * max 0 (min b (x0 + w / 2) - max a (x0 - w / 2)) := by
  rw [intervalIntegral.integral_of_le hab]
  have e : (fun s => square x0 amp w s) = (Set.Ioo (x0 - w / 2) (x0 + w / 2)).indicator (fun _ => amp) := by
    funext s
    unfold square
    by_cases h : |s - x0| < w / 2
    · rw [if_pos h, Set.indicator_of_mem]
      rw [abs_lt] at h
      exact ⟨by linarith [h.1], by linarith [h.2]⟩
    · rw [if_neg h, Set.indicator_of_notMem]
      intro m
      apply h
      rw [abs_lt]
      exact ⟨by linarith [m.1], by linarith [m.2]⟩
  rw [e, integral_indicator measurableSet_Ioo, Measure.restrict_restrict measurableSet_Ioo, setIntegral_const]
  have v : volume.real (Set.Ioo (x0 - w / 2) (x0 + w / 2) ∩ Set.Ioc a b) = max 0 (min b (x0 + w / 2) - max a (x0 - w / 2)) := by
    have : volume (Set.Ioo (x0 - w / 2) (x0 + w / 2) ∩ Set.Ioc a b) = volume (Set.Ioo (max a (x0 - w / 2)) (min b (x0 + w / 2))) := by
      rw [max_comm, min_comm, ← Set.Ioo_inter_Ioo]
      exact measure_congr ((Filter.EventuallyEq.refl _ _).inter Ioo_ae_eq_Ioc.symm)
    unfold Measure.real
    rw [this, Real.volume_Ioo, ENNReal.toReal_ofReal']
    rw [max_comm]
  rw [v, smul_eq_mul]
  ring

/-- **C104**: the square pulse is the exact average over the cell, in cells no wider than the pulse.

Partial (C104). Missing: cells wider than the pulse, where it is false (`square_wide`). -/
theorem square_average_partial {w dx : ℝ} (hdx : 0 < dx) (hle : dx ≤ w) (x x0 amp : ℝ) :
    squarePulse x dx x0 amp w = cellMean (square x0 amp w) x dx := by
  unfold cellMean
  rw [show (fun s => square x0 amp w s) = square x0 amp w from rfl] at *
  have := square_integral (hdx.trans_le hle) x0 amp (x - dx / 2) (x + dx / 2) (by linarith)
  rw [this]
  unfold squarePulse
  rw [mul_div_assoc, mul_div_assoc]
  by_cases h1 : abs (|x - x0| - w / 2) < dx / 2
  · rw [if_pos h1]
    congr 2
    rw [abs_lt] at h1
    rcases abs_cases (x - x0) with ⟨ha, hs⟩ | ⟨ha, hs⟩ <;> rw [ha] at h1 ⊢ <;> obtain ⟨l, u⟩ := h1
    · rw [min_eq_right (by linarith), max_eq_left (a := x - dx / 2) (by linarith), max_eq_right (by linarith)]
      ring
    · rw [min_eq_left (by linarith), max_eq_right (a := x - dx / 2) (by linarith), max_eq_right (by linarith)]
      ring
  · rw [if_neg h1, abs_lt, not_and_or] at *
    by_cases h2 : |x - x0| < w / 2
    · rw [if_pos h2]
      have h3 : |x - x0| - w / 2 ≤ -(dx / 2) := by
        rcases h1 with h1 | h1 <;> linarith
      have h4 := abs_le.mp (show |x - x0| ≤ w / 2 - dx / 2 by linarith)
      rw [min_eq_left (by linarith [h4.2]), max_eq_left (a := x - dx / 2) (by linarith [h4.1]), max_eq_right (by linarith)]
      field_simp
      ring
    · rw [if_neg h2]
      have h3 : w / 2 + dx / 2 ≤ |x - x0| := by
        rcases h1 with h1 | h1 <;> linarith
      rcases le_abs.mp h3 with h4 | h4
      · rw [max_eq_left (b := min (x + dx / 2) (x0 + w / 2) - _)]
        · simp
        · have := min_le_right (x + dx / 2) (x0 + w / 2)
          have := le_max_left (x - dx / 2) (x0 - w / 2)
          linarith
      · rw [max_eq_left (b := min (x + dx / 2) (x0 + w / 2) - _)]
        · simp
        · have := min_le_left (x + dx / 2) (x0 + w / 2)
          have := le_max_right (x - dx / 2) (x0 - w / 2)
          linarith

/-- **C104**, disagreement: a cell wider than the pulse gets too much: a cell of size 3 centred on a pulse of width 1 and height 1 averages to one third, the program
stores two thirds. -/
theorem square_wide : squarePulse 0 3 0 1 1 = 2 / 3 ∧ cellMean (square 0 1 1) 0 3 = 1 / 3 := by
  constructor
  · unfold squarePulse
    rw [if_pos (by norm_num)]
    norm_num
  · unfold cellMean
    rw [square_integral (by norm_num) 0 1 _ _ (by norm_num)]
    norm_num

/-- **C104**: the exact solution is the initial shape carried by the constant velocity: it solves the advection equation.

Partial (C104). Missing: pulses that cross a periodic side, where it is false (`exact_not_periodic`). -/
theorem exact_advection_partial {shape dshape : ℝ → ℝ} (h : ∀ x, HasDerivAt shape (dshape x) x) (u t x : ℝ) :
    ∃ dt dx, HasDerivAt (fun s => exactAt shape u s x) dt t ∧ HasDerivAt (fun s => exactAt shape u t s) dx x ∧ dt + u * dx = 0 ∧
      exactAt shape u 0 = shape := by
  refine ⟨dshape (x - u * t) * (-u), dshape (x - u * t), ?_, ?_, by ring, ?_⟩
  · unfold exactAt
    have h1 : HasDerivAt (fun s : ℝ => x - u * s) (-u) t := by
      have := ((hasDerivAt_id t).const_mul u).const_sub x
      simpa using this
    exact (h (x - u * t)).comp t h1
  · unfold exactAt
    have h1 : HasDerivAt (fun s : ℝ => s - u * t) 1 x := (hasDerivAt_id x).sub_const _
    have := (h (x - u * t)).comp x h1
    rw [mul_one] at this
    exact this
  · funext s
    simp [exactAt]

/-- **C104**: on each cell it is the average of the carried pulse. -/
theorem exact_average (f : ℝ → ℝ) (u t x dx : ℝ) : exactAt (fun s => cellMean f s dx) u t x = cellMean (fun s => f (s - u * t)) x dx := by
  unfold exactAt cellMean
  rw [intervalIntegral.integral_comp_sub_right]
  congr 2 <;> ring

/-- **C104**, disagreement: in a periodic domain the exact solution does not come back: once the pulse has left the domain (here after one passage of a domain of
length `L`, at the original place) the exact solution is zero, while the periodic solution is the initial pulse. -/
theorem exact_not_periodic {w u L dx amp : ℝ} (hw : 0 < w) (hu : 0 < u) (hL : 6 * w ≤ L) (hamp : 0 < amp) (hdx : 0 < dx) (x0 : ℝ) :
    exactAt (fun x => gaussPulse x dx x0 amp w) u (L / u) x0 = 0 ∧ 0 < exactAt (fun x => gaussPulse x dx x0 amp w) u 0 x0 := by
  constructor
  · unfold exactAt gaussPulse
    beta_reduce
    rw [if_neg]
    rw [mul_div_cancel₀ _ hu.ne', show x0 - L - x0 = -L by ring, abs_neg, abs_of_nonneg (by linarith)]
    linarith
  · unfold exactAt
    simp only [mul_zero, sub_zero]
    rw [gauss_average hw, if_pos (by simp [hw])]
    unfold cellMean
    apply div_pos _ hdx
    apply intervalIntegral.intervalIntegral_pos_of_pos
    · exact (by fun_prop : Continuous fun s : ℝ => amp * Real.exp (-(s - x0) ^ 2 / (2 * w ^ 2))).intervalIntegrable _ _
    · intro s
      positivity
    · linarith

/-- **C104**: the wave packet gets its cell averages by a quadrature of three points, which for polynomials of degree up to five in the cell is exact up to the
rounding of its constants: to one part in 10⁹ of the sum of the coefficients' sizes. -/
theorem packet_quadrature {dx : ℝ} (hdx : 0 < dx) (x : ℝ) (c : Fin 6 → ℝ) :
    |quad3 (fun s => c 0 + c 1 * ((s - x) / (dx / 2)) + c 2 * ((s - x) / (dx / 2)) ^ 2 + c 3 * ((s - x) / (dx / 2)) ^ 3 +
        c 4 * ((s - x) / (dx / 2)) ^ 4 + c 5 * ((s - x) / (dx / 2)) ^ 5) x dx - (c 0 + c 2 / 3 + c 4 / 5)| ≤
      (|c 0| + |c 2| + |c 4|) / 10 ^ 9 := by
  have e : quad3 (fun s => c 0 + c 1 * ((s - x) / (dx / 2)) + c 2 * ((s - x) / (dx / 2)) ^ 2 + c 3 * ((s - x) / (dx / 2)) ^ 3 +
        c 4 * ((s - x) / (dx / 2)) ^ 4 + c 5 * ((s - x) / (dx / 2)) ^ 5) x dx =
      c 0 * (10000000001 / 10000000000 * 1) + c 2 * 0.5555555556 * 0.7745966692 ^ 2 + c 4 * 0.5555555556 * 0.7745966692 ^ 4 + c 0 * (-(1 / 20000000000)) := by
    unfold quad3
    have h : ∀ g : ℝ, (x + g * (1 / 2) * dx - x) / (dx / 2) = g := by
      intro g
      field_simp
      ring
    simp only [h]
    norm_num
    ring
  rw [e]
  have b0 := abs_le.mp (le_refl |c 0|)
  have b2 := abs_le.mp (le_refl |c 2|)
  have b4 := abs_le.mp (le_refl |c 4|)
  rw [abs_le]
  constructor <;> norm_num <;> linarith [b0.1, b0.2, b2.1, b2.2, b4.1, b4.2]

/-- Those are the averages of the polynomial. -/
theorem poly_mean {dx : ℝ} (hdx : 0 < dx) (x : ℝ) (n : ℕ) :
    cellMean (fun s => ((s - x) / (dx / 2)) ^ n) x dx = (1 - (-1) ^ (n + 1)) / (2 * (n + 1)) := by
  unfold cellMean
  have e : (fun s => ((s - x) / (dx / 2)) ^ n) = fun s => (fun t => t ^ n) (s / (dx / 2) - x / (dx / 2)) := by
    funext s
    show _ = (_ : ℝ) ^ n
    rw [← sub_div]
  rw [e, intervalIntegral.integral_comp_div_sub (f := fun t => t ^ n) (by positivity) (x / (dx / 2)), integral_pow, smul_eq_mul]
  rw [← sub_div, ← sub_div]
  have h1 : (x + dx / 2 - x) / (dx / 2) = 1 := by field_simp; ring
  have h2 : (x - dx / 2 - x) / (dx / 2) = -1 := by field_simp; ring
  rw [h1, h2, one_pow]
  field_simp

/-- **C104**: the wave packet is bounded by the amplitude, and zero from six widths on. -/
theorem packet_bounds {amp w : ℝ} (ha : 0 ≤ amp) (hw : 0 < w) (x x0 k : ℝ) :
    |packet x x0 amp w k| ≤ amp * Real.exp (-(x - x0) ^ 2 / (2 * w ^ 2)) ∧ (6 * w ≤ |x - x0| → packet x x0 amp w k = 0) := by
  unfold packet
  constructor
  · split_ifs
    · rw [abs_mul, abs_mul, abs_of_nonneg ha, abs_of_pos (Real.exp_pos _), mul_assoc]
      apply mul_le_mul_of_nonneg_left _ ha
      exact mul_le_of_le_one_left (Real.exp_pos _).le (Real.abs_cos_le_one _)
    · rw [abs_zero]
      positivity
  · intro h
    rw [if_neg (not_lt.mpr h)]

example : squarePulse 0.5 1 0 1 2 = 1 ∧ squarePulse 1 1 0 1 2 = 1 / 2 ∧ squarePulse 2 1 0 1 2 = 0 := by
  unfold squarePulse
  norm_num [abs_of_pos]

end AmrWind.Case
