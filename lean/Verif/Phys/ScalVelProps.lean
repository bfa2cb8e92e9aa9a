import Verif.Phys.ScalVelModel
import Verif.Phys.ExactErr
import Verif.Mix.Props

/-!
# Properties of the benchmark cases that carry a scalar in the velocity field (C123)
-/

set_option linter.unusedSectionVars false

namespace AmrWind.Case

open Plane (Cell)
open Amr

/-- **C123**: at time zero the exact solution is the initial field. -/
theorem sc_start (xc yc zc x y z r T : ℝ) : scExact xc yc zc x y z r (scAngle T 0) = scInit xc yc zc x y z r := by
  unfold scExact scInit scAngle
  simp

/-- **C123**: the exact solution is carried along: on every path of the prescribed velocity it keeps the value it had at the start. -/
theorem sc_carried {T : ℝ} (xc yc zc z r : ℝ) (X Y : ℝ → ℝ) (hX : ∀ t, HasDerivAt X (zdU T (Y t)) t)
    (hY : ∀ t, HasDerivAt Y (zdV T (X t)) t) (t : ℝ) : scExact xc yc zc (X t) (Y t) z r (scAngle T t) = scInit xc yc zc (X 0) (Y 0) z r := by
  set w := 2 * Real.pi / T with hw
  let cx := fun t => 1 / 2 + Real.cos (w * t) * (xc - 1 / 2) - Real.sin (w * t) * (yc - 1 / 2)
  let cy := fun t => 1 / 2 + Real.sin (w * t) * (xc - 1 / 2) + Real.cos (w * t) * (yc - 1 / 2)
  have hcx : ∀ t, HasDerivAt cx (w * (1 / 2 - cy t)) t := by
    intro t
    have := (((deriv_cos_mul w t).mul_const (xc - 1 / 2)).const_add (1 / 2)).sub ((deriv_sin_mul w t).mul_const (yc - 1 / 2))
    refine this.congr_deriv ?_
    simp only [cy]
    ring
  have hcy : ∀ t, HasDerivAt cy (w * (cx t - 1 / 2)) t := by
    intro t
    have := (((deriv_sin_mul w t).mul_const (xc - 1 / 2)).const_add (1 / 2)).add ((deriv_cos_mul w t).mul_const (yc - 1 / 2))
    refine this.congr_deriv ?_
    simp only [cx]
    ring
  let q := fun t => (X t - cx t) * (X t - cx t) + (Y t - cy t) * (Y t - cy t)
  have hq : ∀ t, HasDerivAt q 0 t := by
    intro t
    have hx := (hX t).sub (hcx t)
    have hy := (hY t).sub (hcy t)
    refine ((hx.mul hx).add (hy.mul hy)).congr_deriv ?_
    simp only [Pi.sub_apply, zdU, zdV, ← hw]
    ring
  have hconst : q t = q 0 := is_const_of_deriv_eq_zero (fun s => (hq s).differentiableAt) (fun s => (hq s).deriv) t 0
  have ha : scAngle T t = w * t := by
    unfold scAngle
    rw [hw]
    ring
  have h0 : q 0 = (X 0 - xc) * (X 0 - xc) + (Y 0 - yc) * (Y 0 - yc) := by
    simp [q, cx, cy]
  rw [h0] at hconst
  unfold scExact scInit
  rw [ha]
  dsimp only
  have e : (X t - (1 / 2 + Real.cos (w * t) * (xc - 1 / 2) - Real.sin (w * t) * (yc - 1 / 2))) *
      (X t - (1 / 2 + Real.cos (w * t) * (xc - 1 / 2) - Real.sin (w * t) * (yc - 1 / 2))) +
      (Y t - (1 / 2 + Real.sin (w * t) * (xc - 1 / 2) + Real.cos (w * t) * (yc - 1 / 2))) *
      (Y t - (1 / 2 + Real.sin (w * t) * (xc - 1 / 2) + Real.cos (w * t) * (yc - 1 / 2))) =
      (X 0 - xc) * (X 0 - xc) + (Y 0 - yc) * (Y 0 - yc) := hconst
  rw [e]

/-- The paths exist: those of `zd_rotation`. -/
example (x0 y0 z : ℝ) : let X := fun t => 1 / 2 + (x0 - 1 / 2) * Real.cos (2 * Real.pi / 3 * t) - (y0 - 1 / 2) * Real.sin (2 * Real.pi / 3 * t)
    let Y := fun t => 1 / 2 + (x0 - 1 / 2) * Real.sin (2 * Real.pi / 3 * t) + (y0 - 1 / 2) * Real.cos (2 * Real.pi / 3 * t)
    ∀ t, scExact (1 / 2) (3 / 4) (1 / 2) (X t) (Y t) z (3 / 20) (scAngle 3 t) = scInit (1 / 2) (3 / 4) (1 / 2) (X 0) (Y 0) z (3 / 20) := by
  intro X Y t
  have h := zd_rotation (T := 3) (by norm_num) x0 y0
  exact sc_carried _ _ _ _ _ X Y (fun t => (h.2.2.2.2.1 t).1) (fun t => (h.2.2.2.2.1 t).2) t

/-- **C123**: after a whole period the exact solution is the initial field again. -/
theorem sc_period {T : ℝ} (hT : T ≠ 0) (xc yc zc x y z r : ℝ) (n : ℕ) :
    scExact xc yc zc x y z r (scAngle T (n * T)) = scInit xc yc zc x y z r := by
  have e : scAngle T (n * T) = n * (2 * Real.pi) := by
    unfold scAngle
    field_simp
  unfold scExact scInit
  rw [e, Real.cos_nat_mul_two_pi, show (n : ℝ) * (2 * Real.pi) = 0 + n * (2 * Real.pi) by ring, Real.sin_add_nat_mul_two_pi]
  simp

/-- **C123**: the field is between 0 and 1, is 1 up to half a radius from the centre and 0 from one and a half radii on, and falls linearly in
between. -/
theorem sc_shape {r : ℝ} (hr : 0 < r) (xc yc zc x y z : ℝ) :
    let d := Real.sqrt ((x - xc) ^ 2 + (y - yc) ^ 2 + (z - zc) ^ 2)
    0 ≤ scInit xc yc zc x y z r ∧ scInit xc yc zc x y z r ≤ 1 ∧ (scInit xc yc zc x y z r = 1 ↔ d ≤ r / 2) ∧
      (scInit xc yc zc x y z r = 0 ↔ 3 / 2 * r ≤ d) ∧ (r / 2 ≤ d → d ≤ 3 / 2 * r → scInit xc yc zc x y z r = 3 / 2 - d / r) := by
  intro d
  have e : scInit xc yc zc x y z r = min 1 (max 0 (3 / 2 - d / r)) := by
    unfold scInit
    simp only [d, pow_two]
  rw [e]
  refine ⟨le_min (by norm_num) (le_max_left _ _), min_le_left _ _, ?_, ?_, ?_⟩
  · rw [min_eq_left_iff, le_max_iff]
    constructor
    · rintro (h | h)
      · norm_num at h
      · have h1 : d / r ≤ 1 / 2 := by linarith
        rw [div_le_iff₀ hr] at h1
        linarith
    · intro h
      right
      have h1 : d / r ≤ 1 / 2 := by
        rw [div_le_iff₀ hr]
        linarith
      linarith
  · constructor
    · intro h
      rcases min_choice (1 : ℝ) (max 0 (3 / 2 - d / r)) with h1 | h1
      · rw [h1] at h; norm_num at h
      · rw [h1, max_eq_left_iff] at h
        have h2 : 3 / 2 ≤ d / r := by linarith
        rwa [le_div_iff₀ hr] at h2
    · intro h
      have h1 : 3 / 2 ≤ d / r := by
        rw [le_div_iff₀ hr]
        exact h
      rw [max_eq_left (by linarith), min_eq_right (by norm_num)]
  · intro h1 h2
    have h3 : 1 / 2 ≤ d / r := by
      rw [le_div_iff₀ hr]
      linarith
    have h4 : d / r ≤ 3 / 2 := by
      rw [div_le_iff₀ hr]
      linarith
    rw [max_eq_right (by linarith), min_eq_right (by linarith)]

example : scInit 0 0 0 1 0 0 1 = 1 / 2 := by
  have h := (sc_shape (r := 1) one_pos 0 0 0 1 0 0).2.2.2.2
  have e : Real.sqrt (((1 : ℝ) - 0) ^ 2 + (0 - 0) ^ 2 + (0 - 0) ^ 2) = 1 := by norm_num
  rw [e] at h
  rw [h (by norm_num) (by norm_num)]
  norm_num

/-- **C123**: the scalar of the vortex patch is between 0 and 1, one half on the sphere, 1 further inside than the width, 0 further outside. -/
theorem vp_scalar_shape {r f : ℝ} (hr : 0 < r) (hf : 0 < f) (xc yc zc x y z : ℝ) :
    let d := Real.sqrt ((x - xc) ^ 2 + (y - yc) ^ 2 + (z - zc) ^ 2)
    0 ≤ vpScalar r f xc yc zc x y z ∧ vpScalar r f xc yc zc x y z ≤ 1 ∧ (d ≤ r - r * f → vpScalar r f xc yc zc x y z = 1) ∧
      (r + r * f ≤ d → vpScalar r f xc yc zc x y z = 0) ∧ (d = r → vpScalar r f xc yc zc x y z = 1 / 2) := by
  intro d
  have e : vpScalar r f xc yc zc x y z = Mix.smoothHeaviside (r * f) (r - d) := by
    unfold vpScalar ball
    simp only [d, pow_two]
  obtain ⟨h1, _, h3, h4, h5, _, _⟩ := Mix.smooth_heaviside (eps := r * f) (by positivity)
  rw [e]
  refine ⟨(h1 _).1, (h1 _).2, fun h => h3 _ (by linarith), fun h => h4 _ (by linarith), fun h => ?_⟩
  rw [h, sub_self]
  exact h5

/-- **C123**: whatever is carried along by the vortex patch, after one period it is everywhere what it was at the start: the final field is compared with
the initial one. -/
theorem vp_scalar_returns {T : ℝ} (hT : 0 < T) {β : Type*} (f : ℝ → Pt → β) (hf : ∀ P, Path T P → ∀ t ∈ Set.Icc 0 T, f t (P t) = f 0 (P 0)) (p : Pt) :
    f T p = f 0 p := by
  obtain ⟨P, h0, hP⟩ := (vp_returns hT).1 p
  have h1 := ((vp_returns hT).2 P hP).2
  have h2 := hf P hP T ⟨hT.le, le_rfl⟩
  rw [h1, h0] at h2
  exact h2

example : ∃ f : ℝ → Pt → ℝ, ∀ P, Path 4 P → ∀ t ∈ Set.Icc (0 : ℝ) 4, f t (P t) = f 0 (P 0) := ⟨fun _ _ => 1, fun _ _ _ _ => rfl⟩

variable {nproc : ℕ} {levels : List Lev}

/-- **C123**: the reported error is the root mean square over the cells that count, times the root of the part of the domain that they are; without overset
and without mapping, where their volume is that of the domain, it is the root mean square. -/
theorem sc_error (hn : Nested nproc levels) {vol : ℕ → Cell → ℝ} {act : ℕ → Cell → Bool} {u ex : ℕ → Cell → ℝ} {domVol : ℝ}
    (hv : ∀ lev c, Uncovered nproc levels lev c → 0 < vol lev c) (hex : ∃ lev c, Uncovered nproc levels lev c ∧ act lev c = true) :
    scError nproc vol act domVol u ex levels =
        Exact.rmsActive nproc vol act u ex levels * Real.sqrt (total nproc (Exact.volTerm vol act) levels / domVol) ∧
      (total nproc (Exact.volTerm vol act) levels = domVol → scError nproc vol act domVol u ex levels = Exact.rmsActive nproc vol act u ex levels) := by
  obtain ⟨lev, c, hu, ha⟩ := hex
  have hpos := Exact.total_vol_pos hn hv hu ha
  have h1 : scError nproc vol act domVol u ex levels =
      Exact.rmsActive nproc vol act u ex levels * Real.sqrt (total nproc (Exact.volTerm vol act) levels / domVol) := by
    have hnn : 0 ≤ total nproc (Exact.errTerm vol act u ex) levels / total nproc (Exact.volTerm vol act) levels := by
      apply div_nonneg _ hpos.le
      rw [Exact.total_err]
      apply List.sum_nonneg
      intro x hx
      obtain ⟨l, hl, rfl⟩ := List.mem_map.mp hx
      have := hv _ _ (Exact.leaf_uncovered hn hl)
      split_ifs
      · positivity
      · simp
    unfold scError Exact.rmsActive
    rw [← Real.sqrt_mul hnn]
    congr 1
    field_simp
  refine ⟨h1, fun h => ?_⟩
  rw [h1, h, div_self (by rw [← h]; exact hpos.ne'), Real.sqrt_one, mul_one]

end AmrWind.Case
