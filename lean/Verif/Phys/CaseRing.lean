import Mathlib.Analysis.SpecialFunctions.Gaussian.GaussianIntegral
import Mathlib.MeasureTheory.Integral.Prod
import Mathlib.Analysis.Real.Pi.Bounds
import Verif.Phys.CaseVel

/-! # Vortex rings (property C103) -/

set_option linter.unusedSectionVars false

namespace AmrWind.Case

section stencil
variable {K : Type*} [Field K]

/-- The divergence at a node of a velocity in the eight cells around it, the right hand side of the nodal projection
(`f`: one quarter over the cell size; the node `(i, j, k)` has the cells `i - 1` and `i` beside it). -/
def nodeDiv (fx fy fz : K) (u v w : Grid K) (i j k : ℤ) : K :=
  fx * ((u i (j - 1) (k - 1) - u (i - 1) (j - 1) (k - 1)) + (u i j (k - 1) - u (i - 1) j (k - 1)) +
    (u i (j - 1) k - u (i - 1) (j - 1) k) + (u i j k - u (i - 1) j k)) +
  fy * ((v (i - 1) j (k - 1) - v (i - 1) (j - 1) (k - 1)) + (v i j (k - 1) - v i (j - 1) (k - 1)) +
    (v (i - 1) j k - v (i - 1) (j - 1) k) + (v i j k - v i (j - 1) k)) +
  fz * ((w (i - 1) (j - 1) k - w (i - 1) (j - 1) (k - 1)) + (w i (j - 1) k - w i (j - 1) (k - 1)) +
    (w (i - 1) j k - w (i - 1) j (k - 1)) + (w i j k - w i j (k - 1)))

/-- **C103**: the velocity that the vortex rings get from the vector potential has exactly no divergence at any node inside a level, whatever the
potential, so the initial projection leaves it as it is. -/
theorem ring_divergence (fx fy fz : K) (px py pz : Grid K) (i j k : ℤ) :
    nodeDiv fx fy fz (ringU fy fz py pz) (ringV fx fz px pz) (ringW fx fy px py) i j k = 0 := by
  unfold nodeDiv ringU ringV ringW gradX gradY gradZ
  simp only [sub_add_cancel]
  ring

end stencil

/-- The stencils are derivatives: on a linear potential they give its slope. -/
theorem grad_linear {K : Type*} [Field K] [CharZero K] (a b c d hx hy hz : K) (h1 : hx ≠ 0) (h2 : hy ≠ 0) (h3 : hz ≠ 0) (i j k : ℤ) :
    let p : Grid K := fun i j k => a + b * (i * hx) + c * (j * hy) + d * (k * hz)
    gradX (1 / 4 / hx) p i j k = b ∧ gradY (1 / 4 / hy) p i j k = c ∧ gradZ (1 / 4 / hz) p i j k = d := by
  intro p
  simp only [p, gradX, gradY, gradZ]
  push_cast
  refine ⟨?_, ?_, ?_⟩ <;> field_simp <;> ring

/-- **C103**: the velocity is minus the curl of the potential: for a linear potential exactly. -/
theorem ring_curl {K : Type*} [Field K] [CharZero K] (a b c : Fin 3 → K) (hx hy hz : K) (h1 : hx ≠ 0) (h2 : hy ≠ 0) (h3 : hz ≠ 0) (i j k : ℤ) :
    let p : Fin 3 → Grid K := fun n i j k => 0 + a n * (i * hx) + b n * (j * hy) + c n * (k * hz)
    ringU (1 / 4 / hy) (1 / 4 / hz) (p 1) (p 2) i j k = -(b 2 - c 1) ∧
    ringV (1 / 4 / hx) (1 / 4 / hz) (p 0) (p 2) i j k = -(c 0 - a 2) ∧
    ringW (1 / 4 / hx) (1 / 4 / hy) (p 0) (p 1) i j k = -(a 1 - b 0) := by
  intro p
  have g := fun n => grad_linear (0 : K) (a n) (b n) (c n) hx hy hz h1 h2 h3 i j k
  unfold ringU ringV ringW
  refine ⟨?_, ?_, ?_⟩
  · rw [(g 2).2.1, (g 1).2.2]
  · rw [(g 0).2.2, (g 2).1]
  · rw [(g 1).1, (g 0).2.1]

/-- **C103**, disagreement: the rings turn against the given vorticity. The right hand side is minus the vorticity (azimuthal unit vector
`(-sin, cos, 0)`); a potential `P` with `∇²P = rhs` and no divergence, whose curl is taken with the minus sign (`ring_curl`), belongs to the
velocity whose curl is `rhs`, minus the vorticity asked for. `H n a b` are the second derivatives of component `n`. -/
theorem ring_reversed (theta w : ℝ) (H : Fin 3 → Fin 3 → Fin 3 → ℝ) (sym : ∀ n a b, H n a b = H n b a)
    (lap0 : H 0 0 0 + H 0 1 1 + H 0 2 2 = (ringRhs theta w).1) (lap1 : H 1 0 0 + H 1 1 1 + H 1 2 2 = (ringRhs theta w).2.1)
    (lap2 : H 2 0 0 + H 2 1 1 + H 2 2 2 = (ringRhs theta w).2.2)
    (div0 : ∀ a, H 0 0 a + H 1 1 a + H 2 2 a = 0) :
    -- derivatives of the velocity `-(curl P)`; `U n a` is the derivative of component `n` along `a`
    let U : Fin 3 → Fin 3 → ℝ := fun n a => if n = 0 then -(H 2 1 a - H 1 2 a) else if n = 1 then -(H 0 2 a - H 2 0 a) else -(H 1 0 a - H 0 1 a)
    (U 2 1 - U 1 2, U 0 2 - U 2 0, U 1 0 - U 0 1) = (-(-Real.sin theta * w), -(Real.cos theta * w), 0) := by
  intro U
  simp only [ringRhs] at lap0 lap1 lap2
  have d0 := div0 0
  have d1 := div0 1
  have d2 := div0 2
  have s := sym
  have e : ∀ a, U 0 a = -(H 2 1 a - H 1 2 a) ∧ U 1 a = -(H 0 2 a - H 2 0 a) ∧ U 2 a = -(H 1 0 a - H 0 1 a) := by
    intro a
    exact ⟨rfl, rfl, rfl⟩
  rw [(e 1).2.2, (e 2).2.1, (e 2).1, (e 0).2.2, (e 0).2.1, (e 1).1]
  refine Prod.ext ?_ (Prod.ext ?_ ?_)
  · show -(H 1 0 1 - H 0 1 1) - -(H 0 2 2 - H 2 0 2) = _
    linarith [s 1 0 1, s 2 0 2]
  · show -(H 2 1 2 - H 1 2 2) - -(H 1 0 0 - H 0 1 0) = _
    linarith [s 2 1 2, s 0 0 1]
  · show -(H 0 2 0 - H 2 0 0) - -(H 2 1 1 - H 1 2 1) = _
    linarith [s 0 0 2, s 1 1 2]

/-- **C103**, disagreement: the circulation of the ring with a fat core is less than half of the `Gamma` that is asked for: the integral of the vorticity over the
half plane in which it lies. (The factor 0.54857674 is the inverse of the one that would give `Gamma`.) -/
theorem fatcore_circulation {R G : ℝ} (hR : 0 < R) (hG : 0 < G) : ∫ p : ℝ × ℝ, fatCore p.1 p.2 R G < G / 2 := by
  have hR2 : 0 < R ^ 2 := by positivity
  have hb : 0 < 4 / R ^ 2 := by positivity
  set c := 0.54857674 * G / R ^ 2 with hc
  have hcp : 0 < c := by rw [hc]; positivity
  have hg : MeasureTheory.Integrable (fun p : ℝ × ℝ => c * Real.exp (-(4 / R ^ 2) * (p.1 - R) ^ 2) * Real.exp (-(4 / R ^ 2) * p.2 ^ 2)) := by
    have i1 : MeasureTheory.Integrable (fun x : ℝ => c * Real.exp (-(4 / R ^ 2) * (x - R) ^ 2)) :=
      ((integrable_exp_neg_mul_sq hb).comp_sub_right R).const_mul c
    have i2 : MeasureTheory.Integrable (fun x : ℝ => Real.exp (-(4 / R ^ 2) * x ^ 2)) := integrable_exp_neg_mul_sq hb
    exact i1.mul_prod i2
  have hle : ∀ p : ℝ × ℝ, fatCore p.1 p.2 R G ≤ c * Real.exp (-(4 / R ^ 2) * (p.1 - R) ^ 2) * Real.exp (-(4 / R ^ 2) * p.2 ^ 2) := by
    intro p
    rw [mul_assoc, ← Real.exp_add]
    unfold fatCore
    dsimp only
    split_ifs with h
    · rw [← hc]
      apply mul_le_mul_of_nonneg_left _ hcp.le
      apply Real.exp_le_exp.mpr
      set s := p.2 ^ 2 + (p.1 - R) ^ 2
      have hs : 0 ≤ s := by positivity
      have h1 : 0 < R ^ 2 - s := by linarith
      have e : -(4 / R ^ 2) * (p.1 - R) ^ 2 + -(4 / R ^ 2) * p.2 ^ 2 = -4 * s / R ^ 2 := by
        simp only [s]; ring
      rw [e, div_le_div_iff₀ h1 hR2]
      nlinarith
    · positivity
  have hnn : ∀ p : ℝ × ℝ, 0 ≤ fatCore p.1 p.2 R G := by
    intro p
    unfold fatCore
    dsimp only
    split_ifs
    · positivity
    · exact le_rfl
  have h1 : ∫ p : ℝ × ℝ, fatCore p.1 p.2 R G ≤
      ∫ p : ℝ × ℝ, c * Real.exp (-(4 / R ^ 2) * (p.1 - R) ^ 2) * Real.exp (-(4 / R ^ 2) * p.2 ^ 2) :=
    MeasureTheory.integral_mono_of_nonneg (Filter.Eventually.of_forall hnn) hg (Filter.Eventually.of_forall hle)
  have h2 : ∫ p : ℝ × ℝ, c * Real.exp (-(4 / R ^ 2) * (p.1 - R) ^ 2) * Real.exp (-(4 / R ^ 2) * p.2 ^ 2) = c * (Real.pi * R ^ 2 / 4) := by
    have e := MeasureTheory.integral_prod_mul (μ := (MeasureTheory.volume : MeasureTheory.Measure ℝ)) (ν := (MeasureTheory.volume : MeasureTheory.Measure ℝ))
      (fun x : ℝ => c * Real.exp (-(4 / R ^ 2) * (x - R) ^ 2)) (fun y : ℝ => Real.exp (-(4 / R ^ 2) * y ^ 2))
    have e2 : ∫ x : ℝ, c * Real.exp (-(4 / R ^ 2) * (x - R) ^ 2) = c * Real.sqrt (Real.pi / (4 / R ^ 2)) := by
      rw [MeasureTheory.integral_const_mul, MeasureTheory.integral_sub_right_eq_self (fun x : ℝ => Real.exp (-(4 / R ^ 2) * x ^ 2)) R, integral_gaussian]
    rw [e2, integral_gaussian] at e
    refine e.trans ?_
    rw [mul_assoc, Real.mul_self_sqrt (by positivity)]
    congr 1
    field_simp
  rw [h2] at h1
  refine h1.trans_lt ?_
  rw [hc]
  have hpi := Real.pi_lt_d2
  have : 0.54857674 * G / R ^ 2 * (Real.pi * R ^ 2 / 4) = 0.54857674 * Real.pi / 4 * G := by field_simp
  rw [this]
  nlinarith

/-- **C103**: the vorticity of the fat core is positive inside a torus of core radius `R` around the ring of radius `R`, and zero outside. -/
theorem fatcore_support {R G : ℝ} (hR : 0 < R) (hG : 0 < G) (r z : ℝ) :
    (0 < fatCore r z R G ↔ z ^ 2 + (r - R) ^ 2 < R ^ 2) ∧ (0 < fatCore r z R G → 0 < r) := by
  have key : 0 < fatCore r z R G ↔ z ^ 2 + (r - R) ^ 2 < R ^ 2 := by
    unfold fatCore
    dsimp only
    split_ifs with h
    · simp only [h, iff_true]
      positivity
    · simp [h]
  refine ⟨key, fun h => ?_⟩
  have := key.mp h
  nlinarith [sq_nonneg z]

/-- **C103**: two colliding rings with the same perturbation are mirror images that turn in opposite senses; each alone has the circulation that is asked for. -/
theorem colliding_mirror (r theta z R G delta dz amp : ℝ) (m : List (ℤ × ℝ)) :
    colliding r theta (-z) R G delta dz amp m m = -colliding r theta z R G delta dz amp m m := by
  unfold colliding ringVort
  rw [show (-z - -(dz / 2)) ^ 2 = (z - dz / 2) ^ 2 by ring, show (-z - dz / 2) ^ 2 = (z - -(dz / 2)) ^ 2 by ring]
  ring

theorem ring_circulation {delta : ℝ} (hd : 0 < delta) (z0 R G : ℝ) : ∫ p : ℝ × ℝ, ringVort p.1 p.2 z0 R G delta 0 = G := by
  have hb : 0 < 1 / delta ^ 2 := by positivity
  have e := MeasureTheory.integral_prod_mul (μ := (MeasureTheory.volume : MeasureTheory.Measure ℝ)) (ν := (MeasureTheory.volume : MeasureTheory.Measure ℝ))
      (fun x : ℝ => G / (Real.pi * delta ^ 2) * Real.exp (-(1 / delta ^ 2) * (x - R) ^ 2)) (fun y : ℝ => Real.exp (-(1 / delta ^ 2) * (y - z0) ^ 2))
  have e2 : ∫ x : ℝ, G / (Real.pi * delta ^ 2) * Real.exp (-(1 / delta ^ 2) * (x - R) ^ 2) = G / (Real.pi * delta ^ 2) * Real.sqrt (Real.pi / (1 / delta ^ 2)) := by
    rw [MeasureTheory.integral_const_mul, MeasureTheory.integral_sub_right_eq_self (fun x : ℝ => Real.exp (-(1 / delta ^ 2) * x ^ 2)) R, integral_gaussian]
  have e3 : ∫ x : ℝ, Real.exp (-(1 / delta ^ 2) * (x - z0) ^ 2) = Real.sqrt (Real.pi / (1 / delta ^ 2)) := by
    rw [MeasureTheory.integral_sub_right_eq_self (fun x : ℝ => Real.exp (-(1 / delta ^ 2) * x ^ 2)) z0, integral_gaussian]
  rw [e2, e3] at e
  have e4 : (fun p : ℝ × ℝ => ringVort p.1 p.2 z0 R G delta 0) =
      fun p => G / (Real.pi * delta ^ 2) * Real.exp (-(1 / delta ^ 2) * (p.1 - R) ^ 2) * Real.exp (-(1 / delta ^ 2) * (p.2 - z0) ^ 2) := by
    funext p
    unfold ringVort
    rw [mul_assoc, ← Real.exp_add]
    congr 2
    ring
  rw [e4]
  refine e.trans ?_
  rw [mul_assoc, Real.mul_self_sqrt (by positivity)]
  have := Real.pi_pos
  field_simp

example : fatCore 1 0 1 1 = 0.54857674 := by
  unfold fatCore
  norm_num

end AmrWind.Case
