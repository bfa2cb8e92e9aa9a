import Verif.Actuator.SpreadModel
import Verif.Actuator.Disk
import Mathlib.Analysis.SpecialFunctions.Gaussian.GaussianIntegral
import Mathlib.Analysis.SpecialFunctions.Integrals.Basic
import Mathlib.Analysis.Real.Pi.Bounds
import Mathlib.Tactic.IntervalCases

/-!
# C76: spreading of the actuator forces
-/

namespace AmrWind.Spread

open AmrWind.Vs
open AmrWind.Plane (Cell Bx)
open AmrWind.Disk (ne_zero_of_dot mag_of_dot)
open scoped BigOperators
open MeasureTheory

/-! ## Kernels -/

theorem linearBasis_nonneg {d dX : ℝ} (h : 0 < dX) : 0 ≤ linearBasis d dX :=
  div_nonneg (le_max_left _ _) h.le

theorem linearBasis_near {d dX : ℝ} (h : 0 < dX) (hd : d ≤ dX) : linearBasis d dX = (1 - d / dX) / dX := by
  unfold linearBasis
  rw [max_eq_right]
  rw [sub_nonneg, div_le_one h]
  exact hd

theorem linearBasis_far {d dX : ℝ} (h : 0 < dX) (hd : dX ≤ d) : linearBasis d dX = 0 := by
  unfold linearBasis
  rw [max_eq_left, zero_div]
  rw [sub_nonpos, one_le_div h]
  exact hd

/-- C76: between two neighbouring points the two weights times the spacing add up to one. -/
theorem linearBasis_partition {d dX : ℝ} (h : 0 < dX) (h0 : 0 ≤ d) (hd : d ≤ dX) :
    linearBasis d dX * dX + linearBasis (dX - d) dX * dX = 1 := by
  rw [linearBasis_near h hd, linearBasis_near h (by linarith)]
  field_simp
  ring

/-- The integral of a piecewise linear integrand times a linear factor. -/
theorem quad_integral (a b p q : ℝ) : ∫ r in a..b, (p + q * r) * r = p * (b ^ 2 - a ^ 2) / 2 + q * (b ^ 3 - a ^ 3) / 3 := by
  have e : ∀ r : ℝ, (p + q * r) * r = p * r + q * r ^ 2 := fun r => by ring
  simp only [e]
  rw [intervalIntegral.integral_add (by apply Continuous.intervalIntegrable; fun_prop)
    (by apply Continuous.intervalIntegrable; fun_prop), intervalIntegral.integral_const_mul,
    intervalIntegral.integral_const_mul, integral_id, integral_pow]
  push_cast
  ring

/-- The integral over the radius of the weight of a ring times the circumference, from `lo` (0 or `R − dR`) to `R + dR`. -/
theorem ring_integral {R dR lo : ℝ} (hd : 0 < dR) (hR : 0 < R) (hl : lo ≤ R) (hlo : R - dR ≤ lo) :
    ∫ r in lo..(R + dR), linearBasis |r - R| dR * (1 / (2 * Real.pi * R)) * (2 * Real.pi * r) =
      1 / (R * dR) * ((1 - R / dR) * (R ^ 2 - lo ^ 2) / 2 + 1 / dR * (R ^ 3 - lo ^ 3) / 3 +
        ((1 + R / dR) * ((R + dR) ^ 2 - R ^ 2) / 2 - 1 / dR * ((R + dR) ^ 3 - R ^ 3) / 3)) := by
  have hp := Real.pi_pos
  have hc : Continuous fun r : ℝ => linearBasis |r - R| dR * (1 / (2 * Real.pi * R)) * (2 * Real.pi * r) := by
    unfold linearBasis
    have : Continuous fun r : ℝ => max 0 (1 - |r - R| / dR) := by
      apply Continuous.max continuous_const
      apply Continuous.sub continuous_const
      apply Continuous.div_const
      exact (continuous_id.sub continuous_const).abs
    exact ((this.div_const _).mul continuous_const).mul (by fun_prop)
  rw [← intervalIntegral.integral_add_adjacent_intervals (b := R) (hc.intervalIntegrable _ _) (hc.intervalIntegrable _ _)]
  have e1 : ∫ r in lo..R, linearBasis |r - R| dR * (1 / (2 * Real.pi * R)) * (2 * Real.pi * r) =
      ∫ r in lo..R, 1 / (R * dR) * ((1 - R / dR + 1 / dR * r) * r) := by
    apply intervalIntegral.integral_congr
    intro r hr
    rw [Set.uIcc_of_le hl] at hr
    have ha : |r - R| = R - r := by rw [abs_sub_comm]; exact abs_of_nonneg (by linarith [hr.2])
    simp only
    rw [ha, linearBasis_near hd (by linarith [hr.1])]
    field_simp
    ring
  have e2 : ∫ r in R..(R + dR), linearBasis |r - R| dR * (1 / (2 * Real.pi * R)) * (2 * Real.pi * r) =
      ∫ r in R..(R + dR), 1 / (R * dR) * ((1 + R / dR + -(1 / dR) * r) * r) := by
    apply intervalIntegral.integral_congr
    intro r hr
    rw [Set.uIcc_of_le (by linarith)] at hr
    have ha : |r - R| = r - R := abs_of_nonneg (by linarith [hr.1])
    simp only
    rw [ha, linearBasis_near hd (by linarith [hr.2])]
    field_simp
    ring
  rw [e1, e2, intervalIntegral.integral_const_mul, intervalIntegral.integral_const_mul, quad_integral, quad_integral]
  ring

/-- C76: over the plane of the disk the weight of a ring integrates to one, for every ring but the innermost. -/
theorem ring_conserves_partial {R dR : ℝ} (hd : 0 < dR) (hR : dR ≤ R) :
    ∫ r in (R - dR)..(R + dR), linearBasis |r - R| dR * (1 / (2 * Real.pi * R)) * (2 * Real.pi * r) = 1 := by
  have hR0 : 0 < R := lt_of_lt_of_le hd hR
  rw [ring_integral hd hR0 (by linarith) le_rfl]
  field_simp
  ring

/-- A disagreement: the innermost ring (`R = dR/2`) exerts 25/24 of its force. -/
theorem inner_ring_excess {dR : ℝ} (hd : 0 < dR) :
    ∫ r in (0 : ℝ)..(dR / 2 + dR), linearBasis |r - dR / 2| dR * (1 / (2 * Real.pi * (dR / 2))) * (2 * Real.pi * r) =
      25 / 24 := by
  rw [ring_integral hd (by linarith) (by linarith) (by linarith)]
  field_simp
  ring

/-- C76: around the circle the weight of a sector integrates to one if there are at least two sectors; with one sector it
is 3/4 (a disagreement). -/
theorem sector_integral {R : ℝ} (hR : 0 < R) {nt : ℕ} (ht : 0 < nt) :
    ∫ θ in (-Real.pi)..Real.pi, linearBasis (|θ| * R) (R * (2 * Real.pi / nt)) * R = if nt = 1 then 3 / 4 else 1 := by
  have hp := Real.pi_pos
  have hnt : (0 : ℝ) < nt := by positivity
  set f := fun θ : ℝ => linearBasis (|θ| * R) (R * (2 * Real.pi / nt)) * R with hf
  have hc : Continuous f := by
    rw [hf]
    unfold linearBasis
    have : Continuous fun θ : ℝ => max 0 (1 - |θ| * R / (R * (2 * Real.pi / nt))) := by
      apply Continuous.max continuous_const
      apply Continuous.sub continuous_const
      apply Continuous.div_const
      exact continuous_id.abs.mul continuous_const
    exact (this.div_const _).mul continuous_const
  have hX : 0 < R * (2 * Real.pi / nt) := by positivity
  rw [← intervalIntegral.integral_add_adjacent_intervals (b := 0) (hc.intervalIntegrable _ _) (hc.intervalIntegrable _ _)]
  have hsym : ∫ θ in (-Real.pi)..0, f θ = ∫ θ in (0 : ℝ)..Real.pi, f θ := by
    have := intervalIntegral.integral_comp_neg (a := 0) (b := Real.pi) f
    rw [neg_zero] at this
    rw [← this]
    apply intervalIntegral.integral_congr
    intro θ _
    simp only [hf, abs_neg]
  have near : ∀ b : ℝ, 0 ≤ b → b ≤ 2 * Real.pi / nt →
      ∫ θ in (0 : ℝ)..b, f θ = b * (nt / (2 * Real.pi)) - b ^ 2 / 2 * (nt / (2 * Real.pi)) ^ 2 := by
    intro b hb hb'
    have e : ∫ θ in (0 : ℝ)..b, f θ = ∫ θ in (0 : ℝ)..b, (nt / (2 * Real.pi) - (nt / (2 * Real.pi)) ^ 2 * θ) := by
      apply intervalIntegral.integral_congr
      intro θ hθ
      rw [Set.uIcc_of_le hb] at hθ
      simp only [hf]
      rw [abs_of_nonneg hθ.1, linearBasis_near hX]
      · field_simp
      · nlinarith [hθ.2]
    rw [e, intervalIntegral.integral_sub (by apply Continuous.intervalIntegrable; fun_prop)
      (by apply Continuous.intervalIntegrable; fun_prop), intervalIntegral.integral_const_mul, integral_id]
    simp only [intervalIntegral.integral_const, smul_eq_mul, sub_zero]
    ring
  rw [hsym]
  by_cases h1 : nt = 1
  · subst h1
    rw [if_pos rfl, near Real.pi hp.le (by push_cast; linarith)]
    push_cast
    field_simp
    ring
  · have h2 : (2 : ℝ) ≤ nt := by exact_mod_cast (by omega : 2 ≤ nt)
    have hle : 2 * Real.pi / nt ≤ Real.pi := by rw [div_le_iff₀ hnt]; nlinarith
    rw [if_neg h1, ← intervalIntegral.integral_add_adjacent_intervals (b := 2 * Real.pi / nt)
      (hc.intervalIntegrable _ _) (hc.intervalIntegrable _ _), near _ (by positivity) le_rfl]
    have far : ∫ θ in (2 * Real.pi / nt)..Real.pi, f θ = 0 := by
      have e : ∫ θ in (2 * Real.pi / nt)..Real.pi, f θ = ∫ θ in (2 * Real.pi / nt)..Real.pi, (0 : ℝ) := by
        apply intervalIntegral.integral_congr
        intro θ hθ
        rw [Set.uIcc_of_le hle] at hθ
        have h0 : 0 ≤ θ := le_trans (by positivity) hθ.1
        simp only [hf]
        rw [abs_of_nonneg h0, linearBasis_far hX (by nlinarith [hθ.1]), zero_mul]
      rw [e]; simp
    rw [far]
    field_simp
    ring

/-- The normal density with scale `eps`. -/
noncomputable def gauss (eps d : ℝ) : ℝ := 1 / Real.sqrt Real.pi / eps * Real.exp (-(d * d) / (eps * eps))

theorem gauss_integral {eps : ℝ} (he : 0 < eps) : ∫ d, gauss eps d = 1 := by
  unfold gauss
  rw [integral_const_mul]
  have e : ∀ d : ℝ, Real.exp (-(d * d) / (eps * eps)) = Real.exp (-(1 / (eps * eps)) * d ^ 2) := by
    intro d; congr 1; ring
  simp only [e]
  rw [integral_gaussian]
  have : Real.sqrt (Real.pi / (1 / (eps * eps))) = Real.sqrt Real.pi * eps := by
    rw [div_div_eq_mul_div, div_one, Real.sqrt_mul Real.pi_pos.le, Real.sqrt_mul_self he.le]
  rw [this]
  have : Real.sqrt Real.pi ≠ 0 := (Real.sqrt_pos.mpr Real.pi_pos).ne'
  field_simp

/-- C76: the one-dimensional kernel is the normal density, cut at 16 epsilons. -/
theorem gaussian1d_spec {eps : ℝ} (he : 0 < eps) (d : ℝ) :
    (|d| < 16 * eps → gaussian1d d eps = gauss eps d) ∧ (16 * eps ≤ |d| → gaussian1d d eps = 0) := by
  unfold gaussian1d gauss
  have hab : |d / eps| = |d| / eps := by rw [abs_div, abs_of_pos he]
  rw [hab]
  constructor
  · intro h
    rw [if_neg]
    rw [not_le, div_lt_iff₀ he]
    exact h
  · intro h
    rw [if_pos]
    rw [le_div_iff₀ he]
    exact h

/-- C76: within four epsilons the three-dimensional kernel is the product of three normal densities, up to the rounded
constant `fac`; beyond it is zero. -/
theorem gaussian3d_spec {eps : Vec ℝ} (hx : 0 < eps.x) (hy : 0 < eps.y) (hz : 0 < eps.z) (d : Vec ℝ) :
    (magSqr (⟨d.x / eps.x, d.y / eps.y, d.z / eps.z⟩ : Vec ℝ) < 16 →
      gaussian3d d eps = 0.17958712212516656 * Real.sqrt Real.pi ^ 3 * (gauss eps.x d.x * gauss eps.y d.y * gauss eps.z d.z)) ∧
    (16 ≤ magSqr (⟨d.x / eps.x, d.y / eps.y, d.z / eps.z⟩ : Vec ℝ) → gaussian3d d eps = 0) := by
  have hp : Real.sqrt Real.pi ≠ 0 := (Real.sqrt_pos.mpr Real.pi_pos).ne'
  unfold gaussian3d gauss
  constructor
  · intro h
    simp only [if_pos h]
    have e : -(d.x / eps.x) * (d.x / eps.x) - d.y / eps.y * (d.y / eps.y) - d.z / eps.z * (d.z / eps.z) =
        -(d.x * d.x) / (eps.x * eps.x) + -(d.y * d.y) / (eps.y * eps.y) + -(d.z * d.z) / (eps.z * eps.z) := by
      field_simp; ring
    rw [e, Real.exp_add, Real.exp_add]
    field_simp
  · intro h
    exact if_neg (not_lt.mpr h)

/-- The constant of the three-dimensional kernel is `π^(-3/2)` to 15 digits. -/
theorem fac_close : |(0.17958712212516656 : ℝ) ^ 2 * Real.pi ^ 3 - 1| < 1 / 10 ^ 14 := by
  have h1 := Real.pi_gt_d20
  have h2 := Real.pi_lt_d20
  have hp := Real.pi_pos
  have l3 : (3.14159265358979323846 : ℝ) ^ 3 < Real.pi ^ 3 := by
    apply pow_lt_pow_left₀ h1 (by norm_num) (by norm_num)
  have u3 : Real.pi ^ 3 < (3.14159265358979323847 : ℝ) ^ 3 := by
    apply pow_lt_pow_left₀ h2 hp.le (by norm_num)
  rw [abs_lt]
  constructor
  · have : (0.17958712212516656 : ℝ) ^ 2 * (3.14159265358979323846 : ℝ) ^ 3 - 1 > -(1 / 10 ^ 14) := by norm_num
    nlinarith
  · have : (0.17958712212516656 : ℝ) ^ 2 * (3.14159265358979323847 : ℝ) ^ 3 - 1 < 1 / 10 ^ 14 := by norm_num
    nlinarith

/-! ## Cylindrical differences -/

/-- A right-handed frame `e`, `cross n e`, `n` and a point in cylindrical coordinates about `o`. -/
noncomputable def cyl (o n e : Vec ℝ) (r θ z : ℝ) : Vec ℝ :=
  o + z • n + r • (Real.cos θ • e + Real.sin θ • cross n e)

theorem cyl_parts {n e : Vec ℝ} (hn : dot n n = 1) (he : dot e e = 1) (hne : dot e n = 0) (o : Vec ℝ) {r : ℝ} (hr : 0 ≤ r)
    (θ z : ℝ) :
    dot (cyl o n e r θ z - o) n = z ∧ cyl o n e r θ z - o - z • n = r • (Real.cos θ • e + Real.sin θ • cross n e) ∧
    mag (r • (Real.cos θ • e + Real.sin θ • cross n e)) = r := by
  refine ⟨?_, ?_, ?_⟩
  · have : dot (cyl o n e r θ z - o) n = z * dot n n + r * Real.cos θ * dot e n := by
      unfold cyl
      simp only [dot, cross, add_x, add_y, add_z, sub_x, sub_y, sub_z, smul_x, smul_y, smul_z]; ring
    rw [this, hn, hne]; ring
  · unfold cyl
    ext <;> simp only [add_x, add_y, add_z, sub_x, sub_y, sub_z, smul_x, smul_y, smul_z] <;> ring
  · have h : magSqr (r • (Real.cos θ • e + Real.sin θ • cross n e)) =
        r * r * (Real.cos θ ^ 2 * dot e e + Real.sin θ ^ 2 * (dot n n * dot e e - dot e n ^ 2)) := by
      simp only [magSqr, dot, cross, add_x, add_y, add_z, smul_x, smul_y, smul_z]; ring
    unfold mag
    rw [h, hn, he, hne]
    have : r * r * (Real.cos θ ^ 2 * 1 + Real.sin θ ^ 2 * (1 * 1 - 0 ^ 2)) = r * r := by
      have := Real.sin_sq_add_cos_sq θ
      linear_combination (r * r) * this
    rw [this, Real.sqrt_mul_self hr]

/-- C76: the differences of two points are those of their cylindrical coordinates; the angle is rounded by the machine
epsilon in the denominator. -/
theorem deltaCyl_spec {meps : ℝ} (hm : 0 < meps) {n e : Vec ℝ} (hn : dot n n = 1) (he : dot e e = 1) (hne : dot e n = 0)
    (o : Vec ℝ) {r s : ℝ} (hr : 0 ≤ r) (hs : 0 ≤ s) (θ φ z w : ℝ) :
    (deltaCyl meps o n (cyl o n e r θ z) (cyl o n e s φ w)).x = |r - s| ∧
    Real.cos (deltaCyl meps o n (cyl o n e r θ z) (cyl o n e s φ w)).y = r * s * Real.cos (θ - φ) / (r * s + meps) ∧
    0 ≤ (deltaCyl meps o n (cyl o n e r θ z) (cyl o n e s φ w)).y ∧
    (deltaCyl meps o n (cyl o n e r θ z) (cyl o n e s φ w)).y ≤ Real.pi ∧
    (deltaCyl meps o n (cyl o n e r θ z) (cyl o n e s φ w)).z = z - w := by
  obtain ⟨a1, a2, a3⟩ := cyl_parts hn he hne o hr θ z
  obtain ⟨b1, b2, b3⟩ := cyl_parts hn he hne o hs φ w
  have hdot : dot (r • (Real.cos θ • e + Real.sin θ • cross n e)) (s • (Real.cos φ • e + Real.sin φ • cross n e)) =
      r * s * Real.cos (θ - φ) := by
    have : dot (r • (Real.cos θ • e + Real.sin θ • cross n e)) (s • (Real.cos φ • e + Real.sin φ • cross n e)) =
        r * s * (Real.cos θ * Real.cos φ * dot e e + Real.sin θ * Real.sin φ * (dot n n * dot e e - dot e n ^ 2)) := by
      simp only [dot, cross, add_x, add_y, add_z, smul_x, smul_y, smul_z]; ring
    rw [this, hn, he, hne, Real.cos_sub]; ring
  have hrs : 0 ≤ r * s := mul_nonneg hr hs
  have hden : 0 < r * s + meps := by linarith
  unfold deltaCyl
  simp only [a1, b1, hn, div_one, a2, b2, a3, b3, hdot]
  refine ⟨trivial, ?_, Real.arccos_nonneg _, Real.arccos_le_pi _, trivial⟩
  have hle : r * s * Real.cos (θ - φ) / (r * s + meps) ≤ 1 := by
    rw [div_le_one hden]; nlinarith [Real.cos_le_one (θ - φ)]
  have hge : -1 ≤ r * s * Real.cos (θ - φ) / (r * s + meps) := by
    rw [le_div_iff₀ hden]; nlinarith [Real.neg_one_le_cos (θ - φ)]
  rw [min_eq_left hle, Real.cos_arccos hge hle]

/-- The radius that the spreading computes for a force point. -/
theorem radius_spec {meps : ℝ} (hm : 0 < meps) {n e : Vec ℝ} (hn : dot n n = 1) (he : dot e e = 1) (hne : dot e n = 0)
    (o : Vec ℝ) {s : ℝ} (hs : 0 ≤ s) (φ w : ℝ) : (deltaCyl meps o n o (cyl o n e s φ w)).x = s := by
  have h0 : o = cyl o n e 0 0 0 := by
    unfold cyl
    ext <;> simp
  have := (deltaCyl_spec hm hn he hne o (le_refl 0) hs 0 φ 0 w).1
  rw [← h0] at this
  rw [this, zero_sub, abs_neg, abs_of_nonneg hs]

/-- C76: the weight of a force point of a uniform Ct disk depends on the radius and on the distance from the plane of the
disk only: the force is spread uniformly around the ring. -/
theorem ringWeight_spec {meps : ℝ} (hm : 0 < meps) {n e : Vec ℝ} (hn : dot n n = 1) (he : dot e e = 1) (hne : dot e n = 0)
    (o : Vec ℝ) {r s : ℝ} (hr : 0 ≤ r) (hs : 0 ≤ s) (θ φ z dR eps : ℝ) :
    ringWeight meps o n dR eps (cyl o n e s φ 0) (cyl o n e r θ z) =
      linearBasis |r - s| dR * (1 / (2 * Real.pi * s)) * gaussian1d z eps := by
  obtain ⟨h1, _, _, _, h2⟩ := deltaCyl_spec hm hn he hne o hr hs θ φ z 0
  unfold ringWeight
  simp only [h1, h2, radius_spec hm hn he hne o hs, sub_zero]

/-- C76: the weight of a force point of a Joukowsky disk. -/
theorem sectorWeight_spec {meps : ℝ} (hm : 0 < meps) {n e : Vec ℝ} (hn : dot n n = 1) (he : dot e e = 1)
    (hne : dot e n = 0) (o : Vec ℝ) {r s : ℝ} (hr : 0 ≤ r) (hs : 0 ≤ s) (θ φ z dR eps : ℝ) (nt : ℕ) :
    ∃ δ : ℝ, 0 ≤ δ ∧ δ ≤ Real.pi ∧ Real.cos δ = r * s * Real.cos (θ - φ) / (r * s + meps) ∧
    sectorWeight meps o n dR nt eps (cyl o n e s φ 0) (cyl o n e r θ z) =
      linearBasis |r - s| dR * linearBasis (δ * s) (s * (2 * Real.pi / nt)) * gaussian1d z eps := by
  obtain ⟨h1, h3, h4, h5, h2⟩ := deltaCyl_spec hm hn he hne o hr hs θ φ z 0
  refine ⟨_, h4, h5, h3, ?_⟩
  unfold sectorWeight
  simp only [h1, h2, radius_spec hm hn he hne o hs, sub_zero]

/-! ## Uniform Gaussian spreading -/

/-- C76 in part: if the centre of the disk lies on the axis through the origin of the domain, the parts of the force act
on the circle through the force point. -/
theorem gaussian_circle_partial {n : Vec ℝ} (hn : dot n n = 1) (t : ℝ) (v : Vec ℝ) (nt it : ℕ) :
    gaussianPoint n (t • n + v) nt it = t • n + rodrigues n (2 * Real.pi * it / nt) v := by
  unfold gaussianPoint
  rw [quaternion_rotates (ne_zero_of_dot hn), mag_of_dot hn]
  have ha : Real.pi * (180 * (it * (2 * Real.pi / nt)) / Real.pi) / 180 = 2 * Real.pi * it / nt := by
    have := Real.pi_ne_zero
    field_simp
  rw [ha]
  simp only [div_one]
  have hd : dot (⟨n.x, n.y, n.z⟩ : Vec ℝ) (t • n + v) = t + dot n v := by
    have : dot (⟨n.x, n.y, n.z⟩ : Vec ℝ) (t • n + v) = t * dot n n + dot n v := by
      simp only [dot, add_x, add_y, add_z, smul_x, smul_y, smul_z]; ring
    rw [this, hn, mul_one]
  unfold rodrigues
  rw [hd]
  ext <;> simp only [cross, add_x, add_y, add_z, smul_x, smul_y, smul_z] <;> ring

/-- C76: the parts of the force of a point add up to the force: where the kernels of all places are between `a` and `b`, the
source is between `a` and `b` times the force. -/
theorem gaussian_parts {n : Vec ℝ} {e : ℝ} {nt : ℕ} (ht : 0 < nt) {p cc : Vec ℝ} {f a b : ℝ} (hf : 0 ≤ f)
    (h : ∀ it < nt, a ≤ gaussian3d (gaussianPoint n p nt it - cc) ⟨e, e, e⟩ ∧
      gaussian3d (gaussianPoint n p nt it - cc) ⟨e, e, e⟩ ≤ b) :
    a * f ≤ gaussianSource n e nt p f cc ∧ gaussianSource n e nt p f cc ≤ b * f := by
  have hn : (0 : ℝ) < nt := by exact_mod_cast ht
  have hfn : 0 ≤ f / nt := div_nonneg hf hn.le
  have hc : ∀ c : ℝ, c * f = ∑ _it ∈ Finset.range nt, c * (f / nt) := by
    intro c
    rw [Finset.sum_const, Finset.card_range, nsmul_eq_mul]; field_simp
  rw [hc a, hc b]
  exact ⟨Finset.sum_le_sum fun it hi => mul_le_mul_of_nonneg_right (h it (Finset.mem_range.mp hi)).1 hfn,
    Finset.sum_le_sum fun it hi => mul_le_mul_of_nonneg_right (h it (Finset.mem_range.mp hi)).2 hfn⟩

/-- A disagreement: for a disk at hub height the force is put at points below the ground: the point opposite to the force
point at `y = 40` of a disk at height 90 is at height -90. -/
theorem gaussian_below_ground : gaussianPoint ⟨1, 0, 0⟩ ⟨0, 40, 90⟩ 2 1 = ⟨0, -40, -90⟩ := by
  have h := gaussian_circle_partial (n := ⟨1, 0, 0⟩) (by simp [dot]) 0 ⟨0, 40, 90⟩ 2 1
  have e : (0 : ℝ) • (⟨1, 0, 0⟩ : Vec ℝ) + ⟨0, 40, 90⟩ = ⟨0, 40, 90⟩ := by ext <;> simp
  rw [e] at h
  rw [h]
  have : 2 * Real.pi * ((1 : ℕ) : ℝ) / ((2 : ℕ) : ℝ) = Real.pi := by push_cast; ring
  rw [this]
  unfold rodrigues
  ext <;> simp [dot, cross]

/-! ## Actuator lines -/

/-- C76: the old positions are those of the previous step, and the first ones in the first step. -/
theorem copyPos_history {α : Type*} (p : α) (hist : List α) (q : α) :
    (hist ++ [q]).foldl (fun st g => some (copyPos st g)) (some (copyPos none p)) =
      some ((p :: hist).getLast (by simp), q) := by
  have key : ∀ (l : List α) (a b : α), l.foldl (fun st g => some (copyPos st g)) (some (a, b)) =
      some (if h : l = [] then (a, b) else ((b :: l.dropLast).getLast (by simp), l.getLast h)) := by
    intro l
    induction l using List.reverseRecOn with
    | nil => intro a b; simp
    | append_singleton l x ih =>
      intro a b
      rw [List.foldl_append, ih]
      by_cases h : l = []
      · subst h; simp [copyPos]
      · simp only [h, dite_false, List.foldl_cons, List.foldl_nil, copyPos, Option.some.injEq]
        rw [dif_neg (by simp)]
        simp only [List.dropLast_concat, List.getLast_concat, Prod.mk.injEq, and_true]
        rw [List.getLast_cons h]
  rw [show copyPos none p = (p, p) from rfl, key, dif_neg (by simp)]
  simp

/-- C76: a cell farther than four epsilons from every point gets nothing. -/
theorem line_local {flags : Vec ℝ} {cc : Vec ℝ} : ∀ {pts : List LinePt}, (∀ p ∈ pts,
    let loc := tmul p.tmat (cc - ((1 / 2 : ℝ) • p.pos + (1 / 2 : ℝ) • p.opos))
    16 ≤ magSqr (⟨loc.x * flags.x / p.eps.x, loc.y * flags.y / p.eps.y, loc.z * flags.z / p.eps.z⟩ : Vec ℝ)) →
    lineSource flags pts cc = 0
  | [], _ => rfl
  | p :: pts, h => by
    have ih := line_local (pts := pts) fun q hq => h q (by simp [hq])
    have hp := h p (by simp)
    unfold lineSource at ih ⊢
    rw [List.map_cons, List.sum_cons, ih, add_zero]
    have e : (1 - 1 / 2 : ℝ) = 1 / 2 := by norm_num
    simp only [e]
    unfold gaussian3d
    simp only [] at hp ⊢
    rw [if_neg (not_lt.mpr hp), zero_mul]

/-- C76: the force acts midway between the old and the new position, and moving cell and points together changes
nothing. -/
theorem line_midpoint (flags : Vec ℝ) (p : LinePt) (cc : Vec ℝ) :
    lineSource flags [p] cc =
      gaussian3d ⟨(tmul p.tmat (cc - (⟨(p.pos.x + p.opos.x) / 2, (p.pos.y + p.opos.y) / 2, (p.pos.z + p.opos.z) / 2⟩ : Vec ℝ))).x * flags.x,
        (tmul p.tmat (cc - (⟨(p.pos.x + p.opos.x) / 2, (p.pos.y + p.opos.y) / 2, (p.pos.z + p.opos.z) / 2⟩ : Vec ℝ))).y * flags.y,
        (tmul p.tmat (cc - (⟨(p.pos.x + p.opos.x) / 2, (p.pos.y + p.opos.y) / 2, (p.pos.z + p.opos.z) / 2⟩ : Vec ℝ))).z * flags.z⟩
        p.eps * p.force := by
  unfold lineSource
  simp only [List.map_cons, List.map_nil, List.sum_cons, List.sum_nil, add_zero]
  have : (1 / 2 : ℝ) • p.pos + (1 - 1 / 2 : ℝ) • p.opos =
      ⟨(p.pos.x + p.opos.x) / 2, (p.pos.y + p.opos.y) / 2, (p.pos.z + p.opos.z) / 2⟩ := by
    ext <;> simp only [add_x, add_y, add_z, smul_x, smul_y, smul_z] <;> ring
  rw [this]

/-! ## Turbine disks -/

theorem sum_map_const_add {α : Type*} (f : α → ℝ) (c d : ℝ) : ∀ l : List α,
    (l.map fun b => f b + c + d).sum = (l.map f).sum + l.length * (c + d)
  | [] => by simp
  | a :: l => by
    simp only [List.map_cons, List.sum_cons, sum_map_const_add f c d l, List.length_cons]
    push_cast
    ring

/-- A disagreement: a turbine disk applies the forces of the tower and of the hub once per blade. -/
theorem tower_once_per_blade {meps : ℝ} {origin normal : Vec ℝ} {blades : List (List BladePt)} {tower : List LinePt}
    {hub : LinePt} {cc : Vec ℝ} {r : ℝ} (h : turbineSource meps origin normal blades tower hub cc = some r) :
    ∃ dR, r = (blades.map fun b => (b.map fun p => bladeWeight meps origin normal dR blades.length p cc).sum).sum +
      blades.length * (fixedSource tower cc + fixedSource [hub] cc) := by
  unfold turbineSource at h
  match blades, h with
  | (p0 :: p1 :: l) :: bs, h =>
    have h := Option.some.inj h
    refine ⟨turbineDR p0.pos p1.pos, ?_⟩
    rw [← h, sum_map_const_add]

/-- Points of a blade along `z` with spacing `h`. -/
theorem turbineDR_spacing (p0 : Vec ℝ) (u : Vec ℝ) (hu : dot u u = 1) (h : ℝ) : turbineDR p0 (p0 + h • u) = h * h := by
  unfold turbineDR
  have : magSqr (p0 - (p0 + h • u)) = h * h * dot u u := by
    simp only [magSqr, dot, sub_x, sub_y, sub_z, add_x, add_y, add_z, smul_x, smul_y, smul_z]; ring
  rw [this, hu, mul_one]

/-- A disagreement: the ring width is the square of the spacing of the points.  For a spacing of at most one half nothing
is applied midway between two points; for a spacing above one, force is applied a whole spacing beyond the tip. -/
theorem turbine_ring_width {h : ℝ} (h0 : 0 < h) :
    (h ≤ 1 / 2 → linearBasis (h / 2) (h * h) = 0) ∧ (1 < h → 0 < linearBasis h (h * h)) ∧ linearBasis h h = 0 ∧
    0 < linearBasis (h / 2) h := by
  refine ⟨fun hh => linearBasis_far (by positivity) (by nlinarith), fun hh => ?_, linearBasis_far h0 le_rfl, ?_⟩
  · rw [linearBasis_near (by positivity) (by nlinarith)]
    have : h / (h * h) < 1 := by rw [div_lt_one (by positivity)]; nlinarith
    have h2 : 0 < 1 - h / (h * h) := by linarith
    positivity
  · rw [linearBasis_near h0 (by linarith)]
    have : h / 2 / h = 1 / 2 := by field_simp
    rw [this]
    have : (0 : ℝ) < 1 - 1 / 2 := by norm_num
    positivity

/-! ## Tiles -/

/-- A cell in a box. -/
def Has (b : Bx) (c : Cell) : Prop :=
  b.lo.1 ≤ c.1 ∧ c.1 ≤ b.hi.1 ∧ b.lo.2.1 ≤ c.2.1 ∧ c.2.1 ≤ b.hi.2.1 ∧ b.lo.2.2 ≤ c.2.2 ∧ c.2.2 ≤ b.hi.2.2

/-- C76: whatever the tiles, a cell inside the box of the actuator gets the source once. -/
theorem tiled_inside {pre post : List Bx} {t bxa : Bx} {src : Cell → ℝ} {c : Cell} (ht : Has t c) (hb : Has bxa c)
    (hpre : ∀ u ∈ pre, ¬ Has u c) (hpost : ∀ u ∈ post, ¬ Has u c) :
    tiled (pre ++ t :: post) bxa src c = [src c] := by
  have none_of : ∀ l : List Bx, (∀ u ∈ l, ¬ Has u c) → tiled l bxa src c = [] := by
    intro l hl
    unfold tiled
    rw [List.filterMap_eq_nil_iff]
    intro u hu
    apply if_neg
    rintro ⟨a1, a2, a3, a4, a5, a6, -⟩
    exact hl u hu ⟨a1, a2, a3, a4, a5, a6⟩
  have e : tiled (pre ++ t :: post) bxa src c = tiled pre bxa src c ++ (tiled [t] bxa src c ++ tiled post bxa src c) := by
    unfold tiled
    rw [← List.filterMap_append, ← List.filterMap_append]
    rfl
  rw [e, none_of pre hpre, none_of post hpost, List.append_nil, List.nil_append]
  obtain ⟨a1, a2, a3, a4, a5, a6⟩ := ht
  obtain ⟨b1, b2, b3, b4, b5, b6⟩ := hb
  unfold tiled
  rw [List.filterMap_cons, List.filterMap_nil]
  rw [if_pos ⟨a1, a2, a3, a4, a5, a6, (max_le a1 b1).trans (le_min a2 b2), (max_le a3 b3).trans (le_min a4 b4),
    (max_le a5 b5).trans (le_min a6 b6)⟩]

/-- A disagreement: outside the box of the actuator the source of a cell depends on the decomposition: cell 8 gets the
force if it is in a box of 16 cells and nothing if it is in a box of 8. -/
theorem tile_dependence (src : Cell → ℝ) :
    tiled [⟨(0, 0, 0), (15, 0, 0)⟩] ⟨(0, 0, 0), (3, 0, 0)⟩ src (8, 0, 0) = [src (8, 0, 0)] ∧
    tiled [⟨(0, 0, 0), (7, 0, 0)⟩, ⟨(8, 0, 0), (15, 0, 0)⟩] ⟨(0, 0, 0), (3, 0, 0)⟩ src (8, 0, 0) = [] := by
  constructor <;> simp [tiled]

/-! ## Examples -/

example : ∫ r in ((3 : ℝ) - 1)..(3 + 1), linearBasis |r - 3| 1 * (1 / (2 * Real.pi * 3)) * (2 * Real.pi * r) = 1 :=
  ring_conserves_partial (by norm_num) (by norm_num)

example : tiled [⟨(0, 0, 0), (7, 7, 7)⟩, ⟨(8, 0, 0), (15, 7, 7)⟩] ⟨(2, 2, 2), (10, 6, 6)⟩ (fun _ => 5) (9, 3, 3) = [5] :=
  tiled_inside (pre := [⟨(0, 0, 0), (7, 7, 7)⟩]) (post := []) (by simp [Has]) (by simp [Has]) (by simp [Has]) (by simp)

example : (deltaCyl (1 / 10 ^ 15) ⟨0, 0, 90⟩ ⟨1, 0, 0⟩ (cyl ⟨0, 0, 90⟩ ⟨1, 0, 0⟩ ⟨0, 1, 0⟩ 3 1 2)
    (cyl ⟨0, 0, 90⟩ ⟨1, 0, 0⟩ ⟨0, 1, 0⟩ 5 0 0)).x = |3 - 5| :=
  (deltaCyl_spec (by norm_num) (by simp [dot]) (by simp [dot]) (by simp [dot]) _ (by norm_num) (by norm_num) _ _ _ _).1

/-- C76: tower and hub of a turbine disk are spread like the points of an actuator line at rest. -/
theorem fixed_as_line (pts : List LinePt) (h : ∀ p ∈ pts, p.opos = p.pos) (cc : Vec ℝ) : fixedSource pts cc = lineSource ⟨1, 1, 1⟩ pts cc := by
  unfold fixedSource lineSource
  congr 1
  refine List.map_congr_left fun p hp => ?_
  have e : (1 / 2 : ℝ) • p.pos + (1 - 1 / 2 : ℝ) • p.opos = p.pos := by
    rw [h p hp]; ext <;> simp only [add_x, add_y, add_z, smul_x, smul_y, smul_z] <;> ring
  simp only [e, mul_one]

/-- C76: the weight of a blade point at a cell: a hat of width `dR` in the radius, a hat of width `2π/n` in the angle, on the circle of the
point, and a Gaussian along the axis; beyond a hat's width there is no force. `θ` is the angle between the two as the code rounds it. -/
theorem blade_weight_spec {meps : ℝ} (hm : 0 < meps) {n e : Vec ℝ} (hn : dot n n = 1) (he : dot e e = 1) (hne : dot e n = 0)
    (o : Vec ℝ) {r s : ℝ} (hr : 0 ≤ r) (hs : 0 < s) (θ φ z w : ℝ) {dR : ℝ} (hd : 0 < dR) {nb : ℕ} (hb : 0 < nb) (p : BladePt)
    (hp : p.pos = cyl o n e s φ w) :
    ∃ ang, 0 ≤ ang ∧ ang ≤ Real.pi ∧ Real.cos ang = r * s * Real.cos (θ - φ) / (r * s + meps) ∧
    bladeWeight meps o n dR nb p (cyl o n e r θ z) =
      linearBasis |r - s| dR * linearBasis (s * ang) (2 * Real.pi * s / nb) * gaussian1d (z - w) p.eps * p.force ∧
    (dR ≤ |r - s| ∨ 2 * Real.pi / nb ≤ ang → bladeWeight meps o n dR nb p (cyl o n e r θ z) = 0) := by
  obtain ⟨a1, a2, a3, a4, a5⟩ := deltaCyl_spec hm hn he hne o hr hs.le θ φ z w
  have o1 : o = cyl o n e 0 0 0 := by
    unfold cyl; ext <;> simp
  have b1 : (deltaCyl meps o n o (cyl o n e s φ w)).x = s := by
    have := (deltaCyl_spec hm hn he hne o le_rfl hs.le 0 φ 0 w).1
    rw [← o1] at this
    rw [this, zero_sub, abs_neg, abs_of_pos hs]
  have hnb : (0 : ℝ) < nb := by exact_mod_cast hb
  have main : bladeWeight meps o n dR nb p (cyl o n e r θ z) =
      linearBasis |r - s| dR * linearBasis (s * (deltaCyl meps o n (cyl o n e r θ z) (cyl o n e s φ w)).y) (2 * Real.pi * s / nb) *
        gaussian1d (z - w) p.eps * p.force := by
    unfold bladeWeight
    simp only [hp, b1, a1, a5]
    rw [show 2 * Real.pi / (nb : ℝ) * s = 2 * Real.pi * s / nb by ring]
  refine ⟨_, a3, a4, a2, main, ?_⟩
  rintro (h | h)
  · rw [main, linearBasis_far hd h]; ring
  · have pi0 := Real.pi_pos
    rw [main, linearBasis_far (d := s * _) (by positivity) (by
      rw [div_le_iff₀ hnb] at h
      rw [div_le_iff₀ hnb]
      nlinarith)]
    ring

end AmrWind.Spread
