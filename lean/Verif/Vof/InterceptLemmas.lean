import Verif.Vof.Cut
import Verif.Vof.Intercept
import Mathlib.Analysis.SpecialFunctions.Trigonometric.Bounds

/-! # Lemmas for C36 -/

namespace AmrWind.Vof

/-! ## The volume on closed ranges -/

section ranges
variable {m1 m2 m3 a : ℝ} (h1 : 0 ≤ m1) (h12 : m1 ≤ m2) (h23 : m2 ≤ m3)
include h1 h12 h23

theorem vol_r1 (hp : 0 < m1) (ha0 : 0 ≤ a) (ha : a ≤ m1) : cubeVolume m1 m2 m3 a = a * a * a / (6 * m1 * m2 * m3) := by
  have h2 : 0 < m2 := by linarith
  have h3 : 0 < m3 := by linarith
  rw [cubeVolume_eq, volume_eq (ne_of_gt hp) (ne_of_gt h2) (ne_of_gt h3), P3_pos ha0]
  repeat rw [P3_neg (by linarith)]
  field_simp
  ring

theorem vol_r2 (hp : 0 < m2) (ha0 : m1 ≤ a) (ha : a ≤ m2) :
    cubeVolume m1 m2 m3 a = a * (a - m1) / (2 * m2 * m3) + m1 * m1 / (6 * m2 * m3) := by
  have h3 : 0 < m3 := by linarith
  rw [cubeVolume_eq]
  rcases eq_or_lt_of_le h1 with e | h1
  · rw [← e, avg_zero, area_eq (ne_of_gt hp) (ne_of_gt h3), P2_pos (by linarith), P2_neg (by linarith),
      P2_neg (by linarith), P2_neg (by linarith)]
    field_simp
    ring
  · rw [volume_eq (ne_of_gt h1) (ne_of_gt hp) (ne_of_gt h3), P3_pos (by linarith), P3_pos (t := a - m1) (by linarith)]
    repeat rw [P3_neg (by linarith)]
    field_simp
    ring

theorem vol_r3_le (hp : 0 < m1) (ha0 : m2 ≤ a) (ha : a ≤ m1 + m2) :
    cubeVolume m1 m2 m3 a ≤
      (a * a * (3 * (m1 + m2) - a) + m1 * m1 * (m1 - 3 * a) + m2 * m2 * (m2 - 3 * a)) / (6 * m1 * m2 * m3) := by
  have h2 : 0 < m2 := by linarith
  have h3 : 0 < m3 := by linarith
  rw [cubeVolume_eq, volume_eq (ne_of_gt hp) (ne_of_gt h2) (ne_of_gt h3), P3_pos (by linarith),
    P3_pos (t := a - m1) (by linarith), P3_pos (t := a - m2) (by linarith), P3_neg (t := a - m2 - m1) (by linarith),
    P3_neg (t := a - m3 - m1) (by linarith), P3_neg (t := a - m3 - m2) (by linarith),
    P3_neg (t := a - m3 - m2 - m1) (by linarith)]
  have hP : 0 ≤ P3 (a - m3) := by unfold P3; positivity
  rw [div_le_div_iff₀ (by positivity) (by positivity)]
  have e : 0 ≤ P3 (a - m3) * (6 * m1 * m2 * m3) := by positivity
  nlinarith [e]

theorem vol_r3 (hp : 0 < m1) (ha0 : m2 ≤ a) (ha : a ≤ m1 + m2) (ha3 : a ≤ m3) :
    cubeVolume m1 m2 m3 a =
      (a * a * (3 * (m1 + m2) - a) + m1 * m1 * (m1 - 3 * a) + m2 * m2 * (m2 - 3 * a)) / (6 * m1 * m2 * m3) := by
  have h2 : 0 < m2 := by linarith
  have h3 : 0 < m3 := by linarith
  rw [cubeVolume_eq, volume_eq (ne_of_gt hp) (ne_of_gt h2) (ne_of_gt h3), P3_pos (by linarith),
    P3_pos (t := a - m1) (by linarith), P3_pos (t := a - m2) (by linarith)]
  repeat rw [P3_neg (by linarith)]
  field_simp
  ring

theorem vol_r4 (hp : 0 < m3) (ha0 : m1 + m2 ≤ a) (ha : a ≤ m3) :
    cubeVolume m1 m2 m3 a = (a - 1 / 2 * (m1 + m2)) / m3 := by
  rw [cubeVolume_eq]
  rcases eq_or_lt_of_le h1 with e | h1
  · rw [← e, avg_zero]
    rcases eq_or_lt_of_le (by linarith : 0 ≤ m2) with e2 | h2
    · rw [← e2, avg_zero, avg_under (ne_of_gt hp), P1_pos (by linarith), P1_neg (by linarith)]
      ring
    · rw [area_eq (ne_of_gt h2) (ne_of_gt hp), P2_pos (by linarith), P2_pos (t := a - m2) (by linarith),
        P2_neg (by linarith), P2_neg (by linarith)]
      field_simp
      ring
  · have h2 : 0 < m2 := by linarith
    rw [volume_eq (ne_of_gt h1) (ne_of_gt h2) (ne_of_gt hp), P3_pos (by linarith),
      P3_pos (t := a - m1) (by linarith), P3_pos (t := a - m2) (by linarith), P3_pos (t := a - m2 - m1) (by linarith)]
    repeat rw [P3_neg (by linarith)]
    field_simp
    ring

theorem vol_r5 (hp : 0 < m1) (hs : m1 + m2 + m3 = 1) (ha0 : m3 ≤ a) (ha : a ≤ m1 + m2) :
    cubeVolume m1 m2 m3 a = (a * a * (3 - 2 * a) + m1 * m1 * (m1 - 3 * a) + m2 * m2 * (m2 - 3 * a) +
      m3 * m3 * (m3 - 3 * a)) / (6 * m1 * m2 * m3) := by
  have h2 : 0 < m2 := by linarith
  have h3 : 0 < m3 := by linarith
  rw [cubeVolume_eq, volume_eq (ne_of_gt hp) (ne_of_gt h2) (ne_of_gt h3), P3_pos (by linarith),
    P3_pos (t := a - m1) (by linarith), P3_pos (t := a - m2) (by linarith), P3_pos (t := a - m3) (by linarith)]
  repeat rw [P3_neg (by linarith)]
  have e3 : m3 = 1 - m1 - m2 := by linarith
  field_simp
  rw [e3]
  ring

end ranges

theorem vol_half {m1 m2 m3 : ℝ} (h3 : 0 < m3) (hs : m1 + m2 + m3 = 1) : cubeVolume m1 m2 m3 (1 / 2) = 1 / 2 := by
  have := cubeVolume_sym h3 m1 m2 (1 / 2)
  rw [hs] at this
  norm_num at this
  linarith

/-! ## The cubic -/

theorem cube_mono {w v : ℝ} (hw : -1 ≤ w) (hw0 : w ≤ 0) (hv : -1 ≤ v) (hv0 : v ≤ 0)
    (h : w ^ 3 - 3 * w ≤ v ^ 3 - 3 * v) : v ≤ w := by
  by_contra hlt
  have hlt : w < v := not_le.mp hlt
  have h1 : w ^ 2 + w * v + v ^ 2 < 3 := by nlinarith
  nlinarith [mul_pos (sub_pos.mpr hlt) (sub_pos.mpr h1)]

theorem trig_root {s : ℝ} (h0 : 0 ≤ s) (h1 : s ≤ 1) :
    let cs := Real.cos (Real.arccos s / 3)
    let w := √(3 * (1 - cs * cs)) - cs
    w ^ 3 - 3 * w = 2 * s ∧ -1 ≤ w ∧ w ≤ 0 := by
  intro cs w
  set θ := Real.arccos s / 3 with hθ
  have ht0 : 0 ≤ θ := div_nonneg (Real.arccos_nonneg s) (by norm_num)
  have ht1 : θ ≤ Real.pi / 6 := by
    have : Real.arccos s ≤ Real.pi / 2 := Real.arccos_le_pi_div_two.mpr h0
    rw [hθ]; linarith
  have hpi := Real.pi_pos
  have hsin : 0 ≤ Real.sin θ := Real.sin_nonneg_of_nonneg_of_le_pi ht0 (by linarith)
  have hsq : √(3 * (1 - cs * cs)) = √3 * Real.sin θ := by
    have : 1 - cs * cs = Real.sin θ ^ 2 := by
      have := Real.sin_sq_add_cos_sq θ
      show 1 - Real.cos θ * Real.cos θ = _
      nlinarith
    rw [this, Real.sqrt_mul (by norm_num), Real.sqrt_sq hsin]
  have hw : w = -2 * Real.cos (θ + Real.pi / 3) := by
    show √(3 * (1 - cs * cs)) - cs = _
    rw [hsq, Real.cos_add, Real.cos_pi_div_three, Real.sin_pi_div_three]
    show √3 * Real.sin θ - Real.cos θ = _
    ring
  have h3 : Real.cos (3 * (θ + Real.pi / 3)) = -s := by
    rw [show 3 * (θ + Real.pi / 3) = Real.arccos s + Real.pi by rw [hθ]; ring, Real.cos_add_pi,
      Real.cos_arccos (by linarith) h1]
  rw [Real.cos_three_mul] at h3
  refine ⟨?_, ?_, ?_⟩
  · rw [hw]
    linear_combination -2 * h3
  · rw [hw]
    have := Real.cos_le_cos_of_nonneg_of_le_pi (x := Real.pi / 3) (y := θ + Real.pi / 3) (by linarith) (by linarith)
      (by linarith)
    rw [Real.cos_pi_div_three] at this
    linarith
  · rw [hw]
    have := Real.cos_nonneg_of_neg_pi_div_two_le_of_le (x := θ + Real.pi / 3) (by linarith) (by linarith)
    linarith

/-- What `cubicRoot` returns: the root in `[-√p, 0]` of `t^3 - 3 p t = 2 q'`, where `q'` is `q` made smaller by the
epsilon. -/
theorem cubicRoot_spec {ta p q : ℝ} (hp : 0 ≤ p) (hta : 0 ≤ ta) (hD : p * √p + ta ≠ 0) (hq : 0 ≤ q)
    (hq1 : q ≤ p * √p + ta) : ∃ t, cubicRoot ta p q = some t ∧ -√p ≤ t ∧ t ≤ 0 ∧
      t ^ 3 - 3 * p * t = 2 * (q / (p * √p + ta) * (p * √p)) := by
  have hDp : 0 < p * √p + ta := lt_of_le_of_ne (by positivity) (Ne.symm hD)
  have hs0 : 0 ≤ q / (p * √p + ta) := div_nonneg hq (le_of_lt hDp)
  have hs1 : q / (p * √p + ta) ≤ 1 := by rw [div_le_one hDp]; exact hq1
  obtain ⟨e, hl, hu⟩ := trig_root hs0 hs1
  unfold cubicRoot
  simp only
  rw [if_neg (not_lt.mpr hp), if_neg hD, if_neg (by push Not; constructor <;> linarith)]
  refine ⟨_, rfl, ?_, ?_, ?_⟩
  · have := mul_le_mul_of_nonneg_left hl (Real.sqrt_nonneg p)
    linarith
  · exact mul_nonpos_of_nonneg_of_nonpos (Real.sqrt_nonneg p) hu
  · generalize √(3 * (1 - Real.cos (Real.arccos (q / (p * √p + ta)) / 3) *
      Real.cos (Real.arccos (q / (p * √p + ta)) / 3))) - Real.cos (Real.arccos (q / (p * √p + ta)) / 3) = w at *
    have hsq : √p ^ 2 = p := Real.sq_sqrt hp
    have e1 : (√p * w) ^ 3 - 3 * p * (√p * w) = p * √p * (w ^ 3 - 3 * w) := by
      rw [mul_pow, show √p ^ 3 = √p ^ 2 * √p by ring, hsq]
      ring
    rw [e1, e]
    ring

/-- `3 p x - x^3` has its maximum `2 p √p` at `√p`. -/
theorem cubic_max {p x : ℝ} (hp : 0 ≤ p) (hx : 0 ≤ x) : 3 * p * x - x ^ 3 ≤ 2 * (p * √p) := by
  have hs := Real.sqrt_nonneg p
  have hsq : √p ^ 2 = p := Real.sq_sqrt hp
  generalize √p = r at *
  subst hsq
  nlinarith [mul_nonneg (sq_nonneg (x - r)) (by linarith : 0 ≤ x + 2 * r)]

/-- A root with a right-hand side not above that of `-x` is not left of `-x`. -/
theorem cubic_cmp {p t x : ℝ} (hp : 0 < p) (ht : -√p ≤ t) (ht0 : t ≤ 0) (hx : 0 ≤ x) (hxp : x ≤ √p)
    (h : t ^ 3 - 3 * p * t ≤ 3 * p * x - x ^ 3) : -x ≤ t := by
  have hs : 0 < √p := Real.sqrt_pos.mpr hp
  have hsq : √p ^ 2 = p := Real.sq_sqrt (le_of_lt hp)
  generalize √p = r at *
  subst hsq
  have hw := cube_mono (w := t / r) (v := -x / r) (by rw [le_div_iff₀ hs]; linarith)
    (div_nonpos_of_nonpos_of_nonneg ht0 (le_of_lt hs)) (by rw [le_div_iff₀ hs]; linarith)
    (div_nonpos_of_nonpos_of_nonneg (by linarith) (le_of_lt hs)) (by
      have e1 : (t / r) ^ 3 - 3 * (t / r) = (t ^ 3 - 3 * r ^ 2 * t) / r ^ 3 := by field_simp
      have e2 : (-x / r) ^ 3 - 3 * (-x / r) = (3 * r ^ 2 * x - x ^ 3) / r ^ 3 := by field_simp; ring
      rw [e1, e2]
      exact div_le_div_of_nonneg_right h (by positivity))
  rw [div_le_div_iff_of_pos_right hs] at hw
  exact hw

/-- `x e^3/(x^3 + e^3) ≤ e`. -/
theorem guard_bound {x e D : ℝ} (hx : 0 ≤ x) (he : 0 < e) (hD : x ^ 3 ≤ D) : x * (e ^ 3 / (D + e ^ 3)) ≤ e := by
  have hx3 : 0 ≤ x ^ 3 := by positivity
  have he3 : 0 < e ^ 3 := by positivity
  rw [← mul_div_assoc, div_le_iff₀ (by linarith)]
  have : x * e ^ 2 ≤ x ^ 3 + e ^ 3 := by
    rcases le_total x e with h | h
    · have := mul_le_mul_of_nonneg_right h (sq_nonneg e)
      nlinarith
    · have : e ^ 2 ≤ x ^ 2 := pow_le_pow_left₀ (le_of_lt he) h 2
      have := mul_le_mul_of_nonneg_left this hx
      nlinarith
  have := mul_le_mul_of_nonneg_left this (le_of_lt he)
  nlinarith

theorem cbrt_spec {x : ℝ} (hx : 0 ≤ x) : 0 ≤ cbrt x ∧ cbrt x * cbrt x * cbrt x = x := by
  unfold cbrt
  rw [if_pos hx]
  refine ⟨Real.rpow_nonneg hx _, ?_⟩
  rw [← Real.rpow_add' hx (by norm_num), ← Real.rpow_add' hx (by norm_num)]
  norm_num

end AmrWind.Vof
