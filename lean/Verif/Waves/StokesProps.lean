import Verif.Waves.StokesClosed
import Verif.Waves.WaveProps

/-!
# Stokes waves satisfy the conditions at the free surface to their order (C132)
-/

set_option linter.unusedSectionVars false
set_option linter.unusedSimpArgs false

namespace AmrWind.Waves

open Filter Topology Asymptotics

/-! ## The coefficients in `r = coth kd` -/

/-- What the velocities and the elevation are made of. -/
noncomputable def alOf (c : Coeffs) (kd : ℝ) : Al where
  r := Real.cosh kd / Real.sinh kd
  b22 := c.b22
  b31 := c.b31
  b42 := c.b42
  b44 := c.b44
  b53 := c.b53
  b55 := c.b55
  g2 := c.c2 / c.c0
  g4 := c.c4 / c.c0
  p31 := c.a31 * Real.cosh kd
  q31 := c.a31 * Real.sinh kd
  p51 := c.a51 * Real.cosh kd
  q51 := c.a51 * Real.sinh kd
  p22 := 2 * c.a22 * Real.cosh (2 * kd)
  q22 := 2 * c.a22 * Real.sinh (2 * kd)
  p42 := 2 * c.a42 * Real.cosh (2 * kd)
  q42 := 2 * c.a42 * Real.sinh (2 * kd)
  p33 := 3 * c.a33 * Real.cosh (3 * kd)
  q33 := 3 * c.a33 * Real.sinh (3 * kd)
  p53 := 3 * c.a53 * Real.cosh (3 * kd)
  q53 := 3 * c.a53 * Real.sinh (3 * kd)
  p44 := 4 * c.a44 * Real.cosh (4 * kd)
  q44 := 4 * c.a44 * Real.sinh (4 * kd)
  p55 := 5 * c.a55 * Real.cosh (5 * kd)
  q55 := 5 * c.a55 * Real.sinh (5 * kd)

/-- The coefficients of an order agree with the closed forms, up to that order. -/
structure Agree (A : Al) (r : ℝ) (n : ℕ) : Prop where
  base : A.r = r
  two : A.b22 = (closed r).b22 ∧ A.g2 = (closed r).g2 ∧ A.p22 = (closed r).p22 ∧ A.q22 = (closed r).q22
  three : 3 ≤ n → A.b31 = (closed r).b31 ∧ A.p31 = (closed r).p31 ∧ A.q31 = (closed r).q31 ∧ A.p33 = (closed r).p33 ∧
    A.q33 = (closed r).q33
  four : 4 ≤ n → A.b42 = (closed r).b42 ∧ A.b44 = (closed r).b44 ∧ A.g4 = (closed r).g4 ∧ A.p42 = (closed r).p42 ∧
    A.q42 = (closed r).q42 ∧ A.p44 = (closed r).p44 ∧ A.q44 = (closed r).q44
  five : 5 ≤ n → A.b53 = (closed r).b53 ∧ A.b55 = (closed r).b55 ∧ A.p51 = (closed r).p51 ∧ A.q51 = (closed r).q51 ∧
    A.p53 = (closed r).p53 ∧ A.q53 = (closed r).q53 ∧ A.p55 = (closed r).p55 ∧ A.q55 = (closed r).q55

/-- The hyperbolic functions of multiples, all from `s = sinh kd` and `c = cosh kd`. -/
theorem hyper (x : ℝ) : Real.cosh (2 * x) = Real.cosh x ^ 2 + Real.sinh x ^ 2 ∧ Real.sinh (2 * x) = 2 * Real.sinh x * Real.cosh x ∧
    Real.cosh (3 * x) = 4 * Real.cosh x ^ 3 - 3 * Real.cosh x ∧ Real.sinh (3 * x) = 4 * Real.sinh x ^ 3 + 3 * Real.sinh x ∧
    Real.cosh (4 * x) = 2 * (Real.cosh x ^ 2 + Real.sinh x ^ 2) ^ 2 - 1 ∧
    Real.sinh (4 * x) = 4 * Real.sinh x * Real.cosh x * (Real.cosh x ^ 2 + Real.sinh x ^ 2) ∧
    Real.cosh (5 * x) = 16 * Real.cosh x ^ 5 - 20 * Real.cosh x ^ 3 + 5 * Real.cosh x ∧
    Real.sinh (5 * x) = 16 * Real.sinh x ^ 5 + 20 * Real.sinh x ^ 3 + 5 * Real.sinh x := by
  have h := Real.cosh_sq x
  have e2 := Real.cosh_two_mul x
  have f2 := Real.sinh_two_mul x
  have e3 := Real.cosh_three_mul x
  have f3 := Real.sinh_three_mul x
  refine ⟨e2, f2, e3, f3, ?_, ?_, ?_, ?_⟩
  · rw [show 4 * x = 2 * (2 * x) by ring, Real.cosh_two_mul, e2, f2]
    linear_combination (-(4 * Real.cosh x ^ 2 * Real.sinh x ^ 2 : ℝ) * 0 + (-(Real.cosh x ^ 2 - Real.sinh x ^ 2 + 1))) * h
  · rw [show 4 * x = 2 * (2 * x) by ring, Real.sinh_two_mul, e2, f2]; ring
  · rw [show 5 * x = 2 * x + 3 * x by ring, Real.cosh_add, e2, f2, e3, f3]
    have h4 : Real.sinh x ^ 2 = Real.cosh x ^ 2 - 1 := by linarith
    have h6 : Real.sinh x ^ 4 = (Real.cosh x ^ 2 - 1) ^ 2 := by rw [← h4]; ring
    linear_combination (4 * Real.cosh x ^ 3 - 3 * Real.cosh x + 6 * Real.cosh x) * h4 + 8 * Real.cosh x * h6
  · rw [show 5 * x = 2 * x + 3 * x by ring, Real.sinh_add, e2, f2, e3, f3]
    have h6 : Real.cosh x ^ 4 = (Real.sinh x ^ 2 + 1) ^ 2 := by rw [← h]; ring
    linear_combination 8 * Real.sinh x * h6 + (-6 * Real.sinh x + 4 * Real.sinh x ^ 3 + 3 * Real.sinh x) * h

theorem coth_eq {kd : ℝ} (h : 0 < kd) :
    (1 + Real.exp (-2 * kd)) / (1 - Real.exp (-2 * kd)) = Real.cosh kd / Real.sinh kd := by
  have hs : 0 < Real.sinh kd := Real.sinh_pos_iff.mpr h
  have e1 : Real.exp (-2 * kd) = Real.exp (-kd) * Real.exp (-kd) := by rw [← Real.exp_add]; congr 1; ring
  have e2 : Real.exp kd * Real.exp (-kd) = 1 := by rw [← Real.exp_add]; simp
  have hb := Real.exp_pos (-kd)
  have hlt : Real.exp (-kd) < 1 := by rw [← Real.exp_zero]; exact Real.exp_lt_exp.mpr (by linarith)
  have hne : 1 - Real.exp (-kd) * Real.exp (-kd) ≠ 0 := by nlinarith
  rw [e1, div_eq_div_iff hne hs.ne', Real.cosh_eq, Real.sinh_eq]
  linear_combination (Real.exp (-kd)) * e2

/-- `S` and `r`. -/
theorem sech2_r {kd : ℝ} (h : 0 < kd) : sech2 kd = ((Real.cosh kd / Real.sinh kd) ^ 2 - 1) / ((Real.cosh kd / Real.sinh kd) ^ 2 + 1) := by
  have hs : 0 < Real.sinh kd := Real.sinh_pos_iff.mpr h
  have hc := Real.cosh_sq kd
  rw [sech2_eq, Real.cosh_two_mul, div_pow]
  have : Real.cosh kd ^ 2 + Real.sinh kd ^ 2 ≠ 0 := by positivity
  have h2 : Real.cosh kd ^ 2 / Real.sinh kd ^ 2 + 1 ≠ 0 := by positivity
  rw [div_eq_div_iff this h2]
  field_simp
  rw [hc]; ring

/-- With `r = coth kd`. -/
theorem hyper_r {kd r : ℝ} (h : 0 < kd) (hr : r = Real.cosh kd / Real.sinh kd) : 1 < r ∧ Real.cosh kd = r * Real.sinh kd ∧
    Real.cosh (2 * kd) = (r ^ 2 + 1) / (r ^ 2 - 1) ∧ Real.sinh (2 * kd) = 2 * r / (r ^ 2 - 1) ∧
    Real.cosh (3 * kd) = Real.sinh kd * (r * (r ^ 2 + 3) / (r ^ 2 - 1)) ∧
    Real.sinh (3 * kd) = Real.sinh kd * ((3 * r ^ 2 + 1) / (r ^ 2 - 1)) ∧
    Real.cosh (4 * kd) = (r ^ 4 + 6 * r ^ 2 + 1) / (r ^ 2 - 1) ^ 2 ∧ Real.sinh (4 * kd) = 4 * r * (r ^ 2 + 1) / (r ^ 2 - 1) ^ 2 ∧
    Real.cosh (5 * kd) = Real.sinh kd * (r * (r ^ 4 + 10 * r ^ 2 + 5) / (r ^ 2 - 1) ^ 2) ∧
    Real.sinh (5 * kd) = Real.sinh kd * ((5 * r ^ 4 + 10 * r ^ 2 + 1) / (r ^ 2 - 1) ^ 2) := by
  have hs : 0 < Real.sinh kd := Real.sinh_pos_iff.mpr h
  have hq := Real.cosh_sq kd
  have hc : Real.cosh kd = r * Real.sinh kd := by rw [hr]; field_simp
  have h1 : 1 < r := by rw [hr, one_lt_div hs]; exact Real.sinh_lt_cosh kd
  have hm : r ^ 2 - 1 ≠ 0 := by nlinarith
  have hss : Real.sinh kd ^ 2 = 1 / (r ^ 2 - 1) := by
    rw [hc] at hq
    field_simp
    linear_combination hq
  obtain ⟨e2, f2, e3, f3, e4, f4, e5, f5⟩ := hyper kd
  have hcc : Real.cosh kd ^ 2 = r ^ 2 / (r ^ 2 - 1) := by rw [hc, mul_pow, hss]; ring
  refine ⟨h1, hc, ?_, ?_, ?_, ?_, ?_, ?_, ?_, ?_⟩
  · rw [e2, hcc, hss]; ring
  · rw [f2, hc, show 2 * Real.sinh kd * (r * Real.sinh kd) = 2 * r * Real.sinh kd ^ 2 by ring, hss]; ring
  · rw [e3, show 4 * Real.cosh kd ^ 3 - 3 * Real.cosh kd = Real.cosh kd * (4 * Real.cosh kd ^ 2 - 3) by ring, hcc, hc]
    field_simp; ring
  · rw [f3, show 4 * Real.sinh kd ^ 3 + 3 * Real.sinh kd = Real.sinh kd * (4 * Real.sinh kd ^ 2 + 3) by ring, hss]
    field_simp; ring
  · rw [e4, hcc, hss]; field_simp; ring
  · rw [f4, hcc, hc, show 4 * Real.sinh kd * (r * Real.sinh kd) = 4 * r * Real.sinh kd ^ 2 by ring, hss]; field_simp
  · rw [e5, show 16 * Real.cosh kd ^ 5 - 20 * Real.cosh kd ^ 3 + 5 * Real.cosh kd =
      Real.cosh kd * (16 * (Real.cosh kd ^ 2) ^ 2 - 20 * Real.cosh kd ^ 2 + 5) by ring, hcc, hc]
    field_simp; ring
  · rw [f5, show 16 * Real.sinh kd ^ 5 + 20 * Real.sinh kd ^ 3 + 5 * Real.sinh kd =
      Real.sinh kd * (16 * (Real.sinh kd ^ 2) ^ 2 + 20 * Real.sinh kd ^ 2 + 5) by ring, hss]
    field_simp; ring

/-- What a truncated expansion leaves out, and the constants that do not depend on the order. -/
structure Trunc (c : Coeffs) (n : ℕ) (kd : ℝ) : Prop where
  a11 : c.a11 = 1 / Real.sinh kd
  c0 : c.c0 = Real.sqrt (Real.tanh kd)
  three : n < 3 → c.a31 = 0 ∧ c.a33 = 0 ∧ c.b31 = 0
  four : n < 4 → c.a42 = 0 ∧ c.a44 = 0 ∧ c.b42 = 0 ∧ c.b44 = 0 ∧ c.c4 = 0
  five : n < 5 → c.a51 = 0 ∧ c.a53 = 0 ∧ c.a55 = 0 ∧ c.b53 = 0 ∧ c.b55 = 0

theorem coeffs_agree {n : ℕ} (h2 : 2 ≤ n) (h5 : n ≤ 5) {k d : ℝ} (hkd : 0 < k * d) (hcap : k * d ≤ cap) :
    ∃ c, stokesCoeffs n k d = some c ∧ Trunc c n (k * d) ∧
      Agree (alOf c (k * d)) (Real.cosh (k * d) / Real.sinh (k * d)) n := by
  have hs : 0 < Real.sinh (k * d) := Real.sinh_pos_iff.mpr hkd
  have hT : Real.sqrt (Real.tanh (k * d)) ≠ 0 := by
    rw [Real.tanh_eq_sinh_div_cosh]
    exact (Real.sqrt_pos.mpr (div_pos hs (Real.cosh_pos _))).ne'
  obtain ⟨hr, hc, e2, f2, e3, f3, e4, f4, e5, f5⟩ := hyper_r hkd rfl
  have hS := sech2_r hkd
  have hco := coth_eq hkd
  have key : ∀ m x : ℝ, Real.sqrt (Real.tanh (k * d)) * m / x / Real.sqrt (Real.tanh (k * d)) = m / x := by
    intro m x
    rw [div_right_comm, mul_div_cancel_left₀ _ hT]
  have hn : n = 2 ∨ n = 3 ∨ n = 4 ∨ n = 5 := by omega
  rcases hn with rfl | rfl | rfl | rfl
  all_goals
    refine ⟨_, rfl, ?_, ?_⟩
    · simp only [min_eq_left hcap]
      constructor <;> simp
    · simp only [min_eq_left hcap]
      constructor
      · rfl
      · refine ⟨?_, ?_, ?_, ?_⟩
        · simp only [alOf, hco]; exact cl_b22 hr hs.ne' hS
        · simp only [alOf, key]; exact cl_g2 hr hs.ne' hS
        · simp only [alOf, e2]; exact cl_p22 hr hs.ne' hS
        · simp only [alOf, f2]; exact cl_q22 hr hs.ne' hS
      · first
        | (intro h; omega)
        | (intro _
           refine ⟨?_, ?_, ?_, ?_, ?_⟩
           · simp only [alOf]; exact cl_b31 hr hs.ne' hS
           · simp only [alOf]
             conv_lhs => arg 2; rw [hc]
             exact cl_p31 hr hs.ne' hS
           · simp only [alOf]; exact cl_q31 hr hs.ne' hS
           · simp only [alOf, e3]; exact cl_p33 hr hs.ne' hS
           · simp only [alOf, f3]; exact cl_q33 hr hs.ne' hS)
      · first
        | (intro h; omega)
        | (intro _
           refine ⟨?_, ?_, ?_, ?_, ?_, ?_, ?_⟩
           · simp only [alOf, hco]; exact cl_b42 hr hs.ne' hS
           · simp only [alOf, hco]; exact cl_b44 hr hs.ne' hS
           · simp only [alOf, key]; exact cl_g4 hr hs.ne' hS
           · simp only [alOf, e2]; exact cl_p42 hr hs.ne' hS
           · simp only [alOf, f2]; exact cl_q42 hr hs.ne' hS
           · simp only [alOf, e4]; exact cl_p44 hr hs.ne' hS
           · simp only [alOf, f4]; exact cl_q44 hr hs.ne' hS)
      · first
        | (intro h; omega)
        | (intro _
           refine ⟨?_, ?_, ?_, ?_, ?_, ?_, ?_, ?_⟩
           · simp only [alOf]; exact cl_b53 hr hs.ne' hS
           · simp only [alOf]; exact cl_b55 hr hs.ne' hS
           · simp only [alOf]
             conv_lhs => arg 2; rw [hc]
             exact cl_p51 hr hs.ne' hS
           · simp only [alOf]; exact cl_q51 hr hs.ne' hS
           · simp only [alOf, e3]; exact cl_p53 hr hs.ne' hS
           · simp only [alOf, f3]; exact cl_q53 hr hs.ne' hS
           · simp only [alOf, e5]; exact cl_p55 hr hs.ne' hS
           · simp only [alOf, f5]; exact cl_q55 hr hs.ne' hS)

/-! ## The angle -/

theorem cosM_eq (t : ℝ) (j : ℕ) (h1 : 1 ≤ j) (h5 : j ≤ 5) : cosM (Real.cos t) j = Real.cos (j * t) := by
  have hs := Real.sin_sq_add_cos_sq t
  have h2 := Real.cos_two_mul t
  have g2 := Real.sin_two_mul t
  have h3 := Real.cos_three_mul t
  have g3 := Real.sin_three_mul t
  have hj : j = 1 ∨ j = 2 ∨ j = 3 ∨ j = 4 ∨ j = 5 := by omega
  rcases hj with rfl | rfl | rfl | rfl | rfl
  · simp [cosM]
  · simp only [cosM]; push_cast; rw [h2]
  · simp only [cosM]; push_cast; rw [h3]
  · simp only [cosM]; push_cast
    rw [show (4 : ℝ) * t = 2 * (2 * t) by ring, Real.cos_two_mul, h2]; ring
  · simp only [cosM]; push_cast
    rw [show (5 : ℝ) * t = 2 * t + 3 * t by ring, Real.cos_add, h2, h3, g2, g3]
    have q : Real.sin t ^ 2 = 1 - Real.cos t ^ 2 := by linarith
    have q4 : Real.sin t ^ 4 = (1 - Real.cos t ^ 2) ^ 2 := by rw [← q]; ring
    linear_combination (-(6 * Real.cos t)) * q * (-1) + 8 * Real.cos t * q4 * (-1)

theorem sinM_eq (t : ℝ) (j : ℕ) (h1 : 1 ≤ j) (h5 : j ≤ 5) : sinM (Real.cos t) (Real.sin t) j = Real.sin (j * t) := by
  have hs := Real.sin_sq_add_cos_sq t
  have q : Real.sin t ^ 2 = 1 - Real.cos t ^ 2 := by linarith
  have h2 := Real.cos_two_mul t
  have g2 := Real.sin_two_mul t
  have h3 := Real.cos_three_mul t
  have g3 : Real.sin (3 * t) = Real.sin t * (4 * Real.cos t ^ 2 - 1) := by
    rw [Real.sin_three_mul]; linear_combination (-4 * Real.sin t) * q
  have hj : j = 1 ∨ j = 2 ∨ j = 3 ∨ j = 4 ∨ j = 5 := by omega
  rcases hj with rfl | rfl | rfl | rfl | rfl
  · simp [sinM]
  · simp only [sinM]; push_cast; rw [g2]; ring
  · simp only [sinM]; push_cast; rw [g3]
  · simp only [sinM]; push_cast
    rw [show (4 : ℝ) * t = 2 * (2 * t) by ring, Real.sin_two_mul, h2, g2]; ring
  · simp only [sinM]; push_cast
    rw [show (5 : ℝ) * t = 2 * t + 3 * t by ring, Real.sin_add, h2, h3, g2, g3]; ring

theorem cosM_le (t : ℝ) (j : ℕ) : |cosM (Real.cos t) j| ≤ 1 := by
  rcases Nat.eq_zero_or_pos j with rfl | h
  · simp [cosM]
  · by_cases h5 : j ≤ 5
    · rw [cosM_eq t j h h5]; exact Real.abs_cos_le_one _
    · have e : cosM (Real.cos t) j = cosM (Real.cos t) 5 := by
        obtain ⟨m, rfl⟩ : ∃ m, j = m + 5 := ⟨j - 5, by omega⟩
        rfl
      rw [e, cosM_eq t 5 (by norm_num) le_rfl]; exact Real.abs_cos_le_one _

theorem sinM_le (t : ℝ) (j : ℕ) : |sinM (Real.cos t) (Real.sin t) j| ≤ 1 := by
  rcases Nat.eq_zero_or_pos j with rfl | h
  · simp [sinM]
  · by_cases h5 : j ≤ 5
    · rw [sinM_eq t j h h5]; exact Real.abs_sin_le_one _
    · have e : sinM (Real.cos t) (Real.sin t) j = sinM (Real.cos t) (Real.sin t) 5 := by
        obtain ⟨m, rfl⟩ : ∃ m, j = m + 5 := ⟨j - 5, by omega⟩
        rfl
      rw [e, sinM_eq t 5 (by norm_num) le_rfl]; exact Real.abs_sin_le_one _

/-! ## Expansions of the velocities on the surface -/

theorem JBd.const (j : Jet) : JBd fun _ => j :=
  ⟨Bd.const _, Bd.const _, Bd.const _, Bd.const _, Bd.const _, Bd.const _⟩

section surface
variable (A : Al)

noncomputable def zF (p : ℝ × ℝ) : ℝ := (A.zJ (cosM (Real.cos p.2))).eval p.1

noncomputable def dF (p : ℝ × ℝ) : ℝ := (A.dJ (sinM (Real.cos p.2) (Real.sin p.2))).eval p.1

noncomputable def uTF (j : ℕ) (p : ℝ × ℝ) : ℝ :=
  cosM (Real.cos p.2) j *
    ((A.pJ j).eval p.1 * Real.cosh ((j : ℝ) * zF A p) + (A.qJ j).eval p.1 * Real.sinh ((j : ℝ) * zF A p))

noncomputable def wTF (j : ℕ) (p : ℝ × ℝ) : ℝ :=
  sinM (Real.cos p.2) (Real.sin p.2) j *
    ((A.qJ j).eval p.1 * Real.cosh ((j : ℝ) * zF A p) + (A.pJ j).eval p.1 * Real.sinh ((j : ℝ) * zF A p))

noncomputable def uF (p : ℝ × ℝ) : ℝ := uTF A 1 p + uTF A 2 p + uTF A 3 p + uTF A 4 p + uTF A 5 p

noncomputable def wF (p : ℝ × ℝ) : ℝ := wTF A 1 p + wTF A 2 p + wTF A 3 p + wTF A 4 p + wTF A 5 p

noncomputable def kinF (p : ℝ × ℝ) : ℝ := wF A p + (-1) * ((uF A p + A.vJ.eval p.1) * dF A p)

noncomputable def dynF (p : ℝ × ℝ) : ℝ :=
  1 / 2 * ((uF A p + A.vJ.eval p.1) * (uF A p + A.vJ.eval p.1) + wF A p * wF A p) + A.r * zF A p

theorem bc (j : ℕ) : Bd fun p => cosM (Real.cos p.2) j := Bd.ang (f := fun t => cosM (Real.cos t) j) 1 fun t => cosM_le t j

theorem bs (j : ℕ) : Bd fun p => sinM (Real.cos p.2) (Real.sin p.2) j :=
  Bd.ang (f := fun t => sinM (Real.cos t) (Real.sin t) j) 1 fun t => sinM_le t j

theorem has_z : Has (zF A) fun t => A.zJ (cosM (Real.cos t)) := by
  refine Has.poly (j := fun t => A.zJ (cosM (Real.cos t))) ?_
  have k := Bd.const
  refine ⟨k 0, bc 1, (k A.b22).mul (bc 2), ?_, ((k A.b42).mul (bc 2)).add ((k A.b44).mul (bc 4)),
    (((k (-(A.b53 + A.b55))).mul (bc 1)).add ((k A.b53).mul (bc 3))).add ((k A.b55).mul (bc 5))⟩
  have := (k A.b31).mul ((bc 1).add ((k (-1)).mul (bc 3)))
  simpa [Al.zJ, sub_eq_add_neg] using this

theorem has_d : Has (dF A) fun t => A.dJ (sinM (Real.cos t) (Real.sin t)) := by
  refine Has.poly (j := fun t => A.dJ (sinM (Real.cos t) (Real.sin t))) ?_
  have k := Bd.const
  refine ⟨k 0, ?_, ?_, ?_, ?_, ?_⟩
  · have := (k (-1)).mul (bs 1); simpa [Al.dJ] using this
  · have := (k (-(2 * A.b22))).mul (bs 2); simpa [Al.dJ] using this
  · have := (k A.b31).mul (((k 3).mul (bs 3)).add ((k (-1)).mul (bs 1))); simpa [Al.dJ, sub_eq_add_neg] using this
  · have := ((k (-(2 * A.b42))).mul (bs 2)).add ((k (-(4 * A.b44))).mul (bs 4))
    refine this.congr_left fun p => ?_
    simp only [Al.dJ]; ring
  · have := (((k (A.b53 + A.b55)).mul (bs 1)).add ((k (-(3 * A.b53))).mul (bs 3))).add ((k (-(5 * A.b55))).mul (bs 5))
    refine this.congr_left fun p => ?_
    simp only [Al.dJ]; ring

theorem has_uT (j : ℕ) : Has (uTF A j) fun t => A.uT (cosM (Real.cos t)) j := by
  have hz := (has_z A).scale (c := fun _ => (j : ℝ)) (|(j : ℝ)|) fun _ => le_rfl
  have h0 : ∀ t, ((A.zJ (cosM (Real.cos t))).scale (j : ℝ)).a0 = 0 := fun t => by simp [Al.zJ, Jet.scale]
  exact (((Has.poly (JBd.const (A.pJ j))).mul (hz.cosh h0)).add ((Has.poly (JBd.const (A.qJ j))).mul (hz.sinh h0))).scale
    (c := fun t => cosM (Real.cos t) j) 1 fun t => cosM_le t j

theorem has_wT (j : ℕ) : Has (wTF A j) fun t => A.wT (cosM (Real.cos t)) (sinM (Real.cos t) (Real.sin t)) j := by
  have hz := (has_z A).scale (c := fun _ => (j : ℝ)) (|(j : ℝ)|) fun _ => le_rfl
  have h0 : ∀ t, ((A.zJ (cosM (Real.cos t))).scale (j : ℝ)).a0 = 0 := fun t => by simp [Al.zJ, Jet.scale]
  exact (((Has.poly (JBd.const (A.qJ j))).mul (hz.cosh h0)).add ((Has.poly (JBd.const (A.pJ j))).mul (hz.sinh h0))).scale
    (c := fun t => sinM (Real.cos t) (Real.sin t) j) 1 fun t => sinM_le t j

theorem has_u : Has (uF A) fun t => A.uJ (cosM (Real.cos t)) :=
  ((((has_uT A 1).add (has_uT A 2)).add (has_uT A 3)).add (has_uT A 4)).add (has_uT A 5)

theorem has_w : Has (wF A) fun t => A.wJ (cosM (Real.cos t)) (sinM (Real.cos t) (Real.sin t)) :=
  ((((has_wT A 1).add (has_wT A 2)).add (has_wT A 3)).add (has_wT A 4)).add (has_wT A 5)

theorem has_kin : Has (kinF A) fun t => A.kinJ (cosM (Real.cos t)) (sinM (Real.cos t) (Real.sin t)) :=
  (has_w A).add ((((has_u A).add (Has.poly (JBd.const A.vJ))).mul (has_d A)).scale (c := fun _ => -1) (|(-1 : ℝ)|)
    fun _ => le_rfl)

theorem has_dyn : Has (dynF A) fun t => A.dynJ (cosM (Real.cos t)) (sinM (Real.cos t) (Real.sin t)) := by
  have hv := (has_u A).add (Has.poly (JBd.const A.vJ))
  exact (((hv.mul hv).add ((has_w A).mul (has_w A))).scale (c := fun _ => 1 / 2) (|(1 / 2 : ℝ)|) fun _ => le_rfl).add
    ((has_z A).scale (c := fun _ => A.r) (|A.r|) fun _ => le_rfl)

end surface

/-- Bernoulli's constant, over `g / (k coth kd)`. -/
noncomputable def head (r : ℝ) : Jet :=
  ⟨1 / 2, 0, ((closed r).dynJ (cosM 1) (sinM 1 0)).a2, 0, ((closed r).dynJ (cosM 1) (sinM 1 0)).a4, 0⟩

theorem kin_zero {A : Al} {r : ℝ} {n : ℕ} (h : Agree A r n) (h2 : 2 ≤ n) (X Y : ℝ) :
    (A.kinJ (cosM X) (sinM X Y)).zeroTo n := by
  obtain ⟨b22, g2, p22, q22⟩ := h.two
  have hr : A.r = (closed r).r := h.base
  refine ⟨kin_split0 A X Y, fun _ => kin_split1 A X Y, fun _ => ?_, fun h3 => ?_, fun h4 => ?_, fun h5 => ?_⟩
  · have := kin2 r X Y
    rw [kin_split2] at this ⊢
    rw [hr, b22, q22]; exact this
  · obtain ⟨b31, p31, q31, p33, q33⟩ := h.three h3
    have := kin3 r X Y
    rw [kin_split3] at this ⊢
    rw [hr, b22, g2, p22, b31, q31, q33]; exact this
  · obtain ⟨b31, p31, q31, p33, q33⟩ := h.three (by omega)
    obtain ⟨b42, b44, g4, p42, q42, p44, q44⟩ := h.four h4
    have := kin4 r X Y
    rw [kin_split4] at this ⊢
    rw [hr, b22, g2, p22, q22, b31, p31, p33, b42, b44, q42, q44]; exact this
  · obtain ⟨b31, p31, q31, p33, q33⟩ := h.three (by omega)
    obtain ⟨b42, b44, g4, p42, q42, p44, q44⟩ := h.four (by omega)
    obtain ⟨b53, b55, p51, q51, p53, q53, p55, q55⟩ := h.five h5
    have := kin5 r X Y
    rw [kin_split5] at this ⊢
    rw [hr, b22, g2, p22, q22, b31, p31, q31, p33, q33, b42, b44, g4, p42, p44, b53, b55, q51, q53, q55]; exact this

theorem dyn_zero {A : Al} {r : ℝ} {n : ℕ} (h : Agree A r n) (h2 : 2 ≤ n) {X Y : ℝ} (hX : X ^ 2 + Y ^ 2 = 1) :
    ((A.dynJ (cosM X) (sinM X Y)).add ((head r).scale (-1))).zeroTo n := by
  obtain ⟨b22, g2, p22, q22⟩ := h.two
  have hr : A.r = (closed r).r := h.base
  have h1 : (1 : ℝ) ^ 2 + 0 ^ 2 = 1 := by norm_num
  refine ⟨?_, fun _ => ?_, fun _ => ?_, fun h3 => ?_, fun h4 => ?_, fun h5 => ?_⟩
  all_goals simp only [Jet.add, Jet.scale, head]
  · have := dyn0 r hX
    rw [dyn_split0] at this ⊢
    linarith
  · have := dyn1 r hX
    rw [dyn_split1] at this ⊢
    linarith
  · have := dyn2 r hX
    rw [← dyn2 r h1] at this
    have e : (A.dynJ (cosM X) (sinM X Y)).a2 = ((closed r).dynJ (cosM X) (sinM X Y)).a2 := by
      rw [dyn_split2, dyn_split2]; simp only [hr, b22, g2, p22, q22]
    rw [e, this]; ring
  · obtain ⟨b31, p31, q31, p33, q33⟩ := h.three h3
    have := dyn3 r hX
    have e : (A.dynJ (cosM X) (sinM X Y)).a3 = ((closed r).dynJ (cosM X) (sinM X Y)).a3 := by
      rw [dyn_split3, dyn_split3]; simp only [hr, b22, g2, p22, q22, b31, p31, q31, p33, q33]
    rw [e, this]; ring
  · obtain ⟨b31, p31, q31, p33, q33⟩ := h.three (by omega)
    obtain ⟨b42, b44, g4, p42, q42, p44, q44⟩ := h.four h4
    have := dyn4 r hX
    rw [← dyn4 r h1] at this
    have e : (A.dynJ (cosM X) (sinM X Y)).a4 = ((closed r).dynJ (cosM X) (sinM X Y)).a4 := by
      rw [dyn_split4, dyn_split4]
      simp only [hr, b22, g2, p22, q22, b31, p31, q31, p33, q33, b42, b44, g4, p42, q42, p44, q44]
    rw [e, this]; ring
  · obtain ⟨b31, p31, q31, p33, q33⟩ := h.three (by omega)
    obtain ⟨b42, b44, g4, p42, q42, p44, q44⟩ := h.four (by omega)
    obtain ⟨b53, b55, p51, q51, p53, q53, p55, q55⟩ := h.five h5
    have := dyn5 r hX
    have e : (A.dynJ (cosM X) (sinM X Y)).a5 = ((closed r).dynJ (cosM X) (sinM X Y)).a5 := by
      rw [dyn_split5, dyn_split5]
      simp only [hr, b22, g2, p22, q22, b31, p31, q31, p33, q33, b42, b44, g4, p42, q42, p44, q44, b53, b55, p51, q51, p53,
        q53, p55, q55]
    rw [e, this]; ring

/-! ## The wave of the code -/

section code
variable {v : StWave} {c : Coeffs} {kd : ℝ}

theorem zF_eq (hk : v.wavenumber ≠ 0) (x t : ℝ) :
    v.wavenumber * (v.eta c x t - v.zsl) = zF (alOf c kd) (v.eps, v.phase c x t) := by
  have c1 := cosM_eq (v.phase c x t) 1 le_rfl (by norm_num)
  have c2 := cosM_eq (v.phase c x t) 2 (by norm_num) (by norm_num)
  have c3 := cosM_eq (v.phase c x t) 3 (by norm_num) (by norm_num)
  have c4 := cosM_eq (v.phase c x t) 4 (by norm_num) (by norm_num)
  have c5 := cosM_eq (v.phase c x t) 5 (by norm_num) (by norm_num)
  push_cast at c1 c2 c3 c4 c5
  rw [one_mul] at c1
  simp only [zF, Jet.eval, Al.zJ, alOf, StWave.eta, c1, c2, c3, c4, c5]
  field_simp
  ring

/-- The slope of the surface with the phase. -/
theorem eta_phase (v : StWave) (c : Coeffs) (kd p : ℝ) : HasDerivAt (fun p => (v.eps * Real.cos p + v.eps ^ 2 * c.b22 * Real.cos (2 * p) +
    v.eps ^ 3 * c.b31 * (Real.cos p - Real.cos (3 * p)) + v.eps ^ 4 * (c.b42 * Real.cos (2 * p) + c.b44 * Real.cos (4 * p)) +
    v.eps ^ 5 * (-(c.b53 + c.b55) * Real.cos p + c.b53 * Real.cos (3 * p) + c.b55 * Real.cos (5 * p))) / v.wavenumber + v.zsl)
    (dF (alOf c kd) (v.eps, p) / v.wavenumber) p := by
  have s1 := sinM_eq p 1 le_rfl (by norm_num)
  have s2 := sinM_eq p 2 (by norm_num) (by norm_num)
  have s3 := sinM_eq p 3 (by norm_num) (by norm_num)
  have s4 := sinM_eq p 4 (by norm_num) (by norm_num)
  have s5 := sinM_eq p 5 (by norm_num) (by norm_num)
  push_cast at s1 s2 s3 s4 s5
  rw [one_mul] at s1
  have hc : ∀ m : ℝ, HasDerivAt (fun p => Real.cos (m * p)) (-Real.sin (m * p) * m) p := fun m => by
    have := (Real.hasDerivAt_cos (m * p)).comp p ((hasDerivAt_id p).const_mul m)
    simpa [Function.comp_def] using this
  have h1 := Real.hasDerivAt_cos p
  have h := (((((h1.const_mul v.eps).add ((hc 2).const_mul (v.eps ^ 2 * c.b22))).add
    ((h1.sub (hc 3)).const_mul (v.eps ^ 3 * c.b31))).add
    ((((hc 2).const_mul c.b42).add ((hc 4).const_mul c.b44)).const_mul (v.eps ^ 4))).add
    ((((h1.const_mul (-(c.b53 + c.b55))).add ((hc 3).const_mul c.b53)).add ((hc 5).const_mul c.b55)).const_mul
      (v.eps ^ 5))).div_const v.wavenumber |>.add_const v.zsl
  refine h.congr_deriv ?_
  congr 1
  simp only [dF, Jet.eval, Al.dJ, alOf, s1, s2, s3, s4, s5]
  ring

theorem eta_dx (kd x t : ℝ) (hk : v.wavenumber ≠ 0) :
    HasDerivAt (fun x => v.eta c x t) (dF (alOf c kd) (v.eps, v.phase c x t)) x := by
  have hp : HasDerivAt (fun x => v.phase c x t) v.wavenumber x := by
    have := (((hasDerivAt_id x).const_mul v.wavenumber).sub_const (v.omega c * t)).sub_const v.offset
    simpa [StWave.phase] using this
  have := (eta_phase v c kd (v.phase c x t)).comp x hp
  refine (this.congr_deriv ?_)
  field_simp

theorem eta_dt (kd x t : ℝ) :
    HasDerivAt (fun t => v.eta c x t) (-(v.omega c / v.wavenumber) * dF (alOf c kd) (v.eps, v.phase c x t)) t := by
  have hp : HasDerivAt (fun t => v.phase c x t) (-v.omega c) t := by
    have := (((hasDerivAt_id t).const_mul (v.omega c)).const_sub (v.wavenumber * x)).sub_const v.offset
    simpa [StWave.phase] using this
  have := (eta_phase v c kd (v.phase c x t)).comp t hp
  refine (this.congr_deriv ?_)
  ring

theorem amp_p (h2 : 2 ≤ v.order) (h5 : v.order ≤ 5) (hT : Trunc c v.order kd) (m : ℕ) (hm : m < 5) :
    (if m < v.order then v.eps ^ (m + 1) * (m + 1 : ℝ) * v.amp c m else 0) * Real.cosh ((m + 1 : ℝ) * kd) =
      ((alOf c kd).pJ (m + 1)).eval v.eps := by
  have hn : v.order = 2 ∨ v.order = 3 ∨ v.order = 4 ∨ v.order = 5 := by omega
  obtain ⟨ha, -, t3, t4, t5⟩ := hT
  have n2 : (1 + 1 : ℝ) = 2 := by norm_num
  have n3 : (2 + 1 : ℝ) = 3 := by norm_num
  have n4 : (3 + 1 : ℝ) = 4 := by norm_num
  have n5 : (4 + 1 : ℝ) = 5 := by norm_num
  have hmm : m = 0 ∨ m = 1 ∨ m = 2 ∨ m = 3 ∨ m = 4 := by omega
  rcases hn with e | e | e | e
  · obtain ⟨a31, a33, b31⟩ := t3 (by omega)
    obtain ⟨a42, a44, b42, b44, c4⟩ := t4 (by omega)
    obtain ⟨a51, a53, a55, b53, b55⟩ := t5 (by omega)
    rcases hmm with rfl | rfl | rfl | rfl | rfl <;>
      simp [e, StWave.amp, Al.pJ, alOf, Jet.eval, ha, a31, a33, a42, a44, a51, a53, a55, n2, n3, n4, n5] <;> try ring1
    all_goals (try field_simp)
  · obtain ⟨a42, a44, b42, b44, c4⟩ := t4 (by omega)
    obtain ⟨a51, a53, a55, b53, b55⟩ := t5 (by omega)
    rcases hmm with rfl | rfl | rfl | rfl | rfl <;>
      simp [e, StWave.amp, Al.pJ, alOf, Jet.eval, ha, a42, a44, a51, a53, a55, n2, n3, n4, n5] <;> try ring1
    all_goals (try field_simp)
  · obtain ⟨a51, a53, a55, b53, b55⟩ := t5 (by omega)
    rcases hmm with rfl | rfl | rfl | rfl | rfl <;>
      simp [e, StWave.amp, Al.pJ, alOf, Jet.eval, ha, a51, a53, a55, n2, n3, n4, n5] <;> try ring1
    all_goals (try field_simp)
  · rcases hmm with rfl | rfl | rfl | rfl | rfl <;>
      simp [e, StWave.amp, Al.pJ, alOf, Jet.eval, ha, n2, n3, n4, n5] <;> try ring1
    all_goals (try field_simp)

theorem amp_q (hkd : 0 < kd) (h2 : 2 ≤ v.order) (h5 : v.order ≤ 5) (hT : Trunc c v.order kd) (m : ℕ) (hm : m < 5) :
    (if m < v.order then v.eps ^ (m + 1) * (m + 1 : ℝ) * v.amp c m else 0) * Real.sinh ((m + 1 : ℝ) * kd) =
      ((alOf c kd).qJ (m + 1)).eval v.eps := by
  have hn : v.order = 2 ∨ v.order = 3 ∨ v.order = 4 ∨ v.order = 5 := by omega
  obtain ⟨ha, -, t3, t4, t5⟩ := hT
  have hs : 0 < Real.sinh kd := Real.sinh_pos_iff.mpr hkd
  have n2 : (1 + 1 : ℝ) = 2 := by norm_num
  have n3 : (2 + 1 : ℝ) = 3 := by norm_num
  have n4 : (3 + 1 : ℝ) = 4 := by norm_num
  have n5 : (4 + 1 : ℝ) = 5 := by norm_num
  have hmm : m = 0 ∨ m = 1 ∨ m = 2 ∨ m = 3 ∨ m = 4 := by omega
  rcases hn with e | e | e | e
  · obtain ⟨a31, a33, b31⟩ := t3 (by omega)
    obtain ⟨a42, a44, b42, b44, c4⟩ := t4 (by omega)
    obtain ⟨a51, a53, a55, b53, b55⟩ := t5 (by omega)
    rcases hmm with rfl | rfl | rfl | rfl | rfl <;>
      simp [e, StWave.amp, Al.qJ, alOf, Jet.eval, ha, a31, a33, a42, a44, a51, a53, a55, n2, n3, n4, n5] <;> try ring1
    all_goals (try field_simp)
  · obtain ⟨a42, a44, b42, b44, c4⟩ := t4 (by omega)
    obtain ⟨a51, a53, a55, b53, b55⟩ := t5 (by omega)
    rcases hmm with rfl | rfl | rfl | rfl | rfl <;>
      simp [e, StWave.amp, Al.qJ, alOf, Jet.eval, ha, a42, a44, a51, a53, a55, n2, n3, n4, n5] <;> try ring1
    all_goals (try field_simp)
  · obtain ⟨a51, a53, a55, b53, b55⟩ := t5 (by omega)
    rcases hmm with rfl | rfl | rfl | rfl | rfl <;>
      simp [e, StWave.amp, Al.qJ, alOf, Jet.eval, ha, a51, a53, a55, n2, n3, n4, n5] <;> try ring1
    all_goals (try field_simp)
  · rcases hmm with rfl | rfl | rfl | rfl | rfl <;>
      simp [e, StWave.amp, Al.qJ, alOf, Jet.eval, ha, n2, n3, n4, n5] <;> try ring1
    all_goals (try field_simp)

theorem sum_five {n : ℕ} (h5 : n ≤ 5) (f : ℕ → ℝ) :
    ∑ m ∈ Finset.range n, f m = ∑ m ∈ Finset.range 5, if m < n then f m else 0 := by
  rw [← Finset.sum_subset (Finset.range_mono h5)
    (f := fun m => if m < n then f m else 0) (fun m _ hm => if_neg (by simpa using hm))]
  exact Finset.sum_congr rfl fun m hm => (if_pos (Finset.mem_range.mp hm)).symm

/-- The horizontal velocity of the code on its own surface. -/
theorem u_eq (hkd : 0 < v.wavenumber * v.depth) (hk : v.wavenumber ≠ 0) (h2 : 2 ≤ v.order) (h5 : v.order ≤ 5)
    (hT : Trunc c v.order (v.wavenumber * v.depth)) (x t : ℝ)
    (hcap : ∀ m < v.order, (m + 1 : ℝ) * (v.wavenumber * v.depth + zF (alOf c (v.wavenumber * v.depth)) (v.eps, v.phase c x t)) ≤ cap) :
    v.u c x (v.eta c x t) t = uF (alOf c (v.wavenumber * v.depth)) (v.eps, v.phase c x t) * (c.c0 * Real.sqrt (v.g / v.wavenumber)) := by
  unfold StWave.u
  congr 1
  rw [sum_five h5]
  have key : ∀ m < 5, (if m < v.order then v.eps ^ (m + 1) * (m + 1 : ℝ) * v.amp c m * Real.cosh (v.arg m (v.eta c x t)) *
      Real.cos ((m + 1 : ℝ) * v.phase c x t) else 0) = uTF (alOf c (v.wavenumber * v.depth)) (m + 1) (v.eps, v.phase c x t) := by
    intro m hm
    have hp := amp_p h2 h5 hT m hm
    have hq := amp_q hkd h2 h5 hT m hm
    have hcos := cosM_eq (v.phase c x t) (m + 1) (by omega) (by omega)
    push_cast at hcos
    unfold uTF
    simp only [hcos, ← hp, ← hq]
    split_ifs with hlt
    · have harg : v.arg m (v.eta c x t) =
          (m + 1 : ℝ) * (v.wavenumber * v.depth) + (m + 1 : ℝ) * zF (alOf c (v.wavenumber * v.depth)) (v.eps, v.phase c x t) := by
        have := hcap m hlt
        rw [← zF_eq hk] at this ⊢
        unfold StWave.arg
        rw [min_eq_left (by linarith)]
        ring
      rw [harg, Real.cosh_add]
      push_cast
      ring
    · ring
  rw [Finset.sum_congr rfl fun m hm => key m (Finset.mem_range.mp hm)]
  simp only [Finset.sum_range_succ, Finset.sum_range_zero, uF, zero_add, Nat.reduceAdd]

theorem w_eq (hkd : 0 < v.wavenumber * v.depth) (hk : v.wavenumber ≠ 0) (h2 : 2 ≤ v.order) (h5 : v.order ≤ 5)
    (hT : Trunc c v.order (v.wavenumber * v.depth)) (x t : ℝ)
    (hcap : ∀ m < v.order, (m + 1 : ℝ) * (v.wavenumber * v.depth + zF (alOf c (v.wavenumber * v.depth)) (v.eps, v.phase c x t)) ≤ cap) :
    v.w c x (v.eta c x t) t = wF (alOf c (v.wavenumber * v.depth)) (v.eps, v.phase c x t) * (c.c0 * Real.sqrt (v.g / v.wavenumber)) := by
  unfold StWave.w
  congr 1
  rw [sum_five h5]
  have key : ∀ m < 5, (if m < v.order then v.eps ^ (m + 1) * (m + 1 : ℝ) * v.amp c m * Real.sinh (v.arg m (v.eta c x t)) *
      Real.sin ((m + 1 : ℝ) * v.phase c x t) else 0) = wTF (alOf c (v.wavenumber * v.depth)) (m + 1) (v.eps, v.phase c x t) := by
    intro m hm
    have hp := amp_p h2 h5 hT m hm
    have hq := amp_q hkd h2 h5 hT m hm
    have hsin := sinM_eq (v.phase c x t) (m + 1) (by omega) (by omega)
    push_cast at hsin
    unfold wTF
    simp only [hsin, ← hp, ← hq]
    split_ifs with hlt
    · have harg : v.arg m (v.eta c x t) =
          (m + 1 : ℝ) * (v.wavenumber * v.depth) + (m + 1 : ℝ) * zF (alOf c (v.wavenumber * v.depth)) (v.eps, v.phase c x t) := by
        have := hcap m hlt
        rw [← zF_eq hk] at this ⊢
        unfold StWave.arg
        rw [min_eq_left (by linarith)]
        ring
      rw [harg, Real.sinh_add]
      push_cast
      ring
    · ring
  rw [Finset.sum_congr rfl fun m hm => key m (Finset.mem_range.mp hm)]
  simp only [Finset.sum_range_succ, Finset.sum_range_zero, wF, zero_add, Nat.reduceAdd]

theorem speed_eq (hk : v.wavenumber ≠ 0) (h0 : c.c0 ≠ 0) :
    v.omega c / v.wavenumber = -((alOf c kd).vJ.eval v.eps) * (c.c0 * Real.sqrt (v.g / v.wavenumber)) := by
  simp only [StWave.omega, Al.vJ, alOf, Jet.eval]
  field_simp
  ring

end code

/-- What a wave has to satisfy on its surface, up to `tol`, for Bernoulli's constant `R`.  The fluid on the surface
stays on it.  The pressure there is the same everywhere: Bernoulli's equation holds in the frame that moves with the
wave, in which the flow is steady. -/
structure Surface (eta : ℝ → ℝ → ℝ) (u w : ℝ → ℝ → ℝ → ℝ) (speed g zsl R tol x t : ℝ) : Prop where
  kinematic : ∃ ηx ηt, HasDerivAt (fun x => eta x t) ηx x ∧ HasDerivAt (fun t => eta x t) ηt t ∧
    |ηt + u x (eta x t) t * ηx - w x (eta x t) t| ≤ tol
  dynamic : |((u x (eta x t) t - speed) ^ 2 + w x (eta x t) t ^ 2) / 2 + g * (eta x t - zsl) - R| ≤ tol

/-- C132. A Stokes wave of order `n` satisfies the conditions at the free surface to that order: for given length,
depth and gravity, what is left over in both conditions is at most a constant times the height to the power `n + 1`,
everywhere on the surface, at all times and for every low enough wave. -/
theorem stokes_free_surface {n : ℕ} (h2 : 2 ≤ n) (h5 : n ≤ 5) {L d g : ℝ} (hL : 0 < L) (hd : 0 < d) (hg : 0 < g)
    (hcap : n * (2 * Real.pi / L * d) < cap) (zsl off : ℝ) :
    ∃ c, stokesCoeffs n (2 * Real.pi / L) d = some c ∧ ∃ C δ : ℝ, 0 < δ ∧ ∀ H, 0 ≤ H → H < δ → ∃ R, ∀ x t,
      Surface (StWave.eta ⟨n, L, d, H, zsl, g, off⟩ c) (StWave.u ⟨n, L, d, H, zsl, g, off⟩ c)
        (StWave.w ⟨n, L, d, H, zsl, g, off⟩ c)
        (StWave.omega ⟨n, L, d, H, zsl, g, off⟩ c / (2 * Real.pi / L)) g zsl R (C * H ^ (n + 1)) x t := by
  have hpi := Real.pi_pos
  set k := 2 * Real.pi / L with hkdef
  have hk : 0 < k := by positivity
  have hkd : 0 < k * d := by positivity
  have hn1 : (1 : ℝ) ≤ n := by exact_mod_cast (by omega : 1 ≤ n)
  have hkc : k * d ≤ cap := by nlinarith
  obtain ⟨c, hc, hT, hA⟩ := coeffs_agree h2 h5 hkd hkc
  refine ⟨c, hc, ?_⟩
  set A := alOf c (k * d) with hAdef
  set r := Real.cosh (k * d) / Real.sinh (k * d) with hr
  have hs : 0 < Real.sinh (k * d) := Real.sinh_pos_iff.mpr hkd
  have hth : 0 < Real.tanh (k * d) := by
    rw [Real.tanh_eq_sinh_div_cosh]; exact div_pos hs (Real.cosh_pos _)
  have hc0 : c.c0 ≠ 0 := by rw [hT.c0]; exact (Real.sqrt_pos.mpr hth).ne'
  have hc2 : c.c0 ^ 2 * r = 1 := by
    rw [hT.c0, Real.sq_sqrt hth.le, hr, Real.tanh_eq_sinh_div_cosh]
    have := Real.cosh_pos (k * d)
    field_simp
  obtain ⟨C1, δ1, hδ1, hK⟩ := (has_kin A).bound h2 h5 fun t => kin_zero hA h2 _ _
  have hD0 := (has_dyn A).add ((Has.poly (JBd.const (head r))).scale (c := fun _ => -1) (|(-1 : ℝ)|) fun _ => le_rfl)
  obtain ⟨C2, δ2, hδ2, hD⟩ := hD0.bound h2 h5 fun t => dyn_zero hA h2 (by rw [add_comm]; exact Real.sin_sq_add_cos_sq t)
  -- the cap is not reached
  have hroom : 0 < (cap - n * (k * d)) / n := by
    apply div_pos _ (by linarith)
    linarith
  have hz := ((has_z A).to_zero fun t => rfl).eventually (Metric.ball_mem_nhds (0 : ℝ) hroom)
  obtain ⟨s, hs0, hss⟩ := Filter.eventually_comap.mp hz |> Metric.eventually_nhds_iff.mp
  set q := c.c0 * Real.sqrt (g / k) with hq
  refine ⟨max (|q| * |C1| * (k / 2) ^ (n + 1)) (g / k * (c.c0 ^ 2) * |C2| * (k / 2) ^ (n + 1)),
    min (min δ1 δ2) s / (k / 2), by positivity, ?_⟩
  intro H hH hlt
  rw [lt_div_iff₀ (by positivity)] at hlt
  set v : StWave := ⟨n, L, d, H, zsl, g, off⟩ with hv
  have hwk : v.wavenumber = k := rfl
  have he : v.eps = H * (k / 2) := by simp only [StWave.eps, hwk]; ring
  have he0 : 0 ≤ v.eps := by rw [he]; positivity
  have hab : |v.eps| = H * (k / 2) := by rw [abs_of_nonneg he0, he]
  have hl1 : |v.eps| < δ1 := by rw [hab]; exact lt_of_lt_of_le hlt (le_trans (min_le_left _ _) (min_le_left _ _))
  have hl2 : |v.eps| < δ2 := by rw [hab]; exact lt_of_lt_of_le hlt (le_trans (min_le_left _ _) (min_le_right _ _))
  have hl3 : |v.eps| < s := by rw [hab]; exact lt_of_lt_of_le hlt (min_le_right _ _)
  refine ⟨g / k * c.c0 ^ 2 * (head r).eval v.eps, fun x t => ?_⟩
  have hsmall : |zF A (v.eps, v.phase c x t)| < (cap - n * (k * d)) / n := by
    have := hss (by simpa [Real.dist_eq] using hl3) (v.eps, v.phase c x t) rfl
    simpa [Real.dist_eq] using this
  have hcp : ∀ m < v.order, (m + 1 : ℝ) * (v.wavenumber * v.depth + zF A (v.eps, v.phase c x t)) ≤ cap := by
    intro m hm
    have hm1 : (m + 1 : ℝ) ≤ n := by exact_mod_cast (show m + 1 ≤ n from hm)
    rw [lt_div_iff₀ (by linarith)] at hsmall
    have h0 := le_abs_self (zF A (v.eps, v.phase c x t))
    have h1 := abs_nonneg (zF A (v.eps, v.phase c x t))
    have hm0 : (0 : ℝ) ≤ m := Nat.cast_nonneg m
    have e : v.wavenumber * v.depth = k * d := rfl
    rw [e]
    calc (m + 1 : ℝ) * (k * d + zF A (v.eps, v.phase c x t)) ≤ (m + 1) * (k * d + |zF A (v.eps, v.phase c x t)|) := by
          apply mul_le_mul_of_nonneg_left _ (by linarith); linarith
      _ ≤ n * (k * d + |zF A (v.eps, v.phase c x t)|) := by
          apply mul_le_mul_of_nonneg_right hm1; linarith
      _ ≤ cap := by nlinarith
  have hu := u_eq (v := v) hkd hk.ne' h2 h5 hT x t hcp
  have hw := w_eq (v := v) hkd hk.ne' h2 h5 hT x t hcp
  have hsp : v.omega c / k = -(A.vJ.eval v.eps) * q := speed_eq hk.ne' hc0
  have hzz : k * (v.eta c x t - zsl) = zF A (v.eps, v.phase c x t) := zF_eq (v := v) hk.ne' x t
  have hpow : |v.eps| ^ (n + 1) = (k / 2) ^ (n + 1) * H ^ (n + 1) := by rw [hab, mul_pow]; ring
  have hHn : 0 ≤ (k / 2) ^ (n + 1) * H ^ (n + 1) := by positivity
  have hK1 := hK v.eps hl1 (v.phase c x t)
  have hD1 := hD v.eps hl2 (v.phase c x t)
  rw [hpow] at hK1 hD1
  refine ⟨⟨_, _, eta_dx (k * d) x t hk.ne', eta_dt (k * d) x t, ?_⟩, ?_⟩
  · rw [hu, hw, hwk, hsp]
    have e : -(-(A.vJ.eval v.eps) * q) * dF A (v.eps, v.phase c x t) +
        uF A (v.eps, v.phase c x t) * q * dF A (v.eps, v.phase c x t) - wF A (v.eps, v.phase c x t) * q =
        -q * kinF A (v.eps, v.phase c x t) := by unfold kinF; ring
    refine le_trans (le_of_eq (congrArg _ e)) ?_
    rw [abs_mul, abs_neg]
    calc |q| * |kinF A (v.eps, v.phase c x t)| ≤ |q| * (|C1| * ((k / 2) ^ (n + 1) * H ^ (n + 1))) := by
          apply mul_le_mul_of_nonneg_left _ (abs_nonneg _)
          exact le_trans hK1 (mul_le_mul_of_nonneg_right (le_abs_self _) hHn)
      _ = |q| * |C1| * (k / 2) ^ (n + 1) * H ^ (n + 1) := by ring
      _ ≤ _ := mul_le_mul_of_nonneg_right (le_max_left _ _) (by positivity)
  · rw [hu, hw, hsp]
    have hq2 : q ^ 2 = g / k * c.c0 ^ 2 := by rw [hq, mul_pow, Real.sq_sqrt (by positivity)]; ring
    have hz2 : v.eta c x t - zsl = zF A (v.eps, v.phase c x t) / k := by rw [← hzz]; field_simp
    have hAr : A.r = r := hA.base
    have e : ((uF A (v.eps, v.phase c x t) * q - -(A.vJ.eval v.eps) * q) ^ 2 + (wF A (v.eps, v.phase c x t) * q) ^ 2) / 2 +
        g * (v.eta c x t - zsl) - g / k * c.c0 ^ 2 * (head r).eval v.eps =
        g / k * c.c0 ^ 2 * (dynF A (v.eps, v.phase c x t) + -1 * (head r).eval v.eps) := by
      rw [hz2]
      unfold dynF
      rw [hAr]
      have : g * (zF A (v.eps, v.phase c x t) / k) = g / k * (c.c0 ^ 2 * r) * zF A (v.eps, v.phase c x t) := by
        rw [hc2]; ring
      rw [this]
      linear_combination ((uF A (v.eps, v.phase c x t) + A.vJ.eval v.eps) ^ 2 + wF A (v.eps, v.phase c x t) ^ 2) / 2 * hq2
    refine le_trans (le_of_eq (congrArg _ e)) ?_
    have hgc : 0 ≤ g / k * c.c0 ^ 2 := by positivity
    rw [abs_mul, abs_of_nonneg hgc]
    calc g / k * c.c0 ^ 2 * |dynF A (v.eps, v.phase c x t) + -1 * (head r).eval v.eps| ≤
        g / k * c.c0 ^ 2 * (|C2| * ((k / 2) ^ (n + 1) * H ^ (n + 1))) := by
          apply mul_le_mul_of_nonneg_left _ hgc
          exact le_trans hD1 (mul_le_mul_of_nonneg_right (le_abs_self _) hHn)
      _ = g / k * c.c0 ^ 2 * |C2| * (k / 2) ^ (n + 1) * H ^ (n + 1) := by ring
      _ ≤ _ := mul_le_mul_of_nonneg_right (le_max_right _ _) (by positivity)

/-- Waves of length `2π` in water of depth 1, of order five. -/
example : (2 ≤ 5 ∧ 5 ≤ 5) ∧ (0 : ℝ) < 2 * Real.pi ∧ ((5 : ℕ) : ℝ) * (2 * Real.pi / (2 * Real.pi) * 1) < cap := by
  have := Real.pi_gt_three
  refine ⟨⟨by norm_num, le_rfl⟩, by linarith, ?_⟩
  rw [div_self (by linarith)]
  norm_num [cap]
  linarith

end AmrWind.Waves
