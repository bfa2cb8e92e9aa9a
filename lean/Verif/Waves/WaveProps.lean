import Verif.Waves.LinearModel
import Verif.Waves.Props
import Mathlib.Analysis.Calculus.Deriv.Add
import Mathlib.Analysis.Calculus.Deriv.Mul
import Mathlib.Analysis.Calculus.Deriv.Comp
import Mathlib.Analysis.SpecialFunctions.Trigonometric.Deriv
import Mathlib.Analysis.SpecialFunctions.Trigonometric.DerivHyp
import Mathlib.Analysis.SpecialFunctions.Integrals.Basic
import Mathlib.Analysis.Real.Pi.Bounds
import Mathlib.Tactic.LinearCombination

/-!
# C59, C60, C61: regular waves
-/

namespace AmrWind.Waves

namespace LinWave
variable (v : LinWave)

theorem phase_dx (x t : ℝ) : HasDerivAt (fun x => v.phase x t) v.wavenumber x := by
  unfold phase
  have := (((hasDerivAt_id x).sub_const (v.current * t)).const_mul v.wavenumber).sub_const (v.omega * t)
  have := this.sub_const v.offset
  simpa using this

theorem phase_dt (x t : ℝ) : HasDerivAt (fun t => v.phase x t) (-(v.wavenumber * v.current + v.omega)) t := by
  unfold phase
  have h1 : HasDerivAt (fun t : ℝ => v.wavenumber * (x - v.current * t)) (v.wavenumber * (-(v.current * 1))) t :=
    (((hasDerivAt_id t).const_mul v.current).const_sub x).const_mul v.wavenumber
  have h2 : HasDerivAt (fun t : ℝ => v.omega * t) (v.omega * 1) t := (hasDerivAt_id t).const_mul v.omega
  have := (h1.sub h2).sub_const v.offset
  refine this.congr_deriv ?_
  ring

theorem arg_dz (z : ℝ) : HasDerivAt (fun z => v.wavenumber * (z - v.zsl + v.depth)) v.wavenumber z := by
  have := (((hasDerivAt_id z).sub_const v.zsl).add_const v.depth).const_mul v.wavenumber
  simpa using this

/-- C59. The velocity of a linear wave is divergence free and irrotational at every point and time. -/
theorem linear_wave_field (x z t : ℝ) : ∃ ux wz uz wx : ℝ,
    HasDerivAt (fun x => v.u x z t) ux x ∧ HasDerivAt (fun z => v.w x z t) wz z ∧ ux + wz = 0 ∧
    HasDerivAt (fun z => v.u x z t) uz z ∧ HasDerivAt (fun x => v.w x z t) wx x ∧ uz = wx := by
  unfold u w
  have c1 := ((v.phase_dx x t).cos.const_mul
    (v.omega * v.height / 2 * Real.cosh (v.wavenumber * (z - v.zsl + v.depth)) / Real.sinh (v.wavenumber * v.depth))).add_const
      v.current
  have c2 := (((v.arg_dz z).sinh.const_mul (v.omega * v.height / 2)).div_const (Real.sinh (v.wavenumber * v.depth))).mul_const
    (Real.sin (v.phase x t))
  have c3 := ((((v.arg_dz z).cosh.const_mul (v.omega * v.height / 2)).div_const
    (Real.sinh (v.wavenumber * v.depth))).mul_const (Real.cos (v.phase x t))).add_const v.current
  have c4 := (v.phase_dx x t).sin.const_mul
    (v.omega * v.height / 2 * Real.sinh (v.wavenumber * (z - v.zsl + v.depth)) / Real.sinh (v.wavenumber * v.depth))
  refine ⟨_, _, _, _, c1, c2, ?_, c3, c4, ?_⟩
  · ring
  · ring

/-- C59. No flow through the bottom. -/
theorem linear_wave_bottom (x t : ℝ) : v.w x (v.zsl - v.depth) t = 0 := by
  unfold w
  rw [show v.wavenumber * (v.zsl - v.depth - v.zsl + v.depth) = 0 by ring, Real.sinh_zero]
  ring

theorem wavenumber_pos (hl : 0 < v.length) : 0 < v.wavenumber := by
  unfold wavenumber
  have := Real.pi_pos
  positivity

theorem tanh_pos {a : ℝ} (h : 0 < a) : 0 < Real.tanh a := by
  rw [Real.tanh_eq_sinh_div_cosh]
  exact div_pos (Real.sinh_pos_iff.mpr h) (Real.cosh_pos a)

theorem omega_sq (hl : 0 < v.length) (hd : 0 < v.depth) (hg : 0 < v.g) :
    v.omega * v.omega = v.wavenumber * v.g * Real.tanh (v.wavenumber * v.depth) := by
  have hk := v.wavenumber_pos hl
  have := tanh_pos (mul_pos hk hd)
  unfold omega
  exact Real.mul_self_sqrt (by positivity)

/-- C59. At the mean level the surface moves with the fluid (in the frame of the current), and the horizontal acceleration
is the one the slope of the surface gives (linearised kinematic and dynamic conditions): the dispersion relation is the
right one. -/
theorem linear_wave_surface (hl : 0 < v.length) (hd : 0 < v.depth) (hg : 0 < v.g) (x t : ℝ) : ∃ et ex ut ux : ℝ,
    HasDerivAt (fun t => v.eta x t) et t ∧ HasDerivAt (fun x => v.eta x t) ex x ∧
    HasDerivAt (fun t => v.u x v.zsl t) ut t ∧ HasDerivAt (fun x => v.u x v.zsl t) ux x ∧
    et + v.current * ex = v.w x v.zsl t ∧ ut + v.current * ux = -v.g * ex := by
  have hs : Real.sinh (v.wavenumber * v.depth) ≠ 0 :=
    (Real.sinh_pos_iff.mpr (mul_pos (v.wavenumber_pos hl) hd)).ne'
  have hc : Real.cosh (v.wavenumber * v.depth) ≠ 0 := (Real.cosh_pos _).ne'
  have ho := v.omega_sq hl hd hg
  rw [Real.tanh_eq_sinh_div_cosh] at ho
  have h1 := ((v.phase_dt x t).cos.const_mul (v.height / 2)).add_const v.zsl
  have h2 := ((v.phase_dx x t).cos.const_mul (v.height / 2)).add_const v.zsl
  have h3 := ((v.phase_dt x t).cos.const_mul
    (v.omega * v.height / 2 * Real.cosh (v.wavenumber * (v.zsl - v.zsl + v.depth)) /
      Real.sinh (v.wavenumber * v.depth))).add_const v.current
  have h4 := ((v.phase_dx x t).cos.const_mul
    (v.omega * v.height / 2 * Real.cosh (v.wavenumber * (v.zsl - v.zsl + v.depth)) /
      Real.sinh (v.wavenumber * v.depth))).add_const v.current
  refine ⟨_, _, _, _, h1, h2, h3, h4, ?_, ?_⟩
  · unfold w
    rw [sub_self, zero_add, mul_div_assoc _ (Real.sinh _), div_self hs]
    ring
  · rw [sub_self, zero_add]
    generalize Real.sinh (v.wavenumber * v.depth) = S at *
    generalize Real.cosh (v.wavenumber * v.depth) = C at *
    have ho' : v.omega * v.omega * C = v.wavenumber * v.g * S := by
      rw [ho]
      field_simp
    field_simp
    linear_combination (v.height * Real.sin (v.phase x t)) * ho'

/-- C59. The wave repeats after one wavelength, and travels with the phase speed on top of the current. -/
theorem linear_wave_periodic (hl : 0 < v.length) (x z t : ℝ) :
    v.eta (x + v.length) t = v.eta x t ∧ v.u (x + v.length) z t = v.u x z t ∧ v.w (x + v.length) z t = v.w x z t := by
  have e : v.phase (x + v.length) t = v.phase x t + 2 * Real.pi := by
    unfold phase wavenumber
    field_simp
    ring
  unfold eta u w
  rw [e, Real.cos_add_two_pi, Real.sin_add_two_pi]
  exact ⟨rfl, rfl, rfl⟩

theorem linear_wave_travels (hl : 0 < v.length) (x z t : ℝ) :
    v.eta (x + (v.current + v.omega / v.wavenumber) * t) t = v.eta x 0 ∧
      v.u (x + (v.current + v.omega / v.wavenumber) * t) z t = v.u x z 0 := by
  have hk := (v.wavenumber_pos hl).ne'
  have e : v.phase (x + (v.current + v.omega / v.wavenumber) * t) t = v.phase x 0 := by
    unfold phase
    field_simp
    ring
  unfold eta u
  rw [e]
  exact ⟨rfl, rfl⟩

theorem initProfile_eq (x z : ℝ) :
    v.initProfile x z = ![v.u x z 0 - v.current, 0, v.w x z 0, v.eta x 0] := by
  unfold initProfile u w eta phase
  simp only [mul_zero, sub_zero]
  funext n
  fin_cases n <;> simp

/-- C59. The initial state with waves everywhere and no beach is the target at time zero, in every cell of the domain that
is not in the air. -/
theorem init_eq_target {tol cell xlo xhi gen beach : ℝ} {old : Fin 3 → ℝ} {x z : ℝ} {p : WaveVec}
    (h : v.init tol cell xlo xhi gen beach true false old x z = some p) (hx : xlo ≤ x) (hw : v.eta x 0 - z + cell ≥ 0) :
    p = v.target cell xlo x z 0 := by
  unfold init at h
  simp only [Option.bind_eq_bind, if_true, Bool.false_eq_true, if_false] at h
  obtain ⟨q, hq, h⟩ := Option.bind_eq_some_iff.mp h
  obtain ⟨a, b, c, _, _, _, s, hm⟩ := harmonize_mixes hq
  have e : q = v.initProfile x z := by
    funext n
    rw [hm]
    linear_combination (v.initProfile x z n) * s
  rw [e, initProfile_eq,
    if_pos (show (![v.u x z 0 - v.current, 0, v.w x z 0, v.eta x 0] : WaveVec) 3 - z + cell ≥ 0 from hw)] at h
  unfold target
  simp only [max_eq_right hx]
  rw [if_pos hw]
  rw [← Option.some.inj h]
  funext n
  fin_cases n <;> simp

/-- C59. With a beach as well: the initial state with waves is the target, blended towards still water at the outlet, at
time zero, wherever the wave and the blend are under water. -/
theorem init_eq_beach_target {tol cell xlo xhi gen beach : ℝ} {old : Fin 3 → ℝ} {x z : ℝ} {p q : WaveVec}
    (h : v.init tol cell xlo xhi gen beach true true old x z = some p)
    (hq : v.beachTarget tol cell xlo xhi gen beach x z 0 = some q) (hx : xlo ≤ x) (hw : v.eta x 0 - z + cell ≥ 0)
    (hb : q 3 + cell ≥ 0) : p = q := by
  unfold init at h
  simp only [Option.bind_eq_bind, if_true] at h
  obtain ⟨r, hr, h⟩ := Option.bind_eq_some_iff.mp h
  unfold beachTarget at hq
  -- the same weights in both blends
  have key : ∀ {left left' right right' r r' : WaveVec},
      harmonize1 tol x xlo gen xhi beach left left right = some r →
      harmonize1 tol x xlo gen xhi beach left' left' right' = some r' →
      ∃ a, ∀ n, r n = (1 - a) * left n + a * right n ∧ r' n = (1 - a) * left' n + a * right' n := by
    intro left left' right right' r r' h1 h2
    unfold harmonize1 at h1 h2
    by_cases c1 : x ≤ xlo + gen
    · rw [if_pos c1] at h1 h2
      cases h1; cases h2
      exact ⟨0, fun n => ⟨by ring, by ring⟩⟩
    · rw [if_neg c1] at h1 h2
      by_cases c2 : x + beach ≥ xhi
      · rw [if_pos c2] at h1 h2
        cases h1; cases h2
        exact ⟨1, fun n => ⟨by ring, by ring⟩⟩
      · rw [if_neg c2] at h1 h2
        rcases hg : gammaGenerate (x - (xlo + gen)) (1 / 2 * gen) with _ | gl
        · rw [hg] at h1; cases h1
        · rcases ha : gammaAbsorb (x - (xhi - 3 / 2 * beach)) (1 / 2 * beach) 1 with _ | gr
          · rw [hg, ha] at h1; cases h1
          · rw [hg, ha] at h1 h2
            cases h1; cases h2
            by_cases hr : gr > 1 - tol
            · refine ⟨0, fun n => ?_⟩
              simp only [if_pos hr, combineLinear]
              constructor <;> ring
            · refine ⟨1 - gr, fun n => ?_⟩
              simp only [if_neg hr, combineLinear]
              constructor <;> ring
  obtain ⟨a, ha⟩ := key hr hq
  have ht : v.target cell xlo x z 0 = ![v.u x z 0, 0, v.w x z 0, v.eta x 0 - z] := by
    unfold target
    simp only [max_eq_right hx]
    rw [if_pos hw]
  rw [ht, initProfile_eq] at ha
  have h0 := ha 0
  have h1 := ha 1
  have h2 := ha 2
  have h3 := ha 3
  simp only [Matrix.cons_val] at h0 h1 h2 h3
  have e3 : q 3 = r 3 - z := by rw [h3.1, h3.2]; ring
  rw [← e3] at h
  rw [if_pos hb] at h
  rw [← Option.some.inj h]
  funext n
  fin_cases n
  · show v.current + r 0 = q 0
    rw [h0.1, h0.2]
    ring
  · show r 1 = q 1
    rw [h1.1, h1.2]
  · show r 2 = q 2
    rw [h2.1, h2.2]
  · rfl

end LinWave

/-! ## Stokes waves (C61) -/

namespace StWave
variable (v : StWave) (c : Coeffs)

theorem st_phase_dx (x t : ℝ) : HasDerivAt (fun x => v.phase c x t) v.wavenumber x := by
  unfold phase
  have := (((hasDerivAt_id x).const_mul v.wavenumber).sub_const (v.omega c * t)).sub_const v.offset
  simpa using this

/-- C61. The crest is the wave height above the trough: a point where the phase is zero and one where it is half a turn
differ in elevation by the wave height, at every order. -/
theorem stokes_height (hl : 0 < v.length) {x y t : ℝ} (h0 : v.phase c x t = 0) (h1 : v.phase c y t = Real.pi) :
    v.eta c x t - v.eta c y t = v.height := by
  have hk : v.wavenumber ≠ 0 := by
    unfold wavenumber
    have := Real.pi_pos
    positivity
  unfold eta
  simp only [h0, h1]
  have e2 : Real.cos (2 * Real.pi) = 1 := Real.cos_two_pi
  have e3 : Real.cos (3 * Real.pi) = -1 := by
    rw [show (3 : ℝ) * Real.pi = Real.pi + 2 * Real.pi by ring, Real.cos_add_two_pi, Real.cos_pi]
  have e4 : Real.cos (4 * Real.pi) = 1 := by
    rw [show (4 : ℝ) * Real.pi = 2 * Real.pi + 2 * Real.pi by ring, Real.cos_add_two_pi, Real.cos_two_pi]
  have e5 : Real.cos (5 * Real.pi) = -1 := by
    rw [show (5 : ℝ) * Real.pi = (Real.pi + 2 * Real.pi) + 2 * Real.pi by ring, Real.cos_add_two_pi, Real.cos_add_two_pi,
      Real.cos_pi]
  simp only [mul_zero, Real.cos_zero, Real.cos_pi, e2, e3, e4, e5]
  unfold eps
  field_simp
  ring

/-- C61. Crest and trough occur half a wavelength apart. -/
theorem stokes_crest_trough (hl : 0 < v.length) (t : ℝ) :
    ∃ x, v.phase c x t = 0 ∧ v.phase c (x + v.length / 2) t = Real.pi := by
  have hp := Real.pi_pos
  refine ⟨(v.omega c * t + v.offset) / v.wavenumber, ?_, ?_⟩
  · unfold phase wavenumber
    field_simp
    ring
  · unfold phase wavenumber
    field_simp
    ring

/-- C61. The wave repeats after one wavelength. -/
theorem stokes_periodic (hl : 0 < v.length) (x z t : ℝ) :
    v.eta c (x + v.length) t = v.eta c x t ∧ v.u c (x + v.length) z t = v.u c x z t ∧
      v.w c (x + v.length) z t = v.w c x z t := by
  have e : v.phase c (x + v.length) t = v.phase c x t + 2 * Real.pi := by
    unfold phase wavenumber
    field_simp
    ring
  have hc : ∀ (n : ℕ) (p : ℝ), Real.cos (n * (p + 2 * Real.pi)) = Real.cos (n * p) := by
    intro n p
    rw [mul_add]
    exact Real.cos_add_nat_mul_two_pi _ n
  have hs : ∀ (n : ℕ) (p : ℝ), Real.sin (n * (p + 2 * Real.pi)) = Real.sin (n * p) := by
    intro n p
    rw [mul_add]
    exact Real.sin_add_nat_mul_two_pi _ n
  refine ⟨?_, ?_, ?_⟩
  · unfold eta
    have c2 := hc 2 (v.phase c x t)
    have c3 := hc 3 (v.phase c x t)
    have c4 := hc 4 (v.phase c x t)
    have c5 := hc 5 (v.phase c x t)
    push_cast at c2 c3 c4 c5
    rw [e]
    simp only [Real.cos_add_two_pi, c2, c3, c4, c5]
  · unfold u
    rw [e]
    congr 1
    refine Finset.sum_congr rfl fun n _ => ?_
    have := hc (n + 1) (v.phase c x t)
    push_cast at this
    rw [this]
  · unfold w
    rw [e]
    congr 1
    refine Finset.sum_congr rfl fun n _ => ?_
    have := hs (n + 1) (v.phase c x t)
    push_cast at this
    rw [this]

/-- C61. Averaged over a wavelength the elevation is the sea level. -/
theorem stokes_mean_level (hl : 0 < v.length) (a t : ℝ) :
    ∫ x in a..(a + v.length), v.eta c x t = v.zsl * v.length := by
  have hp := Real.pi_pos
  have hk : v.wavenumber ≠ 0 := by
    unfold wavenumber
    positivity
  -- a primitive
  let P : ℝ → ℝ := fun p => v.eps * Real.sin p + v.eps ^ 2 * c.b22 * (Real.sin (2 * p) / 2) +
    v.eps ^ 3 * c.b31 * (Real.sin p - Real.sin (3 * p) / 3) +
    v.eps ^ 4 * (c.b42 * (Real.sin (2 * p) / 2) + c.b44 * (Real.sin (4 * p) / 4)) +
    v.eps ^ 5 * (-(c.b53 + c.b55) * Real.sin p + c.b53 * (Real.sin (3 * p) / 3) + c.b55 * (Real.sin (5 * p) / 5))
  have hmul : ∀ (m p : ℝ), m ≠ 0 → HasDerivAt (fun p => Real.sin (m * p) / m) (Real.cos (m * p)) p := by
    intro m p hm
    have := ((hasDerivAt_id p).const_mul m).sin.div_const m
    refine this.congr_deriv ?_
    simp only [id]
    field_simp
  have hP : ∀ p, HasDerivAt P (v.eps * Real.cos p + v.eps ^ 2 * c.b22 * Real.cos (2 * p) +
      v.eps ^ 3 * c.b31 * (Real.cos p - Real.cos (3 * p)) +
      v.eps ^ 4 * (c.b42 * Real.cos (2 * p) + c.b44 * Real.cos (4 * p)) +
      v.eps ^ 5 * (-(c.b53 + c.b55) * Real.cos p + c.b53 * Real.cos (3 * p) + c.b55 * Real.cos (5 * p))) p := by
    intro p
    have s1 := Real.hasDerivAt_sin p
    have s2 := hmul 2 p (by norm_num)
    have s3 := hmul 3 p (by norm_num)
    have s4 := hmul 4 p (by norm_num)
    have s5 := hmul 5 p (by norm_num)
    exact ((((s1.const_mul v.eps).add (s2.const_mul (v.eps ^ 2 * c.b22))).add
      ((s1.sub s3).const_mul (v.eps ^ 3 * c.b31))).add
      (((s2.const_mul c.b42).add (s4.const_mul c.b44)).const_mul (v.eps ^ 4))).add
      ((((s1.const_mul (-(c.b53 + c.b55))).add (s3.const_mul c.b53)).add (s5.const_mul c.b55)).const_mul (v.eps ^ 5))
  let F : ℝ → ℝ := fun x => P (v.phase c x t) / v.wavenumber / v.wavenumber + v.zsl * x
  have hF : ∀ x, HasDerivAt F (v.eta c x t) x := by
    intro x
    have := ((((hP (v.phase c x t)).comp x (v.st_phase_dx c x t)).div_const v.wavenumber).div_const v.wavenumber).add
      ((hasDerivAt_id x).const_mul v.zsl)
    refine this.congr_deriv ?_
    unfold eta
    field_simp
  have hcont : Continuous fun x => v.eta c x t := by
    unfold eta phase
    fun_prop
  rw [intervalIntegral.integral_eq_sub_of_hasDerivAt (fun x _ => hF x) (hcont.intervalIntegrable _ _)]
  have e : v.phase c (a + v.length) t = v.phase c a t + 2 * Real.pi := by
    unfold phase wavenumber
    field_simp
    ring
  have hs : ∀ (n : ℕ) (p : ℝ), Real.sin (n * (p + 2 * Real.pi)) = Real.sin (n * p) := by
    intro n p
    rw [mul_add]
    exact Real.sin_add_nat_mul_two_pi _ n
  have s2 := hs 2 (v.phase c a t)
  have s3 := hs 3 (v.phase c a t)
  have s4 := hs 4 (v.phase c a t)
  have s5 := hs 5 (v.phase c a t)
  push_cast at s2 s3 s4 s5
  simp only [F, P]
  rw [e]
  simp only [Real.sin_add_two_pi, s2, s3, s4, s5]
  ring

/-- C61, the part that holds: while no argument of the hyperbolic functions reaches the cap, the velocity is divergence free
and irrotational. Missing: deep water, see `stokes_deep_no_decay`. -/
theorem stokes_field_partial (x z t : ℝ)
    (hz : ∀ n < v.order, (n + 1 : ℝ) * v.wavenumber * (v.depth + (z - v.zsl)) < cap) : ∃ ux wz uz wx : ℝ,
    HasDerivAt (fun x => v.u c x z t) ux x ∧ HasDerivAt (fun z => v.w c x z t) wz z ∧ ux + wz = 0 ∧
    HasDerivAt (fun z => v.u c x z t) uz z ∧ HasDerivAt (fun x => v.w c x z t) wx x ∧ uz = wx := by
  have harg : ∀ n < v.order, HasDerivAt (fun z => v.arg n z) ((n + 1 : ℝ) * v.wavenumber) z := by
    intro n hn
    have h1 : HasDerivAt (fun z => (n + 1 : ℝ) * v.wavenumber * (v.depth + (z - v.zsl))) ((n + 1 : ℝ) * v.wavenumber) z := by
      have := (((hasDerivAt_id z).sub_const v.zsl).const_add v.depth).const_mul ((n + 1 : ℝ) * v.wavenumber)
      simpa using this
    refine h1.congr_of_eventuallyEq ?_
    have hev := h1.continuousAt.eventually (gt_mem_nhds (hz n hn))
    filter_upwards [hev] with y hy
    unfold arg
    exact min_eq_left (le_of_lt hy)
  have hph : ∀ n : ℕ, HasDerivAt (fun x => (n + 1 : ℝ) * v.phase c x t) ((n + 1 : ℝ) * v.wavenumber) x := fun n =>
    (v.st_phase_dx c x t).const_mul _
  have u1 := HasDerivAt.fun_sum (u := Finset.range v.order) (fun n _ =>
    (hph n).cos.const_mul (v.eps ^ (n + 1) * (n + 1 : ℝ) * v.amp c n * Real.cosh (v.arg n z)))
  have w1 := HasDerivAt.fun_sum (u := Finset.range v.order) (fun n hn =>
    ((harg n (Finset.mem_range.mp hn)).sinh.const_mul (v.eps ^ (n + 1) * (n + 1 : ℝ) * v.amp c n)).mul_const
      (Real.sin ((n + 1 : ℝ) * v.phase c x t)))
  have u2 := HasDerivAt.fun_sum (u := Finset.range v.order) (fun n hn =>
    ((harg n (Finset.mem_range.mp hn)).cosh.const_mul (v.eps ^ (n + 1) * (n + 1 : ℝ) * v.amp c n)).mul_const
      (Real.cos ((n + 1 : ℝ) * v.phase c x t)))
  have w2 := HasDerivAt.fun_sum (u := Finset.range v.order) (fun n _ =>
    (hph n).sin.const_mul (v.eps ^ (n + 1) * (n + 1 : ℝ) * v.amp c n * Real.sinh (v.arg n z)))
  refine ⟨_, _, _, _, u1.mul_const (c.c0 * Real.sqrt (v.g / v.wavenumber)), w1.mul_const _, ?_, u2.mul_const _,
    w2.mul_const _, ?_⟩
  · rw [← add_mul, ← Finset.sum_add_distrib, Finset.sum_eq_zero, zero_mul]
    intro n _
    ring
  · congr 1
    refine Finset.sum_congr rfl fun n _ => ?_
    ring

/-- C61. No flow through the bottom. -/
theorem stokes_bottom (x t : ℝ) : v.w c x (v.zsl - v.depth) t = 0 := by
  unfold w
  rw [Finset.sum_eq_zero, zero_mul]
  intro n _
  unfold arg
  rw [show (n + 1 : ℝ) * v.wavenumber * (v.depth + (v.zsl - v.depth - v.zsl)) = 0 by ring,
    min_eq_left (by unfold cap; have := Real.pi_pos; positivity), Real.sinh_zero]
  ring

/-- C61 is false of the code in deep water: where the depth below a point is 25 wavelengths or more, the velocity does not
depend on the height at all. -/
theorem stokes_deep_no_decay (hl : 0 < v.length) {x y z t : ℝ} (h : v.depth + (z - v.zsl) ≥ 25 * v.length)
    (h' : v.depth + (y - v.zsl) ≥ 25 * v.length) : v.u c x z t = v.u c x y t ∧ v.w c x z t = v.w c x y t := by
  have hk : 0 < v.wavenumber := by
    unfold wavenumber
    have := Real.pi_pos
    positivity
  have harg : ∀ (n : ℕ) (z : ℝ), v.depth + (z - v.zsl) ≥ 25 * v.length → v.arg n z = cap := by
    intro n z hz
    unfold arg
    apply min_eq_right
    have e : v.wavenumber * (25 * v.length) = cap := by
      unfold wavenumber cap
      field_simp
      norm_num
    have h1 : v.wavenumber * (25 * v.length) ≤ v.wavenumber * (v.depth + (z - v.zsl)) := mul_le_mul_of_nonneg_left hz hk.le
    have hc : 0 ≤ v.wavenumber * (v.depth + (z - v.zsl)) := le_trans (by positivity) h1
    rw [← e]
    rw [mul_assoc]
    have hn : (1 : ℝ) ≤ n + 1 := by
      have := Nat.cast_nonneg (α := ℝ) n
      linarith
    nlinarith
  unfold u w
  constructor
  · congr 1
    refine Finset.sum_congr rfl fun n _ => ?_
    rw [harg n z h, harg n y h']
  · congr 1
    refine Finset.sum_congr rfl fun n _ => ?_
    rw [harg n z h, harg n y h']

end StWave

theorem sech2_eq (kd : ℝ) : sech2 kd = 1 / Real.cosh (2 * kd) := by
  unfold sech2
  rw [Real.cosh_eq]
  have h1 : Real.exp (4 * kd) = Real.exp (2 * kd) * Real.exp (2 * kd) := by
    rw [← Real.exp_add]
    congr 1
    ring
  have h2 : Real.exp (-(2 * kd)) = (Real.exp (2 * kd))⁻¹ := Real.exp_neg _
  have h3 := Real.exp_pos (2 * kd)
  rw [h1, h2]
  generalize Real.exp (2 * kd) = e at *
  have : e * e + 1 ≠ 0 := by positivity
  field_simp

/-- C61. To second order the coefficients are the classical ones of Stokes' expansion:
amplitude of the second harmonic of the velocity potential `3 / (8 sinh⁴ kd)`, of the elevation
`cosh kd (2 + cosh 2kd) / (4 sinh³ kd)`. -/
theorem stokes_second_order {k d : ℝ} (hk : 0 < k * d) (hc : k * d ≤ cap) : ∃ q, stokesCoeffs 2 k d = some q ∧
    q.c0 ^ 2 = Real.tanh (k * d) ∧ q.a11 = 1 / Real.sinh (k * d) ∧ q.a22 = 3 / (8 * Real.sinh (k * d) ^ 4) ∧
    q.b22 = Real.cosh (k * d) * (2 + Real.cosh (2 * (k * d))) / (4 * Real.sinh (k * d) ^ 3) := by
  refine ⟨_, rfl, ?_, ?_, ?_, ?_⟩
  · simp only [min_eq_left hc]
    exact Real.sq_sqrt (LinWave.tanh_pos hk).le
  · simp only [min_eq_left hc]
  · simp only [min_eq_left hc, sech2_eq]
    have h1 : Real.cosh (2 * (k * d)) = 1 + 2 * Real.sinh (k * d) ^ 2 := by
      rw [Real.cosh_two_mul, Real.cosh_sq]; ring
    have hs : 0 < Real.sinh (k * d) := Real.sinh_pos_iff.mpr hk
    rw [h1]
    generalize Real.sinh (k * d) = s at *
    have : (1 + 2 * s ^ 2) ≠ 0 := by positivity
    have e : 1 - 1 / (1 + 2 * s ^ 2) = 2 * s ^ 2 / (1 + 2 * s ^ 2) := by field_simp; ring
    rw [e]
    field_simp
    norm_num
  · simp only [min_eq_left hc, sech2_eq]
    have hs : 0 < Real.sinh (k * d) := Real.sinh_pos_iff.mpr hk
    have hct : (1 + Real.exp (-2 * (k * d))) / (1 - Real.exp (-2 * (k * d))) = Real.cosh (k * d) / Real.sinh (k * d) := by
      rw [Real.cosh_eq, Real.sinh_eq] at *
      have e1 : Real.exp (-2 * (k * d)) = Real.exp (-(k * d)) * Real.exp (-(k * d)) := by
        rw [← Real.exp_add]; congr 1; ring
      have e2 : Real.exp (k * d) * Real.exp (-(k * d)) = 1 := by rw [← Real.exp_add]; simp
      have p1 := Real.exp_pos (k * d)
      have p2 := Real.exp_pos (-(k * d))
      rw [e1]
      generalize Real.exp (k * d) = a at *
      generalize Real.exp (-(k * d)) = b at *
      have hb : b = a⁻¹ := by field_simp; linarith
      subst hb
      have hne : a - a⁻¹ ≠ 0 := by intro h0; rw [h0] at hs; norm_num at hs
      have hne2 : 1 - a⁻¹ * a⁻¹ ≠ 0 := by
        intro h0
        apply hne
        have : a * (1 - a⁻¹ * a⁻¹) = a - a⁻¹ := by field_simp
        rw [← this, h0, mul_zero]
      have hne3 : a ^ 2 - 1 ≠ 0 := by
        intro h0
        apply hne2
        have : a⁻¹ * a⁻¹ * (a ^ 2 - 1) = 1 - a⁻¹ * a⁻¹ := by field_simp
        rw [← this, h0, mul_zero]
      field_simp
    have h1 : Real.cosh (2 * (k * d)) = 1 + 2 * Real.sinh (k * d) ^ 2 := by
      rw [Real.cosh_two_mul, Real.cosh_sq]; ring
    rw [hct, h1]
    generalize Real.sinh (k * d) = s at *
    have hn : (1 + 2 * s ^ 2) ≠ 0 := by positivity
    have e : 1 - 1 / (1 + 2 * s ^ 2) = 2 * s ^ 2 / (1 + 2 * s ^ 2) := by field_simp; ring
    rw [e]
    field_simp
    ring

/-- C61. A wave in water 30 wavelengths deep: the crest velocity one wavelength below the surface is the one at the surface,
and not zero. -/
theorem stokes_deep_counterexample :
    let v : StWave := { order := 2, length := 1, depth := 30, height := 1 / 10, zsl := 0, g := 10, offset := 0 }
    ∃ c, stokesCoeffs 2 v.wavenumber v.depth = some c ∧ v.u c 0 (-1) 0 = v.u c 0 0 0 ∧ 0 < v.u c 0 0 0 := by
  intro v
  refine ⟨_, rfl, (StWave.stokes_deep_no_decay v _ (by norm_num [v]) (by norm_num [v]) (by norm_num [v])).1, ?_⟩
  have hk : 0 < v.wavenumber := by
    unfold StWave.wavenumber
    have := Real.pi_pos
    norm_num [v]
    positivity
  have hcap : 0 < cap := by unfold cap; have := Real.pi_pos; positivity
  have hkd : 0 < min (v.wavenumber * v.depth) cap := lt_min (by positivity) hcap
  have hS : 0 < sech2 (min (v.wavenumber * v.depth) cap) := by
    unfold sech2
    positivity
  have hS1 : sech2 (min (v.wavenumber * v.depth) cap) < 1 := by
    rw [sech2_eq, div_lt_one (Real.cosh_pos _)]
    exact Real.one_lt_cosh.mpr (by linarith)
  have heps : 0 < v.eps := by
    unfold StWave.eps
    norm_num [v] at hk ⊢
    linarith
  have hth := LinWave.tanh_pos hkd
  have hsh : 0 < Real.sinh (min (v.wavenumber * v.depth) cap) := Real.sinh_pos_iff.mpr hkd
  have hC : 0 < 1 - sech2 (min (v.wavenumber * v.depth) cap) := by linarith
  have key : ∀ c : Coeffs, 0 < c.c0 → 0 < c.a11 → 0 < c.a22 → 0 < v.u c 0 0 0 := by
    intro c h0 h1 h2
    unfold StWave.u
    have hp : v.phase c 0 0 = 0 := by
      unfold StWave.phase
      norm_num [v]
    have hg : (0 : ℝ) < v.g := by norm_num [v]
    have hs := Real.sqrt_pos.mpr (div_pos hg hk)
    apply mul_pos
    · rw [show v.order = 2 from rfl, Finset.sum_range_succ, Finset.sum_range_succ, Finset.sum_range_zero, hp]
      simp only [mul_zero, Real.cos_zero, mul_one]
      rw [show v.amp c 0 = c.a11 from rfl, show v.amp c 1 = c.a22 from rfl]
      have b0 := Real.cosh_pos (v.arg 0 0)
      have b1 := Real.cosh_pos (v.arg 1 0)
      positivity
    · positivity
  apply key
  · exact Real.sqrt_pos.mpr hth
  · exact one_div_pos.mpr hsh
  · show 0 < 3 * _ ^ 2 / (2 * _ ^ 2)
    positivity

/-! ## The wavelength from the period (C60) -/

/-- The dispersion relation the code solves, for a wave of wavenumber `k`: its squared frequency. -/
noncomputable def frequencySq (order : ℕ) (d height g k : ℝ) : ℝ :=
  let q := newtonConsts d height k
  g * k * (q.c0 + (if order ≥ 2 then q.eps ^ 2 * q.c2 else 0) + (if order ≥ 4 then q.eps ^ 4 * q.c4 else 0)) ^ 2

/-- C60. With the constants of the wavenumber itself, the residual of the code is that of the dispersion relation. -/
theorem dispersion_eq (order : ℕ) (d height g k : ℝ) :
    dispersion order g k (newtonConsts d height k) = frequencySq order d height g k := by
  unfold dispersion frequencySq
  simp only
  by_cases h2 : order ≥ 2
  · by_cases h4 : order ≥ 4
    · simp only [if_pos h2, if_pos h4]; ring
    · simp only [if_pos h2, if_neg h4]; ring
  · have h4 : ¬ order ≥ 4 := by omega
    simp only [if_neg h2, if_neg h4]; ring

theorem newton_converged {order : ℕ} {omega d height g tol : ℝ} : ∀ (fuel : ℕ) (k f : ℝ) {k' : ℝ} {left : ℕ},
    newtonLoop order omega d height g tol fuel k f = some (k', left) → 0 < left →
    (k' = k ∧ |f| ≤ tol) ∨ ∃ kp fp, tol < |fp| ∧
      k' = kp - fp / dispersionSlope order g height kp (newtonConsts d height kp) ∧
      |dispersion order g k' (newtonConsts d height kp) - omega * omega| ≤ tol := by
  intro fuel
  induction fuel with
  | zero =>
    intro k f k' left h hl
    unfold newtonLoop at h
    cases h
    omega
  | succ n ih =>
    intro k f k' left h hl
    unfold newtonLoop at h
    by_cases hf : |f| > tol
    · rw [if_pos hf] at h
      simp only at h
      by_cases hn : Real.tanh (k * d) ≤ 0 ∨ dispersionSlope order g height k (newtonConsts d height k) = 0
      · rw [if_pos hn] at h; cases h
      · rw [if_neg hn] at h
        rcases ih _ _ h hl with ⟨h1, h2⟩ | h1
        · right
          refine ⟨k, f, hf, h1, ?_⟩
          rw [h1]
          exact h2
        · exact Or.inr h1
    · rw [if_neg hf] at h
      cases h
      exact Or.inl ⟨rfl, not_lt.mp hf⟩

/-- C60, the part that holds: a wavelength that is returned is positive, and its wavenumber satisfies the dispersion relation
to the tolerance with the constants of the iterate before it. Missing: the constants of the wavenumber itself, and that a
wavelength is found at all, see `long_wave_fails`. -/
theorem wavelength_residual_partial {period d height g tol : ℝ} {order iterMax : ℕ} {lam : ℝ} (ht : 0 < tol)
    (h : stokesWaveLength period d height order g tol iterMax = some lam) :
    0 < lam ∧ ∃ kp, |dispersion order g (2 * Real.pi / lam) (newtonConsts d height kp) - (2 * Real.pi / period) ^ 2| ≤ tol ∧
      ∃ fp, 2 * Real.pi / lam = kp - fp / dispersionSlope order g height kp (newtonConsts d height kp) := by
  unfold stokesWaveLength at h
  simp only at h
  have hp := Real.pi_pos
  rcases hl : newtonLoop order (2 * Real.pi / period) d height g tol iterMax
    (2 * Real.pi / period * (2 * Real.pi / period) / g) (tol + 1) with _ | ⟨k, left⟩
  · rw [hl] at h; cases h
  · rw [hl] at h
    simp only at h
    by_cases h1 : k < tol
    · rw [if_pos h1] at h; cases h
    · rw [if_neg h1] at h
      by_cases h2 : left = 0
      · rw [if_pos h2] at h; cases h
      · rw [if_neg h2] at h
        have hk : 0 < k := lt_of_lt_of_le ht (not_lt.mp h1)
        have e := Option.some.inj h
        have ek : 2 * Real.pi / lam = k := by
          rw [← e]
          field_simp
        refine ⟨by rw [← e]; positivity, ?_⟩
        rcases newton_converged _ _ _ hl (Nat.pos_of_ne_zero h2) with ⟨_, h4⟩ | ⟨kp, fp, _, h5, h6⟩
        · rw [abs_of_pos (by linarith)] at h4
          linarith
        · refine ⟨kp, ?_, fp, ?_⟩
          · rw [ek, pow_two]
            exact h6
          · rw [ek]; exact h5

theorem slope_one {d height g k : ℝ} (hd : 0 < d) (hk : 0 < k) :
    dispersionSlope 1 g height k (newtonConsts d height k) =
      g * (Real.tanh (k * d) + k * d / Real.cosh (k * d) ^ 2) := by
  have ht := LinWave.tanh_pos (mul_pos hk hd)
  have hs := Real.sqrt_pos.mpr ht
  have hc := Real.cosh_pos (k * d)
  unfold dispersionSlope newtonConsts
  simp only [show ¬ (1 ≥ 2) by omega, show ¬ (1 ≥ 4) by omega, if_false, add_zero]
  rw [Real.sq_sqrt ht.le]
  field_simp

theorem slope_one_bounds {d height g k : ℝ} (hd : 0 < d) (hk : 0 < k) (hg : 0 < g) :
    0 < dispersionSlope 1 g height k (newtonConsts d height k) ∧
      dispersionSlope 1 g height k (newtonConsts d height k) ≤ 2 * g := by
  rw [slope_one hd hk]
  have hkd := mul_pos hk hd
  have ht := LinWave.tanh_pos hkd
  have hc := Real.cosh_pos (k * d)
  have h1 : Real.tanh (k * d) ≤ 1 := by
    rw [Real.tanh_eq_sinh_div_cosh, div_le_one hc]
    exact (Real.sinh_lt_cosh _).le
  have h2 : k * d / Real.cosh (k * d) ^ 2 ≤ 1 := by
    rw [div_le_one (by positivity)]
    have a : k * d ≤ Real.sinh (k * d) := Real.self_le_sinh_iff.mpr hkd.le
    have b := Real.sinh_lt_cosh (k * d)
    have c := Real.one_le_cosh (k * d)
    nlinarith
  constructor
  · positivity
  · nlinarith

/-- C60 is false of the code: with the linear dispersion relation, no wave whose frequency is below `1/√2` per second (period
above 8.9 s) gets a wavelength, whatever the depth and gravity: the first Newton step uses a made-up residual and leaves the
positive numbers. -/
theorem long_wave_fails {period d height g tol : ℝ} {iterMax : ℕ} (hd : 0 < d) (hg : 0 < g) (hp : 0 < period)
    (hl : (2 * Real.pi / period) ^ 2 < 1 / 2) (ht : 0 < tol) (ht' : tol < (2 * Real.pi / period) ^ 2) :
    stokesWaveLength period d height 1 g tol iterMax = none := by
  have hpi := Real.pi_pos
  unfold stokesWaveLength
  simp only
  have hom : 0 < 2 * Real.pi / period := by positivity
  generalize 2 * Real.pi / period = om at *
  rcases iterMax with _ | n
  · unfold newtonLoop
    simp
  · have hk : 0 < om * om / g := by positivity
    obtain ⟨s0, s1⟩ := slope_one_bounds (height := height) hd hk hg
    have hth := LinWave.tanh_pos (mul_pos hk hd)
    -- the first step
    have hneg : om * om / g - (tol + 1) / dispersionSlope 1 g height (om * om / g) (newtonConsts d height (om * om / g)) < 0 := by
      have a : om * om / g < 1 / (2 * g) := by
        rw [div_lt_div_iff₀ hg (by positivity)]
        nlinarith
      have b : 1 / (2 * g) ≤ (tol + 1) / dispersionSlope 1 g height (om * om / g) (newtonConsts d height (om * om / g)) := by
        rw [div_le_div_iff₀ (by positivity) s0]
        nlinarith
      linarith
    unfold newtonLoop
    rw [if_pos (by rw [abs_of_pos (by linarith)]; linarith)]
    simp only
    rw [if_neg (by push Not; exact ⟨hth, s0.ne'⟩)]
    generalize om * om / g - (tol + 1) / dispersionSlope 1 g height (om * om / g) (newtonConsts d height (om * om / g)) = k1 at *
    rcases n with _ | n
    · unfold newtonLoop
      simp only [if_pos (lt_trans hneg ht)]
    · unfold newtonLoop
      have hres : |dispersion 1 g k1 (newtonConsts d height (om * om / g)) - om * om| > tol := by
        have e : dispersion 1 g k1 (newtonConsts d height (om * om / g)) = g * k1 * Real.tanh (om * om / g * d) := by
          unfold dispersion newtonConsts
          simp only [show ¬ (1 ≥ 2) by omega, show ¬ (1 ≥ 4) by omega, if_false, add_zero]
          rw [Real.sq_sqrt hth.le]
        rw [e]
        have h1 : g * k1 * Real.tanh (om * om / g * d) < 0 :=
          mul_neg_of_neg_of_pos (mul_neg_of_pos_of_neg hg hneg) hth
        rw [abs_of_neg (by nlinarith)]
        nlinarith
      rw [if_pos hres]
      simp only
      rw [if_pos (Or.inl ?_)]
      rw [Real.tanh_eq_sinh_div_cosh]
      exact div_nonpos_of_nonpos_of_nonneg (Real.sinh_nonpos_iff.mpr (mul_neg_of_neg_of_pos hneg hd).le)
        (Real.cosh_pos _).le

theorem tanh_near_one {x : ℝ} (hx : 39 / 4 ≤ x) : 999 / 1000 ≤ Real.tanh x ∧ Real.tanh x ≤ 1 ∧
    x / Real.cosh x ^ 2 ≤ 1 / 100 := by
  have hc := Real.cosh_pos x
  have he := Real.exp_pos x
  have hb : 95 ≤ Real.exp x := by
    have h1 := Real.pow_div_factorial_le_exp x (by linarith) 3
    have h2 : (39 / 4 : ℝ) ^ 3 ≤ x ^ 3 := pow_le_pow_left₀ (by norm_num) hx 3
    norm_num [Nat.factorial] at h1 h2
    linarith
  have h3 : Real.exp (-x) = (Real.exp x)⁻¹ := Real.exp_neg x
  have hm : Real.exp x * Real.exp (-x) = 1 := by rw [h3]; field_simp
  have hp := Real.exp_pos (-x)
  refine ⟨?_, ?_, ?_⟩
  · rw [Real.tanh_eq_sinh_div_cosh, le_div_iff₀ hc, Real.sinh_eq, Real.cosh_eq]
    nlinarith
  · rw [Real.tanh_eq_sinh_div_cosh, div_le_one hc]
    exact (Real.sinh_lt_cosh _).le
  · rw [div_le_iff₀ (by positivity), Real.cosh_eq]
    have h4 := Real.pow_div_factorial_le_exp x (by linarith) 3
    norm_num [Nat.factorial] at h4
    have h5 : x ≤ Real.exp x / 15 := by nlinarith [mul_nonneg (by linarith : (0 : ℝ) ≤ x) (by nlinarith : (0 : ℝ) ≤ x ^ 2 - 90)]
    nlinarith

/-- A case in which a wavelength is found (frequency 10, gravity 10, depth 1, tolerance 1): two Newton steps. -/
example : ∃ lam, stokesWaveLength (2 * Real.pi / 10) 1 1 1 10 1 40 = some lam := by
  have hpi := Real.pi_pos
  have ew : 2 * Real.pi / (2 * Real.pi / 10) = 10 := by field_simp
  have slope : ∀ k : ℝ, 39 / 4 ≤ k → 999 / 100 ≤ dispersionSlope 1 10 1 k (newtonConsts 1 1 k) ∧
      dispersionSlope 1 10 1 k (newtonConsts 1 1 k) ≤ 101 / 10 := by
    intro k hk
    rw [slope_one one_pos (by linarith), mul_one]
    obtain ⟨a, b, c⟩ := tanh_near_one hk
    have : 0 ≤ k / Real.cosh k ^ 2 := by positivity
    constructor <;> linarith
  have disp : ∀ k q : ℝ, 39 / 4 ≤ q → dispersion 1 10 k (newtonConsts 1 1 q) = 10 * k * Real.tanh q := by
    intro k q hq
    unfold dispersion newtonConsts
    simp only [show ¬ (1 ≥ 2) by omega, show ¬ (1 ≥ 4) by omega, if_false, add_zero]
    rw [Real.sq_sqrt (LinWave.tanh_pos (by linarith)).le, mul_one]
  unfold stokesWaveLength
  simp only [ew]
  have e0 : (10 * 10 / 10 : ℝ) = 10 := by norm_num
  rw [e0]
  obtain ⟨s0, s0'⟩ := slope 10 (by norm_num)
  obtain ⟨t0, t0', _⟩ := tanh_near_one (x := 10) (by norm_num)
  unfold newtonLoop
  rw [if_pos (by norm_num)]
  simp only
  rw [if_neg (by push Not; exact ⟨LinWave.tanh_pos (by norm_num), by linarith⟩)]
  have hk1 : 979 / 100 ≤ 10 - (1 + 1) / dispersionSlope 1 10 1 10 (newtonConsts 1 1 10) ∧
      10 - (1 + 1) / dispersionSlope 1 10 1 10 (newtonConsts 1 1 10) ≤ 981 / 100 := by
    have h1 : (1 + 1) / dispersionSlope 1 10 1 10 (newtonConsts 1 1 10) ≤ 21 / 100 := by
      rw [div_le_iff₀ (by linarith)]; linarith
    have h2 : 19 / 100 ≤ (1 + 1) / dispersionSlope 1 10 1 10 (newtonConsts 1 1 10) := by
      rw [le_div_iff₀ (by linarith)]; linarith
    constructor <;> linarith
  generalize 10 - (1 + 1) / dispersionSlope 1 10 1 10 (newtonConsts 1 1 10) = k1 at *
  rw [disp k1 10 (by norm_num)]
  have hf1 : -(22 / 10) ≤ 10 * k1 * Real.tanh 10 - 10 * 10 ∧ 10 * k1 * Real.tanh 10 - 10 * 10 ≤ -(19 / 10) := by
    constructor <;> nlinarith
  generalize 10 * k1 * Real.tanh 10 - 10 * 10 = f1 at *
  unfold newtonLoop
  rw [if_pos (by rw [abs_of_neg (by linarith)]; linarith)]
  simp only
  obtain ⟨s1, s1'⟩ := slope k1 (by linarith)
  obtain ⟨t1, t1', _⟩ := tanh_near_one (x := k1) (by linarith)
  rw [if_neg (by push Not; exact ⟨LinWave.tanh_pos (by linarith), by linarith⟩)]
  have hk2 : 997 / 100 ≤ k1 - f1 / dispersionSlope 1 10 1 k1 (newtonConsts 1 1 k1) ∧
      k1 - f1 / dispersionSlope 1 10 1 k1 (newtonConsts 1 1 k1) ≤ 1004 / 100 := by
    have h1 : f1 / dispersionSlope 1 10 1 k1 (newtonConsts 1 1 k1) ≤ -(18 / 100) := by
      rw [div_le_iff₀ (by linarith)]; linarith
    have h2 : -(221 / 1000) ≤ f1 / dispersionSlope 1 10 1 k1 (newtonConsts 1 1 k1) := by
      rw [le_div_iff₀ (by linarith)]; linarith
    constructor <;> linarith
  generalize k1 - f1 / dispersionSlope 1 10 1 k1 (newtonConsts 1 1 k1) = k2 at *
  rw [disp k2 k1 (by linarith)]
  have hf2 : |10 * k2 * Real.tanh k1 - 10 * 10| ≤ 1 := by
    rw [abs_le]
    constructor <;> nlinarith
  unfold newtonLoop
  rw [if_neg (not_lt.mpr hf2)]
  simp only
  rw [if_neg (by linarith), if_neg (by norm_num)]
  exact ⟨_, rfl⟩

/-- A shallow-water wave far below the cap, with the hypothesis of `stokes_field_partial`. -/
example : ∀ n < 5, ((n : ℕ) + 1 : ℝ) * (⟨5, 1, 1, 1 / 10, 0, 10, 0⟩ : StWave).wavenumber * (1 + (0 - 0)) < cap := by
  intro n hn
  have hp := Real.pi_pos
  have h1 : (n : ℝ) ≤ 4 := by exact_mod_cast (by omega : n ≤ 4)
  unfold StWave.wavenumber cap
  nlinarith

/-- A ten-second wave in 50 m of water meets the hypotheses. -/
example : stokesWaveLength 10 50 1 1 (981 / 100) (1 / 10 ^ 10) 40 = none := by
  have h1 := Real.pi_gt_three
  have h2 := Real.pi_lt_d2
  apply long_wave_fails <;> try norm_num
  · nlinarith
  · nlinarith

example : (⟨1, 2, 0, 5, 0, 10, 1⟩ : LinWave).w 3 (-5) 7 = 0 := by
  have := (⟨1, 2, 0, 5, 0, 10, 1⟩ : LinWave).linear_wave_bottom 3 7
  simpa using this

theorem sech2_lt_one {x : ℝ} (h : 0 < x) : 0 < sech2 x ∧ sech2 x < 1 := by
  rw [sech2_eq]
  have : 1 < Real.cosh (2 * x) := Real.one_lt_cosh.mpr (by positivity)
  exact ⟨by positivity, by rw [div_lt_one (by positivity)]; exact this⟩

theorem sech2_deriv (d k : ℝ) : HasDerivAt (fun k => sech2 (k * d)) (-2 * d * Real.sinh (2 * k * d) / Real.cosh (2 * k * d) ^ 2) k := by
  have e : (fun k => sech2 (k * d)) = fun k => (Real.cosh (2 * k * d))⁻¹ := by
    funext k; rw [sech2_eq, one_div]; ring_nf
  rw [e]
  have h1 : HasDerivAt (fun k : ℝ => 2 * k * d) (2 * d) k := by
    have := ((hasDerivAt_id k).const_mul 2).mul_const d
    simpa using this
  have h2 := (h1.cosh).inv (Real.cosh_pos _).ne'
  refine h2.congr_deriv ?_
  ring

/-- C60. The slope of Newton's method: the derivative of the first two constants with respect to the wavenumber is exact, that of the third
is not: the factor `dS/dk` is missing in the last term. `T` is the error. -/
theorem newton_constants {d height k : ℝ} (hd : 0 < d) (hk : 0 < k) :
    HasDerivAt (fun k => (newtonConsts d height k).eps) (height / 2) k ∧
    HasDerivAt (fun k => (newtonConsts d height k).c0) (newtonConsts d height k).dc0 k ∧
    HasDerivAt (fun k => (newtonConsts d height k).c2) (newtonConsts d height k).dc2 k ∧
    ∃ T, HasDerivAt (fun k => (newtonConsts d height k).c4) ((newtonConsts d height k).dc4 - T) k ∧
      T * (32 * (1 - sech2 (k * d)) ^ 5) = (newtonConsts d height k).c0 * (730 * sech2 (k * d) ^ 4) *
        (1 + 2 * d * Real.sinh (2 * k * d) / Real.cosh (2 * k * d) ^ 2) := by
  have hkd : 0 < k * d := by positivity
  have ht : 0 < Real.tanh (k * d) := by rw [Real.tanh_eq_sinh_div_cosh]; exact div_pos (Real.sinh_pos_iff.mpr hkd) (Real.cosh_pos _)
  have hc0 : 0 < Real.sqrt (Real.tanh (k * d)) := Real.sqrt_pos.mpr ht
  have hC : 0 < 1 - sech2 (k * d) := by linarith [(sech2_lt_one hkd).2]
  have dS := sech2_deriv d k
  have dC := dS.const_sub 1
  have dlin : HasDerivAt (fun k : ℝ => k * d) d k := by simpa using (hasDerivAt_id k).mul_const d
  have dC0 : HasDerivAt (fun k => Real.sqrt (Real.tanh (k * d))) (d / (2 * Real.sqrt (Real.tanh (k * d)) * Real.cosh (k * d) ^ 2)) k := by
    have e : (fun k => Real.tanh (k * d)) = fun k => Real.sinh (k * d) / Real.cosh (k * d) := by
      funext k; rw [Real.tanh_eq_sinh_div_cosh]
    have h1 : HasDerivAt (fun k => Real.tanh (k * d)) (d / Real.cosh (k * d) ^ 2) k := by
      rw [e]
      refine ((dlin.sinh).div (dlin.cosh) (Real.cosh_pos _).ne').congr_deriv ?_
      congr 1
      have := Real.cosh_sq_sub_sinh_sq (k * d)
      linear_combination d * this
    refine (h1.sqrt ht.ne').congr_deriv ?_
    have := Real.cosh_pos (k * d)
    field_simp
  refine ⟨?_, dC0, ?_, ?_⟩
  · have := ((hasDerivAt_id k).mul_const height).div_const 2
    simpa [newtonConsts] using this
  · have n := (dC0.mul (((dS.mul dS).const_mul 7).const_add 2))
    have m := ((dC.mul dC).const_mul 4)
    have q := n.div m (by simp only [Pi.mul_apply]; positivity)
    have f : (fun k => (newtonConsts d height k).c2) = fun k => Real.sqrt (Real.tanh (k * d)) * (2 + 7 * (sech2 (k * d) * sech2 (k * d))) /
        (4 * ((1 - sech2 (k * d)) * (1 - sech2 (k * d)))) := by
      funext k; simp only [newtonConsts]; ring
    rw [f]
    refine q.congr_deriv ?_
    simp only [newtonConsts, Pi.mul_apply]
    generalize sech2 (k * d) = S at *
    generalize Real.sqrt (Real.tanh (k * d)) = C0 at *
    generalize Real.sinh (2 * k * d) = sh at *
    have hch := Real.cosh_pos (2 * k * d)
    have hch1 := Real.cosh_pos (k * d)
    generalize Real.cosh (2 * k * d) = ch at *
    generalize Real.cosh (k * d) = ch1 at *
    field_simp
    ring
  · have num := (((((dS.const_mul 32).const_add 4).sub ((dS.pow 2).const_mul 116)).sub ((dS.pow 3).const_mul 400)).sub
      ((dS.pow 4).const_mul 71)).add ((dS.pow 5).const_mul 146)
    have q := (dC0.mul num).div ((dC.pow 5).const_mul 32) (by simp only [Pi.pow_apply]; positivity)
    refine ⟨(newtonConsts d height k).c0 * (730 * sech2 (k * d) ^ 4) *
        (1 + 2 * d * Real.sinh (2 * k * d) / Real.cosh (2 * k * d) ^ 2) / (32 * (1 - sech2 (k * d)) ^ 5), ?_, by field_simp⟩
    have f : (fun k => (newtonConsts d height k).c4) = fun k => Real.sqrt (Real.tanh (k * d)) * (4 + 32 * sech2 (k * d) - 116 * sech2 (k * d) ^ 2 -
        400 * sech2 (k * d) ^ 3 - 71 * sech2 (k * d) ^ 4 + 146 * sech2 (k * d) ^ 5) / (32 * (1 - sech2 (k * d)) ^ 5) := by
      funext k; simp only [newtonConsts]
    rw [f]
    refine q.congr_deriv ?_
    simp only [newtonConsts, Pi.mul_apply, Pi.pow_apply, Pi.add_apply, Pi.sub_apply]
    generalize sech2 (k * d) = S at *
    generalize Real.sqrt (Real.tanh (k * d)) = C0 at *
    generalize Real.sinh (2 * k * d) = sh at *
    have hch := Real.cosh_pos (2 * k * d)
    have hch1 := Real.cosh_pos (k * d)
    generalize Real.cosh (2 * k * d) = ch at *
    generalize Real.cosh (k * d) = ch1 at *
    field_simp
    ring

/-- C60. For the orders two and three the slope of Newton's method is the derivative of the dispersion relation. -/
theorem slope_is_derivative {order : ℕ} (ho : order < 4) {d height g k : ℝ} (hd : 0 < d) (hk : 0 < k) :
    HasDerivAt (fun k => frequencySq order d height g k) (dispersionSlope order g height k (newtonConsts d height k)) k := by
  obtain ⟨h1, h2, h3, -⟩ := newton_constants (height := height) hd hk
  have id1 := (hasDerivAt_id k).const_mul g
  by_cases h : order ≥ 2
  · have q := id1.mul ((h2.add ((h1.pow 2).mul h3)).pow 2)
    have f : (fun k => frequencySq order d height g k) = fun k => g * k * ((newtonConsts d height k).c0 + (newtonConsts d height k).eps ^ 2 * (newtonConsts d height k).c2) ^ 2 := by
      funext k; simp only [frequencySq, if_pos h, if_neg (show ¬ order ≥ 4 by omega), add_zero]
    rw [f]
    refine q.congr_deriv ?_
    simp only [dispersionSlope, if_pos h, if_neg (show ¬ order ≥ 4 by omega), Pi.mul_apply, Pi.pow_apply, Pi.add_apply, id]
    push_cast
    ring
  · have q := id1.mul (h2.pow 2)
    have f : (fun k => frequencySq order d height g k) = fun k => g * k * (newtonConsts d height k).c0 ^ 2 := by
      funext k; simp only [frequencySq, if_neg h, if_neg (show ¬ order ≥ 4 by omega), add_zero]
    rw [f]
    refine q.congr_deriv ?_
    simp only [dispersionSlope, if_neg h, if_neg (show ¬ order ≥ 4 by omega), Pi.pow_apply, id]
    push_cast
    ring

/-- The slope at a depth of 10 for a wave of height 1 and wavenumber 0.3. -/
example : HasDerivAt (fun k => frequencySq 3 10 1 9.81 k) (dispersionSlope 3 9.81 1 0.3 (newtonConsts 10 1 0.3)) 0.3 :=
  slope_is_derivative (by norm_num) (by norm_num) (by norm_num)

/-- C60. For the orders four and five the slope would be the derivative of the dispersion relation with the right derivative of the
fourth coefficient, which `newton_constants` states: nothing else is wrong in it. -/
theorem slope_corrected {order : ℕ} (ho : 4 ≤ order) {d height g k : ℝ} (hd : 0 < d) (hk : 0 < k) :
    ∃ T, HasDerivAt (fun k => (newtonConsts d height k).c4) ((newtonConsts d height k).dc4 - T) k ∧
      HasDerivAt (fun k => frequencySq order d height g k)
        (dispersionSlope order g height k { newtonConsts d height k with dc4 := (newtonConsts d height k).dc4 - T }) k := by
  obtain ⟨h1, h2, h3, T, h4, -⟩ := newton_constants (height := height) hd hk
  refine ⟨T, h4, ?_⟩
  have id1 := (hasDerivAt_id k).const_mul g
  have q := id1.mul (((h2.add ((h1.pow 2).mul h3)).add ((h1.pow 4).mul h4)).pow 2)
  have f : (fun k => frequencySq order d height g k) = fun k => g * k * ((newtonConsts d height k).c0 + (newtonConsts d height k).eps ^ 2 * (newtonConsts d height k).c2 +
      (newtonConsts d height k).eps ^ 4 * (newtonConsts d height k).c4) ^ 2 := by
    funext k; simp only [frequencySq, if_pos (show order ≥ 2 by omega), if_pos (show order ≥ 4 from ho)]
  rw [f]
  refine q.congr_deriv ?_
  simp only [dispersionSlope, if_pos (show order ≥ 2 by omega), if_pos (show order ≥ 4 from ho), Pi.mul_apply, Pi.pow_apply, Pi.add_apply, id]
  push_cast
  ring

/-- Specification: the coefficient of order `i` of harmonic `j` of the velocity potential; those that are not in the table are zero. -/
def Coeffs.A (c : Coeffs) : ℕ → ℕ → ℝ
  | 1, 1 => c.a11
  | 2, 2 => c.a22
  | 3, 1 => c.a31
  | 3, 3 => c.a33
  | 4, 2 => c.a42
  | 4, 4 => c.a44
  | 5, 1 => c.a51
  | 5, 3 => c.a53
  | 5, 5 => c.a55
  | _, _ => 0

/-- C60. For the orders two to five both velocities are the perturbation series up to the order: the sum over the orders `i` of `ε ^ i`
times the sum over the harmonics `j ≤ i` with the coefficients of the table. -/
theorem velocity_series (v : StWave) (c : Coeffs) (ho : 2 ≤ v.order) (h5 : v.order ≤ 5) (x z t : ℝ) :
    v.u c x z t = (∑ i ∈ Finset.range v.order, v.eps ^ (i + 1) * ∑ j ∈ Finset.range (i + 1),
        ((j : ℝ) + 1) * c.A (i + 1) (j + 1) * Real.cosh (v.arg j z) * Real.cos (((j : ℝ) + 1) * v.phase c x t)) *
          (c.c0 * Real.sqrt (v.g / v.wavenumber)) ∧
    v.w c x z t = (∑ i ∈ Finset.range v.order, v.eps ^ (i + 1) * ∑ j ∈ Finset.range (i + 1),
        ((j : ℝ) + 1) * c.A (i + 1) (j + 1) * Real.sinh (v.arg j z) * Real.sin (((j : ℝ) + 1) * v.phase c x t)) *
          (c.c0 * Real.sqrt (v.g / v.wavenumber)) := by
  have ho' : v.order = 2 ∨ v.order = 3 ∨ v.order = 4 ∨ v.order = 5 := by omega
  unfold StWave.u StWave.w
  constructor <;> congr 1 <;> rcases ho' with h | h | h | h <;>
    · simp only [h, Finset.sum_range_succ, Finset.sum_range_zero, StWave.amp, Coeffs.A]
      push_cast
      ring

end AmrWind.Waves
