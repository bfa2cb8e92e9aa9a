import Mathlib.Tactic.Positivity
import Mathlib.Tactic.LinearCombination
import Mathlib.Analysis.Complex.ExponentialBounds
import Verif.Turb.SstModel

/-!
# C87: the k-omega SST model and its IDDES variant
-/

set_option linter.unusedSectionVars false

namespace AmrWind.Sst

/-- Coefficients a user may choose. -/
structure Coef.Ok (c : Coef) : Prop where
  betaStar : 0 < c.betaStar
  alpha1 : 0 ≤ c.alpha1
  alpha2 : 0 ≤ c.alpha2
  beta1 : 0 < c.beta1
  beta2 : 0 < c.beta2
  sk1 : 0 ≤ c.sk1
  sk2 : 0 ≤ c.sk2
  so1 : 0 ≤ c.so1
  so2 : 0 < c.so2
  a1 : 0 < c.a1
  eps : 0 < c.eps

/-- A cell of the flow. -/
structure Cell.Ok (x : Cell) : Prop where
  rho : 0 < x.rho
  tke : 0 < x.tke
  sdr : 0 < x.sdr
  mu : 0 ≤ x.mu
  wd : 0 ≤ x.wd
  strain : 0 ≤ x.strain

/-- The default coefficients. -/
noncomputable def dflt : Coef := ⟨9 / 100, 5 / 9, 44 / 100, 75 / 1000, 828 / 10000, 85 / 100, 1, 1 / 2, 856 / 1000, 31 / 100, 0, 0, 85 / 100, 0, 1 / 2 ^ 52⟩

theorem dflt_ok : dflt.Ok := by
  constructor <;> norm_num [dflt]

/-- A cell of air half a metre above the wall. -/
noncomputable def demo : Cell := ⟨1, 1 / 10, 2, 1 / 100000, 1 / 2, 3, 3, 1 / 10, 0⟩

theorem demo_ok : demo.Ok := by
  constructor <;> norm_num [demo]

theorem tanh_range {t : ℝ} (ht : 0 ≤ t) : 0 ≤ Real.tanh t ∧ Real.tanh t < 1 := by
  rw [Real.tanh_eq_sinh_div_cosh]
  have c := Real.cosh_pos t
  refine ⟨div_nonneg (by rw [Real.sinh_eq]; have := Real.exp_le_exp.mpr (by linarith : -t ≤ t); linarith) c.le, ?_⟩
  rw [div_lt_one c]
  exact Real.sinh_lt_cosh t

/-- C87: both blending functions lie in `[0, 1)`, for every cell. -/
theorem blending_range (c : Coef) (x : Cell) : (0 ≤ f1 c x ∧ f1 c x < 1) ∧ (0 ≤ f2 c x ∧ f2 c x < 1) := by
  refine ⟨tanh_range ?_, tanh_range (mul_self_nonneg _)⟩
  have := mul_self_nonneg (arg1 c x * arg1 c x)
  calc 0 ≤ arg1 c x * arg1 c x * (arg1 c x * arg1 c x) := this
    _ = _ := by ring

/-- **C87**: up to the small regularisation the two blending functions are those of Menter (1994, 2003), with `ν = μ/ρ`. -/
theorem menter_blending (c : Coef) (x : Cell) (he : c.eps = 0) (hw : x.wd ≠ 0) :
    f2 c x = Real.tanh (max (2 * (Real.sqrt x.tke / (c.betaStar * x.sdr * x.wd))) (500 * (x.mu / x.rho) / (x.wd ^ 2 * x.sdr)) ^ 2) ∧
    f1 c x = Real.tanh (min (max (Real.sqrt x.tke / (c.betaStar * x.sdr * x.wd)) (500 * (x.mu / x.rho) / (x.wd ^ 2 * x.sdr)))
      (4 * x.rho * c.so2 * x.tke / (max 0 (2 * x.rho * c.so2 * x.gko / x.sdr) * x.wd ^ 2)) ^ 4) := by
  have e3 : tmp3 c x = 500 * (x.mu / x.rho) / (x.wd ^ 2 * x.sdr) := by
    unfold tmp3
    rw [he, zero_mul, add_zero, mul_div_assoc', div_div]
    congr 1
    ring
  have e2 : tmp2 c x = Real.sqrt x.tke / (c.betaStar * x.sdr * x.wd) := by
    unfold tmp2
    rw [he, zero_mul, add_zero]
  have e1 : tmp1 c x = 4 * x.rho * c.so2 * x.tke / (max 0 (2 * x.rho * c.so2 * x.gko / x.sdr) * x.wd ^ 2) := by
    unfold tmp1 cdkomega
    rw [he, zero_mul, zero_mul, add_zero]
    congr 1
    ring
  constructor
  · unfold f2 arg2
    rw [e2, e3]
    congr 1
    ring
  · unfold f1 arg1
    rw [if_neg hw, e1, e2, e3]
    congr 1
    ring

/-- C87: so each coefficient lies between its values at the wall and in the free stream. -/
theorem blend_spec {f a b : ℝ} (h0 : 0 ≤ f) (h1 : f ≤ 1) : min a b ≤ blend f a b ∧ blend f a b ≤ max a b ∧ blend 0 a b = b ∧ blend 1 a b = a := by
  unfold blend
  refine ⟨?_, ?_, by ring, by ring⟩
  · rcases le_total a b with h | h
    · rw [min_eq_left h]; nlinarith
    · rw [min_eq_right h]; nlinarith
  · rcases le_total a b with h | h
    · rw [max_eq_right h]; nlinarith
    · rw [max_eq_left h]; nlinarith

theorem blend_pos {f a b : ℝ} (h0 : 0 ≤ f) (h1 : f ≤ 1) (ha : 0 < a) (hb : 0 < b) : 0 < blend f a b :=
  lt_of_lt_of_le (lt_min ha hb) (blend_spec h0 h1).1

theorem blend_nonneg {f a b : ℝ} (h0 : 0 ≤ f) (h1 : f ≤ 1) (ha : 0 ≤ a) (hb : 0 ≤ b) : 0 ≤ blend f a b :=
  le_trans (le_min ha hb) (blend_spec h0 h1).1

/-- C87: the eddy viscosity is positive, at most `ρ k / ω`, equal to it wherever the strain is weak, and never lets the shear
stress in the boundary layer exceed `a1 ρ k`. -/
theorem viscosity_spec {c : Coef} (hc : c.Ok) {x : Cell} (hx : x.Ok) : 0 < muT c x ∧ muT c x ≤ x.rho * x.tke / x.sdr ∧
    (x.strain * f2 c x ≤ c.a1 * x.sdr → muT c x = x.rho * x.tke / x.sdr) ∧ muT c x * (x.strain * f2 c x) ≤ c.a1 * x.rho * x.tke := by
  have h1 := hc.a1
  have h2 := hx.rho
  have h3 := hx.tke
  have h4 := hx.sdr
  have m : 0 < max (c.a1 * x.sdr) (x.strain * f2 c x) := lt_max_of_lt_left (by positivity)
  have e : x.rho * x.tke / x.sdr = x.rho * c.a1 * x.tke / (c.a1 * x.sdr) := by field_simp
  unfold muT
  refine ⟨by positivity, ?_, fun h => ?_, ?_⟩
  · rw [e]
    exact div_le_div_of_nonneg_left (by positivity) (by positivity) (le_max_left _ _)
  · rw [max_eq_left h, e]
  · rw [div_mul_eq_mul_div, div_le_iff₀ m]
    have : x.strain * f2 c x ≤ max (c.a1 * x.sdr) (x.strain * f2 c x) := le_max_right _ _
    calc x.rho * c.a1 * x.tke * (x.strain * f2 c x) ≤ x.rho * c.a1 * x.tke * max (c.a1 * x.sdr) (x.strain * f2 c x) :=
          mul_le_mul_of_nonneg_left this (by positivity)
      _ = _ := by ring

theorem update_some {c : Coef} (hc : c.Ok) {x : Cell} (hx : x.Ok) (d : Diff) (dt : ℝ) :
    update c d dt x = some (close c x d dt (muT c x) (min (max (muT c x * x.strain * x.strain) 0) (10 * c.betaStar * x.rho * x.tke * x.sdr))
      (-c.betaStar * x.rho * x.tke * x.sdr + c.betaStar * x.rho * c.sdrAmb * c.tkeAmb) (c.betaStar * x.rho * x.sdr * dt)
      (x.rho * blend (f1 c x) c.alpha1 c.alpha2 * min (x.strain * x.strain) (10 * c.betaStar * x.sdr * x.sdr)) (buoy c x)) := by
  have m : 0 < max (c.a1 * x.sdr) (x.strain * f2 c x) := lt_max_of_lt_left (mul_pos hc.a1 hx.sdr)
  unfold update
  rw [if_neg]
  rintro (h | h | ⟨_, h⟩)
  · exact absurd hx.tke (not_lt.mpr h.le)
  · exact m.ne' h
  · exact hx.tke.ne' h

/-- C87: for every admissible cell and kind of diffusion the update succeeds; the production of energy is the work of the eddy
viscosity, limited to ten times the dissipation, and that of omega is non-negative. -/
theorem production_spec {c : Coef} (hc : c.Ok) {x : Cell} (hx : x.Ok) (d : Diff) (dt : ℝ) : ∃ o, update c d dt x = some o ∧
    o.mu = muT c x ∧ 0 ≤ o.prod ∧ o.prod ≤ o.mu * x.strain ^ 2 ∧ o.prod ≤ 10 * (c.betaStar * x.rho * x.tke * x.sdr) ∧
    (o.mu * x.strain ^ 2 ≤ 10 * (c.betaStar * x.rho * x.tke * x.sdr) → o.prod = o.mu * x.strain ^ 2) := by
  have hm := (viscosity_spec hc hx).1
  have b := hc.betaStar
  have h2 := hx.rho
  have h3 := hx.tke
  have h4 := hx.sdr
  have e : muT c x * x.strain * x.strain = muT c x * x.strain ^ 2 := by ring
  have n : 0 ≤ muT c x * x.strain ^ 2 := by positivity
  have e2 : 10 * c.betaStar * x.rho * x.tke * x.sdr = 10 * (c.betaStar * x.rho * x.tke * x.sdr) := by ring
  refine ⟨_, update_some hc hx d dt, ?_⟩
  rw [e, max_eq_left n, e2]
  cases d <;> simp only [close] <;>
    exact ⟨trivial, le_min n (by positivity), min_le_left _ _, min_le_right _ _, fun h => min_eq_left h⟩

/-- C87: diffusivities of energy and omega are at least the molecular viscosity; other fields are refused. -/
theorem diffusivity_spec {c : Coef} (hc : c.Ok) {mu f mt : ℝ} (h0 : 0 ≤ f) (h1 : f ≤ 1) (hm : 0 ≤ mt) :
    (∃ v, diffusivity c "tke" mu f mt = some v ∧ mu ≤ v ∧ v ≤ mu + max c.sk1 c.sk2 * mt) ∧
    (∃ v, diffusivity c "sdr" mu f mt = some v ∧ mu ≤ v ∧ v ≤ mu + max c.so1 c.so2 * mt) ∧
    (∀ n, n ≠ "tke" → n ≠ "sdr" → diffusivity c n mu f mt = none) := by
  refine ⟨⟨_, by unfold diffusivity; rw [if_pos rfl], ?_, ?_⟩, ⟨_, by unfold diffusivity; rw [if_neg (by decide), if_pos rfl], ?_, ?_⟩, ?_⟩
  · have := mul_nonneg (blend_nonneg h0 h1 hc.sk1 hc.sk2) hm; linarith
  · have := mul_le_mul_of_nonneg_right (blend_spec (a := c.sk1) (b := c.sk2) h0 h1).2.1 hm; linarith
  · have := mul_nonneg (blend_nonneg h0 h1 hc.so1 hc.so2.le) hm; linarith
  · have := mul_le_mul_of_nonneg_right (blend_spec (a := c.so1) (b := c.so2) h0 h1).2.1 hm; linarith
  · intro n a b
    unfold diffusivity; rw [if_neg a, if_neg b]

/-- C87: buoyancy takes energy where density grows along gravity and gives it where it falls. -/
theorem buoyancy_spec {c : Coef} (hc : c.Ok) {x : Cell} (hx : x.Ok) (hs : 0 < c.sigmaT) (hB : 0 ≤ c.Bfac) :
    (0 ≤ x.gdrho → buoy c x ≤ 0) ∧ (x.gdrho ≤ 0 → 0 ≤ buoy c x) ∧ (c.Bfac = 0 → buoy c x = 0) := by
  have hm := div_pos (viscosity_spec hc hx).1 hx.rho
  unfold buoy
  refine ⟨fun h => ?_, fun h => ?_, fun h => by rw [h]; simp⟩
  · apply div_nonpos_of_nonpos_of_nonneg _ hs.le
    apply mul_nonpos_of_nonpos_of_nonneg _ hm.le
    exact mul_nonpos_of_nonneg_of_nonpos hB (neg_nonpos.mpr h)
  · exact div_nonneg (mul_nonneg (mul_nonneg hB (neg_nonneg.mpr h)) hm.le) hs.le

/-! ## The step of the energy -/

/-- C87 (part): without ambient values and with unit density, implicit diffusion advances the energy by
`(k' - k)/dt = P + B - β* ω k'`, and Crank-Nicolson by `P + B - β* ω (k + k')/2`. -/
theorem tke_step_partial {c : Coef} (hc : c.Ok) {x : Cell} (hx : x.Ok) (hρ : x.rho = 1) {dt : ℝ} (hdt : 0 < dt) (ha : c.sdrAmb * c.tkeAmb = 0) :
    (∃ o, update c .implicit dt x = some o ∧ (stepTke .implicit dt x o - x.tke) / dt = o.prod + o.buoy - c.betaStar * x.sdr * stepTke .implicit dt x o) ∧
    (∃ o, update c .crankNicolson dt x = some o ∧ (stepTke .crankNicolson dt x o - x.tke) / dt =
      o.prod + o.buoy - c.betaStar * x.sdr * ((x.tke + stepTke .crankNicolson dt x o) / 2)) := by
  have b := hc.betaStar
  have w := hx.sdr
  have ha' : c.betaStar * 1 * c.sdrAmb * c.tkeAmb = 0 := by rw [mul_assoc, ha, mul_zero]
  refine ⟨⟨_, update_some hc hx _ dt, ?_⟩, ⟨_, update_some hc hx _ dt, ?_⟩⟩
  · simp only [stepTke, step, tkeSource, close, if_true, hρ]
    have : (1 : ℝ) + c.betaStar * 1 * x.sdr * dt ≠ 0 := by positivity
    rw [div_eq_iff hdt.ne']
    field_simp
    ring
  · simp only [stepTke, step, tkeSource, close, if_true, hρ, ha']
    have : (1 : ℝ) + 1 / 2 * (c.betaStar * 1 * x.sdr * dt) ≠ 0 := by positivity
    rw [div_eq_iff hdt.ne']
    field_simp
    ring

example : demo.Ok ∧ demo.rho = 1 ∧ dflt.Ok ∧ dflt.sdrAmb * dflt.tkeAmb = 0 := ⟨demo_ok, rfl, dflt_ok, by norm_num [dflt]⟩

/-- C87: with implicit diffusion energy and omega stay positive for every step size, unless buoyancy takes more than there is. -/
theorem implicit_positive {c : Coef} (hc : c.Ok) {x : Cell} (hx : x.Ok) {dt : ℝ} (hdt : 0 < dt) :
    ∃ o, update c .implicit dt x = some o ∧ (0 ≤ o.buoy → 0 < stepTke .implicit dt x o) ∧ 0 < stepSdr .implicit dt x o := by
  have b := hc.betaStar
  have w := hx.sdr
  have r := hx.rho
  have k := hx.tke
  have e := hc.eps
  obtain ⟨⟨g0, g1⟩, _⟩ := blending_range c x
  have bb := blend_pos g0 g1.le hc.beta1 hc.beta2
  have aa := blend_nonneg g0 g1.le hc.alpha1 hc.alpha2
  have n : 0 ≤ min (max (muT c x * x.strain * x.strain) 0) (10 * c.betaStar * x.rho * x.tke * x.sdr) :=
    le_min (le_max_right _ _) (by positivity)
  refine ⟨_, update_some hc hx _ dt, ?_, ?_⟩
  · simp only [stepTke, step, tkeSource, close, if_true]
    intro hb
    have : 0 < x.rho * x.tke + dt * (x.rho * (min (max (muT c x * x.strain * x.strain) 0) (10 * c.betaStar * x.rho * x.tke * x.sdr) + 1 / 2 * 0 + buoy c x)) := by
      have : 0 ≤ min (max (muT c x * x.strain * x.strain) 0) (10 * c.betaStar * x.rho * x.tke * x.sdr) + 1 / 2 * 0 + buoy c x := by linarith
      positivity
    positivity
  · simp only [stepSdr, step, sdrSource, close, if_true]
    have p : 0 ≤ min (x.strain * x.strain) (10 * c.betaStar * x.sdr * x.sdr) := le_min (mul_self_nonneg _) (by positivity)
    positivity

/-- C87 fails for the ambient values with implicit or Crank-Nicolson diffusion: a cell at the ambient state without strain, whose
sustaining terms balance the decay, loses energy; only explicit diffusion keeps it. -/
theorem ambient_not_sustained {c : Coef} (hc : c.Ok) {x : Cell} (hx : x.Ok) {dt : ℝ} (hdt : 0 < dt) (hk : x.tke = c.tkeAmb) (hw : x.sdr = c.sdrAmb)
    (hs : x.strain = 0) (hB : c.Bfac = 0) :
    (∃ o, update c .implicit dt x = some o ∧ stepTke .implicit dt x o < x.tke) ∧
    (∃ o, update c .crankNicolson dt x = some o ∧ stepTke .crankNicolson dt x o < x.tke) ∧
    (∃ o, update c .explicit dt x = some o ∧ stepTke .explicit dt x o = x.tke) := by
  have b := hc.betaStar
  have w := hx.sdr
  have r := hx.rho
  have k := hx.tke
  have bu : buoy c x = 0 := by unfold buoy; rw [hB]; simp
  have pr : min (max (muT c x * x.strain * x.strain) 0) (10 * c.betaStar * x.rho * x.tke * x.sdr) = 0 := by
    rw [hs]; simp only [mul_zero, max_self]; exact min_eq_left (by positivity)
  have di : -c.betaStar * x.rho * x.tke * x.sdr + c.betaStar * x.rho * c.sdrAmb * c.tkeAmb = 0 := by rw [← hk, ← hw]; ring
  refine ⟨⟨_, update_some hc hx _ dt, ?_⟩, ⟨_, update_some hc hx _ dt, ?_⟩, ⟨_, update_some hc hx _ dt, ?_⟩⟩
  · simp only [stepTke, step, tkeSource, close, if_true, bu, pr]
    have : 0 < c.betaStar * x.rho * x.sdr * dt := by positivity
    rw [div_lt_iff₀ (by positivity), mul_div_cancel₀ _ r.ne']
    nlinarith
  · simp only [stepTke, step, tkeSource, close, if_true, bu, pr, di]
    have : 0 < 1 / 2 * (c.betaStar * x.rho * x.sdr * dt) := by positivity
    rw [div_lt_iff₀ (by positivity), mul_div_cancel₀ _ r.ne']
    nlinarith
  · simp only [stepTke, step, tkeSource, close, if_true, bu, pr, di]
    field_simp
    ring

example : ∃ x : Cell, x.Ok ∧ x.tke = ({ dflt with tkeAmb := 1 / 10, sdrAmb := 2 } : Coef).tkeAmb ∧
    x.sdr = ({ dflt with tkeAmb := 1 / 10, sdrAmb := 2 } : Coef).sdrAmb ∧ x.strain = 0 :=
  ⟨{ demo with strain := 0 }, ⟨by norm_num [demo], by norm_num [demo], by norm_num [demo], by norm_num [demo], by norm_num [demo], le_rfl⟩, rfl, rfl, rfl⟩

/-- C87 fails for explicit diffusion: half of the dissipation of energy is left out, since the half that the solver is to add
is never solved for. -/
theorem explicit_half_dissipation {c : Coef} (hc : c.Ok) {x : Cell} (hx : x.Ok) (hρ : x.rho = 1) {dt : ℝ} (hdt : 0 < dt) (ha : c.sdrAmb * c.tkeAmb = 0) :
    ∃ o, update c .explicit dt x = some o ∧ (stepTke .explicit dt x o - x.tke) / dt = o.prod + o.buoy - 1 / 2 * (c.betaStar * x.sdr * x.tke) := by
  have ha' : c.betaStar * 1 * c.sdrAmb * c.tkeAmb = 0 := by rw [mul_assoc, ha, mul_zero]
  refine ⟨_, update_some hc hx _ dt, ?_⟩
  simp only [stepTke, step, tkeSource, close, if_true, hρ, ha']
  field_simp
  ring

/-- C87 fails for densities other than one: the production, which holds the density already, is multiplied by it again; the
right rate of `ρ k` is `P + B - β* ρ ω k'`, the code has `ρ (P + B)` in it. -/
theorem density_wrong {c : Coef} (hc : c.Ok) {x : Cell} (hx : x.Ok) (hρ : x.rho ≠ 1) {dt : ℝ} (hdt : 0 < dt) :
    ∃ o, update c .implicit dt x = some o ∧
      x.rho * (stepTke .implicit dt x o - x.tke) / dt = x.rho * (o.prod + o.buoy) - c.betaStar * x.rho * x.sdr * stepTke .implicit dt x o ∧
      (o.prod + o.buoy ≠ 0 → x.rho * (stepTke .implicit dt x o - x.tke) / dt ≠ o.prod + o.buoy - c.betaStar * x.rho * x.sdr * stepTke .implicit dt x o) := by
  have b := hc.betaStar
  have w := hx.sdr
  have r := hx.rho
  refine ⟨_, update_some hc hx _ dt, ?_⟩
  have main : x.rho * (stepTke .implicit dt x (close c x .implicit dt (muT c x)
      (min (max (muT c x * x.strain * x.strain) 0) (10 * c.betaStar * x.rho * x.tke * x.sdr))
      (-c.betaStar * x.rho * x.tke * x.sdr + c.betaStar * x.rho * c.sdrAmb * c.tkeAmb) (c.betaStar * x.rho * x.sdr * dt)
      (x.rho * blend (f1 c x) c.alpha1 c.alpha2 * min (x.strain * x.strain) (10 * c.betaStar * x.sdr * x.sdr)) (buoy c x)) - x.tke) / dt =
      x.rho * (min (max (muT c x * x.strain * x.strain) 0) (10 * c.betaStar * x.rho * x.tke * x.sdr) + buoy c x) -
      c.betaStar * x.rho * x.sdr * stepTke .implicit dt x (close c x .implicit dt (muT c x)
      (min (max (muT c x * x.strain * x.strain) 0) (10 * c.betaStar * x.rho * x.tke * x.sdr))
      (-c.betaStar * x.rho * x.tke * x.sdr + c.betaStar * x.rho * c.sdrAmb * c.tkeAmb) (c.betaStar * x.rho * x.sdr * dt)
      (x.rho * blend (f1 c x) c.alpha1 c.alpha2 * min (x.strain * x.strain) (10 * c.betaStar * x.sdr * x.sdr)) (buoy c x)) := by
    simp only [stepTke, step, tkeSource, close, if_true]
    have : x.rho + c.betaStar * x.rho * x.sdr * dt ≠ 0 := by positivity
    have h2 : 1 + c.betaStar * x.sdr * dt ≠ 0 := by positivity
    rw [div_eq_iff hdt.ne']
    have e : x.rho + c.betaStar * x.rho * x.sdr * dt = x.rho * (1 + c.betaStar * x.sdr * dt) := by ring
    rw [e]
    field_simp
    ring
  refine ⟨main, fun hne h => ?_⟩
  rw [main] at h
  have h3 := sub_left_inj.mp h
  exact hρ (mul_right_cancel₀ hne (by rw [one_mul]; exact h3))

/-! ## The step of omega -/

/-- The cross diffusion of omega: what is not in the wall layer, `2 (1-F1) ρ σ ∇k·∇ω / ω`. -/
noncomputable def cross (c : Coef) (x : Cell) : ℝ := (1 - f1 c x) * 2 * x.rho * c.so2 * x.gko / (x.sdr + c.eps * 10)

/-- The blended coefficient of destruction. -/
noncomputable def betaOf (c : Coef) (x : Cell) : ℝ := blend (f1 c x) c.beta1 c.beta2

theorem betaOf_pos {c : Coef} (hc : c.Ok) (x : Cell) : 0 < betaOf c x :=
  blend_pos (blending_range c x).1.1 (blending_range c x).1.2.le hc.beta1 hc.beta2

/-- The production of omega: `ρ α min(S², 10 β* ω²)`. -/
noncomputable def prodOmega (c : Coef) (x : Cell) : ℝ :=
  x.rho * blend (f1 c x) c.alpha1 c.alpha2 * min (x.strain * x.strain) (10 * c.betaStar * x.sdr * x.sdr)

/-- C87 (part): for unit density Crank-Nicolson diffusion has the right equilibrium of omega where cross diffusion vanishes:
omega is steady exactly when production is `β ω²`. -/
theorem omega_steady_partial {c : Coef} (hc : c.Ok) {x : Cell} (hx : x.Ok) (hρ : x.rho = 1) {dt : ℝ} (hdt : 0 < dt) (hg : x.gko = 0) :
    ∃ o, update c .crankNicolson dt x = some o ∧ (stepSdr .crankNicolson dt x o = x.sdr ↔ prodOmega c x = betaOf c x * x.sdr ^ 2) := by
  have bb := betaOf_pos hc x
  have w := hx.sdr
  refine ⟨_, update_some hc hx _ dt, ?_⟩
  simp only [stepSdr, step, sdrSource, close, if_true, hρ, hg, mul_zero, zero_div, abs_zero, add_zero, zero_add, one_mul, div_one]
  change (x.sdr + dt * (blend (f1 c x) c.alpha1 c.alpha2 * _)) / (1 + betaOf c x * x.sdr * dt) = x.sdr ↔ _
  unfold prodOmega
  rw [hρ, one_mul, div_eq_iff (by positivity)]
  constructor
  · intro h
    have : dt * (blend (f1 c x) c.alpha1 c.alpha2 * min (x.strain * x.strain) (10 * c.betaStar * x.sdr * x.sdr)) = dt * (betaOf c x * x.sdr ^ 2) := by linarith
    exact mul_left_cancel₀ hdt.ne' this
  · intro h
    rw [h]; ring

/-- C87 fails for implicit diffusion: omega is steady when production is `2 β ω²`, so the equilibrium value of omega is too
small by `√2`. -/
theorem omega_implicit_wrong {c : Coef} (hc : c.Ok) {x : Cell} (hx : x.Ok) (hρ : x.rho = 1) {dt : ℝ} (hdt : 0 < dt) (hg : x.gko = 0) :
    ∃ o, update c .implicit dt x = some o ∧ (stepSdr .implicit dt x o = x.sdr ↔ prodOmega c x = 2 * betaOf c x * x.sdr ^ 2) ∧
      (prodOmega c x = betaOf c x * x.sdr ^ 2 → stepSdr .implicit dt x o < x.sdr) := by
  have bb := betaOf_pos hc x
  have w := hx.sdr
  have key : stepSdr .implicit dt x (close c x .implicit dt (muT c x) (min (max (muT c x * x.strain * x.strain) 0) (10 * c.betaStar * x.rho * x.tke * x.sdr))
      (-c.betaStar * x.rho * x.tke * x.sdr + c.betaStar * x.rho * c.sdrAmb * c.tkeAmb) (c.betaStar * x.rho * x.sdr * dt)
      (x.rho * blend (f1 c x) c.alpha1 c.alpha2 * min (x.strain * x.strain) (10 * c.betaStar * x.sdr * x.sdr)) (buoy c x)) =
      (x.sdr + dt * prodOmega c x) / (1 + 2 * betaOf c x * x.sdr * dt) := by
    simp only [stepSdr, step, sdrSource, close, if_true, hρ, hg, mul_zero, zero_div, abs_zero, add_zero, zero_add, one_mul, div_one, mul_one,
      prodOmega, betaOf]
  refine ⟨_, update_some hc hx _ dt, ?_, ?_⟩
  · rw [key, div_eq_iff (by positivity)]
    constructor
    · intro h
      have : dt * prodOmega c x = dt * (2 * betaOf c x * x.sdr ^ 2) := by linarith
      exact mul_left_cancel₀ hdt.ne' this
    · intro h
      rw [h]; ring
  · intro h
    rw [key, h, div_lt_iff₀ (by positivity)]
    have : 0 < dt * (betaOf c x * x.sdr ^ 2) := by positivity
    nlinarith

/-- C87 fails for positive cross diffusion with Crank-Nicolson: it should raise omega, but the absolute value on the left takes
back what the right adds: omega is steady at `P = β ω² - (cross/2) (10 ε)/(ω + 10 ε)` instead of `β ω² - cross`. -/
theorem cross_diffusion_lost {c : Coef} (hc : c.Ok) {x : Cell} (hx : x.Ok) (hρ : x.rho = 1) {dt : ℝ} (hdt : 0 < dt) (hg : 0 < x.gko) :
    ∃ o, update c .crankNicolson dt x = some o ∧ 0 < cross c x ∧ (stepSdr .crankNicolson dt x o = x.sdr ↔
      prodOmega c x = betaOf c x * x.sdr ^ 2 - cross c x / 2 * (c.eps * 10 / (x.sdr + c.eps * 10))) := by
  have bb := betaOf_pos hc x
  have w := hx.sdr
  have e := hc.eps
  have s := hc.so2
  have cp : 0 < cross c x := by
    unfold cross
    have := (blending_range c x).1.2
    have : 0 < 1 - f1 c x := by linarith
    have := hx.rho
    positivity
  have d : 0 < x.sdr + c.eps * 10 := by positivity
  have key : stepSdr .crankNicolson dt x (close c x .crankNicolson dt (muT c x) (min (max (muT c x * x.strain * x.strain) 0) (10 * c.betaStar * x.rho * x.tke * x.sdr))
      (-c.betaStar * x.rho * x.tke * x.sdr + c.betaStar * x.rho * c.sdrAmb * c.tkeAmb) (c.betaStar * x.rho * x.sdr * dt)
      (x.rho * blend (f1 c x) c.alpha1 c.alpha2 * min (x.strain * x.strain) (10 * c.betaStar * x.sdr * x.sdr)) (buoy c x)) =
      (x.sdr + dt * (1 / 2 * cross c x + prodOmega c x)) / (1 + (betaOf c x * x.sdr + 1 / 2 * |cross c x| / (x.sdr + c.eps * 10)) * dt) := by
    simp only [stepSdr, step, sdrSource, close, if_true, prodOmega, betaOf, cross, hρ, one_mul, div_one]
  refine ⟨_, update_some hc hx _ dt, cp, ?_⟩
  rw [key, abs_of_pos cp, div_eq_iff (by positivity)]
  have r : x.sdr * (1 / 2 * cross c x / (x.sdr + c.eps * 10)) = cross c x / 2 - cross c x / 2 * (c.eps * 10 / (x.sdr + c.eps * 10)) := by
    field_simp; ring
  constructor
  · intro h
    have : dt * prodOmega c x = dt * (betaOf c x * x.sdr ^ 2 - cross c x / 2 * (c.eps * 10 / (x.sdr + c.eps * 10))) := by
      linear_combination h + dt * r
    exact mul_left_cancel₀ hdt.ne' this
  · intro h
    linear_combination dt * h - dt * r

example : demo.Ok ∧ demo.rho = 1 ∧ 0 < demo.gko := ⟨demo_ok, rfl, by norm_num [demo]⟩

/-! ## IDDES -/

/-- The default coefficients of the variant. -/
noncomputable def dfltD : CoefD := ⟨78 / 100, 61 / 100, 20, 3, 5, 187 / 100, 15 / 100, 41 / 100, 10⟩

theorem tanhPow_range {a num den p t : ℝ} (ha : 0 ≤ a) (hn : 0 ≤ num) (hd : 0 ≤ den) (h : tanhPow a num den p = some t) : 0 ≤ t ∧ t ≤ 1 := by
  unfold tanhPow at h
  by_cases h0 : den = 0
  · rw [if_pos h0] at h
    by_cases h1 : num > 0
    · rw [if_pos h1] at h
      rw [← Option.some.inj h]; norm_num
    · rw [if_neg h1] at h; exact absurd h (by simp)
  · rw [if_neg h0] at h
    rw [← Option.some.inj h]
    have := tanh_range (Real.rpow_nonneg (mul_nonneg ha (div_nonneg hn hd)) p)
    exact ⟨this.1, this.2.le⟩

/-- C87: the elevating function of the full model vanishes for the default coefficients (the simplified model the header
announces), because the production coefficient stays above 0.26. -/
theorem elevating_zero {c : Coef} (h1 : 26 / 100 < c.alpha1) (h2 : 26 / 100 < c.alpha2) (x : Cell) :
    max (fe1 (blend (f1 c x) c.alpha1 c.alpha2) - 1) 0 = 0 := by
  obtain ⟨⟨g0, g1⟩, _⟩ := blending_range c x
  have hb : 26 / 100 < blend (f1 c x) c.alpha1 c.alpha2 := lt_of_lt_of_le (lt_min h1 h2) (blend_spec g0 g1.le).1
  set al := blend (f1 c x) c.alpha1 c.alpha2
  apply max_eq_right
  unfold fe1
  rw [if_neg (by linarith)]
  have h3 : -(1109 / 100) * al * al ≤ -Real.log 2 := by
    have := Real.log_two_lt_d9
    nlinarith
  have h4 := Real.exp_le_exp.mpr h3
  rw [Real.exp_neg, Real.exp_log two_pos] at h4
  linarith

/-- C87: the shielding function lies in `(0, 1]` and, with the elevating function off, the length is an average of those of RANS
and LES with it as weight (never below the machine epsilon). -/
theorem shield_spec {c : Coef} (hc : c.Ok) (h1 : 26 / 100 < c.alpha1) (h2 : 26 / 100 < c.alpha2) {q : CoefD} (hq : 0 ≤ q.Cdt1) {x : Cell} (hx : x.Ok) {hmax : ℝ} {s : ℝ × ℝ}
    (hs : shield c q hmax x = some s) : 0 < s.1 ∧ s.1 ≤ 1 ∧ s.2 = s.1 ∧ fb x.wd hmax ≤ s.1 := by
  have hfb : 0 < fb x.wd hmax ∧ fb x.wd hmax ≤ 1 := by
    unfold fb
    exact ⟨lt_min (by positivity) one_pos, min_le_right _ _⟩
  have z := elevating_zero h1 h2 x
  have hm := (viscosity_spec hc hx).1
  have hden : 0 ≤ denom q x := by
    unfold denom
    have := hx.rho
    have e : x.rho * q.kappa * q.kappa * x.wd * x.wd = x.rho * (q.kappa * q.kappa) * (x.wd * x.wd) := by ring
    rw [e]
    have := mul_self_nonneg q.kappa
    have := mul_self_nonneg x.wd
    have := Real.sqrt_nonneg (1 / 2 * (x.strain * x.strain + x.vort * x.vort))
    positivity
  unfold shield at hs
  cases h3 : tanhPow (q.Cl * q.Cl) x.mu (denom q x) 10 with
  | none => simp [h3] at hs
  | some fl =>
    cases h4 : tanhPow (q.Ct * q.Ct) (muT c x) (denom q x) 3 with
    | none => simp [h3, h4] at hs
    | some ft =>
      cases h5 : tanhPow q.Cdt1 (muT c x) (denom q x) q.Cdt2 with
      | none => simp [h3, h4, h5] at hs
      | some t =>
        obtain ⟨t0, t1⟩ := tanhPow_range hq hm.le hden h5
        simp only [h3, h4, h5, z, Option.bind_eq_bind, Option.bind_some, Option.pure_def, Option.some.injEq, mul_zero, add_zero, mul_one] at hs
        rw [← hs]
        exact ⟨lt_max_of_lt_right hfb.1, max_le (by linarith) hfb.2, rfl, le_max_right _ _⟩

/-- C87: up to half a cell from the wall the shielding function is one. -/
theorem near_wall {wd hmax : ℝ} (hh : 0 < hmax) (h0 : 0 ≤ wd) (h1 : wd ≤ hmax / 2) : fb wd hmax = 1 := by
  unfold fb
  apply min_eq_right
  have a : 0 ≤ wd / hmax := by positivity
  have b : wd / hmax ≤ 1 / 2 := by rw [div_le_iff₀ hh]; linarith
  set r := wd / hmax
  have h3 : -Real.log 2 ≤ -9 * (1 / 4 - r) * (1 / 4 - r) := by
    have := Real.log_two_gt_d9
    nlinarith
  have h4 := Real.exp_le_exp.mpr h3
  rw [Real.exp_neg, Real.exp_log two_pos] at h4
  linarith

theorem iddes_between {c : Coef} {f lr ll : ℝ} (h0 : 0 ≤ f) (h1 : f ≤ 1) (hl : c.eps ≤ min lr ll) :
    min lr ll ≤ lIddes c f f lr ll ∧ lIddes c f f lr ll ≤ max lr ll := by
  unfold lIddes
  have a : min lr ll ≤ f * lr + (1 - f) * ll := by
    have := min_le_left lr ll
    have := min_le_right lr ll
    nlinarith
  have b : f * lr + (1 - f) * ll ≤ max lr ll := by
    have := le_max_left lr ll
    have := le_max_right lr ll
    nlinarith
  rw [max_eq_right (le_trans hl a)]
  exact ⟨a, b⟩

/-- C87: the length of LES is between `Cw Cdes` and `Cdes` times the largest side of the cell, the latter once the wall is
`hmax / Cw` away. -/
theorem les_length_spec {q : CoefD} (hd1 : 0 < q.Cdes1) (hd2 : 0 < q.Cdes2) (hw0 : 0 < q.Cw) (hw1 : q.Cw ≤ 1) {f wd hmax : ℝ} (h0 : 0 ≤ f) (h1 : f ≤ 1) (hh : 0 < hmax) :
    blend f q.Cdes1 q.Cdes2 * (q.Cw * hmax) ≤ lLes q f wd hmax ∧ lLes q f wd hmax ≤ blend f q.Cdes1 q.Cdes2 * hmax ∧
    (hmax ≤ q.Cw * wd → lLes q f wd hmax = blend f q.Cdes1 q.Cdes2 * hmax) ∧ 0 < lLes q f wd hmax := by
  have bp := blend_pos h0 h1 hd1 hd2
  unfold lLes
  have l1 : q.Cw * hmax ≤ min (q.Cw * max wd hmax) hmax := by
    apply le_min
    · exact mul_le_mul_of_nonneg_left (le_max_right _ _) hw0.le
    · nlinarith
  refine ⟨mul_le_mul_of_nonneg_left l1 bp.le, mul_le_mul_of_nonneg_left (min_le_right _ _) bp.le, fun h => ?_, ?_⟩
  · congr 1
    apply min_eq_right
    exact le_trans h (mul_le_mul_of_nonneg_left (le_max_left _ _) hw0.le)
  · exact mul_pos bp (lt_of_lt_of_le (by positivity) l1)

theorem updateDes_some {c : Coef} (hc : c.Ok) (hamb : 0 ≤ c.tkeAmb) {q : CoefD} {x : Cell} (hx : x.Ok) {hmax : ℝ} {s : ℝ × ℝ} (hs : shield c q hmax x = some s) (d : Diff) (dt old : ℝ) :
    updateDes c q hmax d dt old x = some (close c x d dt (muT c x)
      (min (max (muT c x * x.strain * x.strain) 0) (10 * x.rho * x.tke * Real.sqrt x.tke / lIddes c s.1 s.2 (lRans c x) (lLes q (f1 c x) x.wd hmax)))
      (-x.rho * Real.sqrt x.tke * x.tke / lIddes c s.1 s.2 (lRans c x) (lLes q (f1 c x) x.wd hmax) +
        x.rho * c.tkeAmb * Real.sqrt c.tkeAmb / lIddes c s.1 s.2 (Real.sqrt c.tkeAmb / (c.betaStar * max c.eps c.sdrAmb)) (lLes q (f1 c x) x.wd hmax))
      (x.rho * Real.sqrt x.tke / lIddes c s.1 s.2 (lRans c x) (lLes q (f1 c x) x.wd hmax) * dt)
      (x.rho * blend (f1 c x) c.alpha1 c.alpha2 * min (x.strain * x.strain) (q.clip * max x.sdr 0 * Real.sqrt x.tke /
        lIddes c s.1 s.2 (lRans c x) (lLes q (f1 c x) x.wd hmax))) old) := by
  have m : 0 < max (c.a1 * x.sdr) (x.strain * f2 c x) := lt_max_of_lt_left (mul_pos hc.a1 hx.sdr)
  unfold updateDes
  rw [if_neg]
  · simp only [hs, Option.bind_eq_bind, Option.bind_some, Option.pure_def]
  · rintro (h | h | ⟨_, h⟩ | h | h)
    · exact absurd hx.tke (not_lt.mpr h.le)
    · exact m.ne' h
    · exact hx.tke.ne' h
    · exact absurd hamb (not_le.mpr h)
    · exact (mul_pos hc.betaStar hx.sdr).ne' h

/-- C87: for every admissible cell the variant dissipates `ρ k^{3/2} / l` with `l` between the lengths of RANS and LES; within half a
cell of the wall this is the dissipation `β* ρ k ω` of the SST model. -/
theorem iddes_dissipation {c : Coef} (hc : c.Ok) (hamb : c.tkeAmb = 0) (h1 : 26 / 100 < c.alpha1) (h2 : 26 / 100 < c.alpha2) {q : CoefD} (hq : 0 ≤ q.Cdt1) {x : Cell} (hx : x.Ok)
    {hmax : ℝ} (hh : 0 < hmax) {s : ℝ × ℝ} (hs : shield c q hmax x = some s) (hl : c.eps ≤ min (lRans c x) (lLes q (f1 c x) x.wd hmax)) (d : Diff) (hd : d ≠ .implicit) (dt old : ℝ) :
    ∃ o l, updateDes c q hmax d dt old x = some o ∧ o.diss = -(x.rho * x.tke * Real.sqrt x.tke / l) ∧
      min (lRans c x) (lLes q (f1 c x) x.wd hmax) ≤ l ∧ l ≤ max (lRans c x) (lLes q (f1 c x) x.wd hmax) ∧
      (x.wd ≤ hmax / 2 → o.diss = -(c.betaStar * x.rho * x.tke * x.sdr)) := by
  obtain ⟨s0, s1, s2, s3⟩ := shield_spec hc h1 h2 hq hx hs
  obtain ⟨b1, b2⟩ := iddes_between (c := c) (lr := lRans c x) (ll := lLes q (f1 c x) x.wd hmax) s0.le s1 hl
  have b := hc.betaStar
  have w := hx.sdr
  have k := hx.tke
  have sk := Real.sqrt_pos.mpr k
  have e : ∀ l : ℝ, -x.rho * Real.sqrt x.tke * x.tke / l + x.rho * c.tkeAmb * Real.sqrt c.tkeAmb /
      lIddes c s.1 s.2 (Real.sqrt c.tkeAmb / (c.betaStar * max c.eps c.sdrAmb)) (lLes q (f1 c x) x.wd hmax) = -(x.rho * x.tke * Real.sqrt x.tke / l) := by
    intro l; rw [hamb]; ring
  refine ⟨_, lIddes c s.1 s.1 (lRans c x) (lLes q (f1 c x) x.wd hmax), updateDes_some hc hamb.ge hx hs d dt old, ?_, b1, b2, fun hw => ?_⟩
  · rw [e, s2]
    cases d <;> simp only [close]
    exact absurd rfl hd
  · have one : s.1 = 1 := le_antisymm s1 (by rw [← near_wall hh hx.wd hw]; exact s3)
    have lr : lIddes c s.1 s.2 (lRans c x) (lLes q (f1 c x) x.wd hmax) = lRans c x := by
      rw [s2, one]; unfold lIddes
      rw [sub_self, zero_mul, add_zero, one_mul]
      exact max_eq_right (le_trans hl (min_le_left _ _))
    rw [e, lr]
    have : -(x.rho * x.tke * Real.sqrt x.tke / lRans c x) = -(c.betaStar * x.rho * x.tke * x.sdr) := by
      unfold lRans; field_simp
    rw [this]
    cases d <;> simp only [close]
    exact absurd rfl hd

/-- The default model in the demonstration cell: the shielding function exists and the lengths exceed the machine epsilon. -/
example : (∃ s, shield dflt dfltD 1 demo = some s) ∧ 26 / 100 < dflt.alpha1 ∧ 26 / 100 < dflt.alpha2 ∧ 0 ≤ dfltD.Cdt1 := by
  have hden : denom dfltD demo ≠ 0 := by
    unfold denom
    have : 0 < Real.sqrt (1 / 2 * (demo.strain * demo.strain + demo.vort * demo.vort)) := Real.sqrt_pos.mpr (by norm_num [demo])
    have : 0 < demo.rho * dfltD.kappa * dfltD.kappa * demo.wd * demo.wd := by norm_num [demo, dfltD]
    positivity
  refine ⟨?_, by norm_num [dflt], by norm_num [dflt], by norm_num [dfltD]⟩
  unfold shield tanhPow
  simp only [if_neg hden, Option.bind_eq_bind, Option.bind_some, Option.pure_def]
  exact ⟨_, rfl⟩

/-- C87 fails for buoyancy in the variant: it is never computed, the source adds the value the field started with. -/
theorem iddes_no_buoyancy {c : Coef} {q : CoefD} {hmax dt old : ℝ} {d : Diff} {x : Cell} {o : Out} (h : updateDes c q hmax d dt old x = some o) : o.buoy = old := by
  unfold updateDes at h
  by_cases h0 : x.tke < 0 ∨ max (c.a1 * x.sdr) (x.strain * f2 c x) = 0 ∨ (x.wd = 0 ∧ x.tke = 0) ∨ c.tkeAmb < 0 ∨ c.betaStar * x.sdr = 0
  · rw [if_pos h0] at h; exact absurd h (by simp)
  · rw [if_neg h0] at h
    cases hs : shield c q hmax x with
    | none => simp [hs] at h
    | some s =>
      simp only [hs, Option.bind_eq_bind, Option.bind_some, Option.pure_def, Option.some.injEq] at h
      rw [← h]
      cases d <;> rfl

/-- C87: in still air (no strain, no vorticity) the variant acts as RANS. -/
theorem still_air {c : Coef} (hc : c.Ok) (h1 : 26 / 100 < c.alpha1) (h2 : 26 / 100 < c.alpha2) {q : CoefD} {x : Cell} (hx : x.Ok) (hm : 0 < x.mu) (hs : x.strain = 0) (hv : x.vort = 0) (hmax : ℝ) :
    shield c q hmax x = some (1, 1) := by
  have hd : denom q x = 0 := by unfold denom; rw [hs, hv]; simp
  have hfb : fb x.wd hmax ≤ 1 := min_le_right _ _
  unfold shield tanhPow
  simp only [hd, if_true, if_pos hm, if_pos (viscosity_spec hc hx).1, Option.bind_eq_bind, Option.bind_some, Option.pure_def,
    elevating_zero h1 h2 x, mul_zero, add_zero, mul_one, sub_self, sub_zero, max_eq_left hfb]

/-- C87, explicit diffusion: a source evaluated at the old time is that of the two equations: production, the full
destruction with the ambient values, the cross diffusion and buoyancy; one evaluated at the half time, as in Godunov steps, has
half the destruction only, and the other half is nowhere, as there is no system to solve. -/
theorem explicit_sources {c : Coef} (hc : c.Ok) {x : Cell} (hx : x.Ok) (dt : ℝ) : ∃ o, update c .explicit dt x = some o ∧
    tkeSource o false = o.prod - c.betaStar * x.rho * (x.tke * x.sdr - c.tkeAmb * c.sdrAmb) + o.buoy ∧
    tkeSource o true = o.prod - c.betaStar * x.rho * (x.tke * x.sdr - c.tkeAmb * c.sdrAmb) / 2 + o.buoy ∧
    sdrSource o false = prodOmega c x + cross c x - betaOf c x * x.rho * (x.sdr ^ 2 - c.sdrAmb ^ 2) ∧
    sdrSource o true = prodOmega c x + cross c x - betaOf c x * x.rho * (x.sdr ^ 2 - c.sdrAmb ^ 2) / 2 ∧
    stepSdr .explicit dt x o = x.sdr + dt * sdrSource o true := by
  refine ⟨_, update_some hc hx _ dt, ?_, ?_, ?_, ?_, ?_⟩
  · simp only [tkeSource, close, Bool.false_eq_true, if_false]; ring
  · simp only [tkeSource, close, if_true]; ring
  · simp only [sdrSource, close, Bool.false_eq_true, if_false, prodOmega, cross, betaOf]; ring
  · simp only [sdrSource, close, if_true, prodOmega, cross, betaOf]; ring
  · have r := hx.rho.ne'
    simp only [stepSdr, step]
    field_simp

example : demo.Ok ∧ dflt.Ok := ⟨demo_ok, dflt_ok⟩

/-- C87: the elevating exponent is at most two, is two only where its argument is zero, falls away from there on both sides, and faster on the positive one. -/
theorem elevating_exponent (a : ℝ) : 0 < fe1 a ∧ fe1 a ≤ 2 ∧ (fe1 a = 2 ↔ a = 0) ∧ (∀ b, 0 ≤ a → a < b → fe1 b < fe1 a) ∧ (∀ b, a ≤ 0 → b < a → fe1 b < fe1 a) ∧
    (0 < a → fe1 a < fe1 (-a)) := by
  have hn : ∀ x : ℝ, x < 0 → fe1 x = 2 * Real.exp (-(9 * x ^ 2)) := fun x hx => by unfold fe1; rw [if_pos hx]; ring_nf
  have hp : ∀ x : ℝ, 0 ≤ x → fe1 x = 2 * Real.exp (-(1109 / 100 * x ^ 2)) := fun x hx => by unfold fe1; rw [if_neg (not_lt.mpr hx)]; ring_nf
  have h0 : fe1 0 = 2 := by rw [hp 0 le_rfl]; simp
  have lt2 : ∀ x : ℝ, x ≠ 0 → fe1 x < 2 := by
    intro x hx
    have hx2 : 0 < x ^ 2 := by positivity
    rcases lt_or_ge x 0 with h | h
    · rw [hn x h]
      have := Real.exp_lt_one_iff.mpr (show -(9 * x ^ 2) < 0 by linarith)
      linarith
    · rw [hp x h]
      have := Real.exp_lt_one_iff.mpr (show -(1109 / 100 * x ^ 2) < 0 by linarith)
      linarith
  refine ⟨?_, ?_, ⟨fun h => by_contra fun hne => absurd h (lt2 a hne).ne, fun h => by rw [h, h0]⟩, fun b ha hb => ?_, fun b ha hb => ?_, fun ha => ?_⟩
  · unfold fe1
    split_ifs <;> positivity
  · by_cases h : a = 0
    · rw [h, h0]
    · exact (lt2 a h).le
  · rw [hp a ha, hp b (by linarith)]
    have := Real.exp_lt_exp.mpr (show -(1109 / 100 * b ^ 2) < -(1109 / 100 * a ^ 2) by nlinarith)
    linarith
  · rcases ha.lt_or_eq with ha | ha
    · rw [hn a ha, hn b (by linarith)]
      have := Real.exp_lt_exp.mpr (show -(9 * b ^ 2) < -(9 * a ^ 2) by nlinarith)
      linarith
    · rw [ha, h0]
      exact lt2 b (by rw [ha] at hb; exact hb.ne)
  · rw [hp a ha.le, hn (-a) (by linarith)]
    have := Real.exp_lt_exp.mpr (show -(1109 / 100 * a ^ 2) < -(9 * (-a) ^ 2) by nlinarith)
    linarith

example : fe1 (1 / 2) < fe1 (-(1 / 2)) := (elevating_exponent (1 / 2)).2.2.2.2.2 (by norm_num)

end AmrWind.Sst
