import Mathlib.Analysis.SpecialFunctions.Log.Deriv
import Mathlib.Analysis.SpecialFunctions.Sqrt
import Mathlib.Analysis.ODE.Gronwall
import Verif.Phys.CaseModel
import Verif.Phys.ExactProps

/-!
# Initial and prescribed velocities conserve mass (property C103)

The specification is `Exact.Solenoidal`: the three derivatives exist at all points and their sum is zero.  For velocities prescribed
at faces: the discrete divergence of a cell.
-/

set_option linter.unusedSectionVars false

namespace AmrWind.Case

open Exact (Fld Solenoidal)

theorem solenoidal_iff {u v w ux vy wz : Fld} (h1 : ∀ x y z t, HasDerivAt (fun s => u s y z t) (ux x y z t) x)
    (h2 : ∀ x y z t, HasDerivAt (fun s => v x s z t) (vy x y z t) y)
    (h3 : ∀ x y z t, HasDerivAt (fun s => w x y s t) (wz x y z t) z) :
    Solenoidal u v w ↔ ∀ x y z t, ux x y z t + vy x y z t + wz x y z t = 0 := by
  constructor
  · rintro ⟨a, b, c, ha, hb, hc, e⟩ x y z t
    rw [(h1 x y z t).unique (ha x y z t), (h2 x y z t).unique (hb x y z t), (h3 x y z t).unique (hc x y z t)]
    exact e x y z t
  · intro e
    exact ⟨ux, vy, wz, h1, h2, h3, e⟩

theorem deriv_sin_mul (a x : ℝ) : HasDerivAt (fun s => Real.sin (a * s)) (a * Real.cos (a * x)) x := by
  refine ((hasDerivAt_id' x).const_mul a).sin.congr_deriv ?_
  simp
  ring

theorem deriv_cos_mul (a x : ℝ) : HasDerivAt (fun s => Real.cos (a * s)) (-(a * Real.sin (a * x))) x := by
  refine ((hasDerivAt_id' x).const_mul a).cos.congr_deriv ?_
  simp
  ring

/-! ## Taylor-Green vortex -/

/-- **C103**: the Taylor-Green vortex has no divergence just if the domain is as long in `x` as in `y`.

Partial (C103). Missing: bases that are not square, where it is false. -/
theorem tg_solenoidal_partial {Lx Ly : ℝ} (hx : 0 < Lx) (hy : 0 < Ly) (Lz : ℝ) :
    Solenoidal (fun x y z _ => tgU Lx Ly Lz x y z) (fun x y z _ => tgV Lx Ly Lz x y z) (fun _ _ _ _ => 0) ↔ Lx = Ly := by
  have h1 : ∀ x y z t, HasDerivAt (fun s => (fun x y z (_ : ℝ) => tgU Lx Ly Lz x y z) s y z t)
      (2 * Real.pi / Lx * Real.cos (2 * Real.pi / Lx * x) * Real.cos (2 * Real.pi * y / Ly) * Real.cos (2 * Real.pi * z / Lz)) x := by
    intro x y z t
    have := ((deriv_sin_mul (2 * Real.pi / Lx) x).mul_const (Real.cos (2 * Real.pi * y / Ly))).mul_const (Real.cos (2 * Real.pi * z / Lz))
    refine this.congr_of_eventuallyEq (Filter.Eventually.of_forall fun s => ?_)
    simp only [tgU]
    rw [show 2 * Real.pi * s / Lx = 2 * Real.pi / Lx * s by ring]
  have h2 : ∀ x y z t, HasDerivAt (fun s => (fun x y z (_ : ℝ) => tgV Lx Ly Lz x y z) x s z t)
      (-Real.cos (2 * Real.pi * x / Lx) * (2 * Real.pi / Ly * Real.cos (2 * Real.pi / Ly * y)) * Real.cos (2 * Real.pi * z / Lz)) y := by
    intro x y z t
    have := ((deriv_sin_mul (2 * Real.pi / Ly) y).const_mul (-Real.cos (2 * Real.pi * x / Lx))).mul_const (Real.cos (2 * Real.pi * z / Lz))
    refine this.congr_of_eventuallyEq (Filter.Eventually.of_forall fun s => ?_)
    simp only [tgV]
    rw [show 2 * Real.pi * s / Ly = 2 * Real.pi / Ly * s by ring]
  rw [solenoidal_iff (ux := fun x y z _ => _) (vy := fun x y z _ => _) (wz := fun _ _ _ _ => 0) h1 h2 (fun _ _ _ _ => hasDerivAt_const _ _)]
  constructor
  · intro h
    have e := h 0 0 0 0
    simp only [mul_zero, zero_div, Real.cos_zero, mul_one, add_zero, neg_mul, one_mul] at e
    have : 2 * Real.pi / Lx = 2 * Real.pi / Ly := by linarith
    rw [div_eq_div_iff hx.ne' hy.ne'] at this
    exact (mul_left_cancel₀ (by positivity) this).symm
  · rintro rfl x y z _
    rw [show 2 * Real.pi * x / Lx = 2 * Real.pi / Lx * x by ring, show 2 * Real.pi * y / Lx = 2 * Real.pi / Lx * y by ring]
    ring

/-- **C103**: it is periodic over the domain, in all directions. -/
theorem tg_periodic {Lx Ly Lz : ℝ} (hx : 0 < Lx) (hy : 0 < Ly) (hz : 0 < Lz) (x y z : ℝ) :
    tgU Lx Ly Lz (x + Lx) y z = tgU Lx Ly Lz x y z ∧ tgU Lx Ly Lz x (y + Ly) z = tgU Lx Ly Lz x y z ∧
    tgU Lx Ly Lz x y (z + Lz) = tgU Lx Ly Lz x y z ∧ tgV Lx Ly Lz (x + Lx) y z = tgV Lx Ly Lz x y z ∧
    tgV Lx Ly Lz x (y + Ly) z = tgV Lx Ly Lz x y z ∧ tgV Lx Ly Lz x y (z + Lz) = tgV Lx Ly Lz x y z := by
  have k : ∀ {L : ℝ}, 0 < L → ∀ s, 2 * Real.pi * (s + L) / L = 2 * Real.pi * s / L + 2 * Real.pi := by
    intro L hL s
    field_simp
  refine ⟨?_, ?_, ?_, ?_, ?_, ?_⟩ <;> (first | unfold tgU | unfold tgV) <;>
    first
      | rw [k hx, Real.sin_add_two_pi]
      | rw [k hx, Real.cos_add_two_pi]
      | rw [k hy, Real.cos_add_two_pi]
      | rw [k hy, Real.sin_add_two_pi]
      | rw [k hz, Real.cos_add_two_pi]

example : tgU 1 1 1 (1 / 4) 0 0 = 1 := by
  unfold tgU
  rw [show 2 * Real.pi * (1 / 4) / 1 = Real.pi / 2 by ring]
  simp

/-! ## Vortex dipole -/

theorem core_eq (r0 x z x1 z1 : ℝ) : core r0 x z x1 z1 = Real.exp (-((x - x1) ^ 2 + (z - z1) ^ 2) / r0 ^ 2) := by
  unfold core
  dsimp only
  congr 1
  have h : Real.sqrt ((x - x1) * (x - x1) + (z - z1) * (z - z1)) ^ 2 = (x - x1) * (x - x1) + (z - z1) * (z - z1) :=
    Real.sq_sqrt (by nlinarith [mul_self_nonneg (x - x1), mul_self_nonneg (z - z1)])
  have : -(Real.sqrt ((x - x1) * (x - x1) + (z - z1) * (z - z1)) / r0) * (Real.sqrt ((x - x1) * (x - x1) + (z - z1) * (z - z1)) / r0) =
      -(Real.sqrt ((x - x1) * (x - x1) + (z - z1) * (z - z1)) ^ 2 / r0 ^ 2) := by
    rw [neg_mul, div_mul_div_comm]
    ring
  rw [this, h]
  ring

theorem core_dx (r0 x z x1 z1 : ℝ) :
    HasDerivAt (fun s => core r0 s z x1 z1) (core r0 x z x1 z1 * (-(2 * (x - x1)) / r0 ^ 2)) x := by
  have h : HasDerivAt (fun s => -((s - x1) ^ 2 + (z - z1) ^ 2) / r0 ^ 2) (-(2 * (x - x1)) / r0 ^ 2) x := by
    refine (((((hasDerivAt_id' x).sub_const x1).pow 2).add_const ((z - z1) ^ 2)).neg.div_const (r0 ^ 2)).congr_deriv ?_
    simp
  have := h.exp
  rw [core_eq]
  exact this.congr_of_eventuallyEq (Filter.Eventually.of_forall fun s => core_eq r0 s z x1 z1)

theorem core_dz (r0 x z x1 z1 : ℝ) :
    HasDerivAt (fun s => core r0 x s x1 z1) (core r0 x z x1 z1 * (-(2 * (z - z1)) / r0 ^ 2)) z := by
  have h : HasDerivAt (fun s => -((x - x1) ^ 2 + (s - z1) ^ 2) / r0 ^ 2) (-(2 * (z - z1)) / r0 ^ 2) z := by
    refine (((((hasDerivAt_id' z).sub_const z1).pow 2).const_add ((x - x1) ^ 2)).neg.div_const (r0 ^ 2)).congr_deriv ?_
    simp
  have := h.exp
  rw [core_eq]
  exact this.congr_of_eventuallyEq (Filter.Eventually.of_forall fun s => core_eq r0 x s x1 z1)

/-- **C103**: the vortex dipole has no divergence, for all positions, strengths and core radii; at each centre it moves with the background and the
other vortex only. -/
theorem dipole_solenoidal (d : Dipole) :
    Solenoidal (fun x _ z _ => d.u x z) (fun _ _ _ _ => d.vb) (fun x _ z _ => d.w x z) ∧
    d.u d.x1 d.z1 = d.ub + 1 / 2 * d.om * (d.z1 - d.z2) * core d.r0 d.x1 d.z1 d.x2 d.z2 ∧
    d.w d.x1 d.z1 = d.wb - 1 / 2 * d.om * (d.x1 - d.x2) * core d.r0 d.x1 d.z1 d.x2 d.z2 := by
  refine ⟨?_, ?_, ?_⟩
  · refine ⟨fun x _ z _ => -(1 / 2) * d.om * (z - d.z1) * (core d.r0 x z d.x1 d.z1 * (-(2 * (x - d.x1)) / d.r0 ^ 2)) +
        1 / 2 * d.om * (z - d.z2) * (core d.r0 x z d.x2 d.z2 * (-(2 * (x - d.x2)) / d.r0 ^ 2)), fun _ _ _ _ => 0,
      fun x _ z _ => 1 / 2 * d.om * (x - d.x1) * (core d.r0 x z d.x1 d.z1 * (-(2 * (z - d.z1)) / d.r0 ^ 2)) +
        -(1 / 2) * d.om * (x - d.x2) * (core d.r0 x z d.x2 d.z2 * (-(2 * (z - d.z2)) / d.r0 ^ 2)), ?_, ?_, ?_, ?_⟩
    · intro x y z t
      exact (((core_dx d.r0 x z d.x1 d.z1).const_mul (-(1 / 2) * d.om * (z - d.z1))).const_add d.ub).add
        ((core_dx d.r0 x z d.x2 d.z2).const_mul (1 / 2 * d.om * (z - d.z2)))
    · intro x y z t
      exact hasDerivAt_const _ _
    · intro x y z t
      exact (((core_dz d.r0 x z d.x1 d.z1).const_mul (1 / 2 * d.om * (x - d.x1))).const_add d.wb).add
        ((core_dz d.r0 x z d.x2 d.z2).const_mul (-(1 / 2) * d.om * (x - d.x2)))
    · intro x y z t
      dsimp only
      ring
  · unfold Dipole.u; ring
  · unfold Dipole.w; ring

/-- **C103**: the two vortices turn in opposite senses: side by side at the same height, halfway between them the flow is twice that of one. -/
theorem dipole_jet (d : Dipole) (hz : d.z1 = d.z2) (a : ℝ) (h1 : d.x1 = a) (h2 : d.x2 = -a) :
    d.w 0 d.z1 = d.wb - d.om * a * Real.exp (-a ^ 2 / d.r0 ^ 2) := by
  unfold Dipole.w
  rw [core_eq, core_eq, h1, h2, hz]
  have : (0 - -a) ^ 2 = (0 - a) ^ 2 := by ring
  rw [this, show -((0 - a) ^ 2 + (d.z2 - d.z2) ^ 2) = -a ^ 2 by ring]
  ring

example : (⟨1, 0, -1, 0, 1, 2, 0, 0, 0⟩ : Dipole).w 0 0 = -2 * Real.exp (-1) := by
  have := dipole_jet (⟨1, 0, -1, 0, 1, 2, 0, 0, 0⟩ : Dipole) rfl 1 rfl rfl
  norm_num at this
  rw [this]
  norm_num

/-! ## Turbulent channel -/

/-- **C103**: the perturbation of the turbulent channel has no divergence; with walls at the origin and at the end of the domain and a whole
number of periods it does not pass the walls, be they normal to `y` or to `z`. -/
theorem pert_solenoidal (ky kz amp : ℝ) :
    Solenoidal (fun _ _ _ _ => 0) (fun _ y z _ => pertV ky kz amp y z) (fun _ y z _ => pertW ky kz amp y z) ∧
    (∀ z, pertV ky kz amp 0 z = 0) ∧ (∀ y, pertW ky kz amp y 0 = 0) ∧
    ∀ (n : ℤ) (L : ℝ), 0 < L → (ky = waveNo n L → ∀ z, pertV ky kz amp L z = 0) ∧ (kz = waveNo n L → ∀ y, pertW ky kz amp y L = 0) := by
  refine ⟨⟨fun _ _ _ _ => 0, fun _ y z _ => kz * amp * (ky * Real.cos (ky * y)) * Real.cos (kz * z),
    fun _ y z _ => -ky * amp * Real.cos (ky * y) * (kz * Real.cos (kz * z)), ?_, ?_, ?_, ?_⟩, ?_, ?_, ?_⟩
  · intros; exact hasDerivAt_const _ _
  · intro x y z t
    exact ((deriv_sin_mul ky y).const_mul (kz * amp)).mul_const (Real.cos (kz * z))
  · intro x y z t
    exact (deriv_sin_mul kz z).const_mul (-ky * amp * Real.cos (ky * y))
  · intro x y z t
    dsimp only
    ring
  · intro z; simp [pertV]
  · intro y; simp [pertW]
  · intro n L hL
    have e : waveNo n L * L = n * (2 * Real.pi) := by unfold waveNo; field_simp
    have e2 : (n : ℝ) * (2 * Real.pi) = ((2 * n : ℤ) : ℝ) * Real.pi := by push_cast; ring
    constructor
    · rintro rfl z
      unfold pertV
      rw [e, e2, Real.sin_int_mul_pi]
      ring
    · rintro rfl y
      unfold pertW
      rw [e, e2, Real.sin_int_mul_pi]
      ring

/-- **C103**: the mean profile of the turbulent channel is at rest at the wall, nowhere runs backwards, and exerts there the stress `rho utau^2` that the
friction Reynolds number asks for, a height of one. -/
theorem reichardt_spec {mu rho reTau kappa : ℝ} (hm : 0 < mu) (hr : 0 < rho) (hre : 0 < reTau) (hk : 0 < kappa) :
    let ut := uTau mu rho reTau
    let f := reichardt ut kappa (yTau mu rho ut)
    f 0 = 0 ∧ (∀ h, 0 ≤ h → 0 ≤ f h) ∧ (∃ s, HasDerivAt f s 0 ∧ mu * s = rho * ut ^ 2) ∧ ut * 1 * rho / mu = reTau := by
  intro ut f
  have hut : 0 < ut := by
    show 0 < mu * reTau / (rho * 1)
    positivity
  set yt := yTau mu rho ut with hyt
  have hy : 0 < yt := by
    show 0 < mu / (ut * rho)
    positivity
  refine ⟨by simp [f, reichardt], ?_, ⟨ut * (1 / yt), ?_, ?_⟩, ?_⟩
  · intro h hh
    show 0 ≤ reichardt ut kappa yt h
    unfold reichardt
    dsimp only
    have hp : 0 ≤ h / yt := by positivity
    set p := h / yt
    have l1 : 0 ≤ Real.log (1 + kappa * p) := Real.log_nonneg (by nlinarith [mul_nonneg hk.le hp])
    have l2 : p / 11 * Real.exp (-p / 3) ≤ 1 - Real.exp (-p / 11) := by
      have a1 : Real.exp (-p / 3) ≤ Real.exp (-p / 11) := Real.exp_le_exp.mpr (by linarith)
      have a2 : (p / 11 + 1) * Real.exp (-p / 11) ≤ 1 := by
        have := Real.add_one_le_exp (p / 11)
        calc (p / 11 + 1) * Real.exp (-p / 11) ≤ Real.exp (p / 11) * Real.exp (-p / 11) :=
              mul_le_mul_of_nonneg_right this (Real.exp_nonneg _)
          _ = 1 := by rw [← Real.exp_add]; ring_nf; exact Real.exp_zero
      have a3 : p / 11 * Real.exp (-p / 3) ≤ p / 11 * Real.exp (-p / 11) := mul_le_mul_of_nonneg_left a1 (by positivity)
      linarith
    have l3 : 0 ≤ 1 / kappa * Real.log (1 + kappa * p) := by positivity
    apply mul_nonneg hut.le
    linarith
  · have d1 : HasDerivAt (fun s : ℝ => s / yt) (1 / yt) 0 := (hasDerivAt_id' (0 : ℝ)).div_const yt
    have d2 : HasDerivAt (fun s : ℝ => Real.log (1 + kappa * (s / yt))) (kappa * (1 / yt)) 0 := by
      have := ((d1.const_mul kappa).const_add 1).log (by simp)
      simpa using this
    have d3 : HasDerivAt (fun s : ℝ => Real.exp (-(s / yt) / 11)) (-(1 / yt) / 11) 0 := by
      have := (d1.neg.div_const 11).exp
      simpa using this
    have d4 : HasDerivAt (fun s : ℝ => Real.exp (-(s / yt) / 3)) (-(1 / yt) / 3) 0 := by
      have := (d1.neg.div_const 3).exp
      simpa using this
    have d5 := (d1.div_const 11).mul d4
    have := ((d2.const_mul (1 / kappa)).add (((d3.const_sub 1).sub d5).const_mul (78 / 10))).const_mul ut
    refine this.congr_deriv ?_
    simp only [zero_div, neg_zero, Real.exp_zero, mul_one, zero_mul, add_zero]
    field_simp
    norm_num
  · rw [hyt]
    unfold yTau
    field_simp
  · show mu * reTau / (rho * 1) * 1 * rho / mu = reTau
    field_simp

/-- **C103**: the distance from the wall is that from the nearer wall if the channel extends from 0 to 2. -/
theorem wall_dist_spec {h : ℝ} : wallDist h = min h (2 - h) := by
  unfold wallDist
  split_ifs with h1
  · rw [min_eq_right (by linarith)]
  · rw [min_eq_left (by linarith)]

/-- **C103**, disagreement: in a channel that extends from 0 to a height above 2 (from below 0) the distance becomes negative near the upper (lower) wall, and the
initial profile runs backwards or is undefined there. -/
theorem wall_dist_other {h : ℝ} : (2 < h ↔ wallDist h < 0 ∧ 1 < h) ∧ (h < 0 ↔ wallDist h < 0 ∧ h ≤ 1) := by
  unfold wallDist
  split_ifs with h1
  · exact ⟨⟨fun _ => ⟨by linarith, h1⟩, fun h => by linarith [h.1]⟩, ⟨fun h => by linarith, fun h => by linarith [h.2]⟩⟩
  · exact ⟨⟨fun h => by linarith, fun h => by linarith [h.2]⟩, ⟨fun h => ⟨h, by linarith⟩, fun h => h.1⟩⟩

/-- **C103**, disagreement: the velocity of a turbulent channel always points along `x`; with walls normal to `x`, which are accepted, it
goes through the walls' normal direction and has divergence. -/
theorem channel_x_walls {utau kappa ytau : ℝ} (hu : 0 < utau) (hk : 0 < kappa) (hy : 0 < ytau) :
    ¬ Solenoidal (fun x _ _ _ => reichardt utau kappa ytau (wallDist x)) (fun _ _ _ _ => 0) (fun _ _ _ _ => 0) := by
  rintro ⟨a, b, c, ha, hb, hc, e⟩
  have hb0 : ∀ x y z t, b x y z t = 0 := fun x y z t => (hb x y z t).unique (hasDerivAt_const _ _)
  have hc0 : ∀ x y z t, c x y z t = 0 := fun x y z t => (hc x y z t).unique (hasDerivAt_const _ _)
  have ha0 : ∀ x y z t, a x y z t = 0 := by
    intro x y z t
    have := e x y z t
    rw [hb0, hc0] at this
    linarith
  have hconst := is_const_of_deriv_eq_zero (f := fun s => reichardt utau kappa ytau (wallDist s))
    (fun s => (ha s 0 0 0).differentiableAt) (fun s => by rw [(ha s 0 0 0).deriv]; exact ha0 s 0 0 0) 1 0
  have h0 : reichardt utau kappa ytau (wallDist 0) = 0 := by
    rw [show wallDist 0 = 0 by unfold wallDist; rw [if_neg (by norm_num)]]
    simp [reichardt]
  rw [h0] at hconst
  have : 0 < reichardt utau kappa ytau (wallDist 1) := by
    unfold wallDist reichardt
    rw [if_neg (by norm_num)]
    dsimp only
    have hp : 0 < 1 / ytau := by positivity
    set p := 1 / ytau
    have l1 : 0 < Real.log (1 + kappa * p) := Real.log_pos (by nlinarith [mul_pos hk hp])
    have l2 : p / 11 * Real.exp (-p / 3) ≤ 1 - Real.exp (-p / 11) := by
      have a1 : Real.exp (-p / 3) ≤ Real.exp (-p / 11) := Real.exp_le_exp.mpr (by linarith)
      have a2 : (p / 11 + 1) * Real.exp (-p / 11) ≤ 1 := by
        have := Real.add_one_le_exp (p / 11)
        calc (p / 11 + 1) * Real.exp (-p / 11) ≤ Real.exp (p / 11) * Real.exp (-p / 11) :=
              mul_le_mul_of_nonneg_right this (Real.exp_nonneg _)
          _ = 1 := by rw [← Real.exp_add]; ring_nf; exact Real.exp_zero
      have a3 : p / 11 * Real.exp (-p / 3) ≤ p / 11 * Real.exp (-p / 11) := mul_le_mul_of_nonneg_left a1 (by positivity)
      linarith
    have l3 : 0 < 1 / kappa * Real.log (1 + kappa * p) := by positivity
    apply mul_pos hu
    linarith
  linarith

/-! ## Vortex patch -/

theorem sin_sq_diff (x h : ℝ) : Real.sin (Real.pi * (x + h)) * Real.sin (Real.pi * (x + h)) - Real.sin (Real.pi * x) * Real.sin (Real.pi * x) =
    Real.sin (Real.pi * h) * Real.sin (2 * Real.pi * (x + h / 2)) := by
  have e1 : Real.pi * (x + h) = Real.pi * (x + h / 2) + Real.pi * (h / 2) := by ring
  have e2 : Real.pi * x = Real.pi * (x + h / 2) - Real.pi * (h / 2) := by ring
  have e3 : Real.pi * h = 2 * (Real.pi * (h / 2)) := by ring
  have e4 : 2 * Real.pi * (x + h / 2) = 2 * (Real.pi * (x + h / 2)) := by ring
  rw [e3, e4, Real.sin_two_mul, Real.sin_two_mul, e1, Real.sin_add]
  have : Real.sin (Real.pi * x) = Real.sin (Real.pi * (x + h / 2)) * Real.cos (Real.pi * (h / 2)) -
      Real.cos (Real.pi * (x + h / 2)) * Real.sin (Real.pi * (h / 2)) := by
    conv_lhs => rw [e2]
    rw [Real.sin_sub]
  rw [this]
  ring

/-- The discrete divergence of the velocities prescribed at the faces of the cell with lower corner `(x, y, z)`. -/
noncomputable def vpDiv (dx dy dz x y z : ℝ) : ℝ :=
  (vpU (x + dx) (y + dy / 2) (z + dz / 2) - vpU x (y + dy / 2) (z + dz / 2)) / dx +
  (vpV (x + dx / 2) (y + dy) (z + dz / 2) - vpV (x + dx / 2) y (z + dz / 2)) / dy +
  (vpW (x + dx / 2) (y + dy / 2) (z + dz) - vpW (x + dx / 2) (y + dy / 2) z) / dz

theorem vp_div (dx dy dz x y z : ℝ) : vpDiv dx dy dz x y z =
    (2 * Real.sin (Real.pi * dx) / dx - Real.sin (Real.pi * dy) / dy - Real.sin (Real.pi * dz) / dz) *
      (Real.sin (2 * Real.pi * (x + dx / 2)) * Real.sin (2 * Real.pi * (y + dy / 2)) * Real.sin (2 * Real.pi * (z + dz / 2))) := by
  have hx := sin_sq_diff x dx
  have hy := sin_sq_diff y dy
  have hz := sin_sq_diff z dz
  have a : vpU (x + dx) (y + dy / 2) (z + dz / 2) - vpU x (y + dy / 2) (z + dz / 2) =
      2 * (Real.sin (Real.pi * dx) * Real.sin (2 * Real.pi * (x + dx / 2))) * Real.sin (2 * Real.pi * (y + dy / 2)) *
        Real.sin (2 * Real.pi * (z + dz / 2)) := by rw [← hx]; unfold vpU; ring
  have b : vpV (x + dx / 2) (y + dy) (z + dz / 2) - vpV (x + dx / 2) y (z + dz / 2) =
      -(Real.sin (Real.pi * dy) * Real.sin (2 * Real.pi * (y + dy / 2))) * Real.sin (2 * Real.pi * (x + dx / 2)) *
        Real.sin (2 * Real.pi * (z + dz / 2)) := by rw [← hy]; unfold vpV; ring
  have c : vpW (x + dx / 2) (y + dy / 2) (z + dz) - vpW (x + dx / 2) (y + dy / 2) z =
      -(Real.sin (Real.pi * dz) * Real.sin (2 * Real.pi * (z + dz / 2))) * Real.sin (2 * Real.pi * (x + dx / 2)) *
        Real.sin (2 * Real.pi * (y + dy / 2)) := by rw [← hz]; unfold vpW; ring
  unfold vpDiv
  rw [a, b, c]
  ring

/-- **C103**: the velocities that the vortex patch prescribes at the faces conserve the volume of every cell exactly if the cells are cubes; and
the velocity has no divergence.

Partial (C103). Missing: cells that are not cubes, where it is false (`vp_not_conserved`). -/
theorem vp_conserves_partial : (∀ h x y z, vpDiv h h h x y z = 0) ∧
    Solenoidal (fun x y z _ => vpU x y z) (fun x y z _ => vpV x y z) (fun x y z _ => vpW x y z) := by
  refine ⟨fun h x y z => by rw [vp_div]; ring, ?_⟩
  have k : ∀ s, HasDerivAt (fun s => Real.sin (Real.pi * s) * Real.sin (Real.pi * s)) (Real.pi * Real.sin (2 * Real.pi * s)) s := by
    intro s
    refine ((deriv_sin_mul Real.pi s).mul (deriv_sin_mul Real.pi s)).congr_deriv ?_
    rw [show 2 * Real.pi * s = 2 * (Real.pi * s) by ring, Real.sin_two_mul]
    ring
  refine ⟨fun x y z _ => 2 * (Real.pi * Real.sin (2 * Real.pi * x)) * Real.sin (2 * Real.pi * y) * Real.sin (2 * Real.pi * z),
    fun x y z _ => -(Real.pi * Real.sin (2 * Real.pi * y)) * Real.sin (2 * Real.pi * x) * Real.sin (2 * Real.pi * z),
    fun x y z _ => -(Real.pi * Real.sin (2 * Real.pi * z)) * Real.sin (2 * Real.pi * x) * Real.sin (2 * Real.pi * y), ?_, ?_, ?_, ?_⟩
  · intro x y z t
    have := (((k x).const_mul 2).mul_const (Real.sin (2 * Real.pi * y))).mul_const (Real.sin (2 * Real.pi * z))
    refine this.congr_of_eventuallyEq (Filter.Eventually.of_forall fun s => ?_)
    simp only [vpU]; ring
  · intro x y z t
    have := ((k y).neg.mul_const (Real.sin (2 * Real.pi * x))).mul_const (Real.sin (2 * Real.pi * z))
    refine this.congr_of_eventuallyEq (Filter.Eventually.of_forall fun s => ?_)
    simp only [vpV, Pi.neg_apply]; ring
  · intro x y z t
    have := ((k z).neg.mul_const (Real.sin (2 * Real.pi * x))).mul_const (Real.sin (2 * Real.pi * y))
    refine this.congr_of_eventuallyEq (Filter.Eventually.of_forall fun s => ?_)
    simp only [vpW, Pi.neg_apply]; ring
  · intro x y z t
    dsimp only
    ring

/-- **C103**, disagreement: in cells that are not cubes the prescribed face velocities do not conserve volume: here half as high as wide. -/
theorem vp_not_conserved : vpDiv (1 / 2) (1 / 2) (1 / 4) 0 0 0 ≠ 0 := by
  rw [vp_div]
  have s1 : Real.sin (Real.pi * (1 / 2)) = 1 := by rw [mul_one_div, Real.sin_pi_div_two]
  have s2 : Real.sin (Real.pi * (1 / 4)) = Real.sqrt 2 / 2 := by rw [mul_one_div, Real.sin_pi_div_four]
  have s3 : Real.sin (2 * Real.pi * (0 + 1 / 2 / 2)) = 1 := by rw [show 2 * Real.pi * (0 + 1 / 2 / 2) = Real.pi / 2 by ring, Real.sin_pi_div_two]
  have s4 : Real.sin (2 * Real.pi * (0 + 1 / 4 / 2)) = Real.sqrt 2 / 2 := by
    rw [show 2 * Real.pi * (0 + 1 / 4 / 2) = Real.pi / 4 by ring, Real.sin_pi_div_four]
  rw [s1, s2, s3, s4]
  have h2 : Real.sqrt 2 * Real.sqrt 2 = 2 := Real.mul_self_sqrt (by norm_num)
  have h0 : 0 < Real.sqrt 2 := by positivity
  have h3 : Real.sqrt 2 ≠ 1 := by
    intro h
    rw [h] at h2
    norm_num at h2
  have : (2 * 1 / (1 / 2) - 1 / (1 / 2) - Real.sqrt 2 / 2 / (1 / 4)) * (1 * 1 * (Real.sqrt 2 / 2)) = Real.sqrt 2 * (1 - Real.sqrt 2) := by
    ring
  rw [this]
  exact mul_ne_zero h0.ne' (sub_ne_zero.mpr (Ne.symm h3))

/-! ## Zalesak's disk -/

/-- **C103**: Zalesak's disk turns as a solid body about the axis through `(1/2, 1/2)`: a particle that starts at any point moves on this circle and is back
after one period; the prescribed face velocities conserve the volume of every cell. -/
theorem zd_rotation {T : ℝ} (hT : T ≠ 0) (x0 y0 : ℝ) :
    let X := fun t => 1 / 2 + (x0 - 1 / 2) * Real.cos (2 * Real.pi / T * t) - (y0 - 1 / 2) * Real.sin (2 * Real.pi / T * t)
    let Y := fun t => 1 / 2 + (x0 - 1 / 2) * Real.sin (2 * Real.pi / T * t) + (y0 - 1 / 2) * Real.cos (2 * Real.pi / T * t)
    X 0 = x0 ∧ Y 0 = y0 ∧ X T = x0 ∧ Y T = y0 ∧ (∀ t, HasDerivAt X (zdU T (Y t)) t ∧ HasDerivAt Y (zdV T (X t)) t) ∧
    ∀ dx dy dz x y, (zdU T (y + dy / 2) - zdU T (y + dy / 2)) / dx + (zdV T (x + dx / 2) - zdV T (x + dx / 2)) / dy + (0 - 0) / dz = 0 := by
  intro X Y
  have e : 2 * Real.pi / T * T = 2 * Real.pi := by field_simp
  refine ⟨by simp [X], by simp [Y], ?_, ?_, fun t => ⟨?_, ?_⟩, fun dx dy dz x y => by simp⟩
  · simp only [X]; rw [e, Real.cos_two_pi, Real.sin_two_pi]; ring
  · simp only [Y]; rw [e, Real.cos_two_pi, Real.sin_two_pi]; ring
  · have := (((deriv_cos_mul (2 * Real.pi / T) t).const_mul (x0 - 1 / 2)).const_add (1 / 2)).sub ((deriv_sin_mul (2 * Real.pi / T) t).const_mul (y0 - 1 / 2))
    refine this.congr_deriv ?_
    simp only [Y, zdU]
    ring
  · have := (((deriv_sin_mul (2 * Real.pi / T) t).const_mul (x0 - 1 / 2)).const_add (1 / 2)).add ((deriv_cos_mul (2 * Real.pi / T) t).const_mul (y0 - 1 / 2))
    refine this.congr_deriv ?_
    simp only [X, zdV]
    ring

/-! ## Breaking waves -/

/-- **C103**: the velocity below a breaking wave has no divergence and no rotation, and decays downwards. -/
theorem bw_solenoidal (a k : ℝ) : Solenoidal (fun x _ z _ => bwU a k x z) (fun _ _ _ _ => 0) (fun x _ z _ => bwW a k x z) ∧
    (∀ x z, ∃ s, HasDerivAt (fun s => bwU a k x s) s z ∧ HasDerivAt (fun s => bwW a k s z) s x) ∧
    ∀ x z d, bwU a k x (z - d) = Real.exp (-(k * d)) * bwU a k x z := by
  have ez : ∀ z, HasDerivAt (fun s => Real.exp (k * s)) (k * Real.exp (k * z)) z := by
    intro z
    refine ((hasDerivAt_id' z).const_mul k).exp.congr_deriv ?_
    simp
    ring
  refine ⟨⟨fun x _ z _ => bwOmega a k * a * Real.exp (k * z) * -(k * Real.sin (k * x)), fun _ _ _ _ => 0,
    fun x _ z _ => bwOmega a k * a * (k * Real.exp (k * z)) * Real.sin (k * x), ?_, ?_, ?_, ?_⟩, ?_, ?_⟩
  · intro x y z t
    exact (deriv_cos_mul k x).const_mul (bwOmega a k * a * Real.exp (k * z))
  · intros; exact hasDerivAt_const _ _
  · intro x y z t
    exact ((ez z).const_mul (bwOmega a k * a)).mul_const (Real.sin (k * x))
  · intro x y z t
    dsimp only
    ring
  · intro x z
    refine ⟨bwOmega a k * a * (k * Real.exp (k * z)) * Real.cos (k * x), ((ez z).const_mul (bwOmega a k * a)).mul_const (Real.cos (k * x)), ?_⟩
    refine ((deriv_sin_mul k x).const_mul (bwOmega a k * a * Real.exp (k * z))).congr_deriv ?_
    ring
  · intro x z d
    unfold bwU
    rw [show k * (z - d) = -(k * d) + k * z by ring, Real.exp_add]
    ring

/-- **C103**, disagreement: the velocity is not measured from the water level: moving the water up by `l` does not move the flow with it; at the same
depth it is larger by the factor `exp (k l)`, while the surface just moves. -/
theorem bw_level (a k l x z : ℝ) : bwU a k x (z + l) = Real.exp (k * l) * bwU a k x z ∧ bwEta l a k x = l + bwEta 0 a k x := by
  constructor
  · unfold bwU
    rw [show k * (z + l) = k * l + k * z by ring, Real.exp_add]
    ring
  · unfold bwEta
    ring

/-- **C103**: the surface of the breaking wave: height of crest and trough of a Stokes wave of third order, mean level. -/
theorem bw_surface (level a k : ℝ) (hk : k ≠ 0) :
    bwEta level a k 0 = level + a * (1 + a * k / 2 + 5 / 16 * (a * k) ^ 2) ∧
    bwEta level a k (Real.pi / k) = level - a * (1 - a * k / 2 + 5 / 16 * (a * k) ^ 2) ∧
    bwEta level a k (Real.pi / 2 / k) = level - a * (a * k / 2) ∧
    (∀ x, bwEta level a k (x + 2 * Real.pi / k) = bwEta level a k x) ∧ ∀ x, bwEta level a k (-x) = bwEta level a k x := by
  have c2 : Real.cos (2 * Real.pi) = 1 := Real.cos_two_pi
  have c3 : Real.cos (3 * Real.pi) = -1 := by
    rw [show 3 * Real.pi = Real.pi + 2 * Real.pi by ring, Real.cos_add_two_pi, Real.cos_pi]
  have c4 : Real.cos (3 * (Real.pi / 2)) = 0 := by
    rw [show 3 * (Real.pi / 2) = Real.pi / 2 + Real.pi by ring, Real.cos_add_pi, Real.cos_pi_div_two, neg_zero]
  refine ⟨?_, ?_, ?_, ?_, ?_⟩
  · unfold bwEta
    simp only [mul_zero, Real.cos_zero]
    ring
  · unfold bwEta
    simp only
    rw [show k * (Real.pi / k) = Real.pi by field_simp, show 2 * k * (Real.pi / k) = 2 * Real.pi by field_simp,
      show 3 * k * (Real.pi / k) = 3 * Real.pi by field_simp, Real.cos_pi, c2, c3]
    ring
  · unfold bwEta
    simp only
    rw [show k * (Real.pi / 2 / k) = Real.pi / 2 by field_simp, show 2 * k * (Real.pi / 2 / k) = Real.pi by field_simp,
      show 3 * k * (Real.pi / 2 / k) = 3 * (Real.pi / 2) by field_simp, Real.cos_pi, Real.cos_pi_div_two, c4]
    ring
  · intro x
    unfold bwEta
    simp only
    rw [show k * (x + 2 * Real.pi / k) = k * x + 2 * Real.pi by field_simp,
      show 2 * k * (x + 2 * Real.pi / k) = 2 * k * x + 2 * Real.pi + 2 * Real.pi by field_simp; ring,
      show 3 * k * (x + 2 * Real.pi / k) = 3 * k * x + 2 * Real.pi + 2 * Real.pi + 2 * Real.pi by field_simp; ring]
    simp only [Real.cos_add_two_pi]
  · intro x
    unfold bwEta
    simp only [mul_neg, Real.cos_neg]

/-- **C103**: the displacement of a ring is the sum of its modes, each of the amplitude asked for. -/
theorem wobble_modes (amp : ℝ) (m1 m2 : List (ℤ × ℝ)) (n : ℤ) (ph theta : ℝ) :
    wobble amp [] theta = 0 ∧ wobble amp [(n, ph)] theta = amp * Real.cos (n * theta - ph) ∧
    wobble amp (m1 ++ m2) theta = wobble amp m1 theta + wobble amp m2 theta := by
  refine ⟨rfl, by simp [wobble], ?_⟩
  have key : ∀ (l : List (ℤ × ℝ)) (s : ℝ), l.foldl (fun s m => s + amp * Real.cos (m.1 * theta - m.2)) s
      = s + wobble amp l theta := by
    intro l
    induction l with
    | nil => intro s; simp [wobble]
    | cons a l ih =>
      intro s
      unfold wobble
      rw [List.foldl_cons, List.foldl_cons, ih, ih]
      ring
  unfold wobble
  rw [List.foldl_append, key]
  rfl

example : 1 < Real.exp (1 * 1) ∧ bwU 1 1 0 0 ≠ 0 := by
  refine ⟨by rw [mul_one]; exact (Real.one_lt_exp_iff).mpr (by norm_num), ?_⟩
  unfold bwU bwOmega
  simp only [mul_zero, Real.exp_zero, Real.cos_zero, mul_one]
  exact (Real.sqrt_pos.mpr (by norm_num)).ne'

/-- **C105**: the frequency is that of a deep-water wave of third order, `ω² = g k (1 + (a k)²)` with `g = 9.81`; at the still water level under the crest the water moves forward at `a ω`. -/
theorem bw_frequency {a k : ℝ} (hk : 0 ≤ k) : bwOmega a k ^ 2 = 9.81 * k * (1 + (a * k) ^ 2) ∧ 0 ≤ bwOmega a k ∧ bwU a k 0 0 = a * bwOmega a k ∧ bwW a k 0 0 = 0 := by
  refine ⟨?_, Real.sqrt_nonneg _, ?_, ?_⟩
  · unfold bwOmega
    rw [Real.sq_sqrt (by have := mul_self_nonneg (a * k); positivity)]
    ring
  · simp [bwU, mul_comm]
  · simp [bwW]

end AmrWind.Case
