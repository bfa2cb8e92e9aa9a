import Mathlib.Analysis.SpecialFunctions.ExpDeriv
import Mathlib.Analysis.SpecialFunctions.Trigonometric.Deriv
import Mathlib.Analysis.SpecialFunctions.Pow.Deriv
import Mathlib.Tactic.LinearCombination
import Mathlib.Tactic.FieldSimp
import Verif.Phys.ExactModel
import Verif.Turb.LesModel

/-!
# The exact solutions of the verification cases solve the equations that are advanced (property C101)

The specification: fields of position and time, their partial derivatives as `HasDerivAt`, and the balance of momentum that the
code advances (`icns_ops.H:115-134`, `CompRHSOps.H:93-115`): acceleration, pressure gradient over density, diffusion with the
dynamic viscosity over density, sources per mass.
-/

set_option linter.unusedSectionVars false

namespace AmrWind.Exact

/-- A field of `x`, `y`, `z` and time. -/
abbrev Fld := ℝ → ℝ → ℝ → ℝ → ℝ

/-- `qt` … `qzz` are the partial derivatives of `q`. -/
structure Partials (q qt qx qy qz qxx qyy qzz : Fld) : Prop where
  t : ∀ x y z t, HasDerivAt (fun s => q x y z s) (qt x y z t) t
  x : ∀ x y z t, HasDerivAt (fun s => q s y z t) (qx x y z t) x
  y : ∀ x y z t, HasDerivAt (fun s => q x s z t) (qy x y z t) y
  z : ∀ x y z t, HasDerivAt (fun s => q x y s t) (qz x y z t) z
  xx : ∀ x y z t, HasDerivAt (fun s => qx s y z t) (qxx x y z t) x
  yy : ∀ x y z t, HasDerivAt (fun s => qy x s z t) (qyy x y z t) y
  zz : ∀ x y z t, HasDerivAt (fun s => qz x y s t) (qzz x y z t) z

/-- The balance of the momentum component `q` in the velocity `(u, v, w)`: pressure gradient component `g`, source per mass `s`. -/
def Balance (rho mu : ℝ) (u v w q g s : Fld) : Prop :=
  ∃ qt qx qy qz qxx qyy qzz : Fld, Partials q qt qx qy qz qxx qyy qzz ∧ ∀ x y z t,
    qt x y z t + u x y z t * qx x y z t + v x y z t * qy x y z t + w x y z t * qz x y z t =
      -(g x y z t) / rho + mu / rho * (qxx x y z t + qyy x y z t + qzz x y z t) + s x y z t

/-- The velocity has no divergence. -/
def Solenoidal (u v w : Fld) : Prop :=
  ∃ ux vy wz : Fld, (∀ x y z t, HasDerivAt (fun s => u s y z t) (ux x y z t) x) ∧
    (∀ x y z t, HasDerivAt (fun s => v x s z t) (vy x y z t) y) ∧
    (∀ x y z t, HasDerivAt (fun s => w x y s t) (wz x y z t) z) ∧ ∀ x y z t, ux x y z t + vy x y z t + wz x y z t = 0

/-- `(gx, gy, gz)` is the gradient of `p`. -/
def Gradient (p gx gy gz : Fld) : Prop :=
  ∀ x y z t, HasDerivAt (fun s => p s y z t) (gx x y z t) x ∧ HasDerivAt (fun s => p x s z t) (gy x y z t) y ∧
    HasDerivAt (fun s => p x y s t) (gz x y z t) z

theorem Partials.unique {q qt qx qy qz qxx qyy qzz qt' qx' qy' qz' qxx' qyy' qzz' : Fld}
    (h : Partials q qt qx qy qz qxx qyy qzz) (h' : Partials q qt' qx' qy' qz' qxx' qyy' qzz') :
    qt' = qt ∧ qx' = qx ∧ qy' = qy ∧ qz' = qz ∧ qxx' = qxx ∧ qyy' = qyy ∧ qzz' = qzz := by
  have e1 : qt' = qt := by funext x y z t; exact (h'.t x y z t).unique (h.t x y z t)
  have e2 : qx' = qx := by funext x y z t; exact (h'.x x y z t).unique (h.x x y z t)
  have e3 : qy' = qy := by funext x y z t; exact (h'.y x y z t).unique (h.y x y z t)
  have e4 : qz' = qz := by funext x y z t; exact (h'.z x y z t).unique (h.z x y z t)
  subst e1 e2 e3 e4
  refine ⟨rfl, rfl, rfl, rfl, ?_, ?_, ?_⟩
  · funext x y z t; exact (h'.xx x y z t).unique (h.xx x y z t)
  · funext x y z t; exact (h'.yy x y z t).unique (h.yy x y z t)
  · funext x y z t; exact (h'.zz x y z t).unique (h.zz x y z t)

/-- With the derivatives known, the balance is an equation at every point. -/
theorem balance_iff {rho mu : ℝ} {u v w q g s qt qx qy qz qxx qyy qzz : Fld} (h : Partials q qt qx qy qz qxx qyy qzz) :
    Balance rho mu u v w q g s ↔ ∀ x y z t,
      qt x y z t + u x y z t * qx x y z t + v x y z t * qy x y z t + w x y z t * qz x y z t =
        -(g x y z t) / rho + mu / rho * (qxx x y z t + qyy x y z t + qzz x y z t) + s x y z t := by
  constructor
  · rintro ⟨qt', qx', qy', qz', qxx', qyy', qzz', h', e⟩
    obtain ⟨rfl, rfl, rfl, rfl, rfl, rfl, rfl⟩ := h.unique h'
    exact e
  · intro e
    exact ⟨qt, qx, qy, qz, qxx, qyy, qzz, h, e⟩

/-- A component that is zero everywhere. -/
theorem partials_zero : Partials (fun _ _ _ _ => 0) (fun _ _ _ _ => 0) (fun _ _ _ _ => 0) (fun _ _ _ _ => 0) (fun _ _ _ _ => 0)
    (fun _ _ _ _ => 0) (fun _ _ _ _ => 0) (fun _ _ _ _ => 0) := by
  constructor <;> intros <;> exact hasDerivAt_const _ _

theorem balance_zero (rho mu : ℝ) (u v w : Fld) :
    Balance rho mu u v w (fun _ _ _ _ => 0) (fun _ _ _ _ => 0) (fun _ _ _ _ => 0) := by
  rw [balance_iff partials_zero]
  intros
  ring

/-! ## Convecting Taylor vortex -/

section ctv

theorem phase_x (a b c : ℝ) (x : ℝ) : HasDerivAt (fun s => a * (s - b * c)) a x := by
  simpa using ((hasDerivAt_id' x).sub_const (b * c)).const_mul a

theorem phase_t (a x b t : ℝ) : HasDerivAt (fun s => a * (x - b * s)) (-(a * b)) t := by
  refine ((((hasDerivAt_id' t).const_mul b).const_sub x).const_mul a).congr_deriv ?_
  ring

theorem damp_t (k o t : ℝ) : HasDerivAt (fun s => Real.exp (k * o * s)) (k * o * Real.exp (k * o * t)) t := by
  refine (((hasDerivAt_id' t).const_mul (k * o)).exp).congr_deriv ?_
  ring

variable (u0 v0 om : ℝ)

theorem ctv_partials_u : Partials (fun x y _ t => ctvU u0 v0 om x y t)
    (fun x y _ t => -(Real.pi * u0 * (Real.sin (Real.pi * (x - u0 * t)) * Real.sin (Real.pi * (y - v0 * t))) -
        Real.pi * v0 * (Real.cos (Real.pi * (x - u0 * t)) * Real.cos (Real.pi * (y - v0 * t))) -
        2 * om * (Real.cos (Real.pi * (x - u0 * t)) * Real.sin (Real.pi * (y - v0 * t)))) * Real.exp (-2 * om * t))
    (fun x y _ t => Real.pi * Real.sin (Real.pi * (x - u0 * t)) * Real.sin (Real.pi * (y - v0 * t)) * Real.exp (-2 * om * t))
    (fun x y _ t => -Real.pi * Real.cos (Real.pi * (x - u0 * t)) * Real.cos (Real.pi * (y - v0 * t)) * Real.exp (-2 * om * t))
    (fun _ _ _ _ => 0)
    (fun x y _ t => Real.pi ^ 2 * Real.cos (Real.pi * (x - u0 * t)) * Real.sin (Real.pi * (y - v0 * t)) * Real.exp (-2 * om * t))
    (fun x y _ t => Real.pi ^ 2 * Real.cos (Real.pi * (x - u0 * t)) * Real.sin (Real.pi * (y - v0 * t)) * Real.exp (-2 * om * t))
    (fun _ _ _ _ => 0) := by
  constructor
  · intro x y _ t
    refine (((((phase_t Real.pi x u0 t).cos).mul ((phase_t Real.pi y v0 t).sin)).mul (damp_t (-2) om t)).const_sub u0).congr_deriv ?_
    simp only [Pi.mul_apply]
    ring
  · intro x y _ t
    refine (((((phase_x Real.pi u0 t x).cos).mul_const _).mul_const _).const_sub u0).congr_deriv ?_
    ring
  · intro x y _ t
    refine (((((phase_x Real.pi v0 t y).sin).const_mul _).mul_const _).const_sub u0).congr_deriv ?_
    ring
  · intros; exact hasDerivAt_const _ _
  · intro x y _ t
    refine (((((phase_x Real.pi u0 t x).sin).const_mul Real.pi).mul_const _).mul_const _).congr_deriv ?_
    ring
  · intro x y _ t
    refine ((((phase_x Real.pi v0 t y).cos).const_mul _).mul_const _).congr_deriv ?_
    ring
  · intros; exact hasDerivAt_const _ _

theorem ctv_partials_v : Partials (fun x y _ t => ctvV u0 v0 om x y t)
    (fun x y _ t => (-(Real.pi * u0 * (Real.cos (Real.pi * (x - u0 * t)) * Real.cos (Real.pi * (y - v0 * t)))) +
        Real.pi * v0 * (Real.sin (Real.pi * (x - u0 * t)) * Real.sin (Real.pi * (y - v0 * t))) -
        2 * om * (Real.sin (Real.pi * (x - u0 * t)) * Real.cos (Real.pi * (y - v0 * t)))) * Real.exp (-2 * om * t))
    (fun x y _ t => Real.pi * Real.cos (Real.pi * (x - u0 * t)) * Real.cos (Real.pi * (y - v0 * t)) * Real.exp (-2 * om * t))
    (fun x y _ t => -Real.pi * Real.sin (Real.pi * (x - u0 * t)) * Real.sin (Real.pi * (y - v0 * t)) * Real.exp (-2 * om * t))
    (fun _ _ _ _ => 0)
    (fun x y _ t => -Real.pi ^ 2 * Real.sin (Real.pi * (x - u0 * t)) * Real.cos (Real.pi * (y - v0 * t)) * Real.exp (-2 * om * t))
    (fun x y _ t => -Real.pi ^ 2 * Real.sin (Real.pi * (x - u0 * t)) * Real.cos (Real.pi * (y - v0 * t)) * Real.exp (-2 * om * t))
    (fun _ _ _ _ => 0) := by
  constructor
  · intro x y _ t
    refine (((((phase_t Real.pi x u0 t).sin).mul ((phase_t Real.pi y v0 t).cos)).mul (damp_t (-2) om t)).const_add v0).congr_deriv ?_
    simp only [Pi.mul_apply]
    ring
  · intro x y _ t
    refine (((((phase_x Real.pi u0 t x).sin).mul_const _).mul_const _).const_add v0).congr_deriv ?_
    ring
  · intro x y _ t
    refine (((((phase_x Real.pi v0 t y).cos).const_mul _).mul_const _).const_add v0).congr_deriv ?_
    ring
  · intros; exact hasDerivAt_const _ _
  · intro x y _ t
    refine (((((phase_x Real.pi u0 t x).cos).const_mul Real.pi).mul_const _).mul_const _).congr_deriv ?_
    ring
  · intro x y _ t
    refine ((((phase_x Real.pi v0 t y).sin).const_mul _).mul_const _).congr_deriv ?_
    ring
  · intros; exact hasDerivAt_const _ _

/-- The pressure whose gradient the code compares with. -/
noncomputable def ctvP (x y t : ℝ) : ℝ :=
  -(1 / 4) * (Real.cos (2 * Real.pi * (x - u0 * t)) + Real.cos (2 * Real.pi * (y - v0 * t))) * Real.exp (-4 * om * t)

/-- **C101**: with unit density and the viscosity of the input the convecting Taylor vortex has no divergence and satisfies the
balance of momentum in all three directions, at all points and times, for every mean velocity; the three components compared as
pressure gradient are the gradient of one pressure, whose initial value is the one that is set.

Partial (C101). Missing: other densities than one, where it is false. -/
theorem ctv_solves_partial (nu : ℝ) :
    Solenoidal (fun x y _ t => ctvU u0 v0 (ctvOmega nu) x y t) (fun x y _ t => ctvV u0 v0 (ctvOmega nu) x y t) (fun _ _ _ _ => 0) ∧
    Balance 1 nu (fun x y _ t => ctvU u0 v0 (ctvOmega nu) x y t) (fun x y _ t => ctvV u0 v0 (ctvOmega nu) x y t) (fun _ _ _ _ => 0)
      (fun x y _ t => ctvU u0 v0 (ctvOmega nu) x y t) (fun x _ _ t => ctvGpx u0 (ctvOmega nu) x t) (fun _ _ _ _ => 0) ∧
    Balance 1 nu (fun x y _ t => ctvU u0 v0 (ctvOmega nu) x y t) (fun x y _ t => ctvV u0 v0 (ctvOmega nu) x y t) (fun _ _ _ _ => 0)
      (fun x y _ t => ctvV u0 v0 (ctvOmega nu) x y t) (fun _ y _ t => ctvGpy v0 (ctvOmega nu) y t) (fun _ _ _ _ => 0) ∧
    Gradient (fun x y _ t => ctvP u0 v0 (ctvOmega nu) x y t) (fun x _ _ t => ctvGpx u0 (ctvOmega nu) x t)
      (fun _ y _ t => ctvGpy v0 (ctvOmega nu) y t) (fun _ _ _ _ => 0) ∧
    ∀ x y, ctvP u0 v0 (ctvOmega nu) x y 0 = ctvP0 x y := by
  have he : ∀ t : ℝ, Real.exp (-4 * ctvOmega nu * t) = Real.exp (-2 * ctvOmega nu * t) ^ 2 := by
    intro t; rw [← Real.exp_nat_mul]; congr 1; push_cast; ring
  refine ⟨⟨_, _, _, (ctv_partials_u u0 v0 _).x, (ctv_partials_v u0 v0 _).y, fun _ _ _ _ => hasDerivAt_const _ _, ?_⟩, ?_, ?_, ?_, ?_⟩
  · intros; ring
  · rw [balance_iff (ctv_partials_u u0 v0 _)]
    intro x y _ t
    have h2 : Real.sin (2 * Real.pi * (x - u0 * t)) = 2 * Real.sin (Real.pi * (x - u0 * t)) * Real.cos (Real.pi * (x - u0 * t)) := by
      rw [← Real.sin_two_mul]; congr 1; ring
    have hs := Real.sin_sq_add_cos_sq (Real.pi * (y - v0 * t))
    unfold ctvU ctvV ctvGpx
    rw [he, h2]
    unfold ctvOmega
    linear_combination (-Real.pi * Real.sin (Real.pi * (x - u0 * t)) * Real.cos (Real.pi * (x - u0 * t)) *
      Real.exp (-2 * (Real.pi * Real.pi * nu) * t) ^ 2) * hs
  · rw [balance_iff (ctv_partials_v u0 v0 _)]
    intro x y _ t
    have h2 : Real.sin (2 * Real.pi * (y - v0 * t)) = 2 * Real.sin (Real.pi * (y - v0 * t)) * Real.cos (Real.pi * (y - v0 * t)) := by
      rw [← Real.sin_two_mul]; congr 1; ring
    have hs := Real.sin_sq_add_cos_sq (Real.pi * (x - u0 * t))
    unfold ctvU ctvV ctvGpy
    rw [he, h2]
    unfold ctvOmega
    linear_combination (-Real.pi * Real.sin (Real.pi * (y - v0 * t)) * Real.cos (Real.pi * (y - v0 * t)) *
      Real.exp (-2 * (Real.pi * Real.pi * nu) * t) ^ 2) * hs
  · intro x y z t
    refine ⟨?_, ?_, hasDerivAt_const _ _⟩
    · refine (((((phase_x (2 * Real.pi) u0 t x).cos).add_const _).const_mul _).mul_const _).congr_deriv ?_
      unfold ctvGpx; ring
    · refine (((((phase_x (2 * Real.pi) v0 t y).cos).const_add _).const_mul _).mul_const _).congr_deriv ?_
      unfold ctvGpy; ring
  · intro x y
    unfold ctvP ctvP0
    norm_num

/-- **C101**, disagreement: `CTV.density` may be any number, but with any other than one the vortex does not satisfy the balance. -/
theorem ctv_density {rho : ℝ} (h0 : 0 < rho) (h1 : rho ≠ 1) (nu : ℝ) :
    ¬ Balance rho nu (fun x y _ t => ctvU u0 v0 (ctvOmega nu) x y t) (fun x y _ t => ctvV u0 v0 (ctvOmega nu) x y t) (fun _ _ _ _ => 0)
      (fun x y _ t => ctvU u0 v0 (ctvOmega nu) x y t) (fun x _ _ t => ctvGpx u0 (ctvOmega nu) x t) (fun _ _ _ _ => 0) := by
  intro h
  have h' := (ctv_solves_partial u0 v0 nu).2.1
  rw [balance_iff (ctv_partials_u u0 v0 _)] at h h'
  have e := h (1 / 4) 0 0 0
  have e' := h' (1 / 4) 0 0 0
  rw [e] at e'
  have hp : Real.sin (2 * Real.pi * (1 / 4)) = 1 := by
    rw [show 2 * Real.pi * (1 / 4) = Real.pi / 2 by ring, Real.sin_pi_div_two]
  simp only [ctvGpx, mul_zero, sub_zero, Real.sin_zero, zero_mul, Real.exp_zero, mul_one, add_zero, hp] at e'
  have hpi := Real.pi_pos
  rw [div_one, div_eq_iff h0.ne'] at e'
  apply h1
  have : Real.pi * (rho - 1) = 0 := by linarith
  rcases mul_eq_zero.mp this with h | h
  · exact absurd h hpi.ne'
  · linarith

/-- A case: the vortex at rest decays, at a point where it moves. -/
example : ctvU 0 0 (ctvOmega 1) 0 (1 / 2) 0 = -1 ∧ ctvU 0 0 (ctvOmega 1) 0 (1 / 2) 1 ≠ -1 := by
  have hs : Real.sin (Real.pi * (1 / 2)) = 1 := by rw [show Real.pi * (1 / 2) = Real.pi / 2 by ring, Real.sin_pi_div_two]
  unfold ctvU ctvOmega
  simp only [mul_zero, zero_mul, sub_zero, Real.cos_zero, hs, Real.exp_zero, mul_one, one_mul, zero_sub, true_and]
  intro h
  have hl : Real.exp (-2 * (Real.pi * Real.pi)) < 1 := by
    rw [Real.exp_lt_one_iff]
    have := mul_pos Real.pi_pos Real.pi_pos
    linarith
  linarith

end ctv

/-! ## Ekman spiral -/

section ekman

/-- `exp(-a z) cos(-a z)` and `exp(-a z) sin(-a z)`. -/
theorem ek_cos (a z : ℝ) : HasDerivAt (fun s => Real.exp (-a * s) * Real.cos (-a * s))
    (-a * (Real.exp (-a * z) * Real.cos (-a * z)) + a * (Real.exp (-a * z) * Real.sin (-a * z))) z := by
  have hl : HasDerivAt (fun s : ℝ => -a * s) (-a) z := by simpa using (hasDerivAt_id' z).const_mul (-a)
  refine (hl.exp.mul hl.cos).congr_deriv ?_
  ring

theorem ek_sin (a z : ℝ) : HasDerivAt (fun s => Real.exp (-a * s) * Real.sin (-a * s))
    (-a * (Real.exp (-a * z) * Real.sin (-a * z)) - a * (Real.exp (-a * z) * Real.cos (-a * z))) z := by
  have hl : HasDerivAt (fun s : ℝ => -a * s) (-a) z := by simpa using (hasDerivAt_id' z).const_mul (-a)
  refine (hl.exp.mul hl.sin).congr_deriv ?_
  ring

theorem ek_partials_u (v0 a : ℝ) : Partials (fun _ _ z _ => ekU v0 a z) (fun _ _ _ _ => 0) (fun _ _ _ _ => 0) (fun _ _ _ _ => 0)
    (fun _ _ z _ => v0 * (a * (Real.exp (-a * z) * Real.cos (-a * z)) - a * (Real.exp (-a * z) * Real.sin (-a * z))))
    (fun _ _ _ _ => 0) (fun _ _ _ _ => 0)
    (fun _ _ z _ => 2 * a ^ 2 * v0 * (Real.exp (-a * z) * Real.sin (-a * z))) := by
  constructor
  · intros; exact hasDerivAt_const _ _
  · intros; exact hasDerivAt_const _ _
  · intros; exact hasDerivAt_const _ _
  · intro _ _ z _
    refine (((ek_cos a z).const_sub 1).const_mul v0).congr_deriv ?_
    ring
  · intros; exact hasDerivAt_const _ _
  · intros; exact hasDerivAt_const _ _
  · intro _ _ z _
    refine ((((ek_cos a z).const_mul a).sub ((ek_sin a z).const_mul a)).const_mul v0).congr_deriv ?_
    ring

theorem ek_partials_v (v0 a : ℝ) : Partials (fun _ _ z _ => ekV v0 a z) (fun _ _ _ _ => 0) (fun _ _ _ _ => 0) (fun _ _ _ _ => 0)
    (fun _ _ z _ => -v0 * (-a * (Real.exp (-a * z) * Real.sin (-a * z)) - a * (Real.exp (-a * z) * Real.cos (-a * z))))
    (fun _ _ _ _ => 0) (fun _ _ _ _ => 0)
    (fun _ _ z _ => -2 * a ^ 2 * v0 * (Real.exp (-a * z) * Real.cos (-a * z))) := by
  constructor
  · intros; exact hasDerivAt_const _ _
  · intros; exact hasDerivAt_const _ _
  · intros; exact hasDerivAt_const _ _
  · intro _ _ z _
    have : (fun s => ekV v0 a s) = fun s => -v0 * (Real.exp (-a * s) * Real.sin (-a * s)) := by
      funext s; unfold ekV; ring
    rw [this]
    exact (ek_sin a z).const_mul (-v0)
  · intros; exact hasDerivAt_const _ _
  · intros; exact hasDerivAt_const _ _
  · intro _ _ z _
    refine ((((ek_sin a z).const_mul (-a)).sub ((ek_cos a z).const_mul a)).const_mul (-v0)).congr_deriv ?_
    ring

/-- The sum of the Coriolis and geostrophic sources in an Ekman spiral: latitude 90 degrees, east along x, geostrophic wind `(G, 0, 0)`. -/
noncomputable def ekSource (period G : ℝ) (u v w : ℝ) : Vs.Vec ℝ :=
  Force.coriolis (Force.corFactor period) (Real.pi / 2) false ⟨1, 0, 0⟩ ⟨0, 1, 0⟩ ⟨u, v, w⟩ +
    Force.geostrophic (Force.corFactor period) (Real.pi / 2) false 1 G 0

theorem ekSource_eq (period G u v w : ℝ) : ekSource period G u v w =
    ⟨Force.corFactor period * v, -Force.corFactor period * (u - G), 0⟩ := by
  unfold ekSource Force.coriolis Force.geostrophic
  ext <;> simp [Vs.cross] <;> ring

theorem ekA_sq {mu period : ℝ} (hm : 0 < mu) (hp : 0 < period) : 2 * mu * ekA mu period ^ 2 = Force.corFactor period := by
  have hpi := Real.pi_pos
  unfold ekA Force.corFactor
  have h0 : 0 ≤ 2 * mu / (2 * (2 * Real.pi) / period) := by positivity
  rw [div_pow, Real.sq_sqrt h0]
  field_simp

/-- **C101**: with unit density the Ekman spiral is a steady solution of the balance of momentum with the Coriolis and geostrophic sources
of the code, for every viscosity, rotation period and geostrophic wind. It is at rest at height zero and tends to the geostrophic wind. -/
theorem ekman_solves {mu period : ℝ} (hm : 0 < mu) (hp : 0 < period) (G : ℝ) :
    Solenoidal (fun _ _ z _ => ekU G (ekA mu period) z) (fun _ _ z _ => ekV G (ekA mu period) z) (fun _ _ _ _ => 0) ∧
    Balance 1 mu (fun _ _ z _ => ekU G (ekA mu period) z) (fun _ _ z _ => ekV G (ekA mu period) z) (fun _ _ _ _ => 0)
      (fun _ _ z _ => ekU G (ekA mu period) z) (fun _ _ _ _ => 0)
      (fun _ _ z _ => (ekSource period G (ekU G (ekA mu period) z) (ekV G (ekA mu period) z) 0).x) ∧
    Balance 1 mu (fun _ _ z _ => ekU G (ekA mu period) z) (fun _ _ z _ => ekV G (ekA mu period) z) (fun _ _ _ _ => 0)
      (fun _ _ z _ => ekV G (ekA mu period) z) (fun _ _ _ _ => 0)
      (fun _ _ z _ => (ekSource period G (ekU G (ekA mu period) z) (ekV G (ekA mu period) z) 0).y) ∧
    (∀ z, (ekSource period G (ekU G (ekA mu period) z) (ekV G (ekA mu period) z) 0).z = 0) ∧
    ekU G (ekA mu period) 0 = 0 ∧ ekV G (ekA mu period) 0 = 0 ∧
    Filter.Tendsto (ekU G (ekA mu period)) Filter.atTop (nhds G) ∧ Filter.Tendsto (ekV G (ekA mu period)) Filter.atTop (nhds 0) := by
  have ha := ekA_sq hm hp
  refine ⟨⟨_, _, _, (ek_partials_u G _).x, (ek_partials_v G _).y, fun _ _ _ _ => hasDerivAt_const _ _, by intros; ring⟩, ?_, ?_, ?_,
    ?_, ?_, ?_, ?_⟩
  · rw [balance_iff (ek_partials_u G _)]
    intro _ _ z _
    rw [ekSource_eq]
    simp only
    rw [← ha]
    unfold ekU ekV
    ring
  · rw [balance_iff (ek_partials_v G _)]
    intro _ _ z _
    rw [ekSource_eq]
    simp only
    rw [← ha]
    unfold ekU ekV
    ring
  · intro z; rw [ekSource_eq]
  · simp [ekU]
  · simp [ekV]
  all_goals
    have hpos : 0 < ekA mu period := by
      unfold ekA
      have := Real.pi_pos
      positivity
    have he : Filter.Tendsto (fun z => Real.exp (-ekA mu period * z)) Filter.atTop (nhds 0) := by
      have h1 : Filter.Tendsto (fun z => ekA mu period * z) Filter.atTop Filter.atTop := Filter.tendsto_id.const_mul_atTop hpos
      refine (Real.tendsto_exp_neg_atTop_nhds_zero.comp h1).congr ?_
      intro z; simp
  · have hb : Filter.Tendsto (fun z => Real.exp (-ekA mu period * z) * Real.cos (-ekA mu period * z)) Filter.atTop (nhds 0) := by
      refine squeeze_zero_norm (fun z => ?_) he
      rw [Real.norm_eq_abs, abs_mul, abs_of_pos (Real.exp_pos _)]
      exact mul_le_of_le_one_right (Real.exp_pos _).le (Real.abs_cos_le_one _)
    have := (hb.const_sub 1).const_mul G
    rw [sub_zero, mul_one] at this
    exact this
  · have hb : Filter.Tendsto (fun z => Real.exp (-ekA mu period * z) * Real.sin (-ekA mu period * z)) Filter.atTop (nhds 0) := by
      refine squeeze_zero_norm (fun z => ?_) he
      rw [Real.norm_eq_abs, abs_mul, abs_of_pos (Real.exp_pos _)]
      exact mul_le_of_le_one_right (Real.exp_pos _).le (Real.abs_sin_le_one _)
    have := hb.const_mul (-G)
    rw [mul_zero] at this
    refine this.congr fun z => ?_
    unfold ekV
    ring

/-- **C101**, disagreement: with `incflo.density` other than one the spiral that is initialised and compared with is not steady, because
the dynamic viscosity takes the place of the kinematic one. -/
theorem ekman_density {rho mu period G : ℝ} (h0 : 0 < rho) (h1 : rho ≠ 1) (hm : 0 < mu) (hp : 0 < period) (hG : G ≠ 0) :
    ¬ Balance rho mu (fun _ _ z _ => ekU G (ekA mu period) z) (fun _ _ z _ => ekV G (ekA mu period) z) (fun _ _ _ _ => 0)
      (fun _ _ z _ => ekV G (ekA mu period) z) (fun _ _ _ _ => 0)
      (fun _ _ z _ => (ekSource period G (ekU G (ekA mu period) z) (ekV G (ekA mu period) z) 0).y) := by
  intro h
  rw [balance_iff (ek_partials_v G _)] at h
  have e := h 0 0 0 0
  rw [ekSource_eq] at e
  have ha := ekA_sq hm hp
  have hc : 0 < Force.corFactor period := by
    unfold Force.corFactor
    have := Real.pi_pos
    positivity
  simp only [ekU, mul_zero, Real.exp_zero, Real.cos_zero, mul_one, sub_self, zero_mul, zero_sub, add_zero, neg_zero, zero_div,
    zero_add] at e
  rw [← ha] at e hc
  have e2 : 2 * mu * ekA mu period ^ 2 * G * (1 - 1 / rho) = 0 := by
    rw [eq_comm] at e
    rw [← e]
    ring
  have h3 : (1 : ℝ) - 1 / rho = 0 := by
    rcases mul_eq_zero.mp e2 with h | h
    · rcases mul_eq_zero.mp h with h | h
      · exact absurd h hc.ne'
      · exact absurd h hG
    · exact h
  apply h1
  field_simp at h3
  linarith

example : ∃ z, ekU 15 1 z ≠ 0 ∧ ekV 15 1 z ≠ 0 := by
  refine ⟨Real.pi / 2, ?_, ?_⟩
  · have : Real.cos (-1 * (Real.pi / 2)) = 0 := by rw [neg_one_mul, Real.cos_neg, Real.cos_pi_div_two]
    unfold ekU
    rw [this]
    norm_num
  · have : Real.sin (-1 * (Real.pi / 2)) = -1 := by rw [neg_one_mul, Real.sin_neg, Real.sin_pi_div_two]
    unfold ekV
    rw [this]
    have := Real.exp_pos (-1 * (Real.pi / 2))
    intro h
    linarith

end ekman

/-! ## Burggraf flow -/

section burggraf

theorem hpow (n : ℕ) (x : ℝ) : HasDerivAt (fun s : ℝ => s ^ n) (n * x ^ (n - 1)) x := hasDerivAt_pow n x

/-- The two polynomials of the stream function and their derivatives. -/
theorem b_f (x : ℝ) : HasDerivAt (fun s : ℝ => s ^ 4 - 2 * s ^ 3 + s ^ 2) (4 * x ^ 3 - 6 * x ^ 2 + 2 * x) x := by
  refine (((hpow 4 x).sub ((hpow 3 x).const_mul 2)).add (hpow 2 x)).congr_deriv ?_
  norm_num; ring

theorem b_f1 (x : ℝ) : HasDerivAt (fun s : ℝ => 4 * s ^ 3 - 6 * s ^ 2 + 2 * s) (12 * x ^ 2 - 12 * x + 2) x := by
  refine ((((hpow 3 x).const_mul 4).sub ((hpow 2 x).const_mul 6)).add ((hasDerivAt_id' x).const_mul 2)).congr_deriv ?_
  norm_num; ring

theorem b_f2 (x : ℝ) : HasDerivAt (fun s : ℝ => 12 * s ^ 2 - 12 * s + 2) (24 * x - 12) x := by
  refine ((((hpow 2 x).const_mul 12).sub ((hasDerivAt_id' x).const_mul 12)).add_const 2).congr_deriv ?_
  norm_num; ring

theorem b_g (y : ℝ) : HasDerivAt (fun s : ℝ => s ^ 4 - s ^ 2) (4 * y ^ 3 - 2 * y) y := by
  refine ((hpow 4 y).sub (hpow 2 y)).congr_deriv ?_
  norm_num

theorem b_g1 (y : ℝ) : HasDerivAt (fun s : ℝ => 4 * s ^ 3 - 2 * s) (12 * y ^ 2 - 2) y := by
  refine (((hpow 3 y).const_mul 4).sub ((hasDerivAt_id' y).const_mul 2)).congr_deriv ?_
  norm_num; ring

theorem b_g2 (y : ℝ) : HasDerivAt (fun s : ℝ => 12 * s ^ 2 - 2) (24 * y) y := by
  refine (((hpow 2 y).const_mul 12).sub_const 2).congr_deriv ?_
  norm_num; ring

theorem b_partials_u : Partials (fun x y _ _ => bU x y) (fun _ _ _ _ => 0)
    (fun x y _ _ => 8 * (4 * x ^ 3 - 6 * x ^ 2 + 2 * x) * (4 * y ^ 3 - 2 * y))
    (fun x y _ _ => 8 * (x ^ 4 - 2 * x ^ 3 + x ^ 2) * (12 * y ^ 2 - 2)) (fun _ _ _ _ => 0)
    (fun x y _ _ => 8 * (12 * x ^ 2 - 12 * x + 2) * (4 * y ^ 3 - 2 * y))
    (fun x y _ _ => 8 * (x ^ 4 - 2 * x ^ 3 + x ^ 2) * (24 * y)) (fun _ _ _ _ => 0) := by
  constructor
  · intros; exact hasDerivAt_const _ _
  · intro x y _ _; exact ((b_f x).const_mul 8).mul_const _
  · intro x y _ _; exact (b_g1 y).const_mul _
  · intros; exact hasDerivAt_const _ _
  · intro x y _ _; exact ((b_f1 x).const_mul 8).mul_const _
  · intro x y _ _; exact (b_g2 y).const_mul _
  · intros; exact hasDerivAt_const _ _

theorem b_partials_v : Partials (fun x y _ _ => bV x y) (fun _ _ _ _ => 0)
    (fun x y _ _ => -8 * (12 * x ^ 2 - 12 * x + 2) * (y ^ 4 - y ^ 2))
    (fun x y _ _ => -8 * (4 * x ^ 3 - 6 * x ^ 2 + 2 * x) * (4 * y ^ 3 - 2 * y)) (fun _ _ _ _ => 0)
    (fun x y _ _ => -8 * (24 * x - 12) * (y ^ 4 - y ^ 2))
    (fun x y _ _ => -8 * (4 * x ^ 3 - 6 * x ^ 2 + 2 * x) * (12 * y ^ 2 - 2)) (fun _ _ _ _ => 0) := by
  constructor
  · intros; exact hasDerivAt_const _ _
  · intro x y _ _; exact ((b_f1 x).const_mul (-8)).mul_const _
  · intro x y _ _; exact (b_g y).const_mul _
  · intros; exact hasDerivAt_const _ _
  · intro x y _ _; exact ((b_f2 x).const_mul (-8)).mul_const _
  · intro x y _ _; exact (b_g1 y).const_mul _
  · intros; exact hasDerivAt_const _ _

/-- A pressure of the Burggraf flow (Shih, Tan and Hwang 1989); the code needs none. -/
noncomputable def bP (nu x y : ℝ) : ℝ :=
  8 * nu * ((x ^ 5 / 5 - x ^ 4 / 2 + x ^ 3 / 3) * (24 * y) + (4 * x ^ 3 - 6 * x ^ 2 + 2 * x) * (4 * y ^ 3 - 2 * y)) +
    32 * ((x ^ 4 - 2 * x ^ 3 + x ^ 2) ^ 2 * ((y ^ 4 - y ^ 2) * (12 * y ^ 2 - 2) - (4 * y ^ 3 - 2 * y) ^ 2))

/-- **C101**: the Burggraf flow has no divergence and with the source that is set satisfies the balance of momentum for some pressure, for
every viscosity. It is at rest on three walls of the unit square and has the documented velocity on the lid. -/
theorem burggraf_solves (nu : ℝ) :
    Solenoidal (fun x y _ _ => bU x y) (fun x y _ _ => bV x y) (fun _ _ _ _ => 0) ∧
    (∃ p gx gy : Fld, Gradient p gx gy (fun _ _ _ _ => 0) ∧
      Balance 1 nu (fun x y _ _ => bU x y) (fun x y _ _ => bV x y) (fun _ _ _ _ => 0) (fun x y _ _ => bU x y) gx (fun _ _ _ _ => 0) ∧
      Balance 1 nu (fun x y _ _ => bU x y) (fun x y _ _ => bV x y) (fun _ _ _ _ => 0) (fun x y _ _ => bV x y) gy
        (fun x y _ _ => bSrc nu x y)) ∧
    (∀ y, bU 0 y = 0 ∧ bV 0 y = 0 ∧ bU 1 y = 0 ∧ bV 1 y = 0) ∧
    ∀ x, bU x 0 = 0 ∧ bV x 0 = 0 ∧ bV x 1 = 0 ∧ bU x 1 = 16 * (x ^ 4 - 2 * x ^ 3 + x ^ 2) := by
  refine ⟨⟨_, _, _, b_partials_u.x, b_partials_v.y, fun _ _ _ _ => hasDerivAt_const _ _, by intros; ring⟩, ?_, ?_, ?_⟩
  · refine ⟨fun x y _ _ => bP nu x y,
      fun x y _ _ => 8 * nu * ((x ^ 4 - 2 * x ^ 3 + x ^ 2) * (24 * y) + (12 * x ^ 2 - 12 * x + 2) * (4 * y ^ 3 - 2 * y)) +
        64 * ((x ^ 4 - 2 * x ^ 3 + x ^ 2) * (4 * x ^ 3 - 6 * x ^ 2 + 2 * x) *
          ((y ^ 4 - y ^ 2) * (12 * y ^ 2 - 2) - (4 * y ^ 3 - 2 * y) ^ 2)),
      fun x y _ _ => 8 * nu * ((x ^ 5 / 5 - x ^ 4 / 2 + x ^ 3 / 3) * 24 + (4 * x ^ 3 - 6 * x ^ 2 + 2 * x) * (12 * y ^ 2 - 2)) +
        32 * ((x ^ 4 - 2 * x ^ 3 + x ^ 2) ^ 2 * ((y ^ 4 - y ^ 2) * (24 * y) - (4 * y ^ 3 - 2 * y) * (12 * y ^ 2 - 2))), ?_, ?_, ?_⟩
    · intro x y _ _
      refine ⟨?_, ?_, hasDerivAt_const _ _⟩
      · have hF : HasDerivAt (fun s : ℝ => s ^ 5 / 5 - s ^ 4 / 2 + s ^ 3 / 3) (x ^ 4 - 2 * x ^ 3 + x ^ 2) x := by
          refine ((((hpow 5 x).div_const 5).sub ((hpow 4 x).div_const 2)).add ((hpow 3 x).div_const 3)).congr_deriv ?_
          norm_num; ring
        refine ((((hF.mul_const _).add ((b_f1 x).mul_const _)).const_mul _).add ((((b_f x).pow 2).mul_const _).const_mul 32)).congr_deriv ?_
        norm_num; ring
      · refine ((((((hasDerivAt_id' y).const_mul 24).const_mul _).add ((b_g1 y).const_mul _)).const_mul _).add
          (((((b_g y).mul (b_g2 y)).sub ((b_g1 y).pow 2)).const_mul _).const_mul 32)).congr_deriv ?_
        simp only [Nat.cast_ofNat, Nat.add_one_sub_one, pow_one]
        ring
    · rw [balance_iff b_partials_u]
      intro x y _ _
      unfold bU bV
      ring
    · rw [balance_iff b_partials_v]
      intro x y _ _
      unfold bU bV bSrc
      simp only [one_div, div_inv_eq_mul]
      ring
  · intro y
    unfold bU bV
    norm_num
  · intro x
    unfold bU bV
    refine ⟨by ring, by ring, by ring, by ring⟩

/-- The flow moves inside and the source is not zero. -/
example : bU (1 / 2) (1 / 2) ≠ 0 ∧ bSrc 1 (1 / 2) 1 ≠ 0 := by
  constructor
  · norm_num [bU]
  · norm_num [bSrc]

end burggraf

/-! ## Laminar channel -/

section channel

theorem chan_partials (mu force ht : ℝ) : Partials (fun _ y _ _ => chanU mu force ht y) (fun _ _ _ _ => 0) (fun _ _ _ _ => 0)
    (fun _ y _ _ => 1 / (2 * mu) * -force * (2 * y - ht)) (fun _ _ _ _ => 0) (fun _ _ _ _ => 0)
    (fun _ _ _ _ => 1 / (2 * mu) * -force * 2) (fun _ _ _ _ => 0) := by
  constructor
  · intros; exact hasDerivAt_const _ _
  · intros; exact hasDerivAt_const _ _
  · intro _ y _ _
    refine ((((hasDerivAt_id' y).mul (hasDerivAt_id' y)).sub ((hasDerivAt_id' y).mul_const ht)).const_mul (1 / (2 * mu) * -force)).congr_deriv ?_
    ring
  · intros; exact hasDerivAt_const _ _
  · intros; exact hasDerivAt_const _ _
  · intro _ y _ _
    refine ((((hasDerivAt_id' y).const_mul 2).sub_const ht).const_mul (1 / (2 * mu) * -force)).congr_deriv ?_
    ring
  · intros; exact hasDerivAt_const _ _

/-- **C101**: the parabola of the laminar channel balances the body force exactly for unit density (`y` is the direction normal to the
walls, `x` that of the flow). It is at rest at the walls `0` and `ht`, and in between flows the way the force points. In a half channel,
where `ht` is twice the height of the domain, the stress vanishes at the top of the domain.

Partial (C101). Missing: other densities than one and domains that do not begin at zero (`channel_origin`). -/
theorem channel_solves_partial {mu : ℝ} (hm : 0 < mu) (force ht rho : ℝ) (hr : 0 < rho) (hf : force ≠ 0) :
    (Balance rho mu (fun _ y _ _ => chanU mu force ht y) (fun _ _ _ _ => 0) (fun _ _ _ _ => 0)
      (fun _ y _ _ => chanU mu force ht y) (fun _ _ _ _ => 0) (fun _ _ _ _ => force) ↔ rho = 1) ∧
    chanU mu force ht 0 = 0 ∧ chanU mu force ht ht = 0 ∧
    (0 < force → ∀ y, 0 < y → y < ht → 0 < chanU mu force ht y) ∧
    ∀ lo hi, HasDerivAt (chanU mu force (chanHeight true lo hi)) 0 (hi - lo) := by
  refine ⟨?_, ?_, ?_, ?_, ?_⟩
  · rw [balance_iff (chan_partials mu force ht)]
    constructor
    · intro h
      have e := h 0 0 0 0
      have e2 : mu / rho * (0 + 1 / (2 * mu) * -force * 2 + 0) = -(force / rho) := by field_simp; ring
      rw [e2] at e
      have e3 : force = force / rho := by
        have : (0 : ℝ) = -(force / rho) + force := by simpa using e
        linarith
      rw [eq_div_iff hr.ne'] at e3
      have : force * (rho - 1) = 0 := by linarith
      rcases mul_eq_zero.mp this with h | h
      · exact absurd h hf
      · linarith
    · rintro rfl x y z t
      field_simp
      ring
  · simp [chanU]
  · simp [chanU]
  · intro hpos y h1 h2
    have : chanU mu force ht y = 1 / (2 * mu) * force * (y * (ht - y)) := by unfold chanU; ring
    rw [this]
    have := mul_pos h1 (sub_pos.mpr h2)
    positivity
  · intro lo hi
    refine ((chan_partials mu force (chanHeight true lo hi)).y 0 (hi - lo) 0 0).congr_deriv ?_
    simp only [chanHeight, if_true]
    ring

/-- **C101**, disagreement: the parabola is measured from coordinate zero and not from the lower wall, so that in a domain that does not
start at zero it moves at the lower wall. -/
theorem channel_origin {mu force lo hi : ℝ} (hm : 0 < mu) (hf : force ≠ 0) (hlo : lo ≠ 0) (h2 : hi ≠ 2 * lo) :
    chanU mu force (chanHeight false lo hi) lo ≠ 0 := by
  have : chanU mu force (chanHeight false lo hi) lo = 1 / (2 * mu) * -force * (lo * (2 * lo - hi)) := by
    unfold chanU chanHeight; simp only [Bool.false_eq_true, if_false]; ring
  rw [this]
  refine mul_ne_zero (mul_ne_zero (by positivity) (neg_ne_zero.mpr hf)) (mul_ne_zero hlo ?_)
  intro h
  apply h2
  linarith

example : chanU (5 / 1000) (6 / 100) 1 (1 / 2) = 3 / 2 ∧ chanU (5 / 1000) (6 / 100) (chanHeight false 1 3) 1 ≠ 0 := by
  norm_num [chanU, chanHeight]

/-! ## Channel with the Smagorinsky model -/

/-- The radicand of the profile. -/
noncomputable def smagD (h Cs dx rho mu dpdx C1 : ℝ) : ℝ :=
  2 / (Cs * Cs * (dx * dx)) * dpdx * h + mu / (rho * (Cs * Cs * (dx * dx))) * (mu / (rho * (Cs * Cs * (dx * dx)))) + C1

/-- The slope of the profile. -/
noncomputable def smagSlope (h Cs dx rho mu dpdx C1 : ℝ) : ℝ :=
  -mu / (rho * (Cs * Cs * (dx * dx))) + Real.sqrt (smagD h Cs dx rho mu dpdx C1)

theorem smag_slope {h Cs dx rho mu dpdx C1 : ℝ} (C0 : ℝ) (hc : Cs ≠ 0) (hx : dx ≠ 0) (hp : dpdx ≠ 0)
    (hD : 0 < smagD h Cs dx rho mu dpdx C1) :
    HasDerivAt (fun s => smagU s Cs dx rho mu dpdx C0 C1) (smagSlope h Cs dx rho mu dpdx C1) h := by
  set c := Cs * Cs * (dx * dx) with hcd
  have hc0 : c ≠ 0 := mul_ne_zero (mul_ne_zero hc hc) (mul_ne_zero hx hx)
  have h1 : HasDerivAt (fun s => smagD s Cs dx rho mu dpdx C1) (2 / c * dpdx) h := by
    unfold smagD
    simpa using ((((hasDerivAt_id' h).const_mul (2 / c * dpdx)).add_const (mu / (rho * c) * (mu / (rho * c)))).add_const C1)
  have h2 := (h1.rpow_const (p := (3 : ℝ) / 2) (Or.inl hD.ne')).const_mul (c / (3 * dpdx))
  have h3 := ((((hasDerivAt_id' h).const_mul (-mu / (rho * c))).add h2).add_const C0)
  refine h3.congr_deriv ?_
  unfold smagSlope
  rw [show (3 : ℝ) / 2 - 1 = 1 / 2 by norm_num, ← Real.sqrt_eq_rpow, ← hcd]
  field_simp

/-- The stress over density in a shear flow of slope `s` with the Smagorinsky model of the code: effective viscosity over density times slope. -/
noncomputable def smagStress (Cs dx rho mu s : ℝ) : ℝ :=
  Les.muEff mu (Les.smagMu Cs rho dx ⟨0, 0, s, 0, 0, 0, 0, 0, 0⟩) / rho * s

theorem smag_stress {Cs dx rho mu s : ℝ} (hr : 0 < rho) (hs : 0 ≤ s) :
    smagStress Cs dx rho mu s = mu / rho * s + Cs * Cs * (dx * dx) * s ^ 2 := by
  have e : (⟨0, 0, s, 0, 0, 0, 0, 0, 0⟩ : Fvm.Grad ℝ).strain = s := by
    unfold Fvm.Grad.strain Fvm.Grad.strainSqr
    simp only [ne_eq, OfNat.ofNat_ne_zero, not_false_eq_true, zero_pow, mul_zero, add_zero, zero_add]
    exact Real.sqrt_sq hs
  unfold smagStress Les.muEff Les.smagMu
  rw [e]
  field_simp

/-- **C101**, disagreement: the profile that a channel with the Smagorinsky model is initialised with and compared with is not a steady
solution. The stress would have to fall by the pressure gradient per length; where the slope is positive it falls by more, by the part that
the eddy viscosity makes up of the total viscosity. (The profile solves "viscosity times second derivative equals pressure gradient".) -/
theorem smag_not_balanced {h Cs dx rho mu dpdx C1 : ℝ} (hc : Cs ≠ 0) (hx : dx ≠ 0) (hr : 0 < rho) (hm : 0 ≤ mu) (hp : dpdx ≠ 0)
    (hD : 0 < smagD h Cs dx rho mu dpdx C1) (hs : 0 < smagSlope h Cs dx rho mu dpdx C1) :
    HasDerivAt (fun s => smagStress Cs dx rho mu (smagSlope s Cs dx rho mu dpdx C1))
      (dpdx * (1 + Cs * Cs * (dx * dx) * smagSlope h Cs dx rho mu dpdx C1 /
        (mu / rho + Cs * Cs * (dx * dx) * smagSlope h Cs dx rho mu dpdx C1))) h ∧
    dpdx * (1 + Cs * Cs * (dx * dx) * smagSlope h Cs dx rho mu dpdx C1 /
        (mu / rho + Cs * Cs * (dx * dx) * smagSlope h Cs dx rho mu dpdx C1)) ≠ dpdx := by
  set c := Cs * Cs * (dx * dx) with hcd
  have hcp : 0 < c := mul_pos (mul_self_pos.mpr hc) (mul_self_pos.mpr hx)
  have h1 : HasDerivAt (fun s => smagD s Cs dx rho mu dpdx C1) (2 / c * dpdx) h := by
    unfold smagD
    simpa using ((((hasDerivAt_id' h).const_mul (2 / c * dpdx)).add_const (mu / (rho * c) * (mu / (rho * c)))).add_const C1)
  have h2 : HasDerivAt (fun s => smagSlope s Cs dx rho mu dpdx C1) (2 / c * dpdx / (2 * Real.sqrt (smagD h Cs dx rho mu dpdx C1))) h := by
    have := (h1.sqrt hD.ne').const_add (-mu / (rho * c))
    exact this
  have hev : ∀ᶠ s in nhds h, smagStress Cs dx rho mu (smagSlope s Cs dx rho mu dpdx C1) =
      mu / rho * smagSlope s Cs dx rho mu dpdx C1 + c * smagSlope s Cs dx rho mu dpdx C1 ^ 2 := by
    have := h2.continuousAt.eventually (lt_mem_nhds hs)
    filter_upwards [this] with s hs'
    exact smag_stress hr hs'.le
  have h3 := (h2.const_mul (mu / rho)).add ((h2.pow 2).const_mul c)
  set S := smagSlope h Cs dx rho mu dpdx C1 with hS
  have hq : Real.sqrt (smagD h Cs dx rho mu dpdx C1) = (mu / rho + c * S) / c := by
    rw [hS]
    unfold smagSlope
    rw [← hcd]
    field_simp
    ring
  have hpos : 0 < mu / rho + c * S := by positivity
  constructor
  · refine (h3.congr_of_eventuallyEq hev).congr_deriv ?_
    rw [hq]
    simp only [Nat.cast_ofNat, Nat.add_one_sub_one, pow_one]
    field_simp
    ring
  · intro h
    have : dpdx * (c * S / (mu / rho + c * S)) = 0 := by linarith
    have h4 : 0 < c * S / (mu / rho + c * S) := by positivity
    rcases mul_eq_zero.mp this with h | h
    · exact hp h
    · exact absurd h h4.ne'

example : ∃ h, 0 < smagD h 1 1 1 1 (-1) 3 ∧ 0 < smagSlope h 1 1 1 1 (-1) 3 := by
  refine ⟨0, by norm_num [smagD], ?_⟩
  have : Real.sqrt (smagD 0 1 1 1 1 (-1) 3) = 2 := by
    rw [show smagD 0 1 1 1 1 (-1) 3 = 2 ^ 2 by norm_num [smagD]]
    exact Real.sqrt_sq (by norm_num)
  unfold smagSlope
  rw [this]
  norm_num

/-- **C101**: which exact solution a channel is compared with: for laminar flow the parabola. -/
theorem chan_error_laminar (smag : Bool) {d : ℤ} (h0 : 0 ≤ d) (h2 : d ≤ 2) : chanError true smag d = .parabola := by
  have : d = 0 ∨ d = 1 ∨ d = 2 := by omega
  rcases this with rfl | rfl | rfl <;> cases smag <;> rfl

/-- **C101**, disagreement: a channel with the Smagorinsky model is compared with its profile only if the walls are normal to z; with walls normal
to x or y, which are accepted, it is compared with the laminar parabola. -/
theorem chan_error_smag : chanError false true 2 = .smagorinsky ∧ chanError false true 0 = .parabola ∧
    chanError false true 1 = .parabola := ⟨rfl, rfl, rfl⟩

end channel

end AmrWind.Exact
