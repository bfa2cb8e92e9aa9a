import Mathlib.Analysis.SpecialFunctions.Pow.Real
import Mathlib.Analysis.SpecialFunctions.Sqrt
import Mathlib.Analysis.SpecialFunctions.Trigonometric.Deriv

/-!
# Model of the k-omega SST model and its IDDES variant

`turbulence/RANS/KOmegaSST.cpp`, `KOmegaSST.H`, `KOmegaSSTIDDES.cpp`, `KOmegaSSTIDDES.H`,
`equation_systems/tke/source_terms/KwSSTSrc.cpp`, `equation_systems/sdr/source_terms/SDRSrc.cpp`, and for the step of one
cell `equation_systems/PDEOps.H`, `CompRHSOps.H`, `DiffusionOps.cpp`, `tke_ops.H`, `sdr_ops.H`, `incflo_advance.cpp`.

Real arithmetic; a division that would give NaN is `none`, one that gives infinity is followed where the code turns it into
a finite number again.  Gradients come from C79.  A step is that of one cell without advection and diffusion.
-/

set_option linter.unusedSectionVars false

namespace AmrWind.Sst

/-- `DiffusionType`, incflo_enums.H. -/
inductive Diff
  | explicit
  | crankNicolson
  | implicit
  deriving DecidableEq

/-- KOmegaSST.H:85-105, the coefficients of the model; `eps` is the machine epsilon. -/
structure Coef where
  betaStar : ℝ
  alpha1 : ℝ
  alpha2 : ℝ
  beta1 : ℝ
  beta2 : ℝ
  sk1 : ℝ
  sk2 : ℝ
  so1 : ℝ
  so2 : ℝ
  a1 : ℝ
  tkeAmb : ℝ
  sdrAmb : ℝ
  sigmaT : ℝ
  /-- 1 for variable density or two phases, else 0 (KOmegaSST.cpp:22-26) -/
  Bfac : ℝ
  eps : ℝ

/-- What the function reads in one cell: density, energy, specific dissipation rate, molecular viscosity, wall distance,
strain rate, vorticity, `∇k · ∇ω`, `g · ∇ρ`. -/
structure Cell where
  rho : ℝ
  tke : ℝ
  sdr : ℝ
  mu : ℝ
  wd : ℝ
  strain : ℝ
  vort : ℝ
  gko : ℝ
  gdrho : ℝ

/-- KOmegaSST.cpp:150-155. -/
noncomputable def cdkomega (c : Coef) (x : Cell) : ℝ :=
  max (c.eps * 1000000) (2 * x.rho * c.so2 * x.gko / (x.sdr + c.eps * 10))

/-- KOmegaSST.cpp:157-160. -/
noncomputable def tmp1 (c : Coef) (x : Cell) : ℝ := 4 * x.rho * c.so2 * x.tke / (cdkomega c x * x.wd * x.wd)

/-- KOmegaSST.cpp:161-165. -/
noncomputable def tmp2 (c : Coef) (x : Cell) : ℝ := Real.sqrt x.tke / (c.betaStar * x.sdr * x.wd + c.eps * 10)

/-- KOmegaSST.cpp:166-170. -/
noncomputable def tmp3 (c : Coef) (x : Cell) : ℝ := 500 * x.mu / (x.wd * x.wd * x.sdr * x.rho + c.eps * 10)

/-- KOmegaSST.cpp:173-174.  Wherever no physics sets the wall distance it is zero and `tmp1` is infinite. -/
noncomputable def arg1 (c : Coef) (x : Cell) : ℝ :=
  if x.wd = 0 then max (tmp2 c x) (tmp3 c x) else min (max (tmp2 c x) (tmp3 c x)) (tmp1 c x)

/-- KOmegaSST.cpp:175. -/
noncomputable def f1 (c : Coef) (x : Cell) : ℝ := Real.tanh (arg1 c x * arg1 c x * arg1 c x * arg1 c x)

/-- KOmegaSST.cpp:180. -/
noncomputable def arg2 (c : Coef) (x : Cell) : ℝ := max (2 * tmp2 c x) (tmp3 c x)

/-- KOmegaSST.cpp:181. -/
noncomputable def f2 (c : Coef) (x : Cell) : ℝ := Real.tanh (arg2 c x * arg2 c x)

/-- KOmegaSST.cpp:177-178, 301-303, 321-324: a coefficient between that at the wall and that in the free stream. -/
noncomputable def blend (f a b : ℝ) : ℝ := f * (a - b) + b

/-- KOmegaSST.cpp:183-186. -/
noncomputable def muT (c : Coef) (x : Cell) : ℝ := x.rho * c.a1 * x.tke / max (c.a1 * x.sdr) (x.strain * f2 c x)

/-- KOmegaSST.cpp:188-196. -/
noncomputable def buoy (c : Coef) (x : Cell) : ℝ := c.Bfac * (-x.gdrho) * (muT c x / x.rho) / c.sigmaT

/-- What the function leaves for the equations. -/
structure Out where
  mu : ℝ
  f1 : ℝ
  prod : ℝ
  diss : ℝ
  tkeLhs : ℝ
  sdrSrc : ℝ
  sdrDiss : ℝ
  sdrLhs : ℝ
  buoy : ℝ

/-- The part that both models share for the equation of omega, and the changes for each kind of diffusion.
KOmegaSST.cpp:227-280; KOmegaSSTIDDES.cpp:272-333. -/
noncomputable def close (c : Coef) (x : Cell) (d : Diff) (dt mu prod diss tkeLhs pomega b : ℝ) : Out :=
  let beta := blend (f1 c x) c.beta1 c.beta2
  let cross := (1 - f1 c x) * 2 * x.rho * c.so2 * x.gko / (x.sdr + c.eps * 10)
  match d with
  | .crankNicolson => ⟨mu, f1 c x, prod, diss, 1 / 2 * tkeLhs, pomega, cross,
      (x.rho * beta * x.sdr + 1 / 2 * |cross| / (x.sdr + c.eps * 10)) * dt, b⟩
  | .implicit => ⟨mu, f1 c x, prod, 0, tkeLhs, pomega, 0, (2 * x.rho * beta * x.sdr + |cross| / (x.sdr + c.eps * 10)) * dt, b⟩
  | .explicit => ⟨mu, f1 c x, prod, diss, tkeLhs, pomega + cross, -x.rho * beta * x.sdr * x.sdr + beta * x.rho * c.sdrAmb * c.sdrAmb,
      1 / 2 * x.rho * beta * x.sdr * dt, b⟩

/-- `KOmegaSST::update_turbulent_viscosity`, KOmegaSST.cpp:69-287. -/
noncomputable def update (c : Coef) (d : Diff) (dt : ℝ) (x : Cell) : Option Out :=
  if x.tke < 0 ∨ max (c.a1 * x.sdr) (x.strain * f2 c x) = 0 ∨ (x.wd = 0 ∧ x.tke = 0) then none
  else
    let mu := muT c x
    let prod := min (max (mu * x.strain * x.strain) 0) (10 * c.betaStar * x.rho * x.tke * x.sdr)
    let diss := -c.betaStar * x.rho * x.tke * x.sdr + c.betaStar * x.rho * c.sdrAmb * c.tkeAmb
    let tkeLhs := c.betaStar * x.rho * x.sdr * dt
    let pomega := x.rho * blend (f1 c x) c.alpha1 c.alpha2 * min (x.strain * x.strain) (10 * c.betaStar * x.sdr * x.sdr)
    some (close c x d dt mu prod diss tkeLhs pomega (buoy c x))

/-- `update_scalar_diff`, KOmegaSST.cpp:289-341; other names abort. -/
noncomputable def diffusivity (c : Coef) (name : String) (mu f muT : ℝ) : Option ℝ :=
  if name = "tke" then some (mu + blend f c.sk1 c.sk2 * muT)
  else if name = "sdr" then some (mu + blend f c.so1 c.so2 * muT)
  else none

/-! ## IDDES -/

/-- KOmegaSSTIDDES.H:60-70. -/
structure CoefD where
  Cdes1 : ℝ
  Cdes2 : ℝ
  Cdt1 : ℝ
  Cdt2 : ℝ
  Cl : ℝ
  Ct : ℝ
  Cw : ℝ
  kappa : ℝ
  clip : ℝ

/-- `std::tanh(std::pow(a * (num / den), p))` with infinity for a positive number over zero. -/
noncomputable def tanhPow (a num den p : ℝ) : Option ℝ :=
  if den = 0 then (if num > 0 then some 1 else none) else some (Real.tanh ((a * (num / den)) ^ p))

/-- KOmegaSSTIDDES.cpp:205-208. -/
noncomputable def denom (q : CoefD) (x : Cell) : ℝ :=
  x.rho * q.kappa * q.kappa * x.wd * x.wd * Real.sqrt (1 / 2 * (x.strain * x.strain + x.vort * x.vort))

/-- KOmegaSSTIDDES.cpp:215-217: the elevating exponent; it takes `alpha`, the production coefficient. -/
noncomputable def fe1 (alpha : ℝ) : ℝ :=
  if alpha < 0 then 2 * Real.exp (-9 * alpha * alpha) else 2 * Real.exp (-(1109 / 100) * alpha * alpha)

/-- KOmegaSSTIDDES.cpp:203-204, 222-223. -/
noncomputable def fb (wd hmax : ℝ) : ℝ := min (2 * Real.exp (-9 * (1 / 4 - wd / hmax) * (1 / 4 - wd / hmax))) 1

/-- KOmegaSSTIDDES.cpp:229-233. -/
noncomputable def lLes (q : CoefD) (f1 wd hmax : ℝ) : ℝ := blend f1 q.Cdes1 q.Cdes2 * min (q.Cw * max wd hmax) hmax

/-- KOmegaSSTIDDES.cpp:234-235. -/
noncomputable def lRans (c : Coef) (x : Cell) : ℝ := Real.sqrt x.tke / (c.betaStar * x.sdr)

/-- The shielding function and `rans_ind`, KOmegaSSTIDDES.cpp:209-228, 236-237. -/
noncomputable def shield (c : Coef) (q : CoefD) (hmax : ℝ) (x : Cell) : Option (ℝ × ℝ) := do
  let alpha := blend (f1 c x) c.alpha1 c.alpha2
  let fl ← tanhPow (q.Cl * q.Cl) x.mu (denom q x) 10
  let ft ← tanhPow (q.Ct * q.Ct) (muT c x) (denom q x) 3
  let fe2 := 1 - max ft fl
  let fe := fe2 * max (fe1 alpha - 1) 0
  let t ← tanhPow q.Cdt1 (muT c x) (denom q x) q.Cdt2
  let fdt := 1 - t
  let fdtilde := max (1 - fdt) (fb x.wd hmax)
  pure (fdtilde, fdtilde * (1 + fe))

/-- KOmegaSSTIDDES.cpp:238-240. -/
noncomputable def lIddes (c : Coef) (fdtilde rans lrans lles : ℝ) : ℝ := max c.eps (rans * lrans + (1 - fdtilde) * lles)

/-- `KOmegaSSTIDDES::update_turbulent_viscosity`, KOmegaSSTIDDES.cpp:73-341.  The buoyancy term `old` is not written. -/
noncomputable def updateDes (c : Coef) (q : CoefD) (hmax : ℝ) (d : Diff) (dt old : ℝ) (x : Cell) : Option Out :=
  if x.tke < 0 ∨ max (c.a1 * x.sdr) (x.strain * f2 c x) = 0 ∨ (x.wd = 0 ∧ x.tke = 0) ∨ c.tkeAmb < 0 ∨ c.betaStar * x.sdr = 0 then none
  else do
    let mu := muT c x
    let (fdtilde, rans) ← shield c q hmax x
    let lles := lLes q (f1 c x) x.wd hmax
    let l := lIddes c fdtilde rans (lRans c x) lles
    let lamb := lIddes c fdtilde rans (Real.sqrt c.tkeAmb / (c.betaStar * max c.eps c.sdrAmb)) lles
    let dissAmb := x.rho * c.tkeAmb * Real.sqrt c.tkeAmb / lamb
    let prod := min (max (mu * x.strain * x.strain) 0) (10 * x.rho * x.tke * Real.sqrt x.tke / l)
    let diss := -x.rho * Real.sqrt x.tke * x.tke / l + dissAmb
    let tkeLhs := x.rho * Real.sqrt x.tke / l * dt
    let pomega := x.rho * blend (f1 c x) c.alpha1 c.alpha2 *
      min (x.strain * x.strain) (q.clip * max x.sdr 0 * Real.sqrt x.tke / l)
    pure (close c x d dt mu prod diss tkeLhs pomega old)

/-! ## Sources and the step of a cell -/

/-- KwSSTSrc.cpp:31-35: `nph` when called for the state at the half time. -/
noncomputable def tkeSource (o : Out) (nph : Bool) : ℝ := o.prod + (if nph then 1 / 2 else 1) * o.diss + o.buoy

/-- SDRSrc.cpp:29-34. -/
noncomputable def sdrSource (o : Out) (nph : Bool) : ℝ := (if nph then 1 / 2 else 1) * o.sdrDiss + o.sdrSrc

/-- One Godunov step of a cell of constant density without advection and diffusion: the source is multiplied by density
(PDEOps.H:94-113, 144-146), the right-hand side formed (CompRHSOps.H:93-115), and for Crank-Nicolson and implicit diffusion the
system with `ρ + lhs` in the diagonal solved (incflo_advance.cpp:311-328; DiffusionOps.cpp:115-147; tke_ops.H:193-210;
sdr_ops.H:121-138).  Explicit diffusion has no system to solve. -/
noncomputable def step (d : Diff) (rho dt lhs src phi : ℝ) : ℝ :=
  let star := (rho * phi + dt * (rho * src)) / rho
  match d with
  | .explicit => star
  | _ => rho * star / (rho + lhs)

/-- Step of the energy. -/
noncomputable def stepTke (d : Diff) (dt : ℝ) (x : Cell) (o : Out) : ℝ := step d x.rho dt o.tkeLhs (tkeSource o true) x.tke

/-- Step of omega. -/
noncomputable def stepSdr (d : Diff) (dt : ℝ) (x : Cell) (o : Out) : ℝ := step d x.rho dt o.sdrLhs (sdrSource o true) x.sdr

end AmrWind.Sst
