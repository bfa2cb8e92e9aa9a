import Verif.Vof.Advect
import Mathlib.Analysis.SpecialFunctions.Trigonometric.Bounds

/-!
# Model of mixture density, level set to volume fraction and hydrostatic reference state:
`physics/multiphase/MultiPhase.cpp`, `physics/multiphase/hydrostatic_ops.H`, `equation_systems/vof/volume_fractions.H`
(`levelset_to_vof`)

`amrex::Real` is ℝ where π, sin and the cube root occur, an ordered field otherwise. `none` is 0/0.
-/

namespace AmrWind.Mix

open Vof (Cell youngs cutVolume cbrt)

section field
variable {K : Type*} [Field K] [LinearOrder K]

/-- MultiPhase.cpp:330-332, 353-355 (and 401-402, 405-406, 409-410 for the fluxed densities at faces). -/
def mixDensity (rho1 rho2 f : K) : K := rho1 * f + rho2 * (1 - f)

/-- MultiPhase.cpp:361-368 `set_nph_density`: `lincomb` with weights one half. -/
def nphDensity (old new : K) : K := 1 / 2 * old + 1 / 2 * new

/-- hydrostatic_ops.H:24-29: the reference density of the cells of layer `k`. -/
def rho0 (rho1 rho2 wlev zlo dz : K) (k : ℤ) : K :=
  let zbtm := zlo + k * dz
  let vof := max (min 1 ((wlev - zbtm) / dz)) 0
  vof * rho1 + (1 - vof) * rho2

/-- hydrostatic_ops.H:51-62: the reference pressure of the nodes of layer `k`. -/
def p0 (rho1 rho2 wlev gz zlo zhi dz : K) (k : ℤ) : K :=
  let z := zlo + k * dz
  let ihg := max 0 (min (zhi - wlev) (zhi - z))
  let ihl := max 0 (min (wlev - z) (wlev - zlo))
  let irho := rho1 * ihl + rho2 * ihg;
  -irho * gz

/-- volume_fractions.H:72-129 `youngs_finite_difference_normal_neumann`: the neighbours beyond a boundary are replaced by
the cell itself. `b` holds `ibdy`, `jbdy`, `kbdy`. -/
def youngsNeumann (c : Cell → K) (b : ℤ × ℤ × ℤ) : Cell → K × K × K
  | (i, j, k) =>
    let im1 := if b.1 = -1 then i else i - 1
    let jm1 := if b.2.1 = -1 then j else j - 1
    let km1 := if b.2.2 = -1 then k else k - 1
    let ip1 := if b.1 = 1 then i else i + 1
    let jp1 := if b.2.1 = 1 then j else j + 1
    let kp1 := if b.2.2 = 1 then k else k + 1
    let mm1 := c (im1, jm1, km1) + c (im1, jm1, kp1) + c (im1, jp1, km1) + c (im1, jp1, kp1) +
      2 * (c (im1, jm1, k) + c (im1, jp1, k) + c (im1, j, km1) + c (im1, j, kp1)) + 4 * c (im1, j, k)
    let mm2 := c (ip1, jm1, km1) + c (ip1, jm1, kp1) + c (ip1, jp1, km1) + c (ip1, jp1, kp1) +
      2 * (c (ip1, jm1, k) + c (ip1, jp1, k) + c (ip1, j, km1) + c (ip1, j, kp1)) + 4 * c (ip1, j, k)
    let mx := mm1 - mm2
    let mm1 := c (im1, jm1, km1) + c (im1, jm1, kp1) + c (ip1, jm1, km1) + c (ip1, jm1, kp1) +
      2 * (c (im1, jm1, k) + c (ip1, jm1, k) + c (i, jm1, km1) + c (i, jm1, kp1)) + 4 * c (i, jm1, k)
    let mm2 := c (im1, jp1, km1) + c (im1, jp1, kp1) + c (ip1, jp1, km1) + c (ip1, jp1, kp1) +
      2 * (c (im1, jp1, k) + c (ip1, jp1, k) + c (i, jp1, km1) + c (i, jp1, kp1)) + 4 * c (i, jp1, k)
    let my := mm1 - mm2
    let mm1 := c (im1, jm1, km1) + c (im1, jp1, km1) + c (ip1, jm1, km1) + c (ip1, jp1, km1) +
      2 * (c (im1, j, km1) + c (ip1, j, km1) + c (i, jm1, km1) + c (i, jp1, km1)) + 4 * c (i, j, km1)
    let mm2 := c (im1, jm1, kp1) + c (im1, jp1, kp1) + c (ip1, jm1, kp1) + c (ip1, jp1, kp1) +
      2 * (c (im1, j, kp1) + c (ip1, j, kp1) + c (i, jm1, kp1) + c (i, jp1, kp1)) + 4 * c (i, j, kp1)
    let mz := mm1 - mm2
    (mx, my, mz)

/-- volume_fractions.H:530-565 `levelset_to_vof` and MultiPhase.cpp:434-457, after the normal `m` of the cell has been
computed. `tiny` is the machine epsilon inside `cut_volume`. `none` is a division of zero by zero; a nonzero level set
divided by a zero gradient is ±∞, so the cell is full or empty. -/
def vofOfNormal (tiny eps : K) (m : K × K × K) (phi : K) : Option K :=
  let mx := |m.1 / 32|
  let my := |m.2.1 / 32|
  let mz := |m.2.2 / 32|
  let normL1 := mx + my + mz
  if phi < -eps then some 0
  else if normL1 = 0 then
    if phi = 0 then none else if 0 < phi then some 1 else some 0
  else
    let alpha := phi / normL1 + 1 / 2
    if alpha ≥ 1 then some 1
    else if alpha ≤ 0 then some 0
    else cutVolume tiny (mx / normL1) (my / normL1) (mz / normL1) alpha 0 1

/-- volume_fractions.H:530-565 `levelset_to_vof`. -/
def levelsetToVof (tiny eps : K) (phi : Cell → K) (c : Cell) : Option K :=
  vofOfNormal tiny eps (youngs phi c) (phi c)

/-- MultiPhase.cpp:484-511: on which side of a cell the blanking changes (the upper side wins). -/
def bdy (ib : Cell → ℤ) : Cell → ℤ × ℤ × ℤ
  | (i, j, k) =>
    (if ib (i, j, k) ≠ ib (i + 1, j, k) then 1 else if ib (i, j, k) ≠ ib (i - 1, j, k) then -1 else 0,
     if ib (i, j, k) ≠ ib (i, j + 1, k) then 1 else if ib (i, j, k) ≠ ib (i, j - 1, k) then -1 else 0,
     if ib (i, j, k) ≠ ib (i, j, k + 1) then 1 else if ib (i, j, k) ≠ ib (i, j, k - 1) then -1 else 0)

/-- MultiPhase.cpp:466-541: level set to volume fraction with overset blanking. -/
def levelsetToVofBlank (tiny eps : K) (ib : Cell → ℤ) (phi : Cell → K) (c : Cell) : Option K :=
  vofOfNormal tiny eps (youngsNeumann phi (bdy ib c) c) (phi c)

end field

/-- MultiPhase.cpp:316-329: the smoothed Heaviside function. -/
noncomputable def smoothHeaviside (eps phi : ℝ) : ℝ :=
  if phi > eps then 1
  else if phi < -eps then 0
  else 1 / 2 * (1 + phi / eps + 1 / Real.pi * Real.sin (phi * Real.pi / eps))

/-- MultiPhase.cpp:297-336 `set_density_via_levelset` in one cell. -/
noncomputable def levelsetDensity (rho1 rho2 dx dy dz phi : ℝ) : ℝ :=
  mixDensity rho1 rho2 (smoothHeaviside (cbrt (2 * dx * dy * dz)) phi)

/-- MultiPhase.cpp:431 (and 481): the cut-off distance of `levelset2vof`. -/
noncomputable def vofEps (dx dy dz : ℝ) : ℝ := 2 * cbrt (dx * dy * dz)

end AmrWind.Mix
