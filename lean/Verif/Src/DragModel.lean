import Mathlib.Analysis.SpecialFunctions.Log.Basic
import Mathlib.Analysis.SpecialFunctions.Sqrt
import Verif.Abl.Model
import Verif.Vs.Model

/-!
# Model of terrain drag: `TerrainDrag`, `DragForcing`, `DragTempForcing` and the horizontal sponge

`physics/TerrainDrag.cpp`, `equation_systems/icns/source_terms/DragForcing.cpp`,
`equation_systems/temperature/source_terms/DragTempForcing.cpp` and the horizontal sponge of
`TemperatureFreeAtmosphereForcing.cpp`.  Real arithmetic; a division by zero is `none`, except where IEEE arithmetic
makes it harmless (stated at the definition).
-/

set_option linter.unusedSectionVars false

namespace AmrWind.Drag

open AmrWind AmrWind.Vs

/-! ## Terrain (TerrainDrag.cpp) -/

/-- TerrainDrag.cpp:129, 214: the height of a cell centre. -/
noncomputable def zc (lo dz : ℝ) (k : ℤ) : ℝ := lo + (k + 1 / 2) * dz

/-- TerrainDrag.cpp:133-134: the blanking of the cell `k` of a column with terrain height `ht`. -/
noncomputable def blankAt (lo dz ht : ℝ) (k : ℤ) : Bool := decide (zc lo dz k ≤ ht ∧ lo < zc lo dz k)

/-- TerrainDrag.cpp:215-217: the same from the volume fraction of the waves. -/
noncomputable def waveBlankAt (lo dz : ℝ) (vof : ℤ → ℝ) (k : ℤ) : Bool := decide (1 / 2 ≤ vof k ∧ lo < zc lo dz k)

/-- TerrainDrag.cpp:148-154, 223-229: the drag cell, from the blanking of the column. -/
def dragAt (blank : ℤ → Bool) (k : ℤ) : Bool := !blank k && decide (0 < k) && blank (k - 1)

/-! ## The sponge (DragForcing.cpp:225-236, TemperatureFreeAtmosphereForcing.cpp:116-129) -/

/-- The ratio `num / den` as it is used below `max (·, 0)`: a negative number over zero is minus infinity, which `max` turns
into 0; 0/0 and infinity are `none`. -/
noncomputable def ratio0 (num den : ℝ) : Option ℝ :=
  if den = 0 then (if num < 0 then some 0 else none) else some (max (num / den) 0)

/-- DragForcing.cpp:186, 225, 228: the east sponge coordinate with its flag. -/
noncomputable def xiEnd (flag : ℤ) (hi dist x : ℝ) : Option ℝ :=
  (ratio0 (x - (hi - dist)) (hi - (hi - dist))).map (flag * ·)

/-- DragForcing.cpp:187, 226-227: the west sponge coordinate. -/
noncomputable def xiStart (flag : ℤ) (lo dist x : ℝ) : Option ℝ :=
  (ratio0 (lo - dist - x) (lo - dist - lo)).map (flag * ·)

/-- The sponge parameters; distances and flags of west, east, south and north. -/
structure Sponge where
  strength : ℝ
  density : ℝ
  dW : ℝ
  dE : ℝ
  dS : ℝ
  dN : ℝ
  fW : ℤ
  fE : ℤ
  fS : ℤ
  fN : ℤ

/-- DragForcing.cpp:225-236: the sum of the four dampings; the two of the y direction do not repeat the flag. -/
noncomputable def damping (s : Sponge) (lox hix loy hiy x y : ℝ) : Option ℝ := do
  let xs ← xiStart s.fW lox s.dW x
  let xe ← xiEnd s.fE hix s.dE x
  let ys ← xiStart s.fS loy s.dS y
  let ye ← xiEnd s.fN hiy s.dN y
  return s.fW * s.strength * xs * xs + s.fE * s.strength * xe * xe + s.strength * ys * ys + s.strength * ye * ye

/-- TemperatureFreeAtmosphereForcing.cpp:130-138: the source of the horizontal sponge in the temperature equation. -/
noncomputable def tempSponge (density damp T ref : ℝ) : ℝ := -(damp * (T - density * ref))

/-! ## The wall model (DragForcing.cpp:15-85, 260-306) -/

/-- DragForcing.cpp:204: the von Karman constant, whatever the input file says. -/
noncomputable def kappa : ℝ := 0.41

/-- DragForcing.cpp:203, 283-284: the roughness used. -/
noncomputable def rough (z0 : ℝ) : ℝ := max z0 0.0001

/-- DragForcing.cpp:207-216: the stability function of a height, only for the model "mol". -/
noncomputable def psiUsed (mol : Bool) (L beta gamma z : ℝ) : ℝ := if mol then Abl.psiM beta gamma (z / L) else 0

/-- The length of a horizontal vector. -/
noncomputable def hmag (x y : ℝ) : ℝ := √(x * x + y * y)

/-- DragForcing.cpp:27-29: the friction velocity, from the relative velocity of the cell above. -/
noncomputable def ustar (z0 dz psiN ux2 uy2 : ℝ) : Option ℝ :=
  let d := Real.log (1.5 * dz / z0) - psiN
  if d = 0 then none else some (hmag ux2 uy2 * kappa / d)

/-- DragForcing.cpp:30-37: the stress terms. -/
noncomputable def stress (eps us dz ux1 uy1 : ℝ) : ℝ × ℝ :=
  (-us * us * ux1 / (eps + hmag ux1 uy1) / dz, -us * us * uy1 / (eps + hmag ux1 uy1) / dz)

/-- DragForcing.cpp:53-84: the form drag of waves with slopes `gx`, `gy`; `none`: 0/0. -/
noncomputable def formDrag (gx gy dz ux uy : ℝ) : Option (ℝ × ℝ) :=
  let g := hmag gx gy
  let a := ux * gx + uy * gy
  if g = 0 ∨ a = 0 then none else
    let nx := gx / g
    let ny := gy / g
    let ur := √(ux * ux * nx * nx + uy * uy * ny * ny)
    let heavi := (a + |a|) / (2 * a)
    let tx := 1 / Real.pi * ur * ur * g * g * heavi * nx
    let ty := 1 / Real.pi * ur * ur * g * g * heavi * ny
    some (-tx / dz, -ty / dz)

/-- DragForcing.cpp:292-302: the velocity the first cell is driven to. -/
noncomputable def wallTarget (eps us z0 dz psiC ux2 uy2 : ℝ) : ℝ × ℝ :=
  let ut := us / kappa * (Real.log (0.5 * dz / z0) - psiC)
  (ut * ux2 / (eps + hmag ux2 uy2), ut * uy2 / (eps + hmag ux2 uy2))

/-- What the source needs to know of a cell; `up` is the velocity of the cell above, `wall` the velocity of the waves below
(zero without waves), `tgt` the velocity of the waves in the cell, `slope` the slopes of the waves if form drag is on,
`ref` the velocity of the mean profile (the cell's own without one). -/
structure Cell where
  u : Vec ℝ
  up : Vec ℝ
  wall : Vec ℝ
  tgt : Vec ℝ
  ref : Vec ℝ
  slope : Option (ℝ × ℝ)
  blank : Bool
  drag : Bool
  z0 : ℝ

/-- The parameters of the run. -/
structure Par where
  coef : ℝ
  laminar : Bool
  dz : ℝ
  dt : ℝ
  psiN : ℝ
  psiC : ℝ
  eps : ℝ
  density : ℝ

/-- DragForcing.cpp:260-306: `Dxz + bc_forcing_x`, `Dyz + bc_forcing_y`. -/
noncomputable def wallTerms (p : Par) (c : Cell) : Option (ℝ × ℝ) :=
  if c.drag && !p.laminar then do
    let z0 := rough c.z0
    let u2x := c.up.x - c.wall.x
    let u2y := c.up.y - c.wall.y
    let us ← ustar z0 p.dz p.psiN u2x u2y
    let d := stress p.eps us p.dz (c.u.x - c.wall.x) (c.u.y - c.wall.y)
    let f ← match c.slope with
      | none => some (0, 0)
      | some g => formDrag g.1 g.2 p.dz (c.u.x - c.wall.x) (c.u.y - c.wall.y)
    let t := wallTarget p.eps us z0 p.dz p.psiC u2x u2y
    return (d.1 + f.1 + -(t.1 - c.u.x) / p.dt, d.2 + f.2 + -(t.2 - c.u.y) / p.dt)
  else some (0, 0)

/-- DragForcing.cpp:200-202, 317-318: the drag coefficient times the speed. -/
noncomputable def cdm (p : Par) (m : ℝ) : ℝ :=
  let scale := if p.dz < 1 then 1 else 1 / p.dz
  let cd := if p.laminar && decide (p.dz < 1) then p.coef else p.coef / p.dz
  min (cd / (m + p.eps)) (1000 / scale) * m

/-- A flag as the number it is multiplied with. -/
def ind (b : Bool) : ℝ := if b then 1 else 0

/-- DragForcing.cpp:319-332: the contribution to the source; `damp` is the sum of the sponge dampings. -/
noncomputable def source (p : Par) (damp : ℝ) (c : Cell) : Option (Vec ℝ) := do
  let w ← wallTerms p c
  let k := cdm p (mag c.u)
  return ⟨-(k * (c.u.x - c.tgt.x) * ind c.blank + w.1 * ind c.drag + damp * (c.u.x - p.density * c.ref.x)),
    -(k * (c.u.y - c.tgt.y) * ind c.blank + w.2 * ind c.drag + damp * (c.u.y - p.density * c.ref.y)),
    -(k * (c.u.z - c.tgt.z) * ind c.blank + damp * (c.u.z - p.density * c.ref.z))⟩

/-- DragForcing.cpp:97, 122-124: the strength used, zero without ABL physics. -/
noncomputable def strengthUsed (abl : Bool) (given : Option ℝ) : ℝ := if abl then given.getD 1 else 0

/-! ## Temperature (DragTempForcing.cpp) -/

/-- DragTempForcing.cpp:23-30: the constants of the stability functions read from the ABL section; the constants for heat are
read from the entries for momentum. -/
noncomputable def heatConstants (inp : String → Option ℝ) : ℝ × ℝ := ((inp "mo_gamma_m").getD 5, (inp "mo_beta_m").getD 16)

/-- DragTempForcing.cpp:98-100: the friction velocity, from the speed of the cell itself. -/
noncomputable def tempUstar (kap z0 dz psiM ux uy : ℝ) : Option ℝ :=
  let d := Real.log (1.5 * dz / z0) - psiM
  if d = 0 then none else some (hmag ux uy * kap / d)

/-- DragTempForcing.cpp:102-104. -/
noncomputable def thetaStar (kap g L theta us : ℝ) : Option ℝ :=
  if kap * g * L = 0 then none else some (theta * us * us / (kap * g * L))

/-- DragTempForcing.cpp:105-110: the temperature the first cell is driven to. -/
noncomputable def tempTarget (kap z0 dz psiHN psiHC ts theta2 : ℝ) : ℝ :=
  let surf := theta2 - ts / kap * (Real.log (1.5 * dz / z0) - psiHN)
  surf + ts / kap * (Real.log (0.5 * dz / z0) - psiHC)

/-- DragTempForcing.cpp:111-118: the source, given the target. -/
noncomputable def tempSource (coef dz tiny dt T0 target theta m : ℝ) (blank drag : Bool) : ℝ :=
  let cd := min (coef / dz / (m + tiny)) (10 / dz);
  -(cd * (theta - T0) * ind blank + -(target - theta) / dt * ind drag)

end AmrWind.Drag
