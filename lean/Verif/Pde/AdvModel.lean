import Verif.Amr.Props

/-!
# Model of the advection operators and of the projection of the face velocities

`equation_systems/AdvOp_Godunov.H`, `AdvOp_MOL.H`, `equation_systems/icns/icns_advection.H` and `.cpp`,
`convection/incflo_mol_fluxes.cpp`, `utilities/bc_ops.cpp`, `equation_systems/vof/vof_momentum_flux.H` and
`MultiPhase::calculate_advected_facedensity`.  The reconstruction of the Godunov schemes (AMReX-Hydro) and the limited slopes
of the method of lines (AMReX) are parameters; the theorems state what they need of them.  A face is named by the cell on its
upper side; the flux of a face shared by two boxes is one value (both boxes compute it from the same ghost cells).
-/

set_option linter.unusedSectionVars false

namespace AmrWind.Adv

open Plane (Cell Bx Axis cells fineBox)
open Amr (Lev coarsenBox contains)

/-! ## Fluxes on a refined mesh -/

section refined
variable {K : Type*} [Field K]

/-- The faces of a box in direction `d` (`amrex::surroundingNodes(bx, d)`). -/
def faces (d : Axis) (b : Bx) : Bx := ⟨b.lo, d.shift b.hi 1⟩

/-- The lower and the upper end of a box in direction `d`. -/
def loFace (d : Axis) (b : Bx) : Bx :=
  match d with
  | .x => ⟨b.lo, (b.lo.1, b.hi.2.1, b.hi.2.2)⟩
  | .y => ⟨b.lo, (b.hi.1, b.lo.2.1, b.hi.2.2)⟩
  | .z => ⟨b.lo, (b.hi.1, b.hi.2.1, b.lo.2.2)⟩
def hiFace (d : Axis) (b : Bx) : Bx :=
  match d with
  | .x => ⟨(b.hi.1 + 1, b.lo.2.1, b.lo.2.2), (b.hi.1 + 1, b.hi.2.1, b.hi.2.2)⟩
  | .y => ⟨(b.lo.1, b.hi.2.1 + 1, b.lo.2.2), (b.hi.1, b.hi.2.1 + 1, b.hi.2.2)⟩
  | .z => ⟨(b.lo.1, b.lo.2.1, b.hi.2.2 + 1), (b.hi.1, b.hi.2.1, b.hi.2.2 + 1)⟩

/-- `amrex::average_down_faces` for one coarse face: the mean over the fine faces that make it up (from the AMReX
documentation). -/
def faceMean (r : Axis → ℕ) (d : Axis) (F : Cell → K) (c : Cell) : K :=
  ((cells (loFace d (fineBox r c))).map F).sum / ((cells (loFace d (fineBox r c))).length : K)

/-- AdvOp_Godunov.H:266-285, icns_advection.H:387-405: from the finest level down, the flux of a coarse face that is a face of
a (coarsened) box of the next level is replaced by the mean of the fine fluxes, which have been treated before.  `F lev d c` is
the flux on level `lev`; levels below `lev` are not looked at. -/
def averageDown (nproc : ℕ) : ℕ → List Lev → (ℕ → Axis → Cell → K) → ℕ → Axis → Cell → K
  | lev, L :: L' :: rest, F =>
    let G := averageDown nproc (lev + 1) (L' :: rest) F
    fun l d c => if l = lev ∧ ((L'.all nproc).any fun b => contains (faces d (coarsenBox L.ratio b)) c) = true then
      faceMean L.ratio d (G (lev + 1) d) c else G l d c
  | _, [_], F => F
  | _, [], F => F

/-- `HydroUtils::ComputeDivergence` with `mult = -1`, fluxes not area weighted (AdvOp_Godunov.H:295-299, icns_advection.H:416-420),
and incflo_mol_fluxes.cpp:8-27 `compute_convective_rate`: the convective rate of a cell. -/
def rate (dx : Axis → K) (F : Axis → Cell → K) (c : Cell) : K :=
  (F .x c - F .x (Axis.x.shift c 1)) / dx .x + (F .y c - F .y (Axis.y.shift c 1)) / dx .y +
    (F .z c - F .z (Axis.z.shift c 1)) / dx .z

/-- The convective rates of all levels: Godunov (AdvOp_Godunov.H:266-302) averages the fluxes down first, the method of lines
(AdvOp_MOL.H:59-121, icns_advection.H:541-581) does not. -/
def godunovRate (nproc : ℕ) (levels : List Lev) (dx : ℕ → Axis → K) (F : ℕ → Axis → Cell → K) (lev : ℕ) (c : Cell) : K :=
  rate (dx lev) (averageDown nproc 0 levels F lev) c
def molRate (dx : ℕ → Axis → K) (F : ℕ → Axis → Cell → K) (lev : ℕ) (c : Cell) : K := rate (dx lev) (F lev) c

end refined

/-! ## Choice of the scheme -/

/-- `godunov::scheme` without the schemes of the interface band. -/
inductive Scheme
  | plm | ppm | ppmNolim | bds | wenoJs | wenoZ
  deriving DecidableEq

/-- AdvOp_Godunov.H:45-83, icns_advection.H:94-131: the scheme an input selects; `ty` is the entry in lower case (`none`: absent);
`deprecated`: `use_ppm` or `use_limiter` present; `none`: Abort. -/
def scheme (deprecated : Bool) (ty : Option String) : Option Scheme :=
  let t := ty.getD "weno_z"
  if deprecated then none
  else if t = "plm" then some .plm
  else if t = "ppm" then some .ppm
  else if t = "ppm_nolim" then some .ppmNolim
  else if t = "bds" then some .bds
  else if t = "weno" ∨ t = "weno_js" then some .wenoJs
  else if t = "weno_z" then some .wenoZ
  else none

/-- The limiters of `PPM` (AMReX-Hydro). -/
inductive Limiter
  | default | none | wenoZ | wenoJs | upwind | minmod
  deriving DecidableEq

/-- What the flux routine is told: parabolic reconstruction, limiter, advection type is BDS. -/
structure Recon where
  ppm : Bool
  limiter : Limiter
  bds : Bool
  deriving DecidableEq

/-- AdvOp_Godunov.H:200-217 and :87. -/
def scalarRecon (s : Scheme) : Recon :=
  ⟨decide (s ≠ .plm) && decide (s ≠ .bds),
    if s = .ppmNolim then .none else if s = .wenoZ then .wenoZ else if s = .wenoJs then .wenoJs else .default,
    decide (s = .bds)⟩

/-- icns_advection.H:316-331 and :118: after the projection. -/
def momentumRecon (s : Scheme) : Recon :=
  ⟨decide (s = .ppm) || decide (s = .ppmNolim) || decide (s = .wenoZ) || decide (s = .wenoJs),
    if s = .ppmNolim then .none else if s = .wenoZ then .wenoZ else if s = .wenoJs then .wenoJs else .default,
    decide (s = .bds)⟩

/-- icns_advection.H:172-200: the velocities at the faces before the projection. -/
def faceRecon (s : Scheme) : Recon :=
  ⟨decide (s ≠ .plm) && decide (s ≠ .bds),
    if s = .ppmNolim then .none else if s = .wenoZ then .wenoZ else if s = .wenoJs then .wenoJs else .default, false⟩

/-- The time states an advection term can be asked for. -/
inductive State
  | old | nph
  deriving DecidableEq

section time
variable {K : Type*} [Field K]

/-- AdvOp_Godunov.H:219-222, icns_advection.H:191-194, 333-336: the step over which the state is extrapolated to the faces. -/
def dtExtrap (s : State) (dt : K) : K := if s = .nph then 0 else dt

/-- vof_momentum_flux.H:139-150 with `dt` from AdvOp_Godunov.H:262 and icns_advection.H:383: in the interface band. -/
def bandExtrap (_ : State) (dt : K) : K := dt

/-- The time, in steps after the old state, that a state extrapolated over `e` stands for: the state's own time and half of
`e`. -/
def faceTime (s : State) (dt e : K) : K := (if s = .nph then 1 / 2 * dt else 0) + 1 / 2 * e

end time

/-! ## Fluxes near a free surface -/

section hybrid
variable {K : Type*} [Field K] [DecidableEq K]

/-- MultiPhase.cpp:398-412: the volume fraction carried through a face becomes a density. -/
def faceDensity (rho1 rho2 a : K) : K := rho1 * a + rho2 * (1 - a)

/-- vof_momentum_flux.H:160-191 and 211-246: what one tile does to the flux of one of its faces.  `band`: one of the two cells of
the face is in the interface band; `m` is the flux of `ρ q`, `r` the density at the face, `ar` the advected density. -/
def tileFlux (band : Bool) (m r ar f : K) : Option K :=
  let f1 := if band then m else f
  if band then (if r = 0 then none else some (f1 / r * ar)) else some (f1 * ar)

/-- vof_momentum_flux.H:120-122: all tiles of a box that have the face, one after the other. -/
def hybridFlux (tiles : ℕ) (band : Bool) (m r ar f : K) : Option K :=
  (List.range tiles).foldl (fun o _ => o.bind (tileFlux band m r ar)) (some f)

/-- The number of tiles that have the face `i` of a box `lo … hi` in one direction, with tiles of `size` cells counted from
`lo` (vof_momentum_flux.H:115-119, `size` 1024). -/
def tilesOf (size lo hi i : ℤ) : ℕ := if lo < i ∧ i ≤ hi ∧ size ∣ i - lo then 2 else 1

end hybrid

/-! ## Fluxes of the method of lines -/

section mol
variable {K : Type*} [Field K] [LinearOrder K]

/-- The types of a boundary that the fluxes distinguish (`amrex::BCType`). -/
inductive BcType
  | extDir | hoExtrap | other
  deriving DecidableEq

/-- The slopes of AMReX (`amrex_calc_xslope`, `amrex_calc_xslope_extdir` and those of the other directions, of second order). -/
structure Slopes (K : Type*) where
  plain : Axis → (Cell → K) → Cell → K
  ext : Axis → Bool → Bool → ℤ → ℤ → (Cell → K) → Cell → K

/-- bc_ops.cpp:14-25 `has_extdir_or_ho`. -/
def hasExt (bc : List BcType) : Bool := bc.any fun b => decide (b = .extDir) || decide (b = .hoExtrap)

/-- incflo_mol_fluxes.cpp:97-103, 124-129: the value carried by the velocity `u` at a face. -/
def upwind (small u qmns qpls : K) : K :=
  if u > small then qmns else if u < -small then qpls else 1 / 2 * (qmns + qpls)

/-- incflo_mol_fluxes.cpp:66-107 (y: 139-180, z: 211-252): the value at the face `c` near a boundary with given values. -/
def extValue (S : Slopes K) (small : K) (d : Axis) (dlo dhi : ℤ) (blo bhi : BcType) (q : Cell → K) (u : K) (c : Cell) : K :=
  let elo := decide (blo = .extDir) || decide (blo = .hoExtrap)
  let ehi := decide (bhi = .extDir) || decide (bhi = .hoExtrap)
  let cm := d.shift c (-1)
  if d.idx c ≤ dlo ∧ blo = .extDir then q (d.shift c (dlo - 1 - d.idx c))
  else if d.idx c ≥ dhi + 1 ∧ bhi = .extDir then q (d.shift c (dhi + 1 - d.idx c))
  else upwind small u (q cm + 1 / 2 * S.ext d elo ehi dlo dhi q cm) (q c - 1 / 2 * S.ext d elo ehi dlo dhi q c)

/-- incflo_mol_fluxes.cpp:109-131: the value at a face away from such boundaries. -/
def plainValue (S : Slopes K) (small : K) (d : Axis) (q : Cell → K) (u : K) (c : Cell) : K :=
  let cm := d.shift c (-1)
  upwind small u (q cm + 1 / 2 * S.plain d q cm) (q c - 1 / 2 * S.plain d q c)

/-- incflo_mol_fluxes.cpp:58-132: the flux of component `n` through the face `c` of the tile `bx`; `bcs` are the boundary types of
the components at the two ends. -/
def molFlux (S : Slopes K) (small : K) (d : Axis) (dlo dhi : ℤ) (bcs : List (BcType × BcType)) (bx : Bx) (n : ℕ) (q : Cell → K)
    (u : Cell → K) (c : Cell) : Option K :=
  match bcs[n]? with
  | none => none
  | some (blo, bhi) =>
    let xlo := d.idx bx.lo
    let xhi := d.idx bx.hi + 1
    if (hasExt (bcs.map Prod.fst) && decide (dlo ≥ xlo - 1)) || (hasExt (bcs.map Prod.snd) && decide (dhi ≤ xhi)) then
      some (extValue S small d dlo dhi blo bhi q (u c) c * u c)
    else some (plainValue S small d q (u c) c * u c)

end mol

/-! ## The projection of the face velocities -/

section mac
variable {K : Type*} [Field K]

/-- `LinOpBCType`. -/
inductive ProjBc
  | periodic | dirichlet | neumann
  deriving DecidableEq

/-- icns_advection.cpp:20-38 `get_projection_bc`. -/
def projBc (isPeriodic pressureOutflow : Bool) : ProjBc :=
  if isPeriodic then .periodic else if pressureOutflow then .dirichlet else .neumann

/-- The options of `MacProjOp` (icns_advection.cpp:43-66). -/
structure Mac where
  overset : Bool
  variableDensity : Bool
  mapping : Bool
  anelastic : Bool

/-- A face: density of the fluid and of the reference state (means of the two cells, `average_cellcenter_to_face`), scale factor
across the face, Jacobian. -/
structure Face (K : Type*) where
  rho : K
  ref : K
  fac : K
  detJ : K

/-- icns_advection.cpp:221. -/
def Mac.factor (o : Mac) (dt : K) : K := if o.overset then 1 / 2 * dt else 1

/-- icns_advection.cpp:239-301 and :385-457 `mac_proj_to_uniform_space`: the coefficient of the projection at a face. -/
def Mac.beta (o : Mac) (dt rho0 : K) (f : Face K) : K :=
  if o.variableDensity || o.overset || o.mapping || o.anelastic then
    let r := if o.anelastic then f.rho / f.ref else f.rho
    if o.mapping then o.factor dt * f.detJ / f.fac ^ 2 / r else o.factor dt / r
  else o.factor dt / rho0

/-- icns_advection.cpp:303-314 and 413-414: the face velocity handed to the projection. -/
def Mac.before (o : Mac) (f : Face K) (u : K) : K :=
  let v := if o.mapping then u * (f.detJ / f.fac) else u
  if o.anelastic then v * f.ref else v

/-- icns_advection.cpp:352-360: the face velocity afterwards. -/
def Mac.after (o : Mac) (f : Face K) (v : K) : K := if o.anelastic then v / f.ref else v

end mac

end AmrWind.Adv
