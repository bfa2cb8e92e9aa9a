/-
Model of amr-wind/overset: the masks, the sharpening of the volume fraction received from the other
solver, the pressure gradient replacement and the bookkeeping of patches. Numbers are an ordered field
(`ℝ` where a root or a logarithm is needed). One level is modelled, and fluxes averaged down to it.
-/
import Mathlib.Algebra.Order.Field.Basic
import Mathlib.Data.Int.Order.Basic
import Mathlib.Analysis.SpecialFunctions.Log.Basic
import Verif.Plane.Model
import Verif.Mix.Model

namespace AmrWind.Overset

open Plane (irange)

set_option linter.unusedSectionVars false

/-- A cell, or the node at its low corner, or (with an axis) its low face. -/
abbrev Cell := ℤ × ℤ × ℤ

/-- The neighbour one up in axis `d` (0, 1, 2). -/
def up (d : Fin 3) (c : Cell) : Cell :=
  match d with
  | 0 => (c.1 + 1, c.2.1, c.2.2)
  | 1 => (c.1, c.2.1 + 1, c.2.2)
  | 2 => (c.1, c.2.1, c.2.2 + 1)

/-- overset_ops_K.H:32-34: `ivm = iv - dv`. -/
def dn (d : Fin 3) (c : Cell) : Cell :=
  match d with
  | 0 => (c.1 - 1, c.2.1, c.2.2)
  | 1 => (c.1, c.2.1 - 1, c.2.2)
  | 2 => (c.1, c.2.1, c.2.2 - 1)

/-- The three nested loops `ii = i + lo .. i + hi`, and the same for `jj` and `kk`. -/
def around (lo hi : ℤ) (c : Cell) : List Cell :=
  (irange (c.1 + lo) (c.1 + hi)).flatMap fun i => (irange (c.2.1 + lo) (c.2.1 + hi)).flatMap fun j =>
    (irange (c.2.2 + lo) (c.2.2 + hi)).map fun k => (i, j, k)

section field
variable {K : Type*} [Field K] [LinearOrder K] [IsStrictOrderedRing K]

/-! ### Masks -/

/-- overset_ops_routines.cpp:17-34 `iblank_to_mask`. -/
def iblankToMask (ib : Cell → ℤ) (c : Cell) : ℤ := max (ib c) 0

/-- volume_fractions.H:501-527 `interface_band`. -/
def interfaceBand (vof : Cell → K) (nBand : ℤ) (tiny : K) (c : Cell) : Bool :=
  let vs := (around (-nBand) nBand c).map vof
  let vmax := vs.foldl max 0
  let vmin := vs.foldl min 1
  decide (tiny < |vmax - vmin|) || vs.any fun v => decide (v < 1 - tiny) && decide (tiny < v)

/-- overset_ops_routines.cpp:71-84: the flag `near_solid` after the loop over the 27 neighbours. -/
def nearSolid (ib : Cell → ℤ) (c : Cell) : Bool :=
  (around (-1) 1 c).foldl (fun b d => if ib d = 0 then true else b) false

/-- overset_ops_routines.cpp:71-84: the flag `near_overset_boundary`. -/
def nearBoundary (ib : Cell → ℤ) (c : Cell) : Bool :=
  (around (-1) 1 c).foldl (fun b d => if ib d = 1 then true else b) false

/-- overset_ops_routines.cpp:58-69: `near_interface` for a node: the eight cells around it. -/
def nearInterfaceNode (vof : Cell → K) (tol : K) (c : Cell) : Bool :=
  (around (-1) 0 c).foldl (fun b d => b || interfaceBand vof 1 tol d) false

/-- overset_ops_routines.cpp:54-91 `iblank_node_to_mask_vof`; `ib` at nodes, `vof` at cells. -/
def nodeMask (ib : Cell → ℤ) (vof : Cell → K) (tol : K) (c : Cell) : ℤ :=
  if ib c = -1 ∧ (nearBoundary ib c && nearInterfaceNode vof tol c && !nearSolid ib c) = true then 1
  else max (ib c) 0

/-- overset_ops_routines.cpp:121-152 `prepare_mask_cell_for_mac` where the volume fraction exists. -/
def macMask (ib : Cell → ℤ) (vof : Cell → K) (tol : K) (c : Cell) : ℤ :=
  if ib c = -1 ∧ (nearBoundary ib c && interfaceBand vof 1 tol c && !nearSolid ib c) = true then 1
  else max (ib c) 0

/-- overset_ops_routines.cpp:102-160 `prepare_mask_cell_for_mac`: nothing happens without a volume
fraction. Ghost cells are filled from the cells they image, so the field is a function of the cell. -/
def prepareMac (vof : Option (Cell → K)) (ib : Cell → ℤ) (tol : K) (mask : Cell → ℤ) : Cell → ℤ :=
  match vof with
  | none => mask
  | some v => macMask ib v tol

/-- overset_ops_routines.cpp:164-174 `revert_mask_cell_after_mac`. -/
def revertMac (vof : Option (Cell → K)) (ib : Cell → ℤ) (mask : Cell → ℤ) : Cell → ℤ :=
  match vof with
  | none => mask
  | some _ => iblankToMask ib

/-! ### Sharpening -/

/-- overset_ops_routines.cpp:193-205 `process_vof`, and the bound in `apply_fluxes` (571-575). -/
def clip (tol v : K) : K := if v < tol then 0 else if v > 1 - tol then 1 else v

/-- overset_ops_routines.cpp:208-223 `harmonize_vof`. -/
def harmonize (ib : Cell → ℤ) (og tg : Cell → K) (c : Cell) : K := if ib c ≠ -1 then og c else tg c

/-- overset_ops_K.H:39-68: the choice made in `alpha_flux` from the volume fractions of the cell (`v`) and of its
lower neighbour (`vm`), given the two candidates. -/
def pick (margin v vm dphi dphim : K) : K :=
  let gphi := v - vm
  let avg := 1 / 2 * (dphi + dphim)
  if |v - 1 / 2| > margin ∨ |vm - 1 / 2| > margin then
    let e1 := if gphi > 0 then
        let a := if vm < 1 / 2 ∧ v ≤ 1 / 2 + margin then dphim else avg
        if vm ≥ 1 / 2 - margin ∧ v > 1 / 2 then dphi else a
      else avg
    if gphi < 0 then
      let a := if v < 1 / 2 ∧ vm ≤ 1 / 2 + margin then dphi else e1
      if v ≥ 1 / 2 - margin ∧ vm > 1 / 2 then dphim else a
    else e1
  else avg

/-- overset_ops_K.H:20-69 `alpha_flux`. `nrm d` is component `d` of the stored normal. -/
def alphaFlux (margin : K) (vof tg : Cell → K) (nrm : Fin 3 → Cell → K) (d : Fin 3) (c : Cell) : K :=
  pick margin (vof c) (vof (dn d c)) ((vof c - tg c) * |nrm d c|) ((tg (dn d c) - vof (dn d c)) * |nrm d (dn d c)|)

/-- overset_ops_K.H:71-113 `velocity_face` for one component, and 115-157 `gp_rho_face` with
`q = gp / rho`. -/
def faceValue (vof q : Cell → K) (d : Fin 3) (c : Cell) : K :=
  let g := vof c - vof (dn d c)
  if g < 0 then q c else if g > 0 then q (dn d c) else 1 / 2 * (q c + q (dn d c))

/-- The fields changed by `apply_fluxes`: cells, and the nodal pressure. -/
structure St (K : Type*) where
  vof : Cell → K
  dens : Cell → K
  vel : Fin 3 → Cell → K
  gp : Fin 3 → Cell → K
  p : Cell → K

/-- The nine components at the faces of one axis (OversetOps.cpp:219): volume fraction, density, momentum (3),
pressure gradient (3), flag. -/
structure Flux (K : Type*) where
  vof : Cell → K
  dens : Cell → K
  mom : Fin 3 → Cell → K
  gp : Fin 3 → Cell → K
  flag : Cell → K

/-- overset_ops_routines.cpp:269-359 `populate_sharpen_fluxes` for axis `d` (the three loops differ in the axis only). -/
def sharpenFlux (Gamma margin rho1 rho2 : K) (s : St K) (tg : Cell → K) (nrm : Fin 3 → Cell → K) (d : Fin 3) : Flux K :=
  let f := fun c => Gamma * alphaFlux margin s.vof tg nrm d c
  let g := fun c => f c * (rho1 - rho2)
  { vof := f
    dens := g
    mom := fun n c => g c * faceValue s.vof (s.vel n) d c
    gp := fun n c => g c * faceValue s.vof (fun e => s.gp n e / s.dens e) d c
    flag := fun _ => 1 }

/-- overset_ops_routines.cpp:379-399: a face is off unless both its cells have `iblank = -1`. -/
def gate (ib : Cell → ℤ) (d : Fin 3) (c : Cell) : K := if ib (dn d c) + ib c > -2 then 0 else 1

/-- overset_ops_routines.cpp:379-399 in `process_fluxes_calc_src`. -/
def processFlux (ib : Cell → ℤ) (d : Fin 3) (f : Flux K) : Flux K :=
  { vof := fun c => f.vof c * gate ib d c
    dens := fun c => f.dens c * gate ib d c
    mom := fun n c => f.mom n c * gate ib d c
    gp := fun n c => f.gp n c * gate ib d c
    flag := fun c => f.flag c * gate ib d c }

/-- overset_ops_routines.cpp:522-526 (and the like): the bracket multiplied by `ptfac`. -/
def divergence (dx : Fin 3 → K) (f : Fin 3 → Cell → K) (c : Cell) : K :=
  (f 0 (up 0 c) - f 0 c) / dx 0 + (f 1 (up 1 c) - f 1 c) / dx 1 + (f 2 (up 2 c) - f 2 c) / dx 2

/-- overset_ops_routines.cpp:519-575, before the bound on the volume fraction: `f d` is the flux of axis `d` and `sp`
the pressure source. -/
def applyRaw (dx : Fin 3 → K) (ptfac : K) (f : Fin 3 → Flux K) (sp : Cell → K) (s : St K) : St K :=
  let dens := fun c => s.dens c + ptfac * divergence dx (fun d => (f d).dens) c
  { vof := fun c => s.vof c + ptfac * divergence dx (fun d => (f d).vof) c
    dens := dens
    vel := fun n c => 1 / dens c * (s.dens c * s.vel n c + ptfac * divergence dx (fun d => (f d).mom n) c)
    gp := fun n c => s.gp n c + ptfac * divergence dx (fun d => (f d).gp n) c
    p := fun c => s.p c + ptfac * sp c }

/-- overset_ops_routines.cpp:495-581 `apply_fluxes`. -/
def applyFluxes (dx : Fin 3 → K) (ptfac tol : K) (f : Fin 3 → Flux K) (sp : Cell → K) (s : St K) : St K :=
  let r := applyRaw dx ptfac f sp s
  { r with vof := fun c => clip tol (r.vof c) }

/-- MultiPhase.cpp:338-359 `set_density_via_vof`, called at OversetOps.cpp:361. -/
def setDensity (rho1 rho2 : K) (s : St K) : St K := { s with dens := fun c => Mix.mixDensity rho1 rho2 (s.vof c) }

/-- overset_ops_routines.cpp:441-448 (and the like): the limit from one face: `v` is the cell, `vm` its lower neighbour. -/
def faceLimit (tol h f v vm : K) : K :=
  if f > tol ∧ v > tol then v * h / f else if f < -tol ∧ vm > tol then vm * h / -f else 1

/-- overset_ops_routines.cpp:424-492 `calculate_pseudo_dt_flux` over the faces `faces d` of each axis, and the minimum over
levels with 1 at OversetOps.cpp:289, 329-338. -/
def pseudoDt (tol : K) (dx : Fin 3 → K) (f : Fin 3 → Cell → K) (vof : Cell → K) (faces : Fin 3 → List Cell) : K :=
  let one := fun d => ((faces d).map fun c => faceLimit tol (dx d) (f d c) (vof c) (vof (dn d c))).foldl min 1
  min (one 0) (min (one 1) (one 2))

/-- OversetOps.cpp:291, 343: `ptfac = pCFL * ptfac`. -/
def ptfac (tol : K) (dx : Fin 3 → K) (f : Fin 3 → Cell → K) (vof : Cell → K) (faces : Fin 3 → List Cell) : K :=
  1 / 2 * pseudoDt tol dx f vof faces

/-- overset_ops_routines.cpp:584-623 `measure_convergence`: `-1` when there is no face. -/
def measure (f : Fin 3 → Cell → K) (faces : Fin 3 → List Cell) : K :=
  let one := fun d => ((faces d).map fun c => |f d c|).foldl max (-1)
  max (one 0) (max (one 1) (one 2))

/-- overset_ops_routines.cpp:410-421 `calculate_pseudo_velocity_scale`; `mn` is the least `iblank` of the level. -/
def pvLevel (mn : ℤ) (dx : Fin 3 → K) (pvmax : K) : K := if mn = -1 then min (min (dx 0) (dx 1)) (dx 2) else pvmax

/-- OversetOps.cpp:225-228, 244-248: over the levels, each with its least `iblank` and mesh size. -/
def pvScale (dx0 : Fin 3 → K) (levels : List (ℤ × (Fin 3 → K))) : K :=
  let mx := min (min (dx0 0) (dx0 1)) (dx0 2)
  levels.foldl (fun a l => min a (pvLevel l.1 l.2 mx)) mx

/-- OversetOps.cpp:279-370, the pseudo-time loop: `left` iterations remain, `n` are done, `e` is the error. `step` is the
update of the fields and `err` the error measured on them. `none` is the remainder by zero of line 284. -/
def loopAux {S : Type*} (step : S → S) (err : S → K) (interval : ℤ) (tol : K) : ℕ → ℕ → K → S → Option (ℕ × K × S)
  | 0, n, e, s => some (n, e, s)
  | left + 1, n, e, s =>
    if e > tol then
      if interval = 0 then none
      else loopAux step err interval tol left (n + 1)
        (if Int.tmod ((n + 1 : ℕ) : ℤ) interval = 0 then max 0 (err s) else e) (step s)
    else some (n, e, s)

/-- OversetOps.cpp:280-282: the loop from its start. -/
def loop {S : Type*} (step : S → S) (err : S → K) (iterations : ℕ) (interval : ℤ) (tol : K) (s : S) : Option (ℕ × K × S) :=
  loopAux step err interval tol iterations 0 (100 * tol) s

/-! ### After the solve -/

/-- overset_ops_routines.cpp:660-676 `apply_pressure_gradient`, one component. -/
def applyGradient (rho gp : Cell → K) (fac : K) (vel : Cell → K) (c : Cell) : K := vel c - gp c * (fac / rho c)

/-- overset_ops_routines.cpp:640-657 `replace_gradp`, one component. -/
def replaceGradient (ib : Cell → ℤ) (gp0 gp : Cell → K) (c : Cell) : K := if ib c ≤ 0 then gp0 c else gp c

/-- OversetOps.cpp:400-424 `replace_masked_gradp`: the new velocity and pressure gradient. -/
def replaceMasked (ib : Cell → ℤ) (rho gp0 gp vel : Cell → K) (dt : K) : (Cell → K) × (Cell → K) :=
  let v1 := applyGradient rho gp (-dt) vel
  let g := replaceGradient ib gp0 gp
  (applyGradient rho g dt v1, g)

/-- OversetOps.cpp:36-52: whether the pressure options are accepted; `none` is the abort. -/
def checkOptions (vofExists perturb reconstruct : Bool) : Option Unit :=
  if vofExists && perturb && !reconstruct then none else some ()

end field

/-! ### The normal, the distance and the pressure source -/

/-- overset_ops_K.H:13-18 `asdf`. -/
noncomputable def asdf (vof ith tiny : ℝ) : ℝ := ith * Real.log ((vof + tiny) / (1 - vof + tiny))

/-- overset_ops_routines.cpp:226-265 `populate_normal_vector`; `eps` is the machine epsilon. -/
noncomputable def normalVec (eps : ℝ) (ib : Cell → ℤ) (vof : Cell → ℝ) (d : Fin 3) (c : Cell) : ℝ :=
  let m := Mix.youngsNeumann vof (Mix.bdy ib c) c
  let mmag := Real.sqrt (m.1 * m.1 + m.2.1 * m.2.1 + m.2.2 * m.2.2 + eps)
  match d with
  | 0 => m.1 / mmag
  | 1 => m.2.1 / mmag
  | 2 => m.2.2 / mmag

/-- The four faces of axis `d` around the node at the low corner of `c` (overset_ops_K.H:170-181). -/
def ring (d : Fin 3) (c : Cell) : List Cell :=
  match d with
  | 0 => [c, dn 2 c, dn 1 c, dn 1 (dn 2 c)]
  | 1 => [c, dn 0 c, dn 2 c, dn 0 (dn 2 c)]
  | 2 => [c, dn 0 c, dn 1 c, dn 0 (dn 1 c)]

/-- overset_ops_K.H:159-214 `gp_flux_tensor`: entry `a b` from the fluxes of axis `a`, component `b` of the gradient. -/
noncomputable def fluxTensor (tiny : ℝ) (f : Fin 3 → Flux ℝ) (c : Cell) (a b : Fin 3) : ℝ :=
  ((ring a c).map ((f a).gp b)).sum / (((ring a c).map (f a).flag).sum + tiny)

/-- overset_ops_K.H:239-262: the difference of the volume fraction across the four faces of axis `a`, averaged over
those that are on. -/
noncomputable def zeta (tiny : ℝ) (f : Fin 3 → Flux ℝ) (vof : Cell → ℝ) (c : Cell) (a : Fin 3) : ℝ :=
  ((ring a c).map fun e => (vof e - vof (dn a e)) * (f a).flag e).sum / (((ring a c).map (f a).flag).sum + tiny)

/-- overset_ops_K.H:264: `n_zeta.normalize()` (vectorI.H:126-136). -/
noncomputable def unitZeta (tiny : ℝ) (f : Fin 3 → Flux ℝ) (vof : Cell → ℝ) (c : Cell) (a : Fin 3) : ℝ :=
  let z := zeta tiny f vof c
  let m := Real.sqrt (z 0 * z 0 + z 1 * z 1 + z 2 * z 2)
  if m < tiny then 0 else z a / m

/-- overset_ops_K.H:266-275 and overset_ops_routines.cpp:401-407: the double contraction (`tensorI.H:166-172`) of the two
tensors; row `a` of `n_otimes_n` is the element-wise product of `(n0, n1, n2)` and `(na, na, na)`. -/
noncomputable def pSource (tiny : ℝ) (f : Fin 3 → Flux ℝ) (vof : Cell → ℝ) (c : Cell) : ℝ :=
  let n := unitZeta tiny f vof c
  let t := fluxTensor tiny f c
  t 0 0 * (n 0 * n 0) + t 0 1 * (n 1 * n 0) + t 0 2 * (n 2 * n 0) + t 1 0 * (n 0 * n 1) + t 1 1 * (n 1 * n 1) +
    t 1 2 * (n 2 * n 1) + t 2 0 * (n 0 * n 2) + t 2 1 * (n 1 * n 2) + t 2 2 * (n 2 * n 2)

/-- overset_ops_routines.cpp:626-637 `equate_field`, called at OversetOps.cpp:380-382 with the level set as destination. -/
noncomputable def equateField (vel : Fin 3 → Cell → ℝ) (c : Cell) : ℝ :=
  Real.sqrt (vel 0 c * vel 0 c + vel 1 c * vel 1 c + vel 2 c * vel 2 c)

/-! ### The patches told to the connectivity library -/

/-- TiogaInterface.cpp:324-365: one entry per box of each level, in order; here only its rank matters. Returns for every
box its `local_id`; `cnt r` is `lgrid_id[r]`. -/
def localIds : List ℕ → (ℕ → ℕ) → List ℕ
  | [], _ => []
  | r :: rs, cnt => cnt r :: localIds rs (fun q => if q = r then cnt q + 1 else cnt q)

/-- TiogaInterface.cpp:352-354: `global_idmap` on rank `me`; `igp` is the index of the next box. -/
def globalIds (me : ℕ) : List ℕ → ℕ → List ℕ
  | [], _ => []
  | r :: rs, igp => if me = r then igp :: globalIds me rs (igp + 1) else globalIds me rs (igp + 1)

/-- TiogaInterface.cpp:309-317: `ngrids_local` on rank `me`. -/
def nLocal (me : ℕ) (ranks : List ℕ) : ℕ := ranks.foldl (fun n r => if r = me then n + 1 else n) 0

/-- TiogaInterface.cpp:150-165 and 246-260: the first component of each registered field in the exchanged array. -/
def offsets : List ℕ → ℕ → List ℕ
  | [], _ => []
  | n :: ns, icomp => icomp :: offsets ns (icomp + n)

/-- The calls that touch the host copies of the blanking (TiogaInterface.cpp:60-112). -/
inductive Call where
  | preConn | postConn | regrid
deriving DecidableEq

/-- Whether `m_iblank_cell_host` is set after a call; `none` is a null pointer dereference (TiogaInterface.cpp:62 through 385;
75; 95 and 110). -/
def hostAfter (alive : Bool) : Call → Option Bool
  | .preConn => some true
  | .postConn => if alive then some false else none
  | .regrid => if alive then some true else none

/-- A sequence of calls from the constructor, where the pointer is null (TiogaInterface.H:122). -/
def runCalls : List Call → Option Bool
  | cs => cs.foldl (fun a c => a.bind fun b => hostAfter b c) (some false)

end AmrWind.Overset
