import Mathlib.Algebra.Order.Field.Basic
import Mathlib.Data.Real.Sqrt

/-!
# Model of the finite volume operators `amr-wind/fvm`

Values are in a field `K` (ℝ for square roots).  A field is a function of the three indices; ghost cells are the indices
outside the domain.  Tiles of all ranks form one list (the operators only read, so the order of tiles does not matter).
-/

set_option linter.unusedSectionVars false

namespace AmrWind.Fvm

variable {K : Type*} [Field K] [LinearOrder K] [IsStrictOrderedRing K]

/-- The coefficients of a direction: interior, next to a low or to a high boundary. -/
inductive Kind where
  | mid
  | lo
  | hi
  deriving DecidableEq

/-- Coefficients for `i + 1`, `i`, `i - 1`. -/
structure Coef (K : Type*) where
  p : K
  c : K
  m : K

/-- stencils.H:114-154 (interior), 156-195 (low), 279-318 (high): first derivative (`c`). -/
def Kind.first : Kind → Coef K
  | .mid => ⟨1 / 2, 0, -(1 / 2)⟩
  | .lo => ⟨1 / 3, 1, -(4 / 3)⟩
  | .hi => ⟨4 / 3, -1, -(1 / 3)⟩

/-- stencils.H:114-154, 156-195, 279-318: second derivative (`s`). -/
def Kind.second : Kind → Coef K
  | .mid => ⟨1, -2, 1⟩
  | .lo => ⟨4 / 3, -4, 8 / 3⟩
  | .hi => ⟨8 / 3, -4, 4 / 3⟩

/-- stencils.H:114-154, 156-195, 279-318: filter (`f`). -/
def Kind.filter : Kind → Coef K
  | .mid => ⟨1 / 4, 1 / 2, 1 / 4⟩
  | .lo => ⟨1 / 8, 5 / 8, 1 / 4⟩
  | .hi => ⟨1 / 4, 5 / 8, 1 / 8⟩

/-- stencils.H: a stencil, by its kind in each direction (`StencilIloJhi` is `lo`, `hi`, `mid`); the 27 structures have the
coefficients of their kinds. -/
structure Sten where
  x : Kind
  y : Kind
  z : Kind
  deriving DecidableEq

/-- A box of cells. -/
structure Box where
  ilo : ℤ
  jlo : ℤ
  klo : ℤ
  ihi : ℤ
  jhi : ℤ
  khi : ℤ

/-- `Box::contains` of a cell. -/
def Box.has (b : Box) (i j k : ℤ) : Prop := b.ilo ≤ i ∧ i ≤ b.ihi ∧ b.jlo ≤ j ∧ j ≤ b.jhi ∧ b.klo ≤ k ∧ k ≤ b.khi

instance (b : Box) (i j k : ℤ) : Decidable (b.has i j k) := by unfold Box.has; infer_instance

/-- The geometry of a level: domain, periodicity, low corner and cell sizes. -/
structure Geom (K : Type*) where
  dom : Box
  perx : Bool
  pery : Bool
  perz : Bool
  plox : K
  ploy : K
  ploz : K
  dx : K
  dy : K
  dz : K

/-- stencils.H:47-110 `box_lo`, `box_hi` in one direction, and the direction not mentioned by a stencil: is index `i` in the
part of the tile (from `tlo` to `thi`) treated by kind `k`, for a domain from `dlo` to `dhi`? -/
def layer (k : Kind) (per : Bool) (dlo dhi tlo thi i : ℤ) : Prop :=
  match k with
  | .mid => True
  | .lo => per = false ∧ tlo = dlo ∧ i = tlo
  | .hi => per = false ∧ thi = dhi ∧ i = thi

instance (k : Kind) (per : Bool) (dlo dhi tlo thi i : ℤ) : Decidable (layer k per dlo dhi tlo thi i) := by
  unfold layer; cases k <;> infer_instance

/-- `Stencil::box`: is the cell in the box of the stencil for this tile? -/
def inBox (g : Geom K) (t : Box) (s : Sten) (i j k : ℤ) : Prop :=
  t.has i j k ∧ layer s.x g.perx g.dom.ilo g.dom.ihi t.ilo t.ihi i ∧ layer s.y g.pery g.dom.jlo g.dom.jhi t.jlo t.jhi j ∧
    layer s.z g.perz g.dom.klo g.dom.khi t.klo t.khi k

instance (g : Geom K) (t : Box) (s : Sten) (i j k : ℤ) : Decidable (inBox g t s i j k) := by unfold inBox; infer_instance

/-- fvm_utils.H:35-66: the stencils after the interior one, in the order they are applied. -/
def order : List Sten :=
  [⟨.lo, .mid, .mid⟩, ⟨.mid, .lo, .mid⟩, ⟨.mid, .mid, .lo⟩, ⟨.hi, .mid, .mid⟩, ⟨.mid, .hi, .mid⟩, ⟨.mid, .mid, .hi⟩,
   ⟨.hi, .lo, .mid⟩, ⟨.hi, .hi, .mid⟩, ⟨.hi, .mid, .lo⟩, ⟨.hi, .mid, .hi⟩, ⟨.mid, .hi, .lo⟩, ⟨.mid, .hi, .hi⟩,
   ⟨.lo, .lo, .mid⟩, ⟨.lo, .hi, .mid⟩, ⟨.lo, .mid, .lo⟩, ⟨.lo, .mid, .hi⟩, ⟨.mid, .lo, .lo⟩, ⟨.mid, .lo, .hi⟩,
   ⟨.lo, .lo, .lo⟩, ⟨.lo, .lo, .hi⟩, ⟨.lo, .hi, .lo⟩, ⟨.lo, .hi, .hi⟩, ⟨.hi, .lo, .lo⟩, ⟨.hi, .lo, .hi⟩, ⟨.hi, .hi, .lo⟩,
   ⟨.hi, .hi, .hi⟩]

/-- `Box::strictly_contains`. -/
def Box.strictly (a b : Box) : Prop :=
  a.ilo < b.ilo ∧ b.ihi < a.ihi ∧ a.jlo < b.jlo ∧ b.jhi < a.jhi ∧ a.klo < b.klo ∧ b.khi < a.khi

instance (a b : Box) : Decidable (a.strictly b) := by unfold Box.strictly; infer_instance

/-- Each application overwrites the cells of its box. -/
def write {V : Type*} (g : Geom K) (t : Box) (op : Sten → ℤ → ℤ → ℤ → V) (out : ℤ → ℤ → ℤ → V) (s : Sten) : ℤ → ℤ → ℤ → V :=
  fun i j k => if inBox g t s i j k then op s i j k else out i j k

/-- fvm_utils.H:23-68: one tile. -/
def applyTile {V : Type*} (g : Geom K) (op : Sten → ℤ → ℤ → ℤ → V) (out : ℤ → ℤ → ℤ → V) (t : Box) : ℤ → ℤ → ℤ → V :=
  let out1 := write g t op out ⟨.mid, .mid, .mid⟩
  if g.dom.strictly t then out1 else order.foldl (write g t op) out1

/-- fvm_utils.H:10-70 `apply` on one level. -/
def apply {V : Type*} (g : Geom K) (op : Sten → ℤ → ℤ → ℤ → V) (tiles : List Box) (out : ℤ → ℤ → ℤ → V) : ℤ → ℤ → ℤ → V :=
  tiles.foldl (applyTile g op) out

/-! ## The operators in one cell -/

/-- A weighted sum of three values. -/
def Coef.sum (w : Coef K) (p c m : K) : K := w.p * p + w.c * c + w.m * m

/-- gradient.H:44-72: the three derivatives. -/
def ddx (g : Geom K) (s : Sten) (f : ℤ → ℤ → ℤ → K) (i j k : ℤ) : K :=
  s.x.first.sum (f (i + 1) j k) (f i j k) (f (i - 1) j k) * (1 / g.dx)

@[inherit_doc ddx]
def ddy (g : Geom K) (s : Sten) (f : ℤ → ℤ → ℤ → K) (i j k : ℤ) : K :=
  s.y.first.sum (f i (j + 1) k) (f i j k) (f i (j - 1) k) * (1 / g.dy)

@[inherit_doc ddx]
def ddz (g : Geom K) (s : Sten) (f : ℤ → ℤ → ℤ → K) (i j k : ℤ) : K :=
  s.z.first.sum (f i j (k + 1)) (f i j k) (f i j (k - 1)) * (1 / g.dz)

/-- laplacian.H:36-64, curvature.H:38-66: the second derivatives. -/
def d2x (g : Geom K) (s : Sten) (f : ℤ → ℤ → ℤ → K) (i j k : ℤ) : K :=
  s.x.second.sum (f (i + 1) j k) (f i j k) (f (i - 1) j k) * (1 / g.dx) * (1 / g.dx)

@[inherit_doc d2x]
def d2y (g : Geom K) (s : Sten) (f : ℤ → ℤ → ℤ → K) (i j k : ℤ) : K :=
  s.y.second.sum (f i (j + 1) k) (f i j k) (f i (j - 1) k) * (1 / g.dy) * (1 / g.dy)

@[inherit_doc d2x]
def d2z (g : Geom K) (s : Sten) (f : ℤ → ℤ → ℤ → K) (i j k : ℤ) : K :=
  s.z.second.sum (f i j (k + 1)) (f i j k) (f i j (k - 1)) * (1 / g.dz) * (1 / g.dz)

/-- divergence.H:40-68. -/
def divergence (g : Geom K) (u v w : ℤ → ℤ → ℤ → K) (s : Sten) (i j k : ℤ) : K :=
  ddx g s u i j k + ddy g s v i j k + ddz g s w i j k

/-- laplacian.H:36-66: each direction uses its own component. -/
def laplacian (g : Geom K) (u v w : ℤ → ℤ → ℤ → K) (s : Sten) (i j k : ℤ) : K :=
  d2x g s u i j k + d2y g s v i j k + d2z g s w i j k

/-- filter.H:45-75. -/
def filterOp (s : Sten) (f : ℤ → ℤ → ℤ → K) (i j k : ℤ) : K :=
  1 / 3 * (s.x.filter.sum (f (i + 1) j k) (f i j k) (f (i - 1) j k) + s.y.filter.sum (f i (j + 1) k) (f i j k) (f i (j - 1) k) +
    s.z.filter.sum (f i j (k + 1)) (f i j k) (f i j (k - 1)))

/-- The nine derivatives of a velocity field: `ux`, `uy`, … -/
structure Grad (K : Type*) where
  ux : K
  uy : K
  uz : K
  vx : K
  vy : K
  vz : K
  wx : K
  wy : K
  wz : K

/-- strainrate.H:38-81 (and the same lines of the other operators). -/
def velGrad (g : Geom K) (u v w : ℤ → ℤ → ℤ → K) (s : Sten) (i j k : ℤ) : Grad K :=
  ⟨ddx g s u i j k, ddy g s u i j k, ddz g s u i j k, ddx g s v i j k, ddy g s v i j k, ddz g s v i j k,
   ddx g s w i j k, ddy g s w i j k, ddz g s w i j k⟩

/-- strainrate.H:82-87: the argument of the square root. -/
def Grad.strainSqr (L : Grad K) : K :=
  2 * L.ux ^ 2 + 2 * L.vy ^ 2 + 2 * L.wz ^ 2 + (L.uy + L.vx) ^ 2 + (L.vz + L.wy) ^ 2 + (L.wx + L.uz) ^ 2

/-- strainrate.H:82-87. -/
noncomputable def Grad.strain (L : Grad ℝ) : ℝ := Real.sqrt L.strainSqr

/-- vorticity.H:70-72. -/
def Grad.vort (L : Grad K) : K × K × K := (L.wy - L.vz, L.uz - L.wx, L.vx - L.uy)

/-- vorticity_mag.H:73-75. -/
noncomputable def Grad.vortMag (L : Grad ℝ) : ℝ := Real.sqrt ((L.uy - L.vx) ^ 2 + (L.vz - L.wy) ^ 2 + (L.wx - L.uz) ^ 2)

/-- qcriterion.H:83-88. -/
def Grad.s2 (L : Grad K) : K :=
  L.ux ^ 2 + L.vy ^ 2 + L.wz ^ 2 + 1 / 2 * (L.uy + L.vx) ^ 2 + 1 / 2 * (L.vz + L.wy) ^ 2 + 1 / 2 * (L.wx + L.uz) ^ 2

/-- qcriterion.H:89-91. -/
def Grad.w2 (L : Grad K) : K := 1 / 2 * (L.uy - L.vx) ^ 2 + 1 / 2 * (L.vz - L.wy) ^ 2 + 1 / 2 * (L.wx - L.uz) ^ 2

/-- qcriterion.H:92-102; `meps` is the machine epsilon. -/
def Grad.qcrit (meps : K) (nondim : Bool) (L : Grad K) : K :=
  if nondim then 1 / 2 * (L.w2 / max (meps * 100) L.s2 - 1) else 1 / 2 * (L.w2 - L.s2)

/-- nonLinearSum.H:80-124: the nine components. -/
def Grad.nonlinear (L : Grad K) : Fin 3 → Fin 3 → K := fun a b =>
  let ux := L.ux; let uy := L.uy; let uz := L.uz
  let vx := L.vx; let vy := L.vy; let vz := L.vz
  let wx := L.wx; let wy := L.wy; let wz := L.wz
  match a, b with
  | 0, 0 => (ux * ux + uy * vx + uz * wx) - (ux * ux + uy * uy + uz * uz) + (3 * (ux * ux + vx * vx + wx * wx)) +
      (ux * ux + vx * uy + wx * uz)
  | 0, 1 => (ux * uy + uy * vy + uz * wy) - (ux * vx + uy * vy + uz * vz) + (3 * (ux * uy + vx * vy + wx * wy)) +
      (ux * vx + vx * vy + wx * vz)
  | 0, 2 => (ux * uz + uy * vz + uz * wz) - (ux * wx + uy * wy + uz * wz) + (3 * (ux * uz + vx * vz + wx * wz)) +
      (ux * wx + vx * wy + wx * wz)
  | 1, 0 => (vx * ux + vy * vx + vz * wx) - (vx * ux + vy * uy + vz * uz) + (3 * (uy * ux + vy * vx + wy * wx)) +
      (uy * ux + vy * uy + wy * uz)
  | 1, 1 => (vx * uy + vy * vy + vz * wy) - (vx * vx + vy * vy + vz * vz) + (3 * (uy * vx + vy * vy + wy * wy)) +
      (uy * vx + vy * vy + wy * vz)
  | 1, 2 => (vx * uz + vy * vz + vz * wz) - (vx * wx + vy * wy + vz * wz) + (3 * (uy * wx + vy * vz + wy * wz)) +
      (uy * wx + vy * wy + wy * wz)
  | 2, 0 => (wx * ux + wy * vx + wz * wx) - (wx * ux + wy * uy + wz * uz) + (3 * (uz * ux + vz * vx + wz * wx)) +
      (uz * ux + vz * uy + wz * uz)
  | 2, 1 => (wx * uy + wy * vy + wz * wy) - (wx * vx + wy * vy + wz * vz) + (3 * (uz * uy + vz * vy + wz * wy)) +
      (uz * vx + vz * vy + wz * vz)
  | 2, 2 => (wx * uz + wy * vz + wz * wz) - (wx * wx + wy * wy + wz * wz) + (3 * (uz * uz + vz * vz + wz * wz)) +
      (uz * wx + vz * wy + wz * wz)

/-- curvature.H:67-121: the mixed derivatives: the derivative of one direction, differenced in the other. -/
def dxy (g : Geom K) (s : Sten) (f : ℤ → ℤ → ℤ → K) (i j k : ℤ) : K :=
  s.x.first.sum (ddy g s f (i + 1) j k) (ddy g s f i j k) (ddy g s f (i - 1) j k) * (1 / g.dx)

@[inherit_doc dxy]
def dxz (g : Geom K) (s : Sten) (f : ℤ → ℤ → ℤ → K) (i j k : ℤ) : K :=
  s.x.first.sum (ddz g s f (i + 1) j k) (ddz g s f i j k) (ddz g s f (i - 1) j k) * (1 / g.dx)

@[inherit_doc dxy]
def dyz (g : Geom K) (s : Sten) (f : ℤ → ℤ → ℤ → K) (i j k : ℤ) : K :=
  s.y.first.sum (ddz g s f i (j + 1) k) (ddz g s f i j k) (ddz g s f i (j - 1) k) * (1 / g.dy)

/-- curvature.H:122-131; `none` where the gradient vanishes (0/0).  `x^1.5` is `x √x`. -/
noncomputable def curvature (g : Geom ℝ) (f : ℤ → ℤ → ℤ → ℝ) (s : Sten) (i j k : ℤ) : Option ℝ :=
  let px := ddx g s f i j k
  let py := ddy g s f i j k
  let pz := ddz g s f i j k
  let pxx := d2x g s f i j k
  let pyy := d2y g s f i j k
  let pzz := d2z g s f i j k
  let pxy := dxy g s f i j k
  let pxz := dxz g s f i j k
  let pyz := dyz g s f i j k
  let n := px * px + py * py + pz * pz
  if n = 0 then none
  else some (-((px * px * pyy) - (2 * px * py * pxy) + (py * py * pxx) + (px * px * pzz) - (2 * px * pz * pxz) +
    (pz * pz * pxx) + (py * py * pzz) - (2 * py * pz * pyz) + (pz * pz * pyy)) / (n * Real.sqrt n))

/-! ## The non-linear subgrid term -/

/-- A field on several boxes: the values of its boxes and, outside, what its ghost cells happen to hold. -/
def ownBox (b : Box) (valid ghost : ℤ → ℤ → ℤ → K) : ℤ → ℤ → ℤ → K :=
  fun i j k => if b.has i j k then valid i j k else ghost i j k

/-- Kosovic.cpp:85-86 for the row `(n0, n1, n2)` of the tensor in the interior of the domain, computed on a box `b`: the
tensor is computed on the cells of the box only (fvm_utils.H, `mfi.tilebox()`) and its ghost cells are not filled before the
divergence. -/
def divN (g : Geom K) (n0 n1 n2 ghost : ℤ → ℤ → ℤ → K) (b : Box) (s : Sten) (i j k : ℤ) : K :=
  divergence g (ownBox b n0 ghost) (ownBox b n1 ghost) (ownBox b n2 ghost) s i j k

end AmrWind.Fvm
