import Mathlib.Analysis.SpecialFunctions.Trigonometric.DerivHyp

/-!
# Model of the mesh maps: `mesh_mapping_models/ChannelFlowMap.cpp`, `ConstantMap.cpp`

`amrex::Real` is ℝ. A direction is a `Fin 3`. A field is a function of its index.
-/

namespace AmrWind.ChanMap

open Real

/-- ChannelFlowMap.cpp:14-29 `eval_fac`. -/
noncomputable def evalFac (x beta lo len : ℝ) : ℝ :=
  if beta = 0 then 1 else beta * (1 - (tanh (beta * (1 - 2 * (x - lo) / len))) ^ 2) / tanh beta

/-- ChannelFlowMap.cpp:31-44 `eval_coord`. -/
noncomputable def evalCoord (x beta lo len : ℝ) : ℝ :=
  if beta = 0 then x else lo + len / 2 * (1 - tanh (beta * (1 - 2 * (x - lo) / len)) / tanh beta)

/-- The geometry of a level (`prob_lo`, `prob_hi`, `dx`), the stretching `ChannelFlowMap.beta`, the tolerance `m_eps`
(ChannelFlowMap.H:39) and `geometry.prob_hi_physical` (ChannelFlowMap.cpp:251-261; absent: `prob_hi`). -/
structure Geom where
  lo : Fin 3 → ℝ
  hi : Fin 3 → ℝ
  dx : Fin 3 → ℝ
  beta : Fin 3 → ℝ
  eps : ℝ
  physHi : Option (Fin 3 → ℝ)

/-- Where data is stored: per direction at nodes or at cell centres. Cell: `fun _ => false`; node: `fun _ => true`; the
faces of direction `d`: `fun e => e = d`. -/
abbrev Loc := Fin 3 → Bool

/-- The position of an index on the uniform mesh (ChannelFlowMap.cpp:90-92, 117-119, 164-166, 192-194, 220-222). -/
noncomputable def Geom.pos (g : Geom) (s : Loc) (c : Fin 3 → ℤ) (d : Fin 3) : ℝ :=
  if s d then g.lo d + c d * g.dx d else g.lo d + (c d + 1 / 2) * g.dx d

/-- `in_domain` (ChannelFlowMap.cpp:98-100, 125-128, 172-175, 200-203, 228-231): strict for centred directions, with
tolerance for nodal ones. -/
def Geom.inDomain (g : Geom) (s : Loc) (c : Fin 3 → ℤ) : Prop :=
  ∀ d, if s d then g.pos s c d ≥ g.lo d - g.eps ∧ g.pos s c d ≤ g.hi d + g.eps
    else g.pos s c d > g.lo d ∧ g.pos s c d < g.hi d

open Classical in
/-- ChannelFlowMap.cpp:65-141 and 145-244: the scale factor of direction `d` at an index of a cell, node or face
field. -/
noncomputable def Geom.fac (g : Geom) (s : Loc) (c : Fin 3 → ℤ) (d : Fin 3) : ℝ :=
  if g.inDomain s c then evalFac (g.pos s c d) (g.beta d) (g.lo d) (g.hi d - g.lo d) else 1

/-- ChannelFlowMap.cpp:106-108, 134-136, 181-184, 209-212, 237-240. -/
noncomputable def Geom.detJ (g : Geom) (s : Loc) (c : Fin 3 → ℤ) : ℝ :=
  g.fac s c 0 * g.fac s c 1 * g.fac s c 2

open Classical in
/-- ChannelFlowMap.cpp:248-324 `create_non_uniform_mesh` (cells and nodes): the length is that of the physical domain. -/
noncomputable def Geom.coord (g : Geom) (s : Loc) (c : Fin 3 → ℤ) (d : Fin 3) : ℝ :=
  if g.inDomain s c then
    evalCoord (g.pos s c d) (g.beta d) (g.lo d) ((g.physHi.getD g.hi) d - g.lo d)
  else g.pos s c d

/-- ConstantMap.cpp:141-146, 155-160: `fac` is `ConstantMap.scaling_factor`, stored everywhere. -/
noncomputable def constCoord (lo dx fac : Fin 3 → ℝ) (s : Loc) (c : Fin 3 → ℤ) (d : Fin 3) : ℝ :=
  if s d then lo d + c d * dx d * fac d else lo d + (c d + 1 / 2) * dx d * fac d

/-- ConstantMap.cpp:44-49, 58-63, 81-87 and the like: the determinant. -/
def constDetJ (fac : Fin 3 → ℝ) : ℝ := fac 0 * fac 1 * fac 2

end AmrWind.ChanMap
