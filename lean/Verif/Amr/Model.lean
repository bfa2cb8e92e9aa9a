import Verif.Plane.FineProps

/-!
# Model of a refinement hierarchy, fine masks and composite sums

Used by `physics/multiphase/MultiPhase.cpp` (`volume_fraction_sum`, `momentum_sum`),
`utilities/sampling/KineticEnergy.cpp`, `Enstrophy.cpp`, `WaveEnergy.cpp`, `FieldNorms.cpp` and
`utilities/diagnostics.cpp`. A level is the list of boxes each rank owns. `amrex::makeFineMask` is modelled from its
documentation: one in a coarse cell unless the cell lies in a coarsened box of the next level.
-/

namespace AmrWind.Amr

open Plane (Cell Bx Axis cells irange)

/-- A level: the boxes of each rank (`boxArray(lev)` and `DistributionMap(lev)`) and the ratio to the next level
(`refRatio(lev)`); for the finest level the ratio to a reference mesh, one unless a finer reference is wanted. -/
structure Lev where
  boxes : ℕ → List Bx
  ratio : Axis → ℕ

/-- All boxes of a level. -/
def Lev.all (nproc : ℕ) (L : Lev) : List Bx := (List.range nproc).flatMap L.boxes

/-- `amrex::coarsen` of an index: rounding down. -/
def coarsen (r : Axis → ℕ) (c : Cell) : Cell := (c.1 / r .x, c.2.1 / r .y, c.2.2 / r .z)

/-- `amrex::coarsen` of a box. -/
def coarsenBox (r : Axis → ℕ) (b : Bx) : Bx := ⟨coarsen r b.lo, coarsen r b.hi⟩

/-- `Box::contains`. -/
def contains (b : Bx) (c : Cell) : Bool :=
  decide (b.lo.1 ≤ c.1) && decide (c.1 ≤ b.hi.1) && decide (b.lo.2.1 ≤ c.2.1) && decide (c.2.1 ≤ b.hi.2.1) &&
    decide (b.lo.2.2 ≤ c.2.2) && decide (c.2.2 ≤ b.hi.2.2)

/-- `makeFineMask(boxArray(lev), …, boxArray(lev + 1), refRatio(lev), 1, 0)` (e.g. MultiPhase.cpp:216-218). -/
def fineMask (nproc : ℕ) (L next : Lev) (c : Cell) : ℤ :=
  if (next.all nproc).any fun b => contains (coarsenBox L.ratio b) c then 0 else 1

/-- The mask of the first of a list of levels: a fine mask, or all ones on the finest level (e.g.
MultiPhase.cpp:214-224). -/
def levelMask (nproc : ℕ) (L : Lev) : List Lev → Cell → ℤ
  | [], _ => 1
  | next :: _, c => fineMask nproc L next c

section sums
variable {K : Type*} [AddCommMonoid K]

/-- The loop over levels on rank `p` from level `lev` on: `ReduceSum` over the boxes of the rank; `term lev c m` is the
addend of a cell with mask value `m`. -/
def rankSum (nproc p : ℕ) (term : ℕ → Cell → ℤ → K) : ℕ → List Lev → K
  | _, [] => 0
  | lev, L :: rest =>
    ((L.boxes p).map fun b => ((cells b).map fun c => term lev c (levelMask nproc L rest c)).sum).sum +
      rankSum nproc p term (lev + 1) rest

/-- `ParallelDescriptor::ReduceRealSum` of the sums of the ranks. -/
def total (nproc : ℕ) (term : ℕ → Cell → ℤ → K) (levels : List Lev) : K :=
  ((List.range nproc).map fun p => rankSum nproc p term 0 levels).sum

end sums

section integrals
variable {K : Type*} [Field K]

/-- `cell_vol` (e.g. MultiPhase.cpp:227-229); `dx lev d` is `Geom(lev).CellSize()[d]`. -/
def cellVol (dx : ℕ → Axis → K) (lev : ℕ) : K := dx lev .x * dx lev .y * dx lev .z

/-- MultiPhase.cpp:204-247 `volume_fraction_sum`. -/
def volumeFractionSum (nproc : ℕ) (dx : ℕ → Axis → K) (vof : ℕ → Cell → K) (levels : List Lev) : K :=
  total nproc (fun lev c m => vof lev c * (m : K) * cellVol dx lev) levels

/-- MultiPhase.cpp:249-295 `momentum_sum`. -/
def momentumSum (nproc : ℕ) (dx : ℕ → Axis → K) (vel : ℕ → Cell → ℕ → K) (dens : ℕ → Cell → K) (n : ℕ)
    (levels : List Lev) : K :=
  total nproc (fun lev c m => vel lev c n * dens lev c * (m : K) * cellVol dx lev) levels

/-- KineticEnergy.cpp:30-88 `calculate_kinetic_energy`: each rank scales its sum before the sum over ranks. -/
def kineticEnergy (nproc : ℕ) (dx : ℕ → Axis → K) (totalVol : K) (den : ℕ → Cell → K) (vel : ℕ → Cell → ℕ → K)
    (levels : List Lev) : K :=
  ((List.range nproc).map fun p => rankSum nproc p (fun lev c m => cellVol dx lev * (m : K) * den lev c *
    (vel lev c 0 * vel lev c 0 + vel lev c 1 * vel lev c 1 + vel lev c 2 * vel lev c 2)) 0 levels *
      (1 / 2 / totalVol)).sum

/-- Enstrophy.cpp:32-88 `calculate_enstrophy`; the vorticity magnitude is given. -/
def enstrophy (nproc : ℕ) (dx : ℕ → Axis → K) (totalVol : K) (den vort : ℕ → Cell → K) (levels : List Lev) : K :=
  ((List.range nproc).map fun p => rankSum nproc p (fun lev c m => cellVol dx lev * (m : K) * den lev c *
    (vort lev c * vort lev c)) 0 levels * (1 / 2 / totalVol)).sum

/-- WaveEnergy.cpp:51-104 `calculate_kinetic_energy`. -/
def waveKinetic (nproc : ℕ) (dx : ℕ → Axis → K) (vof : ℕ → Cell → K) (vel : ℕ → Cell → ℕ → K) (levels : List Lev) : K :=
  total nproc (fun lev c m => cellVol dx lev * (m : K) * (1 / 2) * vof lev c *
    (vel lev c 0 * vel lev c 0 + vel lev c 1 * vel lev c 1 + vel lev c 2 * vel lev c 2)) levels

variable [LinearOrder K]

/-- WaveEnergy.cpp:149-154: the height assumed for the liquid of a cell: its lower part, or its upper part if the cell
above holds more liquid. -/
def liquidHeight (zlo dz : K) (vof : Cell → K) : Cell → K
  | (i, j, k) =>
    if vof (i, j, k + 1) > vof (i, j, k) then zlo + (((k : K) + 1) + -1 * (1 / 2) * vof (i, j, k)) * dz
    else zlo + ((k : K) + 1 * (1 / 2) * vof (i, j, k)) * dz

/-- WaveEnergy.cpp:106-164 `calculate_potential_energy`; `gz` is the third component of gravity. -/
def wavePotential (nproc : ℕ) (dx : ℕ → Axis → K) (zlo gz : K) (vof : ℕ → Cell → K) (levels : List Lev) : K :=
  total nproc (fun lev c m => cellVol dx lev * (m : K) * vof lev c * (-gz) * liquidHeight zlo (dx lev .z) (vof lev) c) levels

/-- WaveEnergy.cpp:39-46 and 166-175: the reported potential energy; `area` is the horizontal area of the domain,
`wlev` the water level. -/
def reportedPotential (nproc : ℕ) (dx : ℕ → Axis → K) (area zlo gz wlev : K) (vof : ℕ → Cell → K) (levels : List Lev) : K :=
  let depth := wlev - zlo
  wavePotential nproc dx zlo gz vof levels / (area * depth) + -(1 / 2) * gz * depth

end integrals

end AmrWind.Amr
