/-
The numbers that limit the time step, amr-wind/incflo_compute_dt.cpp.
-/
import Verif.SimTime.Model
import Verif.Overset.Model

set_option linter.unusedSectionVars false

namespace AmrWind.Cfl

open Overset (Cell up interfaceBand)

variable {K : Type*} [Field K] [LinearOrder K]

/-- What `compute_dt` reads on one level (incflo_compute_dt.cpp:52-62, 238-245).  A field is a function of the cell: boxes see the same
values, also in the ghost cells that `interface_band` reads (simplification).  `boxes r` are the cells of the boxes of rank `r`. -/
structure Lev (K : Type*) where
  dxinv : Fin 3 → K
  vel : Cell → Fin 3 → K
  force : Cell → Fin 3 → K
  mu : Cell → K
  rho : Cell → K
  /-- the factors of the mesh mapping; read only if there is one -/
  fac : Cell → Fin 3 → K
  mask : Cell → ℤ
  vof : Cell → K
  /-- velocity at the low face of the cell in each direction: `u_mac`, `v_mac`, `w_mac` -/
  mac : Fin 3 → Cell → K
  boxes : ℕ → List (List Cell)

/-- incflo_compute_dt.cpp:37, 42, 93, 172: the choices; `tol` is `constants::TIGHT_TOL`, `lowest` the value from which a reduction by
maximum starts. -/
structure Opt (K : Type*) where
  explicit : Bool
  useForce : Bool
  mapping : Bool
  hasVof : Bool
  tol : K
  lowest : K

/-- incflo_compute_dt.cpp:76-81: the factor of the mesh mapping, 1 without one. -/
def facAt (o : Opt K) (L : Lev K) (c : Cell) (d : Fin 3) : K := if o.mapping then L.fac c d else 1

/-- incflo_compute_dt.cpp:86-90 `amrex::max` of four values. -/
def max4 (a b c d : K) : K := max (max (max a b) c) d

/-- incflo_compute_dt.cpp:83-90: convection in one cell. -/
def convCell (o : Opt K) (L : Lev K) (c : Cell) : K :=
  let m : K := L.mask c
  max4 (m * |L.vel c 0| * L.dxinv 0 / facAt o L c 0) (m * |L.vel c 1| * L.dxinv 1 / facAt o L c 1)
    (m * |L.vel c 2| * L.dxinv 2 / facAt o L c 2) (-1)

/-- incflo_compute_dt.cpp:101-135: convection near the interface. -/
def mphaseCell (o : Opt K) (L : Lev K) (c : Cell) : K :=
  if interfaceBand L.vof 1 o.tol c then
    (|L.vel c 0| * L.dxinv 0 / facAt o L c 0 + |L.vel c 1| * L.dxinv 1 / facAt o L c 1 + |L.vel c 2| * L.dxinv 2 / facAt o L c 2) *
      (2 * (L.mask c : K))
  else 0

/-- incflo_compute_dt.cpp:158-168: diffusion in one cell. -/
def diffCell (o : Opt K) (L : Lev K) (c : Cell) : K :=
  let dxinv2 := 2 * (L.dxinv 0 / facAt o L c 0 * L.dxinv 0 / facAt o L c 0 + L.dxinv 1 / facAt o L c 1 * L.dxinv 1 / facAt o L c 1 +
    L.dxinv 2 / facAt o L c 2 * L.dxinv 2 / facAt o L c 2)
  max ((L.mask c : K) * L.mu c * dxinv2 / L.rho c) (-1)

/-- incflo_compute_dt.cpp:190-200: forces in one cell. -/
def forceCell (o : Opt K) (L : Lev K) (c : Cell) : K :=
  let m : K := L.mask c
  max4 (m * |L.force c 0| * L.dxinv 0 / facAt o L c 0 / L.rho c) (m * |L.force c 1| * L.dxinv 1 / facAt o L c 1 / L.rho c)
    (m * |L.force c 2| * L.dxinv 2 / facAt o L c 2 / L.rho c) (-1)

/-- incflo_compute_dt.cpp:69-91 `amrex::ParReduce` with `ReduceOpMax`: over the local boxes and the cells of each. -/
def parReduce (lowest : K) (boxes : List (List Cell)) (f : Cell → K) : K :=
  boxes.foldl (fun a b => max a (b.foldl (fun a c => max a (f c)) lowest)) lowest

/-- incflo_compute_dt.cpp:64-138, 204: what one level adds to `conv_cfl` on rank `r`. -/
def convLev (o : Opt K) (r : ℕ) (L : Lev K) : K :=
  let conv := 0 + parReduce o.lowest (L.boxes r) (convCell o L)
  let mphase := if o.hasVof then 0 + parReduce o.lowest (L.boxes r) (mphaseCell o L) else 0
  max conv mphase

/-- incflo_compute_dt.cpp:66, 140-170. -/
def diffLev (o : Opt K) (r : ℕ) (L : Lev K) : K :=
  if o.explicit then 0 + parReduce o.lowest (L.boxes r) (diffCell o L) else 0

/-- incflo_compute_dt.cpp:67, 172-202. -/
def forceLev (o : Opt K) (r : ℕ) (L : Lev K) : K :=
  if o.useForce then 0 + parReduce o.lowest (L.boxes r) (forceCell o L) else 0

/-- incflo_compute_dt.cpp:39-41, 51, 204-207: the loop over the levels. -/
def overLevels (f : Lev K → K) (M : List (Lev K)) : K := M.foldl (fun a L => max a (f L)) 0

/-- incflo_compute_dt.cpp:209-218 `ParallelAllReduce::Max` over ranks `0 … n`. -/
def allReduce (n : ℕ) (x : ℕ → K) : K := ((List.range n).map fun i => x (i + 1)).foldl max (x 0)

/-- incflo_compute_dt.cpp:33-220 `compute_dt`: the three numbers that rank `r` of ranks `0 … n` gives to `set_current_cfl`. -/
def computeDt (o : Opt K) (n r : ℕ) (M : List (Lev K)) : K × K × K :=
  (allReduce n fun q => overLevels (convLev o q) M,
   if o.explicit then allReduce n fun q => overLevels (diffLev o q) M else overLevels (diffLev o r) M,
   if o.useForce then allReduce n fun q => overLevels (forceLev o q) M else overLevels (forceLev o r) M)

/-- incflo_compute_dt.cpp:270-278: the greater of the speeds at the two faces. -/
def faceMax (L : Lev K) (c : Cell) (d : Fin 3) : K := max |L.mac d c| |L.mac d (up d c)|

/-- incflo_compute_dt.cpp:266-279. -/
def preCell (o : Opt K) (L : Lev K) (c : Cell) : K :=
  let m : K := L.mask c
  max4 (faceMax L c 0 * m * L.dxinv 0 / facAt o L c 0) (faceMax L c 1 * m * L.dxinv 1 / facAt o L c 1)
    (faceMax L c 2 * m * L.dxinv 2 / facAt o L c 2) (-1)

/-- incflo_compute_dt.cpp:297-329. -/
def preMphaseCell (o : Opt K) (L : Lev K) (c : Cell) : K :=
  if interfaceBand L.vof 1 o.tol c then
    (L.mask c : K) * (faceMax L c 0 * L.dxinv 0 / facAt o L c 0 + faceMax L c 1 * L.dxinv 1 / facAt o L c 1 +
      faceMax L c 2 * L.dxinv 2 / facAt o L c 2)
  else 0

/-- incflo_compute_dt.cpp:247-334. -/
def preLev (o : Opt K) (r : ℕ) (L : Lev K) : K :=
  let conv := 0 + parReduce o.lowest (L.boxes r) (preCell o L)
  let mphase := if o.hasVof then 0 + parReduce o.lowest (L.boxes r) (preMphaseCell o L) else 0
  max conv mphase

/-- incflo_compute_dt.cpp:223-340 `compute_prescribe_dt`. -/
def prescribeDt (o : Opt K) (n : ℕ) (M : List (Lev K)) : K × K × K :=
  (allReduce n fun q => overLevels (preLev o q) M, 0, 0)

/-- incflo.cpp:296-304: one of the two, and `set_current_cfl` (incflo_compute_dt.cpp:220, 340). -/
def step [FloorRing K] (N : SimTime.Num K) (c : SimTime.Cfg K) (prescribe : Bool) (o : Opt K) (n r : ℕ) (M : List (Lev K))
    (s : SimTime.State K) : Except SimTime.Err (SimTime.State K) :=
  let x := if prescribe then prescribeDt o n M else computeDt o n r M
  SimTime.setCurrentCfl N c s x.1 x.2.1 x.2.2

end AmrWind.Cfl
