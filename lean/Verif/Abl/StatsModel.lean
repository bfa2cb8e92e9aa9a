import Verif.Plane.Props
import Verif.Fvm.Props
import Mathlib.Analysis.SpecialFunctions.Pow.Real

/-!
# Model of the statistics of the boundary layer: `wind_energy/ABLStats.cpp`

Modelled: the height of the boundary layer on processors and on accelerators (238-363), the convective velocity scale
(411-416 and 622-624), the selection of output steps (215-235, 365-377), the subgrid stresses (105-152), the residual of
the energy budget (155-213), the variables declared and the row written to the NetCDF file (488-554 and 577-787), and the
heads and rows of the text files (FieldPlaneAveraging.cpp:58-97).  Not modelled: the NetCDF library, the mesoscale columns
(536-540 and 663-683), the scalar columns other than `zi` and `wstar`.
-/

set_option linter.unusedSectionVars false

namespace AmrWind.Stats

open Plane

section height
variable {K : Type*} [Field K] [LinearOrder K]

/-- ABLStats.cpp:335-344 (build for processors): the scan of one column.  `lowest` is the least floating point number,
`a` the vertical gradient of the temperature.  The index stored on line 342 is `i`. -/
def columnCpu (lowest : K) (a : ℤ → ℤ → ℤ → K) (zlo zhi i j : ℤ) : ℤ :=
  ((irange zlo zhi).foldl (fun s k => if a i j k > s.1 then (a i j k, i) else s) (lowest, 0)).2

/-- ABLStats.cpp:305-316 (build for accelerators): thread `t` of 128 visits `t`, `t + 128`, … -/
def threadScan (lowest : K) (v : ℕ → K) (len t : ℕ) : K × ℕ :=
  ((List.range len).filter fun k => k % 128 == t).foldl (fun r k => if v k > r.1 then (v k, k) else r) (lowest, 0)

/-- ABLStats.cpp:317-321 `blockReduceMax` of pairs by the first entry, in the order of the threads (the order decides only
between equal values). -/
def columnGpu (lowest : K) (v : ℕ → K) (len : ℕ) : ℕ :=
  ((List.range 128).foldl (fun r t => if r.1 < (threadScan lowest v len t).1 then threadScan lowest v len t else r)
    (lowest, 0)).2

/-- The columns of a box, `j` outside (ABLStats.cpp:336-337). -/
def columns (b : Bx) : List (ℤ × ℤ) :=
  (irange b.lo.2.1 b.hi.2.1).flatMap fun j => (irange b.lo.1 b.hi.1).map fun i => (i, j)

/-- ABLStats.cpp:263-362: each rank sums over its box, the sums are added and divided by the number of columns of the
domain.  `index` is the index kept for a column. -/
def zi (index : ℤ → ℤ → ℤ) (dn : K) (dom : Bx) (boxes : List Bx) : K :=
  (boxes.map fun b => ((columns b).map fun c => ((index c.1 c.2 : K) + 1 / 2) * dn).sum).sum /
    (((dom.hi.1 - dom.lo.1 + 1) * (dom.hi.2.1 - dom.lo.2.1 + 1) : ℤ) : K)

/-- The height on processors. -/
def ziCpu (lowest dn : K) (a : ℤ → ℤ → ℤ → K) (dom : Bx) (boxes : List Bx) : K :=
  zi (columnCpu lowest a dom.lo.2.2 dom.hi.2.2) dn dom boxes

/-- The height on accelerators; `iv[dir]` starts at 0 (308-309). -/
def ziGpu (lowest dn : K) (a : ℤ → ℤ → ℤ → K) (dom : Bx) (boxes : List Bx) : K :=
  zi (fun i j => columnGpu lowest (fun k => a i j k) (dom.hi.2.2 - dom.lo.2.2 + 1).toNat) dn dom boxes

end height

/-- ABLStats.cpp:411-416, 622-624: `eps` is the machine epsilon; the argument of the cube root is not negative for a
positive height. -/
noncomputable def wstar (eps g Q z theta : ℝ) : ℝ :=
  if Q > eps * 1.0e6 then (g * Q * z / theta) ^ (1 / 3 : ℝ) else 0

/-- What a step does after the averages: nothing, the moments only, or the moments and the output. -/
inductive Work | skip | moments | output
  deriving DecidableEq, Repr

/-- ABLStats.cpp:223-235 with 369: `none` is the remainder by zero. -/
def stepWork (freq tidx : ℤ) : Option Work :=
  if freq = 0 then none
  else if ¬ Int.tmod tidx freq = 0 then some .skip
  else if freq > 0 then some .output else some .moments

section stress
variable {K : Type*} [Field K]

/-- ABLStats.cpp:127-136; `gradVel` components 3·n + d. -/
def sfs (mu : K) (L : Fvm.Grad K) : K × K × K :=
  (-mu * (L.uy + L.vx), -mu * (L.uz + L.wx), -mu * (L.vz + L.wy))

/-- ABLStats.cpp:138-142. -/
def tsfs (alpha : K) (g : K × K × K) : K × K × K := (-alpha * g.1, -alpha * g.2.1, -alpha * g.2.2)

/-- ABLStats.cpp:203-208. -/
def tkeDiffusion (k kold dt conv shear buoy dissip : K) : K := (k - kold) / dt - conv - shear - buoy + dissip

end stress

/-! ## The row of profiles -/

/-- The fields averaged for one row of profiles. -/
structure Fields where
  dom : Bx
  ranks : List (List Bx)
  vel : Cell → ℕ → ℝ
  temp : Cell → ℕ → ℝ
  mueff : Cell → ℕ → ℝ
  sfs : Cell → ℕ → ℝ
  tsfs : Cell → ℕ → ℝ
  buoy : Cell → ℕ → ℝ
  shear : Cell → ℕ → ℝ
  dissip : Cell → ℕ → ℝ
  diff : Cell → ℕ → ℝ

/-- `line_average(comp, l_vec)[k]` of an averaging with `n` components. -/
noncomputable def Fields.avg (s : Fields) (n : ℕ) (f : Cell → ℕ → ℝ) (comp : ℕ) (k : ℤ) : ℝ :=
  lineAverage .z s.dom n f s.ranks (n * k + comp)

/-- `line_moment(comp, l_vec)[k]` of two averagings. -/
noncomputable def Fields.moment2 (s : Fields) (n1 n2 : ℕ) (f1 f2 : Cell → ℕ → ℝ) (comp : ℕ) (k : ℤ) : ℝ :=
  secondMoments .z s.dom n1 n2 f1 f2 (lineAverage .z s.dom n1 f1 s.ranks) (lineAverage .z s.dom n2 f2 s.ranks) s.ranks
    ((n1 * n2 : ℕ) * k + comp)

/-- `line_moment(comp, l_vec)[k]` of the velocity taken three times. -/
noncomputable def Fields.moment3 (s : Fields) (comp : ℕ) (k : ℤ) : ℝ :=
  thirdMoments .z s.dom 3 3 3 s.vel s.vel s.vel (lineAverage .z s.dom 3 s.vel s.ranks)
    (lineAverage .z s.dom 3 s.vel s.ranks) (lineAverage .z s.dom 3 s.vel s.ranks) s.ranks ((3 * 3 * 3 : ℕ) * k + comp)

/-- ABLStats.cpp:642-787: the values written at plane `k`, in the order of the code, without the mesoscale columns; the
field averaged for `tke_buoy` on line 755-759 is the dissipation. -/
noncomputable def row (s : Fields) (budget : Bool) (k : ℤ) : List (String × ℝ) :=
  [("u", s.avg 3 s.vel 0 k), ("v", s.avg 3 s.vel 1 k), ("w", s.avg 3 s.vel 2 k),
   ("hvelmag", hvelmagAverage .z s.dom s.vel s.ranks k),
   ("theta", s.avg 1 s.temp 0 k),
   ("mueff", s.avg 1 s.mueff 0 k),
   ("theta'theta'_r", s.moment2 1 1 s.temp s.temp 0 k)] ++
  (["u'theta'_r", "v'theta'_r", "w'theta'_r"].zip ([0, 1, 2].map fun c => s.moment2 3 1 s.vel s.temp c k)) ++
  (["u'u'_r", "u'v'_r", "u'w'_r", "v'v'_r", "v'w'_r", "w'w'_r"].zip
    ([0, 1, 2, 4, 5, 8].map fun c => s.moment2 3 3 s.vel s.vel c k)) ++
  (["u'u'u'_r", "v'v'v'_r", "w'w'w'_r"].zip ([0, 13, 26].map fun c => s.moment3 c k)) ++
  (["u'v'_sfs", "u'w'_sfs", "v'w'_sfs"].zip ([0, 1, 2].map fun c => s.avg 3 s.sfs c k)) ++
  (["u'theta'_sfs", "v'theta'_sfs", "w'theta'_sfs"].zip ([0, 1, 2].map fun c => s.avg 3 s.tsfs c k)) ++
  (if budget then
    [("tke_buoy", s.avg 1 s.dissip 0 k), ("tke_shear", s.avg 1 s.shear 0 k), ("tke_dissip", s.avg 1 s.dissip 0 k),
     ("tke_diff", s.avg 1 s.diff 0 k)]
  else [])

/-- ABLStats.cpp:524-571: the variables of the group `mean_profiles` over time and height, without the mesoscale ones. -/
def declared (tke budget : Bool) : List String :=
  ["u", "v", "w", "hvelmag", "theta", "mueff", "theta'theta'_r", "u'theta'_r", "v'theta'_r", "w'theta'_r", "u'u'_r",
   "u'v'_r", "u'w'_r", "v'v'_r", "v'w'_r", "w'w'_r", "u'u'u'_r", "v'v'v'_r", "w'w'w'_r", "u'theta'_sfs", "v'theta'_sfs",
   "w'theta'_sfs", "u'v'_sfs", "u'w'_sfs", "v'w'_sfs"] ++
  (if tke then ["k_sgs"] else []) ++
  (if budget then ["tke_buoy", "tke_shear", "tke_dissip", "tke_diff"] else [])

/-! ## Text files of profiles -/

/-- A line of a profile file: the head, or the row of plane `i` at step `n`. -/
inductive Line | head | data (n : ℤ) (i : ℕ)
  deriving DecidableEq, Repr

/-- FieldPlaneAveraging.cpp:73-96: at step 1 the file is replaced and starts with the head, otherwise rows are appended
to what is there. -/
def writeProfile (ncell : ℕ) (file : List Line) (step : ℤ) : List Line :=
  (if step = 1 then [.head] else file) ++ (List.range ncell).map fun i => .data step i

/-- The file after `n` more steps following step `t0`, output every `freq` steps (ABLStats.cpp:215-235). -/
def profileFile (freq : ℤ) (ncell : ℕ) (t0 : ℤ) (file : List Line) : ℕ → List Line
  | 0 => file
  | n + 1 =>
    let f := profileFile freq ncell t0 file n
    if stepWork freq (t0 + (n + 1 : ℕ)) = some .output then writeProfile ncell f (t0 + (n + 1 : ℕ)) else f

end AmrWind.Stats
