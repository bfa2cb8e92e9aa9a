import Mathlib.Algebra.Order.Floor.Ring
import Mathlib.Algebra.BigOperators.Group.List.Basic
import Verif.Plane.Model

/-!
# Model of sampling: `utilities/sampling/LineSampler.cpp`, `PlaneSampler.cpp`, `VolumeSampler.cpp`, `ProbeSampler.cpp`,
`SamplingContainer.H/.cpp`, `Sampling.cpp`, and `utilities/index_operations.H` (`contains`)

A position is a function of the axis. `amrex::Real` is an ordered field with a floor; conversions to `int` are taken to
be in range. A sampler is the list of its points, in the order of their numbers. `none` is an abort.
-/

namespace AmrWind.Sampling

open Plane

/-- `amrex::RealVect`. -/
abbrev Pos (K : Type*) := Axis → K

/-- `amrex::Geometry`: `ProbLo`, `ProbHi`, `CellSize` and `Domain`. -/
structure Geo (K : Type*) where
  plo : Axis → K
  phi : Axis → K
  dx : Axis → K
  dom : Bx

/-- `amrex::Box::contains(IntVect)`. -/
def boxContains (b : Bx) (c : Cell) : Bool :=
  decide (b.lo.1 ≤ c.1) && decide (c.1 ≤ b.hi.1) && decide (b.lo.2.1 ≤ c.2.1) && decide (c.2.1 ≤ b.hi.2.1) &&
    decide (b.lo.2.2 ≤ c.2.2) && decide (c.2.2 ≤ b.hi.2.2)

section
variable {K : Type*} [Field K] [LinearOrder K]

/-- LineSampler.cpp:33-48, VolumeSampler.cpp:44-59, ProbeSampler.cpp:75-82, FreeSurfaceSampler.cpp:354-369: one
coordinate of `check_bounds`. -/
def clampBound (tol lo hi x : K) : K :=
  let y := if x < lo + tol then lo + 10 * tol else x
  if y > hi - tol then hi - 10 * tol else y

/-- LineSampler.cpp:25-55 `check_bounds`, for one end of the line. -/
def clampPos (tol : K) (g : Geo K) (p : Pos K) : Pos K := fun d => clampBound tol (g.plo d) (g.phi d) (p d)

/-- LineSampler.cpp:76-86: the points of the loop of `sampling_locations`. -/
def linePoints (n : ℕ) (start stop : Pos K) : List (Pos K) :=
  (List.range n).map fun i : ℕ => fun d => start d + i * ((stop d - start d) / (max (n - 1) 1 : ℕ))

/-- PlaneSampler.cpp:142-161: the points of the loops of `sampling_locations`, over the planes, then `axis2`, then
`axis1`. -/
def planePoints (n1 n2 : ℕ) (origin axis1 axis2 : Pos K) (offsets : List K) (offvec : Pos K) : List (Pos K) :=
  offsets.flatMap fun o => (List.range n2).flatMap fun j : ℕ => (List.range n1).map fun i : ℕ => fun d =>
    origin d + axis1 d / (max (n1 - 1) 1 : ℕ) * i + axis2 d / (max (n2 - 1) 1 : ℕ) * j + o * offvec d

/-- VolumeSampler.cpp:90-107: the points of the loops of `sampling_locations`. -/
def volumePoints (n : Axis → ℕ) (lo hi : Pos K) : List (Pos K) :=
  (List.range (n .z)).flatMap fun k : ℕ => (List.range (n .y)).flatMap fun j : ℕ =>
    (List.range (n .x)).map fun i : ℕ => fun d =>
      let m : ℕ := match d with | .x => i | .y => j | .z => k
      lo d + (hi d - lo d) / n d * m

/-- ProbeSampler.cpp:49-61 and 72-83: the points of the file, repeated for each offset, then moved inside. -/
def probePoints (tol : K) (g : Geo K) (file : List (Pos K)) (offsets : List K) (offvec : Pos K) : List (Pos K) :=
  offsets.flatMap fun o => file.map fun p => clampPos tol g fun d => p d + o * offvec d

/-- PlaneSampler.cpp:75-82: one coordinate of the origin. -/
def fixOrigin (tol lo hi o : K) : K :=
  let o := if |o - lo| < tol then lo + tol else o
  if |o - hi| < tol then hi - tol else o

/-- PlaneSampler.cpp:86-101: one coordinate of an axis, for the corrected origin `o`. -/
def fixAxis (tol lo hi o a : K) : K :=
  let a := if |o + a - lo| < 2 * tol then lo - o + 2 * tol else a
  if |o + a - hi| < 2 * tol then hi - o - 2 * tol else a

/-- PlaneSampler.cpp:104-121: the corners that are tested (the sampler aborts if one is outside). -/
def planeCorners (origin axis1 axis2 : Pos K) (offsets : List K) (offvec : Pos K) : List (Pos K) :=
  offsets.flatMap fun o => [fun d => origin d + o * offvec d, fun d => origin d + o * offvec d + axis1 d,
    fun d => origin d + o * offvec d + axis2 d]

/-- PlaneSampler.cpp:113: inside the domain. -/
def inDomain (g : Geo K) (p : Pos K) : Bool :=
  [Axis.x, Axis.y, Axis.z].all fun d => !(decide (p d < g.plo d) || decide (p d ≥ g.phi d))

/-- PlaneSampler.cpp:57-123 `check_bounds` and 125-168 `sampling_locations`: the points of an accepted plane are those of
the corrected origin and axes. -/
def planeSampler (tol : K) (g : Geo K) (n1 n2 : ℕ) (origin axis1 axis2 : Pos K) (offsets : List K) (offvec : Pos K) :
    Option (List (Pos K)) :=
  let o : Pos K := fun d => fixOrigin tol (g.plo d) (g.phi d) (origin d)
  let a1 : Pos K := fun d => fixAxis tol (g.plo d) (g.phi d) (o d) (axis1 d)
  let a2 : Pos K := fun d => fixAxis tol (g.plo d) (g.phi d) (o d) (axis2 d)
  if (planeCorners o a1 a2 offsets offvec).all (inDomain g) then some (planePoints n1 n2 o a1 a2 offsets offvec) else none

variable [FloorRing K]

/-- index_operations.H:105-109: the cell of a position (`dxinv` is `1/dx`). -/
def cellOf (g : Geo K) (p : Pos K) : Cell :=
  (⌊(p .x - g.plo .x) * (1 / g.dx .x)⌋, ⌊(p .y - g.plo .y) * (1 / g.dx .y)⌋, ⌊(p .z - g.plo .z) * (1 / g.dx .z)⌋)

/-- index_operations.H:99-111 `contains`. -/
def contains (g : Geo K) (b : Bx) (p : Pos K) : Bool := boxContains b (cellOf g p)

/-- LineSampler.cpp:83-91, PlaneSampler.cpp:146-168, VolumeSampler.cpp:94-109, ProbeSampler.cpp:107-113: the points in a
box with their numbers (`sample_locs.push_back(loc, idx)`). -/
def located (g : Geo K) (b : Bx) (pts : List (Pos K)) : List (Pos K × ℕ) :=
  pts.zipIdx.filter fun p => contains g b p.1

/-! ## The particle container -/

/-- The data of a particle, SamplingContainer.cpp:121-129. -/
structure Particle (K : Type*) where
  pos : Pos K
  uid : ℕ
  sid : ℕ
  nid : ℕ

/-- SamplingContainer.cpp:57-134: the particles of one box. -/
def boxParticles (g : Geo K) (samplers : List (List (Pos K))) (b : Bx) : List (Particle K) :=
  samplers.zipIdx.flatMap fun s => (located g b s.1).map fun p =>
    ⟨p.1, p.2 + ((samplers.take s.2).map List.length).sum, s.2, p.2⟩

/-- SamplingContainer.cpp:34-143 `initialize_particles`; the assertion at the end compares the number of particles with
the number of points. -/
def initParticles (g : Geo K) (samplers : List (List (Pos K))) (boxes : List Bx) : Option (List (Particle K)) :=
  let ps := boxes.flatMap (boxParticles g samplers)
  if (samplers.map List.length).sum = ps.length then some ps else none

/-- SamplingContainer.H:158-185 `sample_field`: trilinear interpolation with the offset of the field's points (0 or 1/2
in each direction, SamplingContainer.H:207-243). -/
def interpolate (g : Geo K) (off : Axis → K) (f : Cell → K) (p : Pos K) : K :=
  let x := (p .x - g.plo .x - off .x * g.dx .x) * (1 / g.dx .x)
  let y := (p .y - g.plo .y - off .y * g.dx .y) * (1 / g.dx .y)
  let z := (p .z - g.plo .z - off .z * g.dx .z) * (1 / g.dx .z)
  let i := ⌊x⌋
  let j := ⌊y⌋
  let k := ⌊z⌋
  let wxh := x - i
  let wyh := y - j
  let wzh := z - k
  let wxl := 1 - wxh
  let wyl := 1 - wyh
  let wzl := 1 - wzh
  wxl * wyl * wzl * f (i, j, k) + wxl * wyl * wzh * f (i, j, k + 1) + wxl * wyh * wzl * f (i, j + 1, k) +
    wxl * wyh * wzh * f (i, j + 1, k + 1) + wxh * wyl * wzl * f (i + 1, j, k) + wxh * wyl * wzh * f (i + 1, j, k + 1) +
    wxh * wyh * wzl * f (i + 1, j + 1, k) + wxh * wyh * wzh * f (i + 1, j + 1, k + 1)

end

section
variable {K : Type*}

/-- SamplingContainer.H:92-113 and 189-248: the columns written for a list of fields (given by name and number of
components), starting at column `scomp`: column, field, component. -/
def fieldColumns : ℕ → List (String × ℕ) → List (ℕ × String × ℕ)
  | _, [] => []
  | scomp, (name, n) :: fs => (List.range n).map (fun ic => (scomp + ic, name, ic)) ++ fieldColumns (scomp + n) fs

/-- Sampling.cpp:197-205: the columns written by `sampling_workflow` for fields, integer fields and derived fields. -/
def columns (fields ints derived : List (String × ℕ)) : List (ℕ × String × ℕ) :=
  fieldColumns 0 fields ++ fieldColumns ((fields.map Prod.snd).sum) ints ++
    fieldColumns ((fields.map Prod.snd).sum + (ints.map Prod.snd).sum) derived

/-- Sampling.cpp:58-103: the components in the order of their names in `m_var_names`. -/
def varNames (fields ints derived : List (String × ℕ)) : List (String × ℕ) :=
  (fields ++ ints ++ derived).flatMap fun f => (List.range f.2).map fun ic => (f.1, ic)

/-- SamplingContainer.cpp:168-189: the writes of one rank; `val fid p` is component `fid` of the particle. -/
def rankWrites (nf N : ℕ) (val : ℕ → Pos K → K) (ps : List (Particle K)) : List (ℕ × K) :=
  (List.range nf).flatMap fun fid => ps.map fun p => (fid * N + p.uid, val fid p.pos)

/-- SamplingContainer.cpp:168-189: the buffer of one rank. -/
def rankBuf [Zero K] (nf N : ℕ) (val : ℕ → Pos K → K) (ps : List (Particle K)) : ℕ → K :=
  (rankWrites nf N val ps).foldl (fun b w => fun k => if k = w.1 then w.2 else b k) fun _ => 0

/-- SamplingContainer.cpp:191-196: the sum over the ranks. -/
def populateBuffer [AddMonoid K] (nf N : ℕ) (val : ℕ → Pos K → K) (ranks : List (List (Particle K))) (k : ℕ) : K :=
  (ranks.map fun ps => rankBuf nf N val ps k).sum

/-- The entries `o, …, o+n-1` of a buffer. -/
def slice (buf : ℕ → K) (o n : ℕ) : List K := (List.range n).map fun i => buf (o + i)

/-- A sampler as `Sampling` sees it: its points, `modify_sample_data` (the identity if `do_data_modification` is false)
and `num_output_points`. -/
structure Sampler (K : Type*) where
  pts : List (Pos K)
  modify : ℕ → List K → List K
  nout : ℕ

/-- Sampling.cpp:308-330: one variable of `create_output_buffer`; `o` is the offset. -/
def outputVar (buf : ℕ → K) (iv : ℕ) : ℕ → List (Sampler K) → List K
  | _, [] => []
  | o, s :: ss => s.modify iv (slice buf o s.pts.length) ++ outputVar buf iv (o + s.pts.length) ss

/-- Sampling.cpp:296-341 `create_output_buffer` (the buffer is empty before, Sampling.cpp:220-224). -/
def outputBuf (nvars N : ℕ) (buf : ℕ → K) (ss : List (Sampler K)) : List K :=
  (List.range nvars).flatMap fun iv => outputVar buf iv (iv * N) ss

/-- Sampling.cpp:570-592: the values written to variable `iv` of sampler number `s`. -/
def netcdfVar (nvars : ℕ) (out : List K) (ss : List (Sampler K)) (iv s : ℕ) : Option (List K) :=
  (ss[s]?).map fun q => (out.drop (iv * (out.length / nvars) + ((ss.take s).map (·.nout)).sum)).take q.nout

/-- Sampling.cpp:236-254: in the NetCDF format the three velocity components must be among the variables. -/
def losVelocity (names : List String) : Option (List ℕ) :=
  ["velocityx", "velocityy", "velocityz"].mapM fun v => if v ∈ names then some (names.idxOf v) else none

end

end AmrWind.Sampling
