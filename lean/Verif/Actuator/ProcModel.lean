import Verif.Tag.Model
import Verif.Sampling.Model
import Mathlib.Data.Finset.Sort

/-!
# Model of the distribution of actuators over ranks and of velocity sampling

`wind_energy/actuator/actuator_utils.cpp`, `actuator_opsI.H`, `Actuator.cpp`, `ActuatorContainer.cpp`.  A particle's data
are its rank of origin, its number on that rank and its position.  `Redistribute` (AMReX) is trusted to put every particle
inside the domain on exactly one rank and to remove the others; otherwise the distribution is arbitrary.  Sums over ranks
(`MPI_Allreduce`) are exact.
-/

set_option linter.unusedSectionVars false

namespace AmrWind.Proc

open AmrWind.Tag (Geom RBox IBox realboxToBox)
open AmrWind.Sampling (Geo Pos interpolate)
open AmrWind.Plane (Cell Axis)

variable {K : Type*} [Field K] [LinearOrder K] [IsStrictOrderedRing K] [FloorRing K]

/-! ## Ranks an actuator acts on -/

/-- A mesh level: its boxes with their owners, and the refinement ratio to the next level. -/
structure Level where
  boxes : List (IBox × ℕ)
  ratio : ℕ

/-- `amrex::Box::refine`. -/
def refine (b : IBox) (r : ℕ) : IBox := ⟨fun d => b.lo d * r, fun d => (b.hi d + 1) * r - 1⟩

/-- Do two boxes share a cell? (`BoxArray::intersections`, `Box::isEmpty`). -/
def meets (a b : IBox) : Prop := ∀ d, max (a.lo d) (b.lo d) ≤ min (a.hi d) (b.hi d)

open Classical in
/-- actuator_utils.cpp:16-32: the loop over the levels from the box `bx`. -/
noncomputable def influencedFrom : List Level → IBox → Finset ℕ
  | [], _ => ∅
  | l :: ls, bx => ((l.boxes.filter fun p => meets p.1 bx).map Prod.snd).toFinset ∪ influencedFrom ls (refine bx l.ratio)

/-- actuator_utils.cpp:8-35 `determine_influenced_procs`. -/
noncomputable def influenced (levels : List Level) (rbx : RBox K) (g0 : Geom K) : Finset ℕ :=
  influencedFrom levels (realboxToBox rbx g0)

/-- actuator_opsI.H:11-28 `determine_influenced_procs` after a regrid: the root stays on the list. -/
noncomputable def influencedRegrid (levels : List Level) (rbx : RBox K) (g0 : Geom K) (root : ℕ) : Finset ℕ :=
  insert root (influenced levels rbx g0)

/-- `std::ranges::min_element`: the index of the first smallest entry. -/
def minIdx (count : List ℕ) : ℕ := count.findIdx fun c => count.all fun d => c ≤ d

/-- actuator_utils.cpp:38-91 `determine_root_proc`: the root of an actuator, the ranks it acts on and the new numbers of
actuators per rank.  `std::set` is traversed in increasing order. -/
def rootProc (procs : Finset ℕ) (count : List ℕ) : ℕ × Finset ℕ × List ℕ :=
  match ((procs.filter fun ip => count.getD ip 0 < 1).sort (· ≤ ·)).head? with
  | some ip => (ip, procs, count.modify ip (· + 1))
  | none => (minIdx count, insert (minIdx count) procs, count.modify (minIdx count) (· + 1))

/-- Actuator.cpp:91-94: the loop over the actuators: root and ranks of each, and the numbers per rank. -/
def assign : List (Finset ℕ) → List ℕ → List (ℕ × Finset ℕ) × List ℕ
  | [], count => ([], count)
  | p :: ps, count =>
    let r := rootProc p count
    let rest := assign ps r.2.2
    ((r.1, r.2.1) :: rest.1, rest.2)

/-! ## Sampling -/

/-- A particle: rank of origin, number there, position (ActuatorContainer.cpp:110-117, 175-184). -/
structure Part (K : Type*) where
  cpu : ℕ
  num : ℕ
  pos : Pos K

/-- ActuatorContainer.cpp:80-127, 162-185, `initialize_particles` (called anew before every
sampling, Actuator.cpp:152) and `update_positions`: the particles of all ranks, with positions, before they are distributed;
`owns r` says whether rank `r` has a box on some level (the particles are put in its first one), `pts` are the points of
each rank. -/
def particles (owns : ℕ → Bool) (pts : List (List (Pos K))) : List (Part K) :=
  pts.zipIdx.flatMap fun r => if owns r.2 then r.1.zipIdx.map fun p => ⟨r.2, p.2, p.1⟩ else []

/-- ActuatorContainer.cpp:68-71: the offset of rank `r` in the buffer. -/
def offset (pts : List (List (Pos K))) (r : ℕ) : ℕ := ((pts.take r).map List.length).sum

/-- The values sampled (ActuatorContainer.cpp:290-365): component `n` at a position on level `lev`, by trilinear
interpolation between cell centres. -/
def sampleAt (geo : ℕ → Geo K) (fld : ℕ → ℕ → Cell → K) (lev : Pos K → ℕ) (n : ℕ) (p : Pos K) : K :=
  interpolate (geo (lev p)) (fun _ => 1 / 2) (fld (lev p) n) p

/-- ActuatorContainer.cpp:242-257: what a rank writes, with `nc` values per particle. -/
def writes (pts : List (List (Pos K))) (nc : ℕ) (val : ℕ → Pos K → K) (ps : List (Part K)) : List (ℕ × K) :=
  ps.flatMap fun p => (List.range nc).map fun n => ((offset pts p.cpu + p.num) * nc + n, val n p.pos)

/-- ActuatorContainer.cpp:234-257: the buffer of a rank, zero where nothing is written. -/
def rankBuffer (pts : List (List (Pos K))) (nc : ℕ) (val : ℕ → Pos K → K) (ps : List (Part K)) : ℕ → K :=
  (writes pts nc val ps).foldl (fun b w => fun k => if k = w.1 then w.2 else b k) fun _ => 0

/-- ActuatorContainer.cpp:262-267: the sum over the ranks. -/
def buffer (pts : List (List (Pos K))) (nc : ℕ) (val : ℕ → Pos K → K) (ranks : List (List (Part K))) (k : ℕ) : K :=
  (ranks.map fun ps => rankBuffer pts nc val ps k).sum

/-- ActuatorContainer.cpp:268-281: component `n` of point `i` on rank `r`. -/
def received (pts : List (List (Pos K))) (nc : ℕ) (val : ℕ → Pos K → K) (ranks : List (List (Part K))) (r i n : ℕ) : K :=
  buffer pts nc val ranks ((offset pts r + i) * nc + n)

/-- Actuator.cpp:234-244, 257-273: the points of the actuators of a rank, one after the other; the slice of actuator `a`
starts at the number of points before it. -/
def rankPoints (acts : List (List (Pos K))) : List (Pos K) := acts.flatten

/-- Actuator.cpp:257-273: the velocity of point `j` of actuator `a` on rank `r`; `acts r` are the actuators there. -/
def actuatorValue (acts : List (List (List (Pos K)))) (nc : ℕ) (val : ℕ → Pos K → K) (ranks : List (List (Part K)))
    (r a j n : ℕ) : K :=
  received (acts.map rankPoints) nc val ranks r ((((acts.getD r []).take a).map List.length).sum + j) n

/-! ## Lookup -/

/-- Actuator.cpp:345-357 `get_act_bylabel`: the number of the actuator returned. -/
def byLabel (labels : List String) (l : String) : ℕ :=
  labels.zipIdx.foldl (fun id p => if p.1 = l then p.2 else id) 0

end AmrWind.Proc
