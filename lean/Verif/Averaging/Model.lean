import Mathlib.Algebra.Order.Field.Basic
import Mathlib.Algebra.Order.Floor.Ring

/-!
# Model of the time averages: `utilities/averaging/{TimeAveraging,ReAveraging,ReynoldsStress}.cpp`

One cell is modelled; the updates are the same in every cell.  A stored value is `Option K`: `none` stands
for a value that is not finite (NaN or infinity), which every later update keeps not finite because
`NaN * 0` and `inf * 0` are NaN.  Ghost-cell filling (`fillpatch`) is not modelled.
-/

namespace AmrWind.Averaging

variable {K : Type*} [Field K] [LinearOrder K] [IsStrictOrderedRing K] [FloorRing K]

/-- TimeAveraging.H:96-106: the user parameters; `looseTol` is constants.H:21 `LOOSE_TOL`. -/
structure Cfg (K : Type*) where
  start : K
  stop : K
  window : K
  interval : K
  looseTol : K

/-- TimeAveraging.cpp:98-104 `do_phase_avg`. -/
def doPhase (c : Cfg K) (t dt : K) : Prop :=
  c.interval < 0 ∨
    (t - c.start + c.looseTol * dt) / c.interval - (⌊(t - c.start + c.looseTol * dt) / c.interval⌋ : K) <
      dt / c.interval

/-- TimeAveraging.cpp:105-107 `do_avg`. -/
def doAvg (c : Cfg K) (t dt : K) : Prop := (c.start ≤ t ∧ t < c.stop) ∧ doPhase c t dt

instance (c : Cfg K) (t dt : K) : Decidable (doAvg c t dt) := by
  unfold doAvg doPhase; infer_instance

/-- ReAveraging.cpp:43-44 (and ReynoldsStress.cpp:57-58) `filter`. -/
def filterOf (window acc elapsed : K) : K := max (min window elapsed) acc

/-- ReAveraging.cpp:43-46 and 60-64: the update of one stored value (also ReynoldsStress.cpp:57-60 and
91-92).  Not finite if the divisor is zero or the old value is not finite. -/
def reUpdate (window acc elapsed : K) (old : Option K) (f : K) : Option K :=
  let filter := filterOf window acc elapsed
  let factor := max (filter - acc) 0
  match old with
  | none => none
  | some a => if filter = 0 then none else some ((a * factor + f * acc) / filter)

/-- One call of `post_advance_work`: `new_time()`, `delta_t()` and the field value at that moment. -/
structure Call (K : Type*) (F : Type*) where
  t : K
  dt : K
  f : F

/-- The accumulated interval (TimeAveraging.H:109) and what the averages hold. -/
structure St (K : Type*) (V : Type*) where
  acc : K
  val : V

/-- TimeAveraging.cpp:83-117 `post_advance_work`, for the averages `upd`
(arguments: filter window, accumulated interval, elapsed time). -/
def postAdvance {F V : Type*} (c : Cfg K) (upd : K → K → K → V → F → V) (s : St K V) (x : Call K F) : St K V :=
  let acc := s.acc + x.dt
  if doAvg c x.t x.dt then ⟨0, upd c.window acc (x.t - c.start) s.val x.f⟩ else ⟨acc, s.val⟩

/-- A run: the calls in order. -/
def runCalls {F V : Type*} (c : Cfg K) (upd : K → K → K → V → F → V) (s : St K V) (l : List (Call K F)) :
    St K V :=
  l.foldl (postAdvance c upd) s

/-- A run of the program with one `ReAveraging`.  PostProcessing.cpp:47-55 `post_init_actions` (called from
incflo.cpp:124) already calls `post_advance_work` once, before the first step, with the step size `d0` the
time manager has at that moment: the fixed step, or -1 when the step is adaptive (SimTime.cpp:14-16, 56-60).
`v` is the value in the average field then (zero, or what was read from a checkpoint). -/
def runProgram (c : Cfg K) (v : K) (T0 d0 f0 : K) (steps : List (Call K K)) : St K (Option K) :=
  runCalls c reUpdate ⟨0, some v⟩ (⟨T0, d0, f0⟩ :: steps)

/-! ### Which averages exist -/

/-- The two averaging types. -/
inductive AvgType | re | reynolds
  deriving DecidableEq

/-- An averaging object: what it averages; the field it updates has a name built from these two
(ReAveraging.H:34-38, ReynoldsStress.H:37-47), so two objects with equal data update the same field. -/
abbrev Key := String × AvgType

/-- `m_averages` and the keys of `m_registered`, TimeAveraging.H:90-94. -/
structure Registry where
  averages : List Key
  registered : List Key

/-- TimeAveraging.cpp:51-60: create one average read from the input file. -/
def Registry.create (r : Registry) (k : Key) : Registry := ⟨r.averages ++ [k], k :: r.registered⟩

/-- TimeAveraging.cpp:18-62 `pre_init_actions`; each label gives a list of fields and a type.  Aborts
(`none`) on duplicate fields within one label (lines 43-45); the duplicate check of the labels themselves
(25-27) is on names that are not part of the model. -/
def preInit : Registry → List (List String × AvgType) → Option Registry
  | r, [] => some r
  | r, (fs, ty) :: rest =>
    if fs.Nodup then preInit (fs.foldl (fun r f => r.create (f, ty)) r) rest else none

/-- TimeAveraging.cpp:66-81 `add_averaging`: a new average is not entered in `m_registered`. -/
def Registry.addAveraging (r : Registry) (k : Key) : Registry :=
  if k ∈ r.registered then r else ⟨r.averages ++ [k], r.registered⟩

/-- TimeAveraging.cpp:113-115: the loop over `m_averages`, each object updating its own field. -/
def updateAll {V : Type*} (upd : Key → V → V) : List Key → (Key → V) → Key → V
  | [], s => s
  | k :: ks, s => updateAll upd ks (Function.update s k (upd k (s k)))

/-! ### Reynolds stresses -/

/-- ReynoldsStress.cpp:79-82 and 96: the component pairs in the order of the tensor index `mn`. -/
def pairs (ncomp : ℕ) : List (ℕ × ℕ) :=
  (List.range ncomp).flatMap fun n => (List.range' n (ncomp - n)).map fun m => (n, m)

/-- Mean velocity, `<AB>` and Reynolds stress in one cell. -/
structure Turb (K : Type*) where
  mean : ℕ → Option K
  stress : ℕ → Option K
  reStress : ℕ → Option K

/-- Difference of two stored values. -/
def osub (a b : Option K) : Option K := match a, b with | some a, some b => some (a - b) | _, _ => none
/-- Product of two stored values. -/
def omul (a b : Option K) : Option K := match a, b with | some a, some b => some (a * b) | _, _ => none

/-- One step of an averaging group that holds the velocity average and the Reynolds stress.  The stress
object needs the field `velocity_mean_<label>` in its constructor (ReynoldsStress.cpp:15), so its average
was created before and comes first in `m_averages`.  ReAveraging.cpp:57-66 for three components, then
ReynoldsStress.cpp:76-99. -/
def turbUpdate (window acc elapsed : K) (s : Turb K) (u : ℕ → K) : Turb K :=
  let mean := fun n => reUpdate window acc elapsed (s.mean n) (u n)
  let stress := fun mn => match (pairs 3)[mn]? with
    | some (n, m) => reUpdate window acc elapsed (s.stress mn) (u m * u n)
    | none => s.stress mn
  let reStress := fun mn => match (pairs 3)[mn]? with
    | some (n, m) => osub (stress mn) (omul (mean m) (mean n))
    | none => s.reStress mn
  ⟨mean, stress, reStress⟩

end AmrWind.Averaging
