import Mathlib.Analysis.SpecialFunctions.Trigonometric.Basic
import Mathlib.Analysis.SpecialFunctions.Complex.Arg
import Mathlib.Analysis.SpecialFunctions.Pow.Real
/-!
# Runs coupled to a controller: `helics.cpp`, `helics.H`, `wind_energy/actuator/Actuator.cpp` (`communicate_turbine_io`),
and the users of the received values (`ABL.cpp`, `ABLModulatedPowerLaw.cpp`, `disk/uniform_ct_ops.H`, `disk/Joukowsky_ops.H`)

Strings are lists of characters. `atof` and the formatting of numbers are parameters.
-/

set_option linter.unusedSectionVars false

namespace AmrWind.Cosim

/-! ## Messages -/

/-- helics.cpp:30-42, the loop of `tokenize` from the character after a comma on: pieces between commas; the last one is
the rest of the string. -/
def pieces : List Char → List (List Char)
  | [] => [[]]
  | c :: s =>
    if c = ',' then [] :: pieces s
    else match pieces s with
      | [] => [[c]]
      | p :: ps => (c :: p) :: ps

/-- helics.cpp:19-43 `tokenize`, in the order of the string; `none`: `substr` beyond the end of the string throws. -/
def tokens (s : List Char) : Option (List (List Char)) :=
  if s.length < 1 then none
  else match s.idxOf? ',' with
    | none => some [s.drop 1]
    | some e => some (((s.drop 1).take e) :: (if 0 < e then pieces (s.drop (e + 1)) else []))

/-- helics.cpp:19-43: the list returned, numbers pushed to the front. -/
def tokenize {V : Type*} (atof : List Char → V) (s : List Char) : Option (List V) :=
  (tokens s).map fun ts => ts.foldl (fun l t => atof t :: l) []

/-- helics.H:32-46: what the run knows. -/
structure Store (V : Type*) where
  speed : V
  direction : V
  yaw : List V
  power : List V
  windDir : List V

/-- `front` and `pop_front`; `none`: undefined for an empty list. -/
def pop {V : Type*} : List V → Option (V × List V)
  | [] => none
  | a :: l => some (a, l)

/-- helics.cpp:163-166: yaw angles, the last turbine first; `n` turbines. -/
def popYaw {V : Type*} : ℕ → List V → List V → Option (List V × List V)
  | 0, acc, l => some (acc, l)
  | n + 1, acc, l => (pop l).bind fun (a, l') => popYaw n (a :: acc) l'

/-- helics.cpp:151-172: what a message does; `t` is the time of the federation. -/
def receive {V : Type*} (atof : List Char → V) (t : ℚ) (msg : List Char) (s : Store V) : Option (Store V) :=
  if 1 < t then
    (tokenize atof msg).bind fun l =>
    (pop l).bind fun (_, l) =>
    (pop l).bind fun (_, l) =>
    (popYaw s.yaw.length [] l).bind fun (ys, l) =>
    (pop l).bind fun (d, l) =>
    (pop l).bind fun (v, l) =>
    (pop l).map fun (_, _) => { s with yaw := ys, direction := d, speed := v }
  else some s

/-- helics.cpp:219-241: the text of one publication; `fmt` formats a number. -/
def message {V : Type*} (fmt : V → List Char) (time speed dir : V) (power windDir : List V) : List Char :=
  ['['] ++ fmt time ++ [',', ' '] ++ fmt speed ++ [' ', ',', ' '] ++ fmt dir ++
    (power.flatMap fun p => ',' :: fmt p) ++ (windDir.flatMap fun p => ',' :: fmt p) ++ [']']

/-- helics.cpp:216-247: the texts published; the stream is not emptied between publications. -/
def publish (m : List Char) : ℕ → List Char → List (List Char)
  | 0, _ => []
  | n + 1, ss => (ss ++ m) :: publish m n (ss ++ m)

/-- helics.cpp:93-103: the start; `labels` actuators. -/
def start {V : Type*} (v8 v270 v0 : V) (labels : ℕ) : Store V :=
  let n := if 0 < labels then labels else 1
  ⟨v8, v270, List.replicate n v270, List.replicate n v0, List.replicate n v0⟩

/-! ## A run -/

/-- incflo_advance.cpp:21-29 `pre_advance_stage2`: the physics first, then the controller. `use` is what the physics make
of the values (they write powers and wind directions), `used` lists the values the physics saw. -/
def steps {V : Type*} (atof : List Char → V) (use : Store V → Store V) : List (ℚ × List Char) → Store V → Option (List (Store V))
  | [], _ => some []
  | (t, m) :: rest, s =>
    (receive atof t m (use s)).bind fun s' => (steps atof use rest s').map fun l => s :: l

/-! ## Angles -/

/-- trig_ops.H `radians`. -/
noncomputable def rad (x : ℝ) : ℝ := Real.pi * x / 180

/-- trig_ops.H `degrees`. -/
noncomputable def deg (x : ℝ) : ℝ := 180 * x / Real.pi

/-- ABL.cpp:192-203, ABLModulatedPowerLaw.cpp:86-95: the velocity for a speed and a direction. -/
noncomputable def velocity (speed direction : ℝ) : ℝ × ℝ :=
  let a := rad (-direction + 270)
  (speed * Real.cos a, speed * Real.sin a)

/-- uniform_ct_ops.H:41-53, Joukowsky_ops.H:67-77: the normal of a disk for a yaw angle, horizontal part. -/
noncomputable def diskNormal (yaw : ℝ) : ℝ × ℝ :=
  let a := rad (-yaw + 90)
  (Real.cos a, Real.sin a)

/-- helics.cpp:206-210, uniform_ct_ops.H:111-116, Joukowsky_ops.H:332-337: the direction reported for a velocity. -/
noncomputable def reported (u v : ℝ) : ℝ := -deg (Complex.arg ⟨u, v⟩) + 270

/-- uniform_ct_ops.H:103-110: the power reported for a disk; `none`: root of a negative number. -/
noncomputable def diskPower (ct rho uInfSqr diameter : ℝ) : Option ℝ :=
  if 0 ≤ 1 - ct then
    some (1 / 2 * (ct + ct * Real.sqrt (1 - ct)) * (1 / 2) * rho * uInfSqr ^ (3 / 2 : ℝ) * (Real.pi * (1 / 4) * diameter * diameter))
  else none

/-! ## Actuator.cpp:161-191 `communicate_turbine_io` -/

/-- The messages under way: one queue for a rank and a tag (`false` is `ptag`, `true` is `ytag`). -/
abbrev Queues (V : Type*) := ℕ → Bool → List V

/-- What all ranks but the receiving one send, in the order of the actuators: `root a` is the rank that has actuator `a`,
`val r a` are its power and direction on rank `r`. -/
def sentTo {V : Type*} (io : ℕ) (root : ℕ → ℕ) (val : ℕ → ℕ → V × V) (acts : List ℕ) : Queues V := fun r tag =>
  if r = io then []
  else ((acts.filter fun a => root a = r).map fun a => if tag then (val r a).2 else (val r a).1)

/-- A queue gets a value. -/
def enqueue {V : Type*} (q : Queues V) (r : ℕ) (tag : Bool) (v : V) : Queues V := fun r' t' => if r' = r ∧ t' = tag then q r tag ++ [v] else q r' t'

/-- A queue gives a value; `none`: wait for ever. -/
def dequeue {V : Type*} (q : Queues V) (r : ℕ) (tag : Bool) : Option (V × Queues V) :=
  match q r tag with
  | [] => none
  | v :: l => some (v, fun r' t' => if r' = r ∧ t' = tag then l else q r' t')

/-- The program of the receiving rank. `buffered`: whether a send returns before its message is taken; if not, a rank that
sends to itself waits for ever (`none`). -/
def collect {V : Type*} (buffered : Bool) (io : ℕ) (root : ℕ → ℕ) : List ℕ → Queues V → (ℕ → V × V) → Option (ℕ → V × V)
  | [], _, have_ => some have_
  | a :: rest, q, have_ =>
    (if root a = io then
      if buffered then some (enqueue (enqueue q io false (have_ a).1) io true (have_ a).2) else none
    else some q).bind fun q1 =>
    (dequeue q1 (root a) false).bind fun (p, q2) =>
    (dequeue q2 (root a) true).bind fun (y, q3) =>
    collect buffered io root rest q3 fun b => if b = a then (p, y) else have_ b

end AmrWind.Cosim
