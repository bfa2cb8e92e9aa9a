import Mathlib.Data.List.Basic
import Mathlib.Data.List.FinRange

/-!
# Model of windows into arrays

`core/Slice.H` and the loops over the actuators of a rank that use it, `wind_energy/actuator/Actuator.cpp`.  An array is a list,
a pointer into it its offset from the first element, and arithmetic on `size_t` is modulo `2^64`.  An access outside of the
array is `none`: the C++ is undefined there.
-/

namespace AmrWind.Win

/-- Values of `size_t`. -/
def word : ℕ := 2 ^ 64

/-- Slice.H:11-35, the two pointers: offset of the first, and the number of elements up to the second. -/
structure Slice where
  first : ℕ
  count : ℕ
  deriving DecidableEq

/-- Slice.H:50-53 `size`. -/
def Slice.size (s : Slice) : ℕ := s.count

/-- Slice.H:70-75, 84-89, 98-104: the slice of an array of `n` elements, `none` where the assertion stops the run.  `debug` says
whether assertions are compiled. -/
def slice (debug : Bool) (n start count : ℕ) : Option Slice :=
  if debug = true ∧ n < (start + count) % word then none else some ⟨start, count⟩

/-- Slice.H:77-82, 91-96, 106-111: the slice up to the end of the array. -/
def rest (debug : Bool) (n start : ℕ) : Option Slice :=
  if debug = true ∧ n ≤ start then none else slice debug n start ((n + word - start) % word)

/-- Slice.H:37-47 `operator[]` read. -/
def get {α : Type*} (v : List α) (s : Slice) (i : ℕ) : Option α := v[(s.first + i) % word]?

/-- Slice.H:37-41 `operator[]` written. -/
def put {α : Type*} (v : List α) (s : Slice) (i : ℕ) (a : α) : Option (List α) :=
  if (s.first + i) % word < v.length then some (v.set ((s.first + i) % word) a) else none

/-- ActuatorModel.H:143-148, `std::copy` into the slice: an actuator writes its points, from number `i` on. -/
def fill {α : Type*} (v : List α) (s : Slice) (i : ℕ) : List α → Option (List α)
  | [] => some v
  | a :: as => (put v s i a).bind fun v' => fill v' s (i + 1) as

/-- Actuator.cpp:234-244: the loop over the actuators of the rank, each with its slice; `ic` is the running offset. -/
def fillAll {α : Type*} (debug : Bool) (v : List α) (ic : ℕ) : List (List α) → Option (List α)
  | [] => some v
  | p :: ps => (slice debug v.length ic p.length).bind fun s => (fill v s 0 p).bind fun v' => fillAll debug v' (ic + p.length) ps

/-- ActuatorModel.H:150-156, `std::copy` out of the slice, from its first to its last element. -/
def readAll {α : Type*} (v : List α) (s : Slice) : Option (List α) := (List.range s.size).mapM (get v s)

/-- Actuator.cpp:257-273: what each actuator of the rank is handed; `nums` are the numbers of points. -/
def readEach {α : Type*} (debug : Bool) (v : List α) (ic : ℕ) : List ℕ → Option (List (List α))
  | [] => some []
  | n :: ns => (slice debug v.length ic n).bind fun s => (readAll v s).bind fun p => (readEach debug v (ic + n) ns).map (p :: ·)

end AmrWind.Win
