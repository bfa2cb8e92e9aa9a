import Mathlib.Data.Nat.Digits.Lemmas
import Mathlib.Data.List.Basic
import Mathlib.Logic.Function.Basic

/-!
# Scripts that make tables from native samples

`tools/amrex_particle.py`, `tools/convert_native_sampling_to_structured_ascii.py`, `tools/convert_native_sample_to_time_series.py`. Not
modelled: the text of headers, variables with integers beyond the three numbers of a particle, directories of other samplings whose label
starts with the given one.
-/

set_option linter.unusedSectionVars false

namespace AmrWind.Sscript

/-! ## Directories -/

/-- Digits in the name of the directory of a step, five or more: `amrex_particle.py:31`, `%05d`. -/
def name (step : ℕ) : List ℕ := List.replicate (5 - (Nat.digits 10 step).length) 0 ++ (Nat.digits 10 step).reverse

/-- `int` of the digits: `convert_native_sample_to_time_series.py:135`. -/
def value (l : List ℕ) : ℕ := Nat.ofDigits 10 l.reverse

/-- `convert_native_sample_to_time_series.py:90-93`: `cur_len += inc_len` for each `inc_len`. -/
def lensFrom (cur : ℕ) : List ℕ → List ℕ
  | [] => []
  | i :: t => (cur + i) :: lensFrom (cur + i) t

/-- `convert_native_sample_to_time_series.py:82-86`: the shortest and the longest name. -/
def minLen : List (List ℕ) → ℕ
  | [] => 0
  | a :: t => t.foldl (fun m b => min m b.length) a.length

def maxLen : List (List ℕ) → ℕ
  | [] => 0
  | a :: t => t.foldl (fun m b => max m b.length) a.length

/-- `convert_native_sample_to_time_series.py:81-97`: the names sorted as text are put in the order of their length; entries that are not
overwritten stay. -/
def reorder (sdirs : List (List ℕ)) : List (List ℕ) :=
  if maxLen sdirs ≠ minLen sdirs then
    let picked := (lensFrom (minLen sdirs) (List.range (maxLen sdirs - minLen sdirs + 1))).flatMap fun c =>
      sdirs.filter fun d => decide (d.length = c)
    picked ++ sdirs.drop picked.length
  else sdirs

/-! ## Particles -/

variable {K : Type*} [Zero K]

/-- A particle of a sampling: its number, its sampler, its number in the sampler, and its columns. -/
structure Part (K : Type*) where
  uid : ℕ
  set : ℕ
  probe : ℕ
  row : ℕ → K

/-- `amrex_particle.py:93-134`: the particles, in any order in the files, go to the place of their number. -/
def load (recs : List (Part K)) : ℕ → Option (Part K) :=
  recs.foldl (fun t r => Function.update t r.uid (some r)) fun _ => none

/-- The particles of the data frame, in order. -/
def frame (n : ℕ) (recs : List (Part K)) : List (Part K) := (List.range n).filterMap (load recs)

/-- `convert_native_sampling_to_structured_ascii.py:125-136`: the rows of one sampler; the array keeps what it had. -/
def fill (ps : List (Part K)) (s : ℕ) (out : ℕ → ℕ → K) : (ℕ → ℕ → K) × ℕ :=
  ps.foldl (fun oc r => if r.set = s then (Function.update oc.1 r.probe r.row, oc.2 + 1) else oc) (out, 0)

/-- `convert_native_sampling_to_structured_ascii.py:121-140`: the tables of the samplers. -/
def tablesFrom (ps : List (Part K)) : List ℕ → (ℕ → ℕ → K) → List (List (ℕ → K))
  | [], _ => []
  | s :: t, out => ((List.range (fill ps s out).2).map (fill ps s out).1) :: tablesFrom ps t (fill ps s out).1

def tables (n : ℕ) (recs : List (Part K)) (samplers : List ℕ) : List (List (ℕ → K)) := tablesFrom (frame n recs) samplers fun _ _ => 0

/-- `convert_native_sample_to_time_series.py:114-121`: the sampler with the label asked for. -/
def samplerIndex {α : Type*} [DecidableEq α] (labels : List α) (label : α) : ℕ :=
  (List.range labels.length).foldl (fun o s => if labels[s]? = some label then s else o) 0

/-- `convert_native_sample_to_time_series.py:145-153`: the row of one step. -/
def seriesRow (ps : List (Part K)) (s i : ℕ) : ℕ → K :=
  ps.foldl (fun o r => if r.set = s ∧ r.probe = i then r.row else o) fun _ => 0

end AmrWind.Sscript
