import Mathlib.Algebra.Order.Field.Basic
import Mathlib.Tactic.FieldSimp
import Mathlib.Tactic.Ring
import Mathlib.Tactic.Positivity
import Mathlib.Tactic.NormNum
import Mathlib.Algebra.Order.Ring.Rat
import Mathlib.Data.Rat.Defs

/-!
# Mesh-mapping transforms of a vector field: `Field::to_uniform_space`, `Field::to_stretched_space`

`Pt` is any type of (level, box, cell) positions over which `ParallelFor` runs (valid cells and
`num_grow()` ghost cells of all active levels).
-/

set_option linter.unusedSectionVars false

namespace AmrWind.MeshMapping

variable {K : Type*} [Field K] {Pt : Type*}

/-- The parts of `Field` that the transforms use: `m_info->m_ncomp`, `m_mesh_mapped` and the values. -/
structure VField (Pt K : Type*) where
  ncomp : ℕ
  mapped : Bool
  val : Pt → ℕ → K

/-- The scale factors found by `get_mesh_mapping_field`/`get_mesh_mapping_det_j` for the location of
the field (FieldRepo.cpp:168-216); `fac` has AMREX_SPACEDIM = 3 components (MeshMap.cpp:10-19). -/
structure Scaling (Pt K : Type*) where
  fac : Pt → Fin 3 → K
  detJ : Pt → K

/-- Outcomes. `warn` = the field is returned unchanged with a printed warning. -/
inductive Outcome (Pt K : Type*) where
  | done (f : VField Pt K)
  | warn (f : VField Pt K)
  /-- `amrex::Abort("Trying to transform a non-vector field")` -/
  | abort
  /-- a read of component 3 or more of the three-component scale factor -/
  | outOfRange

/-- The loop over cells and components: `field(i,j,k,n) *= w(i,j,k,n)`.  For more than three
components the scale-factor array is read out of range. -/
def scaleBy (f : VField Pt K) (w : Pt → Fin 3 → K) (flag : Bool) : Outcome Pt K :=
  if f.ncomp > 3 then .outOfRange
  else .done { f with
    mapped := flag
    val := fun x n => if h : n < 3 then (if n < f.ncomp then f.val x n * w x ⟨n, h⟩ else f.val x n)
      else f.val x n }

/-- Field.cpp:387-415 `Field::to_uniform_space`. -/
def toUniform (s : Scaling Pt K) (f : VField Pt K) : Outcome Pt K :=
  if f.ncomp < 3 then .abort
  else if f.mapped then .warn f
  else scaleBy f (fun x n => s.detJ x / s.fac x n) true

/-- Field.cpp:417-446 `Field::to_stretched_space`. -/
def toStretched (s : Scaling Pt K) (f : VField Pt K) : Outcome Pt K :=
  if f.ncomp < 3 then .abort
  else if ¬ f.mapped then .warn f
  else scaleBy f (fun x n => s.fac x n / s.detJ x) false

/-- Every scale factor is non-zero (C42 proves this of the channel-flow map). -/
def Scaling.NonZero (s : Scaling Pt K) : Prop := (∀ x n, s.fac x n ≠ 0) ∧ ∀ x, s.detJ x ≠ 0

/-- The scaled three-component field. -/
def scaled (f : VField Pt K) (w : Pt → Fin 3 → K) (b : Bool) : VField Pt K :=
  ⟨3, b, fun x n => if h : n < 3 then f.val x n * w x ⟨n, h⟩ else f.val x n⟩

theorem scaleBy_done {f : VField Pt K} (h : f.ncomp = 3) (w : Pt → Fin 3 → K) (b : Bool) :
    scaleBy f w b = .done (scaled f w b) := by
  unfold scaleBy scaled
  rw [if_neg (by omega)]
  congr 1
  cases f
  simp only at h
  subst h
  congr 1
  funext x n
  split <;> rfl

/-- **C17.**  For a vector field not yet in uniform space, `to_uniform_space` multiplies component `n` by
`detJ/fac_n` and sets the flag; `to_stretched_space` then gives back exactly the original field. -/
theorem uniform_then_stretched {s : Scaling Pt K} (hs : s.NonZero) {f : VField Pt K} (h : f.ncomp = 3)
    (hf : f.mapped = false) :
    ∃ g, toUniform s f = .done g ∧ g.mapped = true ∧
      (∀ x (n : Fin 3), g.val x n = f.val x n * (s.detJ x / s.fac x n)) ∧
      toStretched s g = .done f := by
  refine ⟨scaled f (fun x n => s.detJ x / s.fac x n) true, ?_, ?_, ?_, ?_⟩
  · unfold toUniform; rw [if_neg (by omega), hf, if_neg (by simp), scaleBy_done h]
  · rfl
  · intro x n; simp [scaled]
  · unfold toStretched
    rw [if_neg (by simp [scaled]), if_neg (by simp [scaled]), scaleBy_done rfl]
    unfold scaled
    congr 1
    cases f
    simp only at h hf
    subst h; subst hf
    congr 1
    funext x n
    by_cases hn : n < 3
    · have h1 := hs.1 x ⟨n, hn⟩
      have h2 := hs.2 x
      simp only [hn, dif_pos]
      field_simp
    · simp [hn]

/-- **C17.**  The reverse order. -/
theorem stretched_then_uniform {s : Scaling Pt K} (hs : s.NonZero) {f : VField Pt K} (h : f.ncomp = 3)
    (hf : f.mapped = true) :
    ∃ g, toStretched s f = .done g ∧ g.mapped = false ∧
      (∀ x (n : Fin 3), g.val x n = f.val x n * (s.fac x n / s.detJ x)) ∧
      toUniform s g = .done f := by
  refine ⟨scaled f (fun x n => s.fac x n / s.detJ x) false, ?_, ?_, ?_, ?_⟩
  · unfold toStretched; rw [if_neg (by omega), hf, if_neg (by simp), scaleBy_done h]
  · rfl
  · intro x n; simp [scaled]
  · unfold toUniform
    rw [if_neg (by simp [scaled]), if_neg (by simp [scaled]), scaleBy_done rfl]
    unfold scaled
    congr 1
    cases f
    simp only at h hf
    subst h; subst hf
    congr 1
    funext x n
    by_cases hn : n < 3
    · have h1 := hs.1 x ⟨n, hn⟩
      have h2 := hs.2 x
      simp only [hn, dif_pos]
      field_simp
    · simp [hn]

/-- **C17.**  A repeated call changes nothing and warns. -/
theorem repeated_call_warns (s : Scaling Pt K) (f : VField Pt K) (h : 3 ≤ f.ncomp) :
    (f.mapped = true → toUniform s f = .warn f) ∧ (f.mapped = false → toStretched s f = .warn f) := by
  constructor <;> intro hm
  · unfold toUniform; rw [if_neg (by omega), hm]; simp
  · unfold toStretched; rw [if_neg (by omega), hm]; simp

/-- **C17.**  A field with fewer than three components is refused by both. -/
theorem non_vector_aborts (s : Scaling Pt K) (f : VField Pt K) (h : f.ncomp < 3) :
    toUniform s f = .abort ∧ toStretched s f = .abort := by
  unfold toUniform toStretched; simp [h]

/-- A field with more than three components passes the check of line 389 and then reads the scale factor
out of range: the abort condition should be `!=`. -/
theorem too_many_components_out_of_range (s : Scaling Pt K) (f : VField Pt K) (h : 3 < f.ncomp)
    (hm : f.mapped = false) : toUniform s f = .outOfRange := by
  unfold toUniform scaleBy
  rw [if_neg (by omega), hm]; simp [h]

/-! ## Histories -/

/-- The transform calls. -/
inductive Call | uniform | stretched
  deriving DecidableEq

/-- One call; `none` when the run aborts or reads out of range. -/
def call (s : Scaling Pt K) (f : VField Pt K) : Call → Option (VField Pt K)
  | .uniform => match toUniform s f with | .done g => some g | .warn g => some g | _ => none
  | .stretched => match toStretched s f with | .done g => some g | .warn g => some g | _ => none

/-- A sequence of calls. -/
def calls (s : Scaling Pt K) (f : VField Pt K) : List Call → Option (VField Pt K)
  | [] => some f
  | c :: cs => match call s f c with | some g => calls s g cs | none => none

/-- **C17.**  Any sequence of transform calls, of any length, on a vector field in stretched space
succeeds; the flag tells which space the data are in: if it is false the data are the original ones, if
it is true they are the original ones scaled by `detJ/fac`.  The flag is that of the last call. -/
theorem flag_tracks_space {s : Scaling Pt K} (hs : s.NonZero) {f : VField Pt K} (h : f.ncomp = 3)
    (hf : f.mapped = false) (cs : List Call) :
    ∃ g, calls s f cs = some g ∧ g.ncomp = 3 ∧
      (∀ l c, cs = l ++ [c] → g.mapped = decide (c = .uniform)) ∧
      (g.mapped = false → g = f) ∧
      (g.mapped = true → ∀ x (n : Fin 3), g.val x n = f.val x n * (s.detJ x / s.fac x n)) := by
  obtain ⟨u, hu, hum, huv, hus⟩ := uniform_then_stretched hs h hf
  have hu3 : u.ncomp = 3 := by
    unfold toUniform at hu
    rw [if_neg (by omega), hf, if_neg (by simp), scaleBy_done h] at hu
    injection hu with hu
    rw [← hu]; rfl
  have w1 := (repeated_call_warns s u (by omega)).1 hum
  have w2 := (repeated_call_warns s f (by omega)).2 hf
  -- only two states occur
  have key : ∀ cs : List Call, ∀ b : Bool, calls s (if b then u else f) cs =
      some (if (cs.getLast?.map (fun c => decide (c = Call.uniform))).getD b then u else f) := by
    intro cs
    induction cs with
    | nil => intro b; rfl
    | cons c cs ih =>
      intro b
      have hc : call s (if b then u else f) c = some (if decide (c = Call.uniform) then u else f) := by
        cases b <;> cases c <;> simp [call, hu, hus, w1, w2]
      rw [calls, hc]
      simp only
      rw [ih]
      congr 1
      cases cs with
      | nil => simp
      | cons d ds => rw [List.getLast?_cons_cons]; simp [List.getLast?_eq_some_getLast]
  have k := key cs false
  simp only [Bool.false_eq_true, if_false] at k
  refine ⟨_, k, ?_, ?_, ?_, ?_⟩
  · split <;> assumption
  · intro l c hl
    rw [hl]
    cases c <;> simp [hum, hf]
  · intro hm
    split at hm
    · rw [hum] at hm; simp at hm
    · rename_i hh; rw [if_neg hh]
  · intro hm
    split at hm
    · rename_i hh; rw [if_pos hh]; exact huv
    · rw [hf] at hm; simp at hm

/-! ### The flag and copies between time states -/

/-- Field.cpp:319-329 `Field::copy_state` (and the copies of `advance_states`, 300-317): the values are
copied, the flag of the destination is not touched. -/
def copyValues (dst src : VField Pt K) : VField Pt K := { dst with val := src.val }

/-- The flag of a time state does not follow copies: copying a field that is in uniform space into a state
in stretched space leaves uniform-space data marked as stretched, and `to_uniform_space` would scale them
a second time. -/
theorem copy_loses_flag : ∃ (s : Scaling Unit ℚ) (f o u : VField Unit ℚ), s.NonZero ∧
    f.ncomp = 3 ∧ f.mapped = false ∧ o.mapped = false ∧ o.ncomp = 3 ∧ toUniform s f = .done u ∧
    (copyValues o u).mapped = false ∧ (copyValues o u).val ≠ f.val := by
  refine ⟨⟨fun _ _ => 1, fun _ => 2⟩, ⟨3, false, fun _ _ => 1⟩, ⟨3, false, fun _ _ => 0⟩,
    scaled ⟨3, false, fun _ _ => 1⟩ (fun _ _ => 2 / 1) true, ⟨?_, ?_⟩, rfl, rfl, rfl, rfl, ?_, rfl, ?_⟩
  · intros; simp
  · intros; simp
  · unfold toUniform; simp only [lt_irrefl, if_false, Bool.false_eq_true]
    rw [scaleBy_done rfl]
  · intro hh
    have := congrFun (congrFun hh ()) 0
    simp [copyValues, scaled] at this

/-- Copies between states with equal flags keep the meaning of the flag.

Partial (C17). Missing: copies between fields whose flags differ, which leave the flag wrong. -/
theorem copy_keeps_flag_meaning_partial (s : Scaling Pt K) (dst src f : VField Pt K)
    (hflag : dst.mapped = src.mapped)
    (hsrc : src.mapped = true → ∀ x (n : Fin 3), src.val x n = f.val x n * (s.detJ x / s.fac x n))
    (hsrc' : src.mapped = false → src.val = f.val) :
    ((copyValues dst src).mapped = true →
      ∀ x (n : Fin 3), (copyValues dst src).val x n = f.val x n * (s.detJ x / s.fac x n)) ∧
    ((copyValues dst src).mapped = false → (copyValues dst src).val = f.val) := by
  constructor <;> intro hm <;> simp only [copyValues] at hm ⊢
  · exact hsrc (hflag ▸ hm)
  · exact hsrc' (hflag ▸ hm)

/-- A concrete case: one cell, factors (2, 3, 4), velocity (1, 1, 1). -/
example : ∃ (s : Scaling Unit ℚ) (f : VField Unit ℚ), s.NonZero ∧ f.ncomp = 3 ∧ f.mapped = false ∧
    ∃ g, toUniform s f = .done g ∧ g.val () 0 = 12 ∧ g.val () 2 = 6 := by
  refine ⟨⟨fun _ n => (n.val : ℚ) + 2, fun _ => 24⟩, ⟨3, false, fun _ _ => 1⟩, ⟨?_, ?_⟩, rfl, rfl,
    scaled ⟨3, false, fun _ _ => 1⟩ (fun _ n => 24 / ((n.val : ℚ) + 2)) true, ?_, ?_⟩
  · rintro x ⟨n, hn⟩; have : (n : ℚ) + 2 ≠ 0 := by positivity
    exact this
  · intro x; simp
  · unfold toUniform; simp only [lt_irrefl, if_false, Bool.false_eq_true]; rw [scaleBy_done rfl]
  · constructor <;> norm_num [scaled]

end AmrWind.MeshMapping
