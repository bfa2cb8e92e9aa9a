import Mathlib.Tactic.Ring
import Mathlib.Tactic.LinearCombination
import Mathlib.Tactic.FieldSimp
import Mathlib.Tactic.Linarith
import Mathlib.Tactic.Positivity
import Mathlib.Tactic.NormNum
import Mathlib.Tactic.FinCases
import Mathlib.Algebra.Order.BigOperators.Group.Finset
import Mathlib.Algebra.BigOperators.Fin
import Mathlib.Data.Finset.Max
import Verif.Pde.StepModel

/-!
# C89: one step of a transport equation
-/

set_option linter.unusedSectionVars false

namespace AmrWind.Step

variable {K : Type*} [Field K] [LinearOrder K] [IsStrictOrderedRing K]
variable {ι : Type*} [Fintype ι]

/-- The weight of the new state in the diffusion term that the user's choice stands for. -/
def theta : Diff → K
  | .explicit => 0
  | .cn => 1 / 2
  | .implicit => 1

/-- Densities and determinants are positive. -/
structure Data.Ok (d : Data ι K) : Prop where
  rho : ∀ i, 0 < d.rho i
  detJ : ∀ i, 0 < d.detJ i

/-- C89: the step is the theta scheme of `∂(ρ J f)/∂t = C + J S + ∇·b∇f`: momentum (or scalar per volume) changes by the time step times
advection, source and the weighted mean of old and new diffusion. -/
theorem theta_scheme {L : (ι → K) → ι → K} {k : Diff} {dt : K} {d : Data ι K} (hd : d.Ok) {g : ι → K}
    (h : Predicted L k dt d (diffTerm L d.fO) g) (i : ι) (hm : d.mask i = 1) :
    d.rho i * d.detJ i * g i = d.rhoO i * d.detJ i * d.fO i +
      dt * (d.convO i + d.detJ i * d.src i + ((1 - theta k) * L d.fO i + theta k * L g i)) := by
  have h1 := (hd.rho i).ne'
  have h2 := (hd.detJ i).ne'
  cases k with
  | explicit =>
    simp only [Predicted, if_true] at h
    have := congrFun h i
    rw [this]
    simp only [predictorRhs, Data.cell, diffTerm, factor, theta, hm, if_true]
    field_simp
    ring
  | cn =>
    simp only [Predicted, Solves] at h
    have := h i
    simp only [predictorRhs, Data.cell, diffTerm, factor, theta, hm, if_true, dtDiff, reduceCtorEq, if_false] at this ⊢
    field_simp at this ⊢
    linear_combination this
  | implicit =>
    simp only [Predicted, Solves] at h
    have := h i
    simp only [predictorRhs, Data.cell, diffTerm, factor, theta, hm, if_true, dtDiff, reduceCtorEq, if_false] at this ⊢
    field_simp at this ⊢
    linear_combination this

/-- C89: in the corrector advection is the mean of old and new, diffusion the mean of old and predicted (explicit), of old and new
(Crank-Nicolson) or new. -/
theorem corrector_scheme {L L2 : (ι → K) → ι → K} {k : Diff} {dt : K} {d : Data ι K} (hd : d.Ok) {star g : ι → K}
    (h : Corrected L2 k dt d (diffTerm L d.fO) (diffTerm L2 star) g) (i : ι) (hm : d.mask i = 1) :
    d.rho i * d.detJ i * g i = d.rhoO i * d.detJ i * d.fO i + dt * ((d.convO i + d.conv i) / 2 + d.detJ i * d.src i +
      (match k with
        | .explicit => (L d.fO i + L2 star i) / 2
        | .cn => (L d.fO i + L2 g i) / 2
        | .implicit => L2 g i)) := by
  have h1 := (hd.rho i).ne'
  have h2 := (hd.detJ i).ne'
  cases k with
  | explicit =>
    simp only [Corrected, if_true] at h
    have := congrFun h i
    rw [this]
    simp only [correctorRhs, Data.cell, diffTerm, factors, hm, if_true]
    field_simp
    ring
  | cn =>
    simp only [Corrected, Solves] at h
    have := h i
    simp only [correctorRhs, Data.cell, diffTerm, factors, hm, if_true, dtDiff, reduceCtorEq, if_false] at this ⊢
    field_simp at this ⊢
    linear_combination this
  | implicit =>
    simp only [Corrected, Solves] at h
    have := h i
    simp only [correctorRhs, Data.cell, diffTerm, factors, hm, if_true, dtDiff, reduceCtorEq, if_false] at this ⊢
    field_simp at this ⊢
    linear_combination this

/-- C89: without a map explicit diffusion of the Godunov scheme ends as the mean of old and predicted diffusion.

Partial (C89). Missing: mapped meshes and the scalar operator, where it is false (`explicit_rk2_map_wrong`). -/
theorem explicit_rk2_partial {L : (ι → K) → ι → K} {dt : K} {d : Data ι K} (hd : d.Ok) {star : ι → K}
    (h : Predicted L .explicit dt d (diffTerm L d.fO) star) (i : ι) (hm : d.mask i = 1) (hj : d.detJ i = 1) :
    d.rho i * improved dt d (diffTerm L d.fO) (diffTerm L star) star i = d.rhoO i * d.fO i +
      dt * (d.convO i + d.src i + (L d.fO i + L star i) / 2) := by
  have h1 := (hd.rho i).ne'
  have t := theta_scheme hd h i hm
  rw [hj] at t
  simp only [theta] at t
  unfold improved rk2 diffTerm
  rw [hm]
  simp only [if_true]
  field_simp
  linear_combination 2 * t

/-- C89 fails with a map: the improvement leaves out the determinant, so the diffusion that is added is not the mean of old and predicted
unless the determinant is one. -/
theorem explicit_rk2_map_wrong {L : (ι → K) → ι → K} {dt : K} {d : Data ι K} (hd : d.Ok) {star : ι → K}
    (h : Predicted L .explicit dt d (diffTerm L d.fO) star) (i : ι) (hm : d.mask i = 1) :
    d.rho i * d.detJ i * improved dt d (diffTerm L d.fO) (diffTerm L star) star i = d.rhoO i * d.detJ i * d.fO i +
      dt * (d.convO i + d.detJ i * d.src i + (L d.fO i + d.detJ i * (L star i - L d.fO i) / 2)) := by
  have h1 := (hd.rho i).ne'
  have t := theta_scheme hd h i hm
  simp only [theta] at t
  unfold improved rk2 diffTerm
  rw [hm]
  simp only [if_true]
  field_simp
  linear_combination 2 * t

/-- C89 fails for the scalar operators of the velocity (`use_tensor_operator = false`): the explicit part of the viscous term is
divided by density once too often. -/
theorem scalar_operator_wrong {L : (ι → K) → ι → K} {k : Diff} {dt : K} {d : Data ι K} (hd : d.Ok) {g : ι → K}
    (h : Predicted L k dt d (diffTermScalar L true d.rhoO d.fO) g) (i : ι) (hm : d.mask i = 1) (ho : 0 < d.rhoO i) :
    d.rho i * d.detJ i * g i = d.rhoO i * d.detJ i * d.fO i +
      dt * (d.convO i + d.detJ i * d.src i + ((1 - theta k) * (L d.fO i / d.rhoO i) + theta k * L g i)) := by
  have h1 := (hd.rho i).ne'
  have h2 := (hd.detJ i).ne'
  have h3 := ho.ne'
  cases k with
  | explicit =>
    simp only [Predicted, if_true] at h
    have := congrFun h i
    rw [this]
    simp only [predictorRhs, Data.cell, diffTermScalar, factor, theta, hm, if_true]
    field_simp
    ring
  | cn =>
    simp only [Predicted, Solves] at h
    have := h i
    simp only [predictorRhs, Data.cell, diffTermScalar, factor, theta, hm, if_true, dtDiff, reduceCtorEq, if_false] at this ⊢
    field_simp at this ⊢
    linear_combination this
  | implicit =>
    simp only [Predicted, Solves] at h
    have := h i
    simp only [predictorRhs, Data.cell, diffTermScalar, factor, theta, hm, if_true, dtDiff, reduceCtorEq, if_false] at this ⊢
    field_simp at this ⊢
    linear_combination this

/-- C89 fails for the scalar operators also with explicit diffusion of the Godunov scheme: the mean is taken of the old term divided by the
density and of the predicted term that is not. -/
theorem scalar_operator_rk2_wrong {L : (ι → K) → ι → K} {dt : K} {d : Data ι K} (hd : d.Ok) {star : ι → K}
    (h : Predicted L .explicit dt d (diffTermScalar L true d.rhoO d.fO) star) (i : ι) (hm : d.mask i = 1) (hj : d.detJ i = 1) (ho : 0 < d.rhoO i) :
    d.rho i * improved dt d (diffTermScalar L true d.rhoO d.fO) (diffTermScalar L false d.rho star) star i = d.rhoO i * d.fO i +
      dt * (d.convO i + d.src i + (L d.fO i / d.rhoO i + L star i) / 2) := by
  have h1 := (hd.rho i).ne'
  have t := scalar_operator_wrong hd h i hm ho
  rw [hj] at t
  simp only [theta] at t
  unfold improved rk2 diffTermScalar
  rw [hm]
  simp only [if_true, Bool.false_eq_true, if_false]
  field_simp
  field_simp at t
  linear_combination 2 * t

/-- So the two operators, which differ only in the solver for constant viscosity, give different flows in a fluid whose density is not
one: at rest but for a unit viscous force, water accelerates 1000 times too slowly. -/
theorem scalar_operator_water :
    let d : Data Unit ℚ := ⟨fun _ => 1000, fun _ => 1000, fun _ => 1, fun _ => 0, fun _ => 0, fun _ => 0, fun _ => 0, fun _ => 1⟩
    let L : (Unit → ℚ) → Unit → ℚ := fun _ _ => 1
    Predicted L .explicit 1 d (diffTerm L d.fO) (fun _ => 1 / 1000) ∧
    Predicted L .explicit 1 d (diffTermScalar L true d.rhoO d.fO) (fun _ => 1 / 1000000) := by
  refine ⟨?_, ?_⟩
  · simp only [Predicted, if_true, predictorRhs, Data.cell, diffTerm, factor]
    funext i; norm_num
  · simp only [Predicted, if_true, predictorRhs, Data.cell, diffTermScalar, factor]
    funext i; norm_num

/-- C89: cells masked out keep their value when their density does not change and diffusion is explicit. -/
theorem masked_unchanged {L : (ι → K) → ι → K} {dt : K} {d : Data ι K} (hd : d.Ok) {diffO star : ι → K}
    (h : Predicted L .explicit dt d diffO star) (i : ι) (hm : d.mask i = 0) (hr : d.rhoO i = d.rho i) (t : ι → K) :
    star i = d.fO i ∧ improved dt d diffO t star i = d.fO i := by
  have h1 := (hd.rho i).ne'
  have h2 := (hd.detJ i).ne'
  simp only [Predicted, if_true] at h
  have := congrFun h i
  have e : star i = d.fO i := by
    rw [this]
    simp only [predictorRhs, Data.cell, hm, if_true, hr]
    field_simp
    ring
  exact ⟨e, by unfold improved rk2; rw [hm, e]; simp⟩

/-- C89: the total changes only by the sources, if advection and diffusion are differences of fluxes. -/
theorem total_conserved {L : (ι → K) → ι → K} {k : Diff} {dt : K} {d : Data ι K} (hd : d.Ok) {g : ι → K}
    (h : Predicted L k dt d (diffTerm L d.fO) g) (hm : ∀ i, d.mask i = 1) (hc : ∑ i, d.convO i = 0) (hL : ∀ f, ∑ i, L f i = 0) :
    ∑ i, d.rho i * d.detJ i * g i = ∑ i, d.rhoO i * d.detJ i * d.fO i + dt * ∑ i, d.detJ i * d.src i := by
  have e : ∀ i, d.rho i * d.detJ i * g i = d.rhoO i * d.detJ i * d.fO i +
      dt * (d.convO i + d.detJ i * d.src i + ((1 - theta k) * L d.fO i + theta k * L g i)) := fun i => theta_scheme hd h i (hm i)
  rw [Finset.sum_congr rfl (fun i _ => e i), Finset.sum_add_distrib, ← Finset.mul_sum, Finset.sum_add_distrib, Finset.sum_add_distrib,
    Finset.sum_add_distrib, ← Finset.mul_sum, ← Finset.mul_sum, hc, hL, hL]
  ring

theorem lap_sum {w : ι → ι → K} (hw : ∀ i j, w i j = w j i) (f : ι → K) : ∑ i, lap w f i = 0 := by
  have e : ∑ i, lap w f i = -∑ i, lap w f i := by
    conv_lhs => unfold lap; rw [Finset.sum_comm]
    rw [← Finset.sum_neg_distrib]
    refine Finset.sum_congr rfl fun j _ => ?_
    unfold lap
    rw [← Finset.sum_neg_distrib]
    refine Finset.sum_congr rfl fun i _ => ?_
    rw [hw i j]; ring
  linarith

theorem lap_neg {w : ι → ι → K} (hw : ∀ i j, w i j = w j i) (h0 : ∀ i j, 0 ≤ w i j) (f : ι → K) : ∑ i, f i * lap w f i ≤ 0 := by
  have e : 2 * ∑ i, f i * lap w f i = -∑ i, ∑ j, w i j * (f j - f i) ^ 2 := by
    have a : ∑ i, f i * lap w f i = ∑ i, ∑ j, f i * (w i j * (f j - f i)) := by
      refine Finset.sum_congr rfl fun i _ => ?_
      unfold lap; rw [Finset.mul_sum]
    have b : ∑ i, f i * lap w f i = ∑ i, ∑ j, f j * (w i j * (f i - f j)) := by
      rw [a, Finset.sum_comm]
      refine Finset.sum_congr rfl fun i _ => Finset.sum_congr rfl fun j _ => ?_
      rw [hw i j]
    rw [two_mul]
    nth_rw 1 [a]
    rw [b, ← Finset.sum_add_distrib, ← Finset.sum_neg_distrib]
    refine Finset.sum_congr rfl fun i _ => ?_
    rw [← Finset.sum_add_distrib, ← Finset.sum_neg_distrib]
    refine Finset.sum_congr rfl fun j _ => ?_
    ring
  have p : 0 ≤ ∑ i, ∑ j, w i j * (f j - f i) ^ 2 :=
    Finset.sum_nonneg fun i _ => Finset.sum_nonneg fun j _ => mul_nonneg (h0 i j) (sq_nonneg _)
  linarith

theorem lap_sub (w : ι → ι → K) (f g : ι → K) (i : ι) : lap w (fun j => f j - g j) i = lap w f i - lap w g i := by
  unfold lap
  rw [← Finset.sum_sub_distrib]
  exact Finset.sum_congr rfl fun j _ => by ring

/-- C89: the result of a step is determined: two solutions of the linear system are equal. -/
theorem solution_unique {w : ι → ι → K} (hw : ∀ i j, w i j = w j i) (h0 : ∀ i j, 0 ≤ w i j) {rho detJ : ι → K} (hr : ∀ i, 0 < rho i)
    (hj : ∀ i, 0 < detJ i) {dtd : K} (hdt : 0 ≤ dtd) {f g g' : ι → K} (h : Solves (lap w) rho detJ dtd f g)
    (h' : Solves (lap w) rho detJ dtd f g') : g = g' := by
  have e : ∀ i, rho i * detJ i * (g i - g' i) = dtd * lap w (fun j => g j - g' j) i := by
    intro i
    have a := h i
    have b := h' i
    rw [lap_sub]
    linear_combination a - b
  have s : ∑ i, rho i * detJ i * (g i - g' i) ^ 2 = dtd * ∑ i, (g i - g' i) * lap w (fun j => g j - g' j) i := by
    rw [Finset.mul_sum]
    refine Finset.sum_congr rfl fun i _ => ?_
    linear_combination (g i - g' i) * e i
  have n := lap_neg hw h0 (fun j => g j - g' j)
  have z : ∑ i, rho i * detJ i * (g i - g' i) ^ 2 ≤ 0 := by rw [s]; exact mul_nonpos_of_nonneg_of_nonpos hdt n
  have nn : ∀ i ∈ Finset.univ, 0 ≤ rho i * detJ i * (g i - g' i) ^ 2 := fun i _ =>
    mul_nonneg (mul_pos (hr i) (hj i)).le (sq_nonneg _)
  have zz := (Finset.sum_eq_zero_iff_of_nonneg nn).mp (le_antisymm z (Finset.sum_nonneg nn))
  funext i
  have := zz i (Finset.mem_univ i)
  have p := (mul_pos (hr i) (hj i)).ne'
  have q : (g i - g' i) ^ 2 = 0 := (mul_eq_zero.mp this).resolve_left p
  have := pow_eq_zero_iff (two_ne_zero) |>.mp q
  linarith

/-- C89: a uniform scalar stays uniform, for every kind of diffusion: with the advection that the density sees and no source, the value
everywhere the same is the result. -/
theorem uniform_kept {w : ι → ι → K} (hw : ∀ i j, w i j = w j i) (h0 : ∀ i j, 0 ≤ w i j) {k : Diff} {dt : K} (hdt : 0 ≤ dt) {d : Data ι K}
    (hd : d.Ok) (c : K) (hf : ∀ i, d.fO i = c) (hs : ∀ i, d.src i = 0) (hm : ∀ i, d.mask i = 1) {mass : ι → K}
    (hmass : ∀ i, d.rho i * d.detJ i = d.rhoO i * d.detJ i + dt * mass i) (hconv : ∀ i, d.convO i = c * mass i) {g : ι → K}
    (h : Predicted (lap w) k dt d (diffTerm (lap w) d.fO) g) : ∀ i, g i = c := by
  have lz : ∀ i, lap w (fun _ => c) i = 0 := fun i => by unfold lap; simp
  have lf : ∀ i, lap w d.fO i = 0 := by
    intro i
    have : d.fO = fun _ => c := funext hf
    rw [this]; exact lz i
  have rhs : ∀ i, d.rhoO i * d.detJ i * d.fO i + dt * d.convO i = d.rho i * d.detJ i * c := by
    intro i; rw [hmass i, hf i, hconv i]; ring
  intro i
  cases k with
  | explicit =>
    have t := theta_scheme hd h i (hm i)
    simp only [theta, lf i, hs i] at t
    have p := (mul_pos (hd.rho i) (hd.detJ i)).ne'
    have : d.rho i * d.detJ i * g i = d.rho i * d.detJ i * c := by rw [← rhs i, t]; ring
    exact mul_left_cancel₀ p this
  | cn =>
    simp only [Predicted, reduceCtorEq, if_false] at h
    have hc : Solves (lap w) d.rho d.detJ (dtDiff .cn dt) (fun i => predictorRhs true .cn dt (d.cell (diffTerm (lap w) d.fO) (diffTerm (lap w) d.fO) i)) (fun _ => c) := by
      intro j
      have r := rhs j
      have q := (hd.rho j).ne'
      simp only [predictorRhs, Data.cell, diffTerm, lf j, lz j, hs j, hm j, if_true, reduceCtorEq, if_false]
      rw [mul_div_cancel₀ _ q]
      linear_combination (-1 : K) * r
    exact congrFun (solution_unique hw h0 hd.rho hd.detJ (by simp only [dtDiff]; linarith) h hc) i
  | implicit =>
    simp only [Predicted, reduceCtorEq, if_false] at h
    have hc : Solves (lap w) d.rho d.detJ (dtDiff .implicit dt) (fun i => predictorRhs true .implicit dt (d.cell (diffTerm (lap w) d.fO) (diffTerm (lap w) d.fO) i)) (fun _ => c) := by
      intro j
      have r := rhs j
      have q := (hd.rho j).ne'
      simp only [predictorRhs, Data.cell, diffTerm, lf j, lz j, hs j, hm j, if_true, reduceCtorEq, if_false]
      rw [mul_div_cancel₀ _ q]
      linear_combination (-1 : K) * r
    exact congrFun (solution_unique hw h0 hd.rho hd.detJ (by simpa only [dtDiff] using hdt) h hc) i

/-- C89: with implicit or Crank-Nicolson diffusion, diffusion alone never raises the energy, for every time step. -/
theorem diffusion_stable {w : ι → ι → K} (hw : ∀ i j, w i j = w j i) (h0 : ∀ i j, 0 ≤ w i j) {k : Diff} (hk : k ≠ .explicit) {dt : K}
    (hdt : 0 ≤ dt) {d : Data ι K} (hd : d.Ok) (hr : ∀ i, d.rhoO i = d.rho i) (hs : ∀ i, d.src i = 0) (hc : ∀ i, d.convO i = 0)
    (hm : ∀ i, d.mask i = 1) {g : ι → K} (h : Predicted (lap w) k dt d (diffTerm (lap w) d.fO) g) :
    ∑ i, d.rho i * d.detJ i * g i ^ 2 ≤ ∑ i, d.rho i * d.detJ i * d.fO i ^ 2 := by
  have t : ∀ i, d.rho i * d.detJ i * (g i - d.fO i) = dt * ((1 - theta k) * lap w d.fO i + theta k * lap w g i) := by
    intro i
    have := theta_scheme hd h i (hm i)
    rw [hr i, hs i, hc i] at this
    linear_combination this
  cases k with
  | explicit => exact absurd rfl hk
  | cn =>
    have e : ∀ i, d.rho i * d.detJ i * (g i ^ 2 - d.fO i ^ 2) = dt / 2 * ((g i - -d.fO i) * lap w (fun j => g j - -d.fO j) i) := by
      intro i
      have a := t i
      have b : lap w (fun j => g j - -d.fO j) i = lap w g i + lap w d.fO i := by
        unfold lap; rw [← Finset.sum_add_distrib]; exact Finset.sum_congr rfl fun j _ => by ring
      simp only [theta] at a
      rw [b]
      linear_combination (g i + d.fO i) * a
    have s : ∑ i, d.rho i * d.detJ i * g i ^ 2 - ∑ i, d.rho i * d.detJ i * d.fO i ^ 2 =
        dt / 2 * ∑ i, (g i - -d.fO i) * lap w (fun j => g j - -d.fO j) i := by
      rw [← Finset.sum_sub_distrib, Finset.mul_sum]
      refine Finset.sum_congr rfl fun i _ => ?_
      rw [← e i]; ring
    have n := lap_neg hw h0 (fun j => g j - -d.fO j)
    have : dt / 2 * ∑ i, (g i - -d.fO i) * lap w (fun j => g j - -d.fO j) i ≤ 0 := mul_nonpos_of_nonneg_of_nonpos (by linarith) n
    linarith
  | implicit =>
    have e : ∀ i, d.rho i * d.detJ i * (g i ^ 2 - d.fO i ^ 2) ≤ 2 * dt * (g i * lap w g i) := by
      intro i
      have a := t i
      simp only [theta] at a
      have p := mul_nonneg (mul_pos (hd.rho i) (hd.detJ i)).le (sq_nonneg (g i - d.fO i))
      have : d.rho i * d.detJ i * (g i ^ 2 - d.fO i ^ 2) = 2 * dt * (g i * lap w g i) - d.rho i * d.detJ i * (g i - d.fO i) ^ 2 := by
        linear_combination 2 * g i * a
      linarith
    have s : ∑ i, d.rho i * d.detJ i * g i ^ 2 - ∑ i, d.rho i * d.detJ i * d.fO i ^ 2 ≤ 2 * dt * ∑ i, g i * lap w g i := by
      rw [← Finset.sum_sub_distrib, Finset.mul_sum]
      refine Finset.sum_le_sum fun i _ => ?_
      have := e i
      calc _ = d.rho i * d.detJ i * (g i ^ 2 - d.fO i ^ 2) := by ring
        _ ≤ _ := this
    have n := lap_neg hw h0 g
    have : 2 * dt * ∑ i, g i * lap w g i ≤ 0 := mul_nonpos_of_nonneg_of_nonpos (by linarith) n
    linarith

/-- C89: implicit diffusion makes no new extremes, for every time step. -/
theorem implicit_bounded [Nonempty ι] {w : ι → ι → K} (h0 : ∀ i j, 0 ≤ w i j) {dt : K} (hdt : 0 ≤ dt) {d : Data ι K} (hd : d.Ok)
    (hr : ∀ i, d.rhoO i = d.rho i) (hs : ∀ i, d.src i = 0) (hc : ∀ i, d.convO i = 0) (hm : ∀ i, d.mask i = 1) {g : ι → K}
    (h : Predicted (lap w) .implicit dt d (diffTerm (lap w) d.fO) g) {a b : K} (hab : ∀ i, a ≤ d.fO i ∧ d.fO i ≤ b) (i : ι) :
    a ≤ g i ∧ g i ≤ b := by
  have t : ∀ i, d.rho i * d.detJ i * (g i - d.fO i) = dt * lap w g i := by
    intro i
    have := theta_scheme hd h i (hm i)
    rw [hr i, hs i, hc i] at this
    simp only [theta] at this
    linear_combination this
  obtain ⟨m, _, hmin'⟩ := Finset.exists_min_image Finset.univ g Finset.univ_nonempty
  obtain ⟨M, _, hmax'⟩ := Finset.exists_max_image Finset.univ g Finset.univ_nonempty
  have hmin : ∀ j, g m ≤ g j := fun j => hmin' j (Finset.mem_univ j)
  have hmax : ∀ j, g j ≤ g M := fun j => hmax' j (Finset.mem_univ j)
  have lm : 0 ≤ lap w g m := Finset.sum_nonneg fun j _ => mul_nonneg (h0 m j) (sub_nonneg.mpr (hmin j))
  have lM : lap w g M ≤ 0 := Finset.sum_nonpos fun j _ => mul_nonpos_of_nonneg_of_nonpos (h0 M j) (sub_nonpos.mpr (hmax j))
  have p1 := mul_pos (hd.rho m) (hd.detJ m)
  have p2 := mul_pos (hd.rho M) (hd.detJ M)
  have q1 : 0 ≤ d.rho m * d.detJ m * (g m - d.fO m) := by rw [t m]; exact mul_nonneg hdt lm
  have q2 : d.rho M * d.detJ M * (g M - d.fO M) ≤ 0 := by rw [t M]; exact mul_nonpos_of_nonneg_of_nonpos hdt lM
  have r1 : 0 ≤ g m - d.fO m := nonneg_of_mul_nonneg_right q1 p1
  have r2 : g M - d.fO M ≤ 0 := by
    by_contra hn
    exact absurd (mul_pos p2 (not_le.mp hn)) (not_lt.mpr q2)
  exact ⟨le_trans (by have := (hab m).1; linarith) (hmin i), le_trans (hmax i) (by have := (hab M).2; linarith)⟩

/-- Three cells in a row. -/
def three (i j : Fin 3) : ℚ := if (i = 0 ∧ j = 1) ∨ (i = 1 ∧ j = 0) ∨ (i = 1 ∧ j = 2) ∨ (i = 2 ∧ j = 1) then 1 else 0

def quiet (f : Fin 3 → ℚ) : Data (Fin 3) ℚ := ⟨fun _ => 1, fun _ => 1, fun _ => 1, f, fun _ => 0, fun _ => 0, fun _ => 0, fun _ => 1⟩

/-- C89 fails for Crank-Nicolson, the default: with a large time step a positive scalar becomes negative. -/
theorem crank_nicolson_undershoots :
    Predicted (lap three) .cn 4 (quiet ![0, 1, 0]) (diffTerm (lap three) (quiet ![0, 1, 0]).fO) ![4 / 7, -1 / 7, 4 / 7] := by
  simp only [Predicted, reduceCtorEq, if_false, Solves]
  intro i
  fin_cases i <;>
    simp [predictorRhs, Data.cell, diffTerm, quiet, lap, three, Fin.sum_univ_three, dtDiff, factor] <;> norm_num

/-- C89: explicit diffusion is not stable for every time step: energy grows ninefold here. -/
theorem explicit_unstable :
    Predicted (lap three) .explicit 4 (quiet ![0, 1, 0]) (diffTerm (lap three) (quiet ![0, 1, 0]).fO) ![4, -7, 4] := by
  simp only [Predicted, if_true]
  funext i
  fin_cases i <;>
    simp [predictorRhs, Data.cell, diffTerm, quiet, lap, three, Fin.sum_univ_three, factor] <;> norm_num

/-- The hypotheses of the theorems are met by these cells, and by an implicit step of them. -/
example : (∀ i j, three i j = three j i) ∧ (∀ i j, 0 ≤ three i j) ∧ (quiet ![0, 1, 0]).Ok ∧
    Predicted (lap three) .implicit 1 (quiet ![0, 1, 0]) (diffTerm (lap three) (quiet ![0, 1, 0]).fO) ![1 / 4, 1 / 2, 1 / 4] := by
  refine ⟨by decide +kernel, by decide +kernel, ⟨fun i => by simp [quiet], fun i => by simp [quiet]⟩, ?_⟩
  simp only [Predicted, reduceCtorEq, if_false, Solves]
  intro i
  fin_cases i <;>
    simp [predictorRhs, Data.cell, diffTerm, quiet, lap, three, Fin.sum_univ_three, dtDiff, factor] <;> norm_num

/-- C89 (order in time): sources that depend on the velocity are evaluated with the old velocity in the predictor and the predicted one in
the corrector, with full weight each time; for a decay at rate `r` a step of the corrected scheme multiplies by `1 - z + z²`, not by
`1 - z + z²/2` as a scheme of second order does. -/
theorem mol_source_first_order (r dt u : K) :
    let star := predictorRhs true .explicit dt (⟨1, 1, 1, u, 0, 0, -(r * u), 0, 0, 1⟩ : Cel K)
    correctorRhs true .explicit dt (⟨1, 1, 1, u, 0, 0, -(r * star), 0, 0, 1⟩ : Cel K) = (1 - r * dt + (r * dt) ^ 2) * u := by
  simp only [predictorRhs, correctorRhs, if_true, factor, factors]
  ring

/-! ## Boundaries and coefficients -/

/-- C89: no flow through walls, symmetry planes or inflows in the viscous solve: the normal velocity is given there, and free only at
outflows. -/
theorem normal_velocity_given (b : Bc) (dir : Fin 3) : ∀ t, tensorBc false b dir dir = some t →
    (t = .dirichlet ∧ b ≠ .pressureOutflow ∧ b ≠ .zeroGradient) ∨ (t = .neumann ∧ (b = .pressureOutflow ∨ b = .zeroGradient)) := by
  intro t ht
  cases b <;> simp [tensorBc] at ht <;> subst ht <;> simp

/-- C89: the tangential velocity is free of stress at slip and symmetry walls, has given stress with a wall model, given value at
inflows and no-slip walls. -/
theorem tangential_velocity (dir comp : Fin 3) (h : comp ≠ dir) :
    tensorBc false .slip comp dir = some .neumann ∧ tensorBc false .symmetric comp dir = some .neumann ∧
    tensorBc false .wallModel comp dir = some .inhomogNeumann ∧ tensorBc false .noSlip comp dir = some .dirichlet ∧
    tensorBc false .massInflow comp dir = some .dirichlet := by
  simp [tensorBc, h]

/-- C89: which kinds of boundary are refused: fixed gradients for velocity; faces without a kind, or periodic ones in a domain that
is not. -/
theorem refused_kinds (b : Bc) (comp dir : Fin 3) : (tensorBc false b comp dir = none ↔ b = .fixedGradient ∨ b = .periodic ∨ b = .undefined) ∧
    (scalarBc false b = none ↔ b = .periodic ∨ b = .undefined) ∧ tensorBc true b comp dir = some .periodic ∧ scalarBc true b = some .periodic := by
  refine ⟨?_, ?_, rfl, rfl⟩
  · cases b <;> simp [tensorBc] <;> split_ifs <;> simp
  · cases b <;> simp [scalarBc]

/-- C89: a scalar has its given value at inflows and no-slip walls, its given gradient at wall models and fixed gradients, and no gradient at
outflows, slip walls and symmetry planes. -/
theorem scalar_kinds (b : Bc) : (scalarBc false b = some .dirichlet ↔ b = .waveGeneration ∨ b = .massInflow ∨ b = .massInflowOutflow ∨ b = .noSlip) ∧
    (scalarBc false b = some .inhomogNeumann ↔ b = .wallModel ∨ b = .fixedGradient) ∧
    (scalarBc false b = some .neumann ↔ b = .pressureOutflow ∨ b = .zeroGradient ∨ b = .symmetric ∨ b = .slip) := by
  cases b <;> simp [scalarBc]

/-- C89: the viscosity on a face lies between those of its cells; on the boundary of the domain it is that of the cell inside, whatever
the ghost cells hold. -/
theorem face_viscosity {lo hi : ℤ} (hlh : lo ≤ hi) (eta : ℤ → K) (per : Bool) :
    (∀ i, min (eta (i - 1)) (eta i) ≤ faceEta per lo hi eta i ∧ faceEta per lo hi eta i ≤ max (eta (i - 1)) (eta i)) ∧
    (faceEta false lo hi eta lo = eta lo ∧ faceEta false lo hi eta (hi + 1) = eta hi) ∧
    (∀ i, lo < i → i ≤ hi → faceEta per lo hi eta i = (eta (i - 1) + eta i) / 2) := by
  refine ⟨fun i => ?_, ?_, fun i h1 h2 => ?_⟩
  · unfold faceEta
    split_ifs
    · exact ⟨min_le_right _ _, le_max_right _ _⟩
    · exact ⟨min_le_left _ _, le_max_left _ _⟩
    · rcases le_total (eta (i - 1)) (eta i) with h | h
      · rw [min_eq_left h, max_eq_right h]; constructor <;> linarith
      · rw [min_eq_right h, max_eq_left h]; constructor <;> linarith
  · unfold faceEta
    refine ⟨by simp, ?_⟩
    have : (hi + 1 == lo) = false := by
      rw [beq_eq_false_iff_ne]; omega
    simp [this]
  · unfold faceEta
    have a : (i == lo) = false := by rw [beq_eq_false_iff_ne]; omega
    have b : (i == hi + 1) = false := by rw [beq_eq_false_iff_ne]; omega
    simp [a, b]

/-- C89: with a map of constant factors the operator over the determinant is the Laplacian in the stretched coordinates. -/
theorem mapped_laplacian {mu fac detJ dx : K} (hf : fac ≠ 0) (hj : detJ ≠ 0) (hx : dx ≠ 0) (g : ℤ → K) (i : ℤ) :
    row (fun _ => mapEta mu detJ fac) dx g i / detJ = mu * ((g (i + 1) - 2 * g i + g (i - 1)) / (fac * dx) ^ 2) := by
  unfold row mapEta
  field_simp
  ring

end AmrWind.Step
