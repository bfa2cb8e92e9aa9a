import Mathlib.LinearAlgebra.Vandermonde
import Mathlib.LinearAlgebra.Matrix.ToLinearEquiv
import Mathlib.LinearAlgebra.Matrix.NonsingularInverse
import Mathlib.Tactic.FieldSimp
import Mathlib.Tactic.Ring
import Mathlib.Tactic.Linarith
import Mathlib.Tactic.Positivity
import Verif.Interp.Props
import Verif.Src.MesoModel

/-! # Theorems about the mesoscale profile assimilation (property C80) -/

set_option linter.unusedSectionVars false

namespace AmrWind.Meso

open AmrWind Finset

variable {K : Type*} [Field K] [LinearOrder K] [IsStrictOrderedRing K]

/-! ## The inverse -/

theorem detC_eq (m : Mat K) : detC m = m.det := by
  simp only [detC, Matrix.det_succ_row_zero, Fin.sum_univ_succ, Matrix.submatrix_apply, Matrix.det_fin_zero, Fin.sum_univ_zero]
  simp [Fin.succAbove, Fin.lt_def]
  ring

/-- **C80**: a matrix is inverted exactly when its determinant is not zero, and the result is its inverse. -/
theorem invert_spec (m : Mat K) :
    (m.det = 0 → invertMat m = none) ∧ (m.det ≠ 0 → ∃ im, invertMat m = some im ∧ im * m = 1 ∧ m * im = 1) := by
  rw [← detC_eq]
  constructor
  · intro h; exact if_pos h
  · intro h
    refine ⟨_, if_neg h, ?_⟩
    have key : ∀ im : Mat K, im * m = 1 → im * m = 1 ∧ m * im = 1 := fun im e => ⟨e, by rwa [mul_eq_one_comm]⟩
    apply key
    ext r c
    rw [Matrix.mul_apply, Fin.sum_univ_four]
    have h' : (1 / detC m) * detC m = 1 := by field_simp
    generalize 1 / detC m = d at h'
    fin_cases r <;> fin_cases c <;> simp [invEntries] <;> first | (rw [← h']; simp only [detC]; ring) | ring

/-! ## The fit -/

/-- The cubic with coefficients `a` at scaled height `t`. -/
def cubic (a : Fin 4 → K) (t : K) : K := ∑ j : Fin 4, a j * t ^ (j : ℕ)

/-- The weighted sum of squared deviations of a profile from the errors. -/
def misfit {n : ℕ} (W err f : Fin n → K) : K := ∑ h, W h * (err h - f h) ^ 2

/-- The scaled heights that carry weight. -/
def weighted {n : ℕ} (W z : Fin n → K) (s : K) : Finset K := (univ.filter fun h => W h ≠ 0).image fun h => z h * s

theorem gram_mul {n : ℕ} (W z : Fin n → K) (s : K) (a : Fin 4 → K) (i : Fin 4) :
    (gram W z s).mulVec a i = ∑ h, W h * (z h * s) ^ (i : ℕ) * cubic a (z h * s) := by
  simp only [Matrix.mulVec, dotProduct, gram, cubic, sum_mul, mul_sum]
  rw [sum_comm]
  refine sum_congr rfl fun h _ => sum_congr rfl fun j _ => ?_
  rw [pow_add]; ring

theorem gram_form {n : ℕ} (W z : Fin n → K) (s : K) (a b : Fin 4 → K) :
    ∑ i, b i * (gram W z s).mulVec a i = ∑ h, W h * cubic b (z h * s) * cubic a (z h * s) := by
  simp only [gram_mul, mul_sum]
  rw [sum_comm]
  refine sum_congr rfl fun h _ => ?_
  rw [show cubic b (z h * s) = ∑ j : Fin 4, b j * (z h * s) ^ (j : ℕ) from rfl, mul_sum, sum_mul]
  refine sum_congr rfl fun j _ => ?_
  ring

/-- A cubic that vanishes at four different points has no coefficients. -/
theorem cubic_zero {a : Fin 4 → K} {S : Finset K} (hS : 4 ≤ S.card) (h : ∀ t ∈ S, cubic a t = 0) : a = 0 := by
  obtain ⟨T, hT, hc⟩ := exists_subset_card_eq hS
  have e : Fin 4 ≃ T := (T.equivFinOfCardEq hc).symm
  let v : Fin 4 → K := fun i => (e i : K)
  have hv : Function.Injective v := Subtype.val_injective.comp e.injective
  have hd : (Matrix.vandermonde v).det ≠ 0 := Matrix.det_vandermonde_ne_zero_iff.mpr hv
  apply Matrix.eq_zero_of_mulVec_eq_zero hd
  funext i
  have := h (v i) (hT (e i).2)
  simp only [Matrix.mulVec, dotProduct, Matrix.vandermonde_apply, Pi.zero_apply]
  rw [← this]
  exact sum_congr rfl fun j _ => mul_comm _ _

/-- Fewer than four points: a cubic other than zero vanishes at all of them. -/
theorem cubic_through {S : Finset K} (hS : S.card < 4) : ∃ a : Fin 4 → K, a ≠ 0 ∧ ∀ t ∈ S, cubic a t = 0 := by
  classical
  let p : Polynomial K := ∏ x ∈ S, (Polynomial.X - Polynomial.C x)
  have hm : p.Monic := Polynomial.monic_prod_of_monic _ _ fun x _ => Polynomial.monic_X_sub_C x
  have hdeg : p.natDegree = S.card := by
    simp only [p]; rw [Polynomial.natDegree_prod_of_monic _ _ fun x _ => Polynomial.monic_X_sub_C x]; simp
  have hev : ∀ t, cubic (fun j : Fin 4 => p.coeff j) t = p.eval t := by
    intro t
    rw [Polynomial.eval_eq_sum_range' (n := 4) (by omega)]
    unfold cubic
    rw [Fin.sum_univ_eq_sum_range (fun j => p.coeff j * t ^ j) 4]
  refine ⟨fun j => p.coeff j, ?_, fun t ht => ?_⟩
  · intro h0
    have h1 : p.coeff S.card = 1 := by rw [← hdeg]; exact hm
    have h2 := congrFun h0 ⟨S.card, hS⟩
    simp only [Pi.zero_apply] at h2
    rw [h2] at h1
    exact zero_ne_one h1
  · rw [hev, Polynomial.eval_prod]
    exact prod_eq_zero ht (by simp)

/-- **C80**: with non-negative weights the fit is defined exactly when at least four different heights carry weight. -/
theorem fit_defined {n : ℕ} {W : Fin n → K} (hW : ∀ h, 0 ≤ W h) (z : Fin n → K) (s : K) (err : Fin n → K) :
    (indirectTemp W z s err).isSome ↔ 4 ≤ (weighted W z s).card := by
  have hsome : (indirectTemp W z s err).isSome ↔ (gram W z s).det ≠ 0 := by
    unfold indirectTemp
    rw [Option.isSome_map]
    constructor
    · intro h h0
      rw [(invert_spec _).1 h0] at h
      exact absurd h (by simp)
    · intro h
      obtain ⟨im, e, _⟩ := (invert_spec _).2 h
      rw [e]; rfl
  rw [hsome]
  constructor
  · intro h
    by_contra hc
    obtain ⟨a, ha, hv⟩ := cubic_through (not_le.mp hc)
    apply ha
    apply Matrix.eq_zero_of_mulVec_eq_zero h
    funext i
    rw [gram_mul]
    refine sum_eq_zero fun k _ => ?_
    by_cases hk : W k = 0
    · rw [hk]; ring
    · rw [hv _ (mem_image.mpr ⟨k, by simp [hk], rfl⟩)]; ring
  · intro h h0
    obtain ⟨a, ha, hv⟩ := Matrix.exists_mulVec_eq_zero_iff.mpr h0
    apply ha
    apply cubic_zero h
    intro t ht
    obtain ⟨k, hk, rfl⟩ := mem_image.mp ht
    have hq := gram_form W z s a a
    rw [hv] at hq
    simp only [Pi.zero_apply, mul_zero, sum_const_zero] at hq
    have hz : ∀ h ∈ univ, W h * cubic a (z h * s) * cubic a (z h * s) = 0 := by
      rw [← sum_eq_zero_iff_of_nonneg]
      · exact hq.symm
      · intro h _
        have := hW h
        rw [mul_assoc]
        exact mul_nonneg this (mul_self_nonneg _)
    have := hz k (mem_univ _)
    have hk' : W k ≠ 0 := (mem_filter.mp hk).2
    rcases mul_eq_zero.mp this with h1 | h1
    · exact (mul_eq_zero.mp h1).resolve_left hk'
    · exact h1

theorem temp_normal {n : ℕ} {W z err : Fin n → K} {s : K} {f : Fin n → K} (h : indirectTemp W z s err = some f) :
    ∃ a : Fin 4 → K, (∀ k, f k = cubic a (z k * s)) ∧ ∀ i, (gram W z s).mulVec a i = rhsTemp W z s err i := by
  unfold indirectTemp at h
  by_cases hd : (gram W z s).det = 0
  · rw [(invert_spec _).1 hd] at h; exact absurd h (by simp)
  · obtain ⟨im, e, h1, h2⟩ := (invert_spec _).2 hd
    rw [e] at h
    simp only [Option.map_some, Option.some.injEq] at h
    refine ⟨im.mulVec (rhsTemp W z s err), fun k => ?_, fun i => ?_⟩
    · rw [← h]; rfl
    · rw [Matrix.mulVec_mulVec, h2, Matrix.one_mulVec]

/-- **C80**: the indirect temperature correction is the cubic in height that fits the error profile best in the weighted least squares
sense. -/
theorem temp_least_squares {n : ℕ} {W : Fin n → K} (hW : ∀ h, 0 ≤ W h) {z err : Fin n → K} {s : K} {f : Fin n → K}
    (h : indirectTemp W z s err = some f) :
    (∃ a, ∀ k, f k = cubic a (z k * s)) ∧ ∀ b : Fin 4 → K, misfit W err f ≤ misfit W err fun k => cubic b (z k * s) := by
  obtain ⟨a, hf, hn⟩ := temp_normal h
  refine ⟨⟨a, hf⟩, fun b => ?_⟩
  have hlin : ∀ t, cubic a t - cubic b t = cubic (a - b) t := by
    intro t; simp only [cubic, ← sum_sub_distrib, Pi.sub_apply]; exact sum_congr rfl fun j _ => by ring
  have hmid : ∑ k, W k * (err k - f k) * (cubic (a - b) (z k * s)) = 0 := by
    have e1 : ∑ k, W k * err k * cubic (a - b) (z k * s) = ∑ i, (a - b) i * rhsTemp W z s err i := by
      simp only [rhsTemp, mul_sum, cubic]
      rw [sum_comm]
      exact sum_congr rfl fun i _ => sum_congr rfl fun k _ => by ring
    have e2 := gram_form W z s a (a - b)
    simp only [hn] at e2
    have : ∀ k, W k * (err k - f k) * cubic (a - b) (z k * s) =
        W k * err k * cubic (a - b) (z k * s) - W k * cubic (a - b) (z k * s) * cubic a (z k * s) := by
      intro k; rw [hf]; ring
    simp only [this, sum_sub_distrib, e1, e2, sub_self]
  have hexp : misfit W err (fun k => cubic b (z k * s)) = misfit W err f +
      2 * ∑ k, W k * (err k - f k) * (cubic (a - b) (z k * s)) + ∑ k, W k * (cubic (a - b) (z k * s)) ^ 2 := by
    simp only [misfit, mul_sum, ← sum_add_distrib]
    refine sum_congr rfl fun k _ => ?_
    rw [← hlin, hf]; ring
  rw [hexp, hmid]
  have : 0 ≤ ∑ k, W k * (cubic (a - b) (z k * s)) ^ 2 := sum_nonneg fun k _ => mul_nonneg (hW k) (sq_nonneg _)
  linarith

/-- **C80**: an error profile that is a cubic in height is corrected as it is, at every height. -/
theorem temp_cubic {n : ℕ} {W : Fin n → K} {z : Fin n → K} {s : K} (a : Fin 4 → K) {f : Fin n → K}
    (h : indirectTemp W z s (fun k => cubic a (z k * s)) = some f) : ∀ k, f k = cubic a (z k * s) := by
  unfold indirectTemp at h
  by_cases hd : (gram W z s).det = 0
  · rw [(invert_spec _).1 hd] at h; exact absurd h (by simp)
  · obtain ⟨im, e, h1, h2⟩ := (invert_spec _).2 hd
    rw [e] at h
    simp only [Option.map_some, Option.some.injEq] at h
    have hr : rhsTemp W z s (fun k => cubic a (z k * s)) = (gram W z s).mulVec a := by
      funext i
      rw [gram_mul]
      exact sum_congr rfl fun k _ => by ring
    intro k
    have : f k = cubic (im.mulVec (rhsTemp W z s (fun k => cubic a (z k * s)))) (z k * s) := by rw [← h]; rfl
    rw [this, hr, Matrix.mulVec_mulVec, h1, Matrix.one_mulVec]

/-- C80 in part: with the same weight everywhere, and at least four levels, the velocity correction is the same fit. -/
theorem mom_partial {n : ℕ} (hn : 4 ≤ n) (c : K) (z : Fin n → K) (s : K) (err : Fin n → K) :
    indirectMom (fun _ => c) z s err = indirectTemp (fun _ => c) z s err := by
  have hr : ∀ i : Fin 4, rhsMom (fun _ => c) z s err i = some (rhsTemp (fun _ => c) z s err i) := by
    intro i
    unfold rhsMom
    rw [dif_pos (by omega)]; rfl
  unfold indirectMom indirectTemp
  cases invertMat (gram (fun _ => c) z s) with
  | none => rfl
  | some im =>
    simp only [hr, Option.bind_eq_bind, Option.bind_some, Option.map_some]
    congr 2
    funext i
    fin_cases i <;> rfl

/-- Five levels; the topmost one carries no weight. -/
def exW : Fin 5 → ℚ := ![1, 1, 1, 1, 0]
/-- The levels. -/
def exZ : Fin 5 → ℚ := ![0, 1, 2, 3, 4]

/-- A disagreement: the velocity agrees with the mesoscale profile at every level that has a weight, and differs at the level of weight
zero; the least squares correction is zero, the velocity is corrected everywhere. -/
theorem mom_wrong : ∃ err : Fin 5 → ℚ, (∀ h, exW h ≠ 0 → err h = 0) ∧
    indirectTemp exW exZ 1 err = some (fun _ => 0) ∧ ∃ f, indirectMom exW exZ 1 err = some f ∧ f 0 ≠ 0 ∧
      misfit exW err (fun _ => 0) < misfit exW err f := by
  refine ⟨![0, 0, 0, 0, 1], by decide +kernel, ?_, ?_⟩
  · decide +kernel
  · refine ⟨(indirectMom exW exZ 1 ![0, 0, 0, 0, 1]).get (by decide +kernel), by simp, by decide +kernel, by decide +kernel⟩

example : (indirectTemp (fun _ => 1) exZ 1 ![0, 1, 8, 27, 64]) = some ![0, 1, 8, 27, 64] := by decide +kernel

/-! ## Weights and blending -/

/-- **C80**: the weight of a level is 1 up to the transition height, 0 above the transition layer, and never outside [0,1]; inside the
layer (thicker than the smallest spacing of the interpolation) it falls linearly. -/
theorem weight_spec {zmin zmax ht th : K} (h1 : zmin ≤ ht) (h2 : 0 ≤ th) (h3 : ht + th ≤ zmax) (z : K) :
    ∃ w, weightAt zmin zmax ht th z = some w ∧ 0 ≤ w ∧ w ≤ 1 ∧ (z ≤ ht → w = 1) ∧ (ht + th < z → w = 0) ∧
      (Interp.eps < th → ht ≤ z → z ≤ ht + th → w = 1 - (z - ht) / th) := by
  have hs : Interp.Sorted (transHeights zmin zmax ht th) := by
    unfold Interp.Sorted transHeights
    simp only [List.pairwise_cons, List.mem_cons, List.not_mem_nil, or_false, List.Pairwise.nil, and_true]
    refine ⟨?_, ?_, ?_, by simp⟩
    · rintro a (rfl | rfl | rfl) <;> linarith
    · rintro a (rfl | rfl) <;> linarith
    · rintro a rfl; linarith
  have hm : Interp.Matches (transHeights zmin zmax ht th) (transValues : List K) 1 0 := ⟨rfl, by norm_num⟩
  obtain ⟨x0, xn, y0, yn, g0, gn, e0, en, hc⟩ := Interp.linear_cases _ _ hs 1 0 hm (by simp [transHeights]) z
  simp only [transHeights, transValues, List.length_cons, List.length_nil, List.getElem?_cons_zero, Option.some.injEq] at g0 gn e0 en
  subst g0 e0
  have gn' : zmax = xn := by simpa using gn
  have en' : (0 : K) = yn := by simpa using en
  subst gn' en'
  unfold weightAt
  rcases hc with ⟨a, e⟩ | ⟨a, e⟩ | ⟨a, b, r, xl, xr, yl, yr, r1, r2, r3, r4, k1, k2, k3, e⟩
  · refine ⟨1, e, zero_le_one, le_refl _, fun _ => rfl, fun h => by linarith, fun _ h _ => by linarith⟩
  · refine ⟨0, e, le_refl _, zero_le_one, fun h => by linarith, fun _ => rfl, fun _ _ h => by linarith⟩
  · refine ⟨_, e, ?_⟩
    have w0 := Interp.wR_nonneg (xr := xr) k1
    have w1 := Interp.wR_le_one (xl := xl) k2
    match r with
    | 0 =>
      simp [transHeights, transValues] at r1 r2 r3 r4
      subst r1 r2 r3 r4
      have ev : (1 - Interp.wR zmin ht z) * 1 + Interp.wR zmin ht z * 1 = 1 := by ring
      rw [ev]
      refine ⟨zero_le_one, le_refl _, fun _ => rfl, fun h => by linarith, fun _ h _ => ?_⟩
      have : z = ht := le_antisymm k2 h
      rw [this]; simp
    | 1 =>
      simp [transHeights, transValues] at r1 r2 r3 r4
      subst r1 r2 r3 r4
      have hlt := k3 (le_refl _)
      rw [mul_one, mul_zero, add_zero]
      refine ⟨by linarith, by linarith, fun h => by linarith, fun h => by linarith, fun h _ _ => ?_⟩
      unfold Interp.wR
      rw [if_pos (by rwa [add_sub_cancel_left]), add_sub_cancel_left]
    | 2 =>
      simp [transHeights, transValues] at r1 r2 r3 r4
      subst r1 r2 r3 r4
      have hlt := k3 (by norm_num)
      rw [mul_zero, mul_zero, add_zero]
      exact ⟨le_refl _, zero_le_one, fun h => by linarith, fun _ => rfl, fun _ _ h => by linarith⟩
    | r + 3 => simp [transHeights] at r2

example : weightAt (0 : ℚ) 1000 300 200 400 = some (1 / 2) := by decide +kernel

/-- **C80**: a blended profile is the lower one where the weight is 1, the upper one where it is 0, and between the two elsewhere. -/
theorem blend_spec {n : ℕ} {b lower upper : Fin n → K} (k : Fin n) :
    (b k = 1 → blend b lower upper k = lower k) ∧ (b k = 0 → blend b lower upper k = upper k) ∧
    (0 ≤ b k → b k ≤ 1 → min (lower k) (upper k) ≤ blend b lower upper k ∧ blend b lower upper k ≤ max (lower k) (upper k)) := by
  unfold blend
  refine ⟨fun h => by rw [h]; ring, fun h => by rw [h]; ring, fun h0 h1 => ⟨?_, ?_⟩⟩
  · have a := min_le_left (lower k) (upper k)
    have c := min_le_right (lower k) (upper k)
    nlinarith
  · have a := le_max_left (lower k) (upper k)
    have c := le_max_right (lower k) (upper k)
    nlinarith

/-- **C80**: the source divided by the time step and multiplied by it again is the gain times the error, so a plane mean that follows the
source alone closes the fraction `gain` of its distance from the target in each step, whatever the step; the gain is not a time scale. -/
theorem relaxation (gain : K) (target m0 : K) (dt : ℕ → K) (hdt : ∀ i, dt i ≠ 0) (m : ℕ → K) (hm0 : m 0 = m0)
    (hm : ∀ i, m (i + 1) = m i + dt i * gained gain (dt i) (target - m i)) (i : ℕ) :
    target - m i = (1 - gain) ^ i * (target - m0) := by
  induction i with
  | zero => rw [hm0]; ring
  | succ i ih =>
    have e : dt i * gained gain (dt i) (target - m i) = gain * (target - m i) := by
      have := hdt i
      unfold gained; field_simp
    rw [hm, e, pow_succ]
    have : target - (m i + gain * (target - m i)) = (1 - gain) * (target - m i) := by ring
    rw [this, ih]; ring

/-! ## Transition to a constant -/

theorem scan_found {z : ℕ → K} {ht th : K} (b : ℕ) : ∀ (l : List ℕ), scanLevels z ht th l (some b) =
    (some b, l.find? fun i => decide (ht + th ≤ z i)) := by
  intro l
  induction l with
  | nil => rfl
  | cons i is ih =>
    rw [scanLevels, if_neg (by simp)]
    by_cases h : ht + th ≤ z i
    · rw [if_pos h, List.find?_cons_of_pos (by simpa using h)]
    · rw [if_neg h, ih, List.find?_cons_of_neg (by simpa using h)]

/-- The levels found: `b1` is the first level at or above the transition height, `bmax` the first one above `b1` that reaches the top of
the layer, or the last level. -/
structure Levels (n : ℕ) (z : ℕ → K) (ht th : K) (b1 bmax : ℕ) : Prop where
  first : ∀ i < b1, z i < ht
  reached : ht ≤ z b1
  order : b1 < bmax
  last : bmax < n
  inside : ∀ i, b1 < i → i < bmax → z i < ht + th
  top : ht + th ≤ z bmax ∨ bmax = n - 1

theorem scan_range {n : ℕ} {z : ℕ → K} {ht th : K} (hth : 0 ≤ th) {b1 bmax : ℕ} (h : Levels n z ht th b1 bmax) :
    ∃ top, scanLevels z ht th (List.range n) none = (some b1, top) ∧ top.getD (n - 1) = bmax := by
  obtain ⟨h1, h2, h3, h4, h5, h6⟩ := h
  have hsplit : List.range n = List.range b1 ++ b1 :: List.range' (b1 + 1) (n - b1 - 1) := by
    rw [List.range_eq_range', List.range_eq_range', ← List.range'_succ, show n = b1 + (n - b1 - 1 + 1) by omega,
      ← List.range'_append_1]
    simp
  have hpre : ∀ (l r : List ℕ), (∀ i ∈ l, z i < ht) → scanLevels z ht th (l ++ r) none = scanLevels z ht th r none := by
    intro l
    induction l with
    | nil => intro r _; rfl
    | cons i is ih =>
      intro r hl
      have hi := hl i (by simp)
      rw [List.cons_append, scanLevels, if_neg (by simp [hi]), if_neg (by rw [not_le]; linarith)]
      exact ih r fun j hj => hl j (by simp [hj])
  rw [hsplit, hpre _ _ (fun i hi => h1 i (List.mem_range.mp hi)), scanLevels, if_pos ⟨rfl, h2⟩, scan_found]
  refine ⟨_, rfl, ?_⟩
  have hs2 : List.range' (b1 + 1) (n - b1 - 1) = List.range' (b1 + 1) (bmax - b1 - 1) ++ bmax :: List.range' (bmax + 1) (n - bmax - 1) := by
    rw [← List.range'_succ, show n - b1 - 1 = (bmax - b1 - 1) + (n - bmax - 1 + 1) by omega, ← List.range'_append_1,
      show b1 + 1 + (bmax - b1 - 1) = bmax by omega]
  rw [hs2, List.find?_append]
  have hnone : (List.range' (b1 + 1) (bmax - b1 - 1)).find? (fun i => decide (ht + th ≤ z i)) = none := by
    rw [List.find?_eq_none]
    intro i hi
    rw [List.mem_range'_1] at hi
    have := h5 i (by omega) (by omega)
    simpa using this
  rw [hnone, Option.none_or]
  by_cases ht' : ht + th ≤ z bmax
  · rw [List.find?_cons_of_pos (by simpa using ht')]; rfl
  · have hb : bmax = n - 1 := h6.resolve_left ht'
    rw [List.find?_cons_of_neg (by simpa using ht'), show n - bmax - 1 = 0 by omega]
    simp [hb]

theorem march_fold (z : ℕ → K) (slope0 dslope : K) (b1 : ℕ) (hb : 0 < b1) (e : ℕ → K) (m : ℕ) :
    let f := (List.range' b1 m).foldl (marchStep z slope0 dslope b1) e
    (∀ i, i < b1 ∨ b1 + m ≤ i → f i = e i) ∧
    ∀ i, b1 ≤ i → i < b1 + m → f i = f (i - 1) + (slope0 + dslope * (z i - z b1)) * (z i - z (i - 1)) := by
  induction m with
  | zero => exact ⟨fun i _ => rfl, fun i h1 h2 => by omega⟩
  | succ m ih =>
    simp only at ih ⊢
    rw [List.range'_1_concat, List.foldl_append, List.foldl_cons, List.foldl_nil]
    generalize (List.range' b1 m).foldl (marchStep z slope0 dslope b1) e = g at ih ⊢
    obtain ⟨h1, h2⟩ := ih
    unfold marchStep
    refine ⟨fun i hi => ?_, fun i hi1 hi2 => ?_⟩
    · rw [Function.update_of_ne (by omega)]; exact h1 i (by omega)
    · by_cases hi : i = b1 + m
      · subst hi
        rw [Function.update_self, Function.update_of_ne (by omega)]
      · rw [Function.update_of_ne hi, Function.update_of_ne (by omega)]
        exact h2 i hi1 (by omega)

/-- **C80**: above the transition height the error profile is continued with a slope that starts at the slope just below and falls
linearly with height to zero at the top of the layer; above the layer it is constant; below the layer it is not changed. -/
theorem constant_spec {n : ℕ} {z : ℕ → K} (hz : ∀ i j, i < j → j < n → z i < z j) {ht th : K} (hth : 0 ≤ th) {b1 bmax : ℕ}
    (h : Levels n z ht th b1 bmax) (hb : 0 < b1) (e : ℕ → K) :
    ∃ f, constTransition n z ht th e = some f ∧ (∀ i < b1, f i = e i) ∧ f b1 = e b1 ∧
      (∀ i, b1 ≤ i → i ≤ bmax → ∃ c, 0 ≤ c ∧ c ≤ 1 ∧ c = (z bmax - z i) / (z bmax - z b1) ∧
        (f i - f (i - 1)) / (z i - z (i - 1)) = c * ((e b1 - e (b1 - 1)) / (z b1 - z (b1 - 1)))) ∧
      ∀ i, bmax ≤ i → f i = f (bmax - 1) := by
  obtain ⟨top, es, et⟩ := scan_range hth h
  have hlt := h.order
  have hlast := h.last
  unfold constTransition
  rw [es]
  simp only [et]
  rw [if_neg (by omega)]
  have hm := march_fold z ((e b1 - e (b1 - 1)) / (z b1 - z (b1 - 1))) (-((e b1 - e (b1 - 1)) / (z b1 - z (b1 - 1))) / (z bmax - z b1)) b1
    hb e (bmax + 1 - b1)
  simp only at hm
  have hS := hz (b1 - 1) b1 (by omega) (by omega)
  have hT := hz b1 bmax hlt hlast
  generalize hs0 : (e b1 - e (b1 - 1)) / (z b1 - z (b1 - 1)) = S at hm ⊢
  generalize (List.range' b1 (bmax + 1 - b1)).foldl (marchStep z S (-S / (z bmax - z b1)) b1) e = g at hm ⊢
  obtain ⟨h1, h2⟩ := hm
  have hbe : g b1 = e b1 := by
    rw [h2 b1 (le_refl _) (by omega), h1 (b1 - 1) (by omega), ← hs0, sub_self, mul_zero, add_zero]
    have : z b1 - z (b1 - 1) ≠ 0 := (sub_pos.mpr hS).ne'
    field_simp; ring
  have htop : g bmax = g (bmax - 1) := by
    rw [h2 bmax hlt.le (by omega)]
    have : z bmax - z b1 ≠ 0 := (sub_pos.mpr hT).ne'
    field_simp; ring
  refine ⟨_, rfl, fun i hi => ?_, ?_, fun i hi1 hi2 => ?_, fun i hi => ?_⟩
  · rw [if_neg (by omega)]; exact h1 i (by omega)
  · rw [if_neg (by omega)]; exact hbe
  · have d1 : 0 < z bmax - z b1 := sub_pos.mpr hT
    have d2 : z i - z (i - 1) ≠ 0 := (sub_pos.mpr (hz (i - 1) i (by omega) (by omega))).ne'
    have k1 : z b1 ≤ z i := by
      rcases Nat.eq_or_lt_of_le hi1 with q | q
      · rw [q]
      · exact (hz b1 i q (by omega)).le
    have k2 : z i ≤ z bmax := by
      rcases Nat.eq_or_lt_of_le hi2 with q | q
      · rw [q]
      · exact (hz i bmax q hlast).le
    refine ⟨_, div_nonneg (by linarith) d1.le, (div_le_one d1).mpr (by linarith), rfl, ?_⟩
    rw [if_neg (by omega), if_neg (by omega), h2 i hi1 (by omega)]
    have d1' := d1.ne'
    field_simp
    ring
  · rw [if_neg (show ¬ bmax < bmax - 1 by omega)]
    by_cases q : bmax < i
    · rw [if_pos q, htop]
    · have : i = bmax := by omega
      rw [if_neg q, this, htop]

example : Levels 6 (fun i => (i : ℚ) * 100) 200 200 2 4 where
  first := by intro i hi; interval_cases i <;> norm_num
  reached := by norm_num
  order := by norm_num
  last := by norm_num
  inside := by intro i h1 h2; interval_cases i; norm_num
  top := Or.inl (by norm_num)

/-- A disagreement: no level reaches the transition height, the first level does, or only the last one does: the profile is not
defined (0/0, a read before the first level, a division by zero) although a message announces that the case is handled. -/
theorem constant_undefined {n : ℕ} (hn : 0 < n) (z : ℕ → K) {ht th : K} (hth : 0 ≤ th) (e : ℕ → K) :
    ((∀ i < n, z i < ht) → constTransition n z ht th e = none) ∧ (ht ≤ z 0 → constTransition n z ht th e = none) ∧
    ((∀ i < n - 1, z i < ht) → ht ≤ z (n - 1) → constTransition n z ht th e = none) := by
  have hpre : ∀ (l r : List ℕ), (∀ i ∈ l, z i < ht) → scanLevels z ht th (l ++ r) none = scanLevels z ht th r none := by
    intro l
    induction l with
    | nil => intro r _; rfl
    | cons i is ih =>
      intro r hl
      have hi := hl i (by simp)
      rw [List.cons_append, scanLevels, if_neg (by simp [hi]), if_neg (by rw [not_le]; linarith)]
      exact ih r fun j hj => hl j (by simp [hj])
  refine ⟨fun h => ?_, fun h => ?_, fun h1 h2 => ?_⟩
  · have := hpre (List.range n) [] (fun i hi => h i (List.mem_range.mp hi))
    rw [List.append_nil] at this
    unfold constTransition
    rw [this]; rfl
  · obtain ⟨m, rfl⟩ : ∃ m, n = m + 1 := ⟨n - 1, by omega⟩
    unfold constTransition
    rw [List.range_succ_eq_map, scanLevels, if_pos ⟨rfl, h⟩, scan_found]
    simp
  · obtain ⟨m, rfl⟩ : ∃ m, n = m + 1 := ⟨n - 1, by omega⟩
    rw [Nat.add_sub_cancel] at h1 h2
    unfold constTransition
    rw [List.range_succ, hpre _ _ (fun i hi => h1 i (List.mem_range.mp hi)), scanLevels, if_pos ⟨rfl, h2⟩, scan_found]
    simp

/-! ## Configuration -/

/-- A disagreement: a direct scheme with transition to a constant, as documented, runs with a transition height that was never set. -/
theorem direct_to_constant_unset (h fh : Option K) : ∃ c : Cfg K, c.indirect = some false ∧ c.transition = true ∧ c.toConstant = true ∧
    c.height = h ∧ c.fileHeight = fh ∧ c.constantRun = (true, none) :=
  ⟨⟨some false, true, true, h, fh, false⟩, rfl, rfl, rfl, rfl, rfl, rfl⟩

/-- C80: for the indirect scheme the height is the constant one if it is given and that of the data file otherwise. -/
theorem indirect_height (c : Cfg K) (h1 : c.indirect = some true) (h2 : c.transition = true) :
    (∀ h, c.height = some h → c.usedHeight = some h) ∧ (c.height = none → c.usedHeight = c.fileHeight) := by
  unfold Cfg.usedHeight
  rw [if_pos ⟨h1, h2⟩]
  exact ⟨fun h e => by rw [e], fun e => by rw [e]⟩

/-- A disagreement: tendencies are documented to be applied whatever the scheme; without a scheme there is no source. -/
theorem tendency_needs_scheme (c : Cfg K) (x : K) : (c.indirect = none → c.tendencySource x = 0) ∧ (c.indirect ≠ none → c.tendencySource x = x) :=
  ⟨fun h => if_pos h, fun h => if_neg h⟩

end AmrWind.Meso
