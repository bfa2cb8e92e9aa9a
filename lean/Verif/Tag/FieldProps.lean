import Verif.Tag.FieldModel
import Mathlib.Algebra.BigOperators.Fin
import Mathlib.Tactic.Linarith
import Mathlib.Tactic.Ring
import Mathlib.Tactic.FieldSimp
import Mathlib.Tactic.NormNum
import Mathlib.Tactic.Positivity

/-! # Refinement by field values (property C109) -/

set_option linter.unusedSectionVars false

namespace AmrWind.Tag

/-! ## Values per level -/

/-- **C109**: a level has the value at its place in the list, levels past the list or past the finest one have none. -/
theorem value_spec (big : ℝ) (maxLevel : ℕ) (vals : List ℝ) (level : ℕ) :
    (∀ h : level < vals.length, level ≤ maxLevel → level < count maxLevel vals ∧ valueAt big maxLevel vals level = vals[level]) ∧
      ((vals.length ≤ level ∨ maxLevel < level) → ¬ level < count maxLevel vals ∧ valueAt big maxLevel vals level = big) := by
  unfold valueAt count
  refine ⟨fun h hm => ?_, fun h => ?_⟩
  · have : level < min vals.length (maxLevel + 1) := by omega
    rw [if_pos this]
    exact ⟨this, by simp [List.getD_eq_getElem?_getD, h]⟩
  · have : ¬ level < min vals.length (maxLevel + 1) := by omega
    rw [if_neg this]
    exact ⟨this, rfl⟩

/-- Specification: the six neighbours of a cell. -/
def Neighbour (c e : Cl) : Prop := ∃ d, e = sh c d 1 ∨ e = sh c d (-1)

theorem jump_spec (f : Cl → ℝ) (c : Cl) (v : ℝ) : v ≤ maxJump f c ↔ ∃ e, Neighbour c e ∧ v ≤ |f e - f c| := by
  unfold maxJump Neighbour
  simp only [le_max_iff]
  constructor
  · rintro (((h | h) | (h | h)) | (h | h))
    exacts [⟨_, ⟨0, Or.inl rfl⟩, h⟩, ⟨_, ⟨0, Or.inr rfl⟩, h⟩, ⟨_, ⟨1, Or.inl rfl⟩, h⟩, ⟨_, ⟨1, Or.inr rfl⟩, h⟩, ⟨_, ⟨2, Or.inl rfl⟩, h⟩, ⟨_, ⟨2, Or.inr rfl⟩, h⟩]
  · rintro ⟨e, ⟨d, hd⟩, h⟩
    fin_cases d <;> rcases hd with rfl | rfl
    · exact Or.inl (Or.inl (Or.inl h))
    · exact Or.inl (Or.inl (Or.inr h))
    · exact Or.inl (Or.inr (Or.inl h))
    · exact Or.inl (Or.inr (Or.inr h))
    · exact Or.inr (Or.inl h)
    · exact Or.inr (Or.inr h)

/-- **C109**: refinement by a field: a cell with its centre in the box is tagged exactly if its level has a field value and the field exceeds it, or its level has a
difference and some neighbour differs by that much. -/
theorem field_tag_spec (big : ℝ) (maxLevel : ℕ) (fe ge : List ℝ) (box : RBox ℝ) (level : ℕ) (hl : level ≤ maxLevel) (g : Geom ℝ) (f : Cl → ℝ) (c : Cl) :
    fieldTag big maxLevel fe ge box level g f c ↔ (∀ d, box.lo d < center g c d ∧ center g c d < box.hi d) ∧
      ((∃ h : level < fe.length, fe[level] < f c) ∨ (∃ h : level < ge.length, ∃ e, Neighbour c e ∧ ge[level] ≤ |f e - f c|)) := by
  unfold fieldTag
  have key : ∀ vals : List ℝ, level < count maxLevel vals ↔ level < vals.length := by
    intro vals
    unfold count
    omega
  rw [key, key]
  constructor
  · rintro (⟨h1, h2, h3⟩ | ⟨h1, h2, h3⟩)
    · rw [((value_spec big maxLevel fe level).1 h1 hl).2] at h2
      exact ⟨h3, Or.inl ⟨h1, h2⟩⟩
    · rw [((value_spec big maxLevel ge level).1 h1 hl).2] at h2
      exact ⟨h3, Or.inr ⟨h1, (jump_spec f c _).mp h2⟩⟩
  · rintro ⟨h3, ⟨h1, h2⟩ | ⟨h1, h2⟩⟩
    · refine Or.inl ⟨h1, ?_, h3⟩
      rw [((value_spec big maxLevel fe level).1 h1 hl).2]
      exact h2
    · refine Or.inr ⟨h1, ?_, h3⟩
      rw [((value_spec big maxLevel ge level).1 h1 hl).2]
      exact (jump_spec f c _).mpr h2

/-- **C109**, disagreement: `grad_error` is compared with differences, not gradients: for a field of slope `b` along an axis the largest difference is `|b|` times the cell size. -/
theorem jump_linear (g : Geom ℝ) (hg : ∀ d, 0 < g.dx d) (a b : ℝ) (c : Cl) : maxJump (fun e => a + b * center g e 0) c = |b| * g.dx 0 := by
  have k : ∀ (d : Fin 3) (n : ℤ), (a + b * center g (sh c d n) 0) - (a + b * center g c 0) = if d = 0 then b * (n * g.dx 0) else 0 := by
    intro d n
    unfold center sh
    by_cases hd : d = 0
    · subst hd
      simp only [if_true]
      push_cast
      ring
    · rw [if_neg hd, if_neg (fun h => hd h.symm)]
      ring
  unfold maxJump
  simp only [k]
  have e1 : |b * (((1 : ℤ) : ℝ) * g.dx 0)| = |b| * g.dx 0 := by
    rw [Int.cast_one, one_mul, abs_mul, abs_of_pos (hg 0)]
  have e2 : |b * (((-1 : ℤ) : ℝ) * g.dx 0)| = |b| * g.dx 0 := by
    rw [Int.cast_neg, Int.cast_one, neg_one_mul, mul_neg, abs_neg, abs_mul, abs_of_pos (hg 0)]
  have p : 0 ≤ |b| * g.dx 0 := mul_nonneg (abs_nonneg b) (hg 0).le
  simp only [if_true, e1, e2, show ((1 : Fin 3) = 0) = False by decide, show ((2 : Fin 3) = 0) = False by decide, if_false, abs_zero, max_self]
  rw [max_eq_left p, max_eq_left p]

/-! ## Derivatives -/

/-- Specification: a polynomial of degree two in the position, with gradient `b` at zero and symmetric second derivatives `H`. -/
noncomputable def quad (a : ℝ) (b : Fin 3 → ℝ) (H : Fin 3 → Fin 3 → ℝ) (x : Fin 3 → ℝ) : ℝ := a + ∑ d, b d * x d + 1 / 2 * ∑ d, ∑ e, H d e * x d * x e

/-- Specification: its gradient. -/
noncomputable def quadGrad (b : Fin 3 → ℝ) (H : Fin 3 → Fin 3 → ℝ) (x : Fin 3 → ℝ) (d : Fin 3) : ℝ := b d + ∑ e, H d e * x e

theorem center_sh (g : Geom ℝ) (c : Cl) (d : Fin 3) (n : ℤ) : center g (sh c d n) = Function.update (center g c) d (center g c d + n * g.dx d) := by
  funext e
  unfold center sh
  by_cases h : e = d
  · subst h
    simp only [if_true, Function.update_self]
    push_cast
    ring
  · rw [if_neg h, Function.update_of_ne h]

theorem cd_quad {g : Geom ℝ} (hg : ∀ d, 0 < g.dx d) (a : ℝ) (b : Fin 3 → ℝ) {H : Fin 3 → Fin 3 → ℝ} (hH : ∀ d e, H d e = H e d) (d : Fin 3) (c : Cl) :
    cd g (fun e => quad a b H (center g e)) d c = quadGrad b H (center g c) d := by
  have hd := (hg d).ne'
  unfold cd
  beta_reduce
  rw [center_sh, center_sh]
  unfold quad quadGrad
  set x := center g c
  have h1 := hH 0 1
  have h2 := hH 0 2
  have h3 := hH 1 2
  simp only [Fin.sum_univ_three]
  fin_cases d <;> simp [Function.update] at hd ⊢ <;> field_simp <;> rw [h1, h2, h3] <;> ring

theorem cd_affine {g : Geom ℝ} (hg : ∀ d, 0 < g.dx d) (b : ℝ) (v : Fin 3 → ℝ) (d : Fin 3) (c : Cl) :
    cd g (fun e => b + ∑ k, v k * center g e k) d c = v d := by
  have hd := (hg d).ne'
  unfold cd
  beta_reduce
  rw [center_sh, center_sh]
  simp only [Fin.sum_univ_three]
  fin_cases d <;> simp [Function.update] at hd ⊢ <;> field_simp <;> ring

/-- **C109**: the gradient criterion compares the size of the gradient: exact for polynomials of degree two, on any cell size. -/
theorem grad_mag_spec {g : Geom ℝ} (hg : ∀ d, 0 < g.dx d) (a : ℝ) (b : Fin 3 → ℝ) {H : Fin 3 → Fin 3 → ℝ} (hH : ∀ d e, H d e = H e d) (big : ℝ) (maxLevel : ℕ) (vals : List ℝ)
    (level : ℕ) (h : level < vals.length) (hl : level ≤ maxLevel) (c : Cl) :
    gradMagTag big maxLevel vals level g (fun e => quad a b H (center g e)) c ↔ vals[level] < Real.sqrt (∑ d, quadGrad b H (center g c) d ^ 2) := by
  unfold gradMagTag
  rw [cd_quad hg a b hH, cd_quad hg a b hH, cd_quad hg a b hH, ((value_spec big maxLevel vals level).1 h hl).2, Fin.sum_univ_three, gt_iff_lt, pow_two, pow_two, pow_two]

/-- **C109**: levels without a value are not refined by it. -/
theorem grad_mag_other (big : ℝ) (maxLevel : ℕ) (vals : List ℝ) (level : ℕ) (h : vals.length ≤ level) (g : Geom ℝ) (f : Cl → ℝ) (c : Cl)
    (hb : Real.sqrt (cd g f 0 c * cd g f 0 c + cd g f 1 c * cd g f 1 c + cd g f 2 c * cd g f 2 c) ≤ big) : ¬ gradMagTag big maxLevel vals level g f c := by
  unfold gradMagTag
  rw [((value_spec big maxLevel vals level).2 (Or.inl h)).2]
  exact not_lt.mpr hb

/-! ## Curvature -/

theorem cd2_quad {g : Geom ℝ} (hg : ∀ d, 0 < g.dx d) (a : ℝ) (b : Fin 3 → ℝ) {H : Fin 3 → Fin 3 → ℝ} (hH : ∀ d e, H d e = H e d) (d : Fin 3) (c : Cl) :
    cd2 g (fun e => quad a b H (center g e)) d c = H d d * (g.dx d / g.dx 0) ^ 2 := by
  have hd := (hg 0).ne'
  unfold cd2
  beta_reduce
  rw [center_sh, center_sh]
  unfold quad
  set x := center g c
  have h1 := hH 0 1
  have h2 := hH 0 2
  have h3 := hH 1 2
  simp only [Fin.sum_univ_three]
  fin_cases d <;> simp [Function.update] <;> field_simp <;> rw [h1, h2, h3] <;> ring

/-- Specification: the numerator of the divergence of the unit normal `∇f/|∇f|`: `|∇f|² tr H - ∇f·H∇f`. -/
noncomputable def bending (v : Fin 3 → ℝ) (H : Fin 3 → Fin 3 → ℝ) : ℝ := (∑ d, v d ^ 2) * (∑ d, H d d) - ∑ d, ∑ e, v d * H d e * v e

/-- **C109**: on cells with equal sides the curvature is that of the level surface, exact for polynomials of degree two.

Partial (C109). Missing: cells with unequal sides, where it is false (`curv_anisotropic_wrong`). -/
theorem curv_spec_partial {g : Geom ℝ} {h : ℝ} (hh : 0 < h) (hg : ∀ d, g.dx d = h) (a : ℝ) (b : Fin 3 → ℝ) {H : Fin 3 → Fin 3 → ℝ} (hH : ∀ d e, H d e = H e d) (c : Cl)
    (hv : ∑ d, quadGrad b H (center g c) d ^ 2 ≠ 0) :
    curv g (fun e => quad a b H (center g e)) c = some (|bending (quadGrad b H (center g c)) H| / (∑ d, quadGrad b H (center g c) d ^ 2) ^ (3 / 2 : ℝ)) := by
  have hp : ∀ d, 0 < g.dx d := fun d => by rw [hg]; exact hh
  have mix : ∀ d e, cd g (cd g (fun e => quad a b H (center g e)) e) d c = H e d := by
    intro d e
    have : cd g (fun e => quad a b H (center g e)) e = fun k => b e + ∑ j, H e j * center g k j := by
      funext k
      exact cd_quad hp a b hH e k
    rw [this]
    exact cd_affine hp (b e) (H e) d c
  have one : ∀ d, H d d * (g.dx d / g.dx 0) ^ 2 = H d d := by
    intro d
    rw [hg, hg, div_self hh.ne']
    ring
  have sq : cd g (fun e => quad a b H (center g e)) 0 c * cd g (fun e => quad a b H (center g e)) 0 c + cd g (fun e => quad a b H (center g e)) 1 c * cd g (fun e => quad a b H (center g e)) 1 c +
      cd g (fun e => quad a b H (center g e)) 2 c * cd g (fun e => quad a b H (center g e)) 2 c = ∑ d, quadGrad b H (center g c) d ^ 2 := by
    rw [cd_quad hp a b hH, cd_quad hp a b hH, cd_quad hp a b hH, Fin.sum_univ_three]
    ring
  have num : curvNum g (fun e => quad a b H (center g e)) c = bending (quadGrad b H (center g c)) H := by
    unfold curvNum bending
    dsimp only
    rw [mix, mix, mix, cd2_quad hp a b hH, cd2_quad hp a b hH, cd2_quad hp a b hH, one, one, one, cd_quad hp a b hH, cd_quad hp a b hH, cd_quad hp a b hH]
    simp only [Fin.sum_univ_three]
    rw [hH 1 0, hH 2 0, hH 2 1]
    ring
  unfold curv
  dsimp only
  rw [sq, if_neg hv, num]

/-- **C109**, disagreement: with other sides it is wrong: a field of slope 1 along the first axis and second derivative 2 along the second has curvature 2 there, with cells twice as long along
the second axis the result is 8. -/
theorem curv_anisotropic_wrong (g : Geom ℝ) (hg : g.dx 0 = 1 ∧ g.dx 1 = 2 ∧ g.dx 2 = 1) (b : Fin 3 → ℝ) (H : Fin 3 → Fin 3 → ℝ) (hH : ∀ d e, H d e = if d = 1 ∧ e = 1 then 2 else 0) (c : Cl)
    (h0 : quadGrad b H (center g c) 0 = 1) (h1 : quadGrad b H (center g c) 1 = 0) (h2 : quadGrad b H (center g c) 2 = 0) :
    bending (quadGrad b H (center g c)) H = 2 ∧ curv g (fun e => quad 0 b H (center g e)) c = some 8 := by
  have hp : ∀ d, 0 < g.dx d := by
    intro d
    fin_cases d
    · show 0 < g.dx 0
      rw [hg.1]; norm_num
    · show 0 < g.dx 1
      rw [hg.2.1]; norm_num
    · show 0 < g.dx 2
      rw [hg.2.2]; norm_num
  have hs : ∀ d e, H d e = H e d := by
    intro d e
    rw [hH, hH]
    simp only [and_comm]
  have e00 : H 0 0 = 0 := hH 0 0
  have e11 : H 1 1 = 2 := hH 1 1
  have e22 : H 2 2 = 0 := hH 2 2
  have e01 : H 0 1 = 0 := hH 0 1
  have e02 : H 0 2 = 0 := hH 0 2
  have e10 : H 1 0 = 0 := hH 1 0
  have e20 : H 2 0 = 0 := hH 2 0
  have e12 : H 1 2 = 0 := hH 1 2
  have e21 : H 2 1 = 0 := hH 2 1
  refine ⟨?_, ?_⟩
  · unfold bending
    simp only [Fin.sum_univ_three, h0, h1, h2, e00, e11, e22, e01, e02, e10, e20, e12, e21]
    norm_num
  · have num : curvNum g (fun e => quad 0 b H (center g e)) c = 8 := by
      unfold curvNum
      dsimp only
      simp only [cd2_quad hp 0 b hs, e00, e11, e22, cd_quad hp 0 b hs 0 c, cd_quad hp 0 b hs 1 c, cd_quad hp 0 b hs 2 c, h0, h1, h2, hg.1, hg.2.1, hg.2.2]
      norm_num
    unfold curv
    dsimp only
    rw [num, cd_quad hp 0 b hs, cd_quad hp 0 b hs, cd_quad hp 0 b hs, h0, h1, h2]
    norm_num

/-- Such a field and mesh exist. -/
example : ∃ (g : Geom ℝ) (b : Fin 3 → ℝ) (H : Fin 3 → Fin 3 → ℝ) (c : Cl), (g.dx 0 = 1 ∧ g.dx 1 = 2 ∧ g.dx 2 = 1) ∧ (∀ d e, H d e = if d = 1 ∧ e = 1 then 2 else 0) ∧
    quadGrad b H (center g c) 0 = 1 ∧ quadGrad b H (center g c) 1 = 0 ∧ quadGrad b H (center g c) 2 = 0 := by
  refine ⟨⟨fun d => if d = 1 then -1 else 0, fun d => if d = 1 then 2 else 1, fun _ => 1⟩, fun d => if d = 0 then 1 else 0, fun d e => if d = 1 ∧ e = 1 then 2 else 0, fun _ => 0,
    ⟨rfl, rfl, rfl⟩, fun _ _ => rfl, ?_, ?_, ?_⟩
  · simp [quadGrad]
  · simp [quadGrad, center]
  · simp [quadGrad]

/-- **C109**, disagreement: the value given is used only up to the inverse of the cell size, and levels without a value are refined with that bound. -/
theorem curv_capped (big : ℝ) (maxLevel : ℕ) (vals : List ℝ) (level : ℕ) (g : Geom ℝ) {h : ℝ} (hh : 0 < h) (hg : ∀ d, g.dx d = h) (f : Cl → ℝ) (c : Cl) {k : ℝ}
    (hk : curv g f c = some k) (h1 : 1 / h < k) : curvTag big maxLevel vals level g f c := by
  refine ⟨k, hk, lt_of_le_of_lt (min_le_right _ _) ?_⟩
  rw [hg, hg, hg]
  have : (1 / h * (1 / h) * (1 / h)) ^ (1 / 3 : ℝ) = 1 / h := by
    have e : 1 / h * (1 / h) * (1 / h) = (1 / h) ^ (3 : ℝ) := by
      rw [show (3 : ℝ) = ((3 : ℕ) : ℝ) by norm_num, Real.rpow_natCast]
      ring
    rw [e, ← Real.rpow_mul (by positivity)]
    norm_num
  rw [this]
  exact h1

/-- **C109**: on a level with a value `v` a cell is refined exactly if its curvature is above `v` or its cube is above the inverse of the
volume of the cell. -/
theorem curv_tag_iff (big : ℝ) (maxLevel : ℕ) (vals : List ℝ) (level : ℕ) (g : Geom ℝ) (hg : ∀ d, 0 < g.dx d) (f : Cl → ℝ) (c : Cl) :
    curvTag big maxLevel vals level g f c ↔
      ∃ k, curv g f c = some k ∧ (valueAt big maxLevel vals level < k ∨ 1 / (g.dx 0 * g.dx 1 * g.dx 2) < k ^ 3) := by
  have h0 := hg 0
  have h1 := hg 1
  have h2 := hg 2
  unfold curvTag
  refine exists_congr fun k => and_congr_right fun hk => ?_
  have k0 : 0 ≤ k := by
    unfold curv at hk
    dsimp only at hk
    split_ifs at hk
    rw [← Option.some.inj hk]
    exact div_nonneg (abs_nonneg _) (Real.rpow_nonneg (add_nonneg (add_nonneg (mul_self_nonneg _) (mul_self_nonneg _)) (mul_self_nonneg _)) _)
  rw [gt_iff_lt, min_lt_iff]
  refine or_congr Iff.rfl ?_
  rw [show 1 / (g.dx 0 * g.dx 1 * g.dx 2) = 1 / g.dx 0 * (1 / g.dx 1) * (1 / g.dx 2) by field_simp]
  set y := 1 / g.dx 0 * (1 / g.dx 1) * (1 / g.dx 2) with hy
  have y0 : 0 ≤ y := by positivity
  have e : (y ^ (1 / 3 : ℝ)) ^ 3 = y := by
    rw [← Real.rpow_natCast, ← Real.rpow_mul y0]; norm_num
  constructor
  · intro h
    have := pow_lt_pow_left₀ h (Real.rpow_nonneg y0 _) (by norm_num : (3 : ℕ) ≠ 0)
    rwa [e] at this
  · intro h
    rw [← e] at h
    exact lt_of_pow_lt_pow_left₀ 3 k0 h

/-! ## Rotation -/

/-- Specification: a velocity linear in the position. -/
noncomputable def linearFlow (g : Geom ℝ) (u0 : Fin 3 → ℝ) (A : Fin 3 → Fin 3 → ℝ) (i : Fin 3) (c : Cl) : ℝ := u0 i + ∑ k, A i k * center g c k

theorem velGrad_linear {g : Geom ℝ} (hg : ∀ d, 0 < g.dx d) (u0 : Fin 3 → ℝ) (A : Fin 3 → Fin 3 → ℝ) (c : Cl) : velGrad g (linearFlow g u0 A) c = A := by
  funext i d
  exact cd_affine hg (u0 i) (A i) d c

/-- **C109**: the vorticity criterion compares the length of the curl, exact for linear velocities, on the levels with a value. -/
theorem vort_spec {g : Geom ℝ} (hg : ∀ d, 0 < g.dx d) (u0 : Fin 3 → ℝ) (A : Fin 3 → Fin 3 → ℝ) (big : ℝ) (maxLevel : ℕ) (vals : List ℝ) (level : ℕ) (hl : level ≤ maxLevel) (c : Cl) :
    vortTag big maxLevel vals level g (linearFlow g u0 A) c ↔
      ∃ h : level < vals.length, vals[level] < Real.sqrt ((A 2 1 - A 1 2) ^ 2 + (A 0 2 - A 2 0) ^ 2 + (A 1 0 - A 0 1) ^ 2) := by
  unfold vortTag
  dsimp only
  rw [velGrad_linear hg]
  have e : (A 0 1 - A 1 0) ^ 2 + (A 1 2 - A 2 1) ^ 2 + (A 2 0 - A 0 2) ^ 2 = (A 2 1 - A 1 2) ^ 2 + (A 0 2 - A 2 0) ^ 2 + (A 1 0 - A 0 1) ^ 2 := by ring
  rw [e]
  constructor
  · rintro ⟨h1, h2⟩
    have h1' : level < vals.length := lt_of_lt_of_le h1 (min_le_left _ _)
    rw [((value_spec big maxLevel vals level).1 h1' hl).2] at h2
    exact ⟨h1', h2⟩
  · rintro ⟨h1, h2⟩
    have := (value_spec big maxLevel vals level).1 h1 hl
    refine ⟨this.1, ?_⟩
    rw [this.2]
    exact h2

/-- **C109**: rotation with angular velocity `w` has the curl `2|w|`; a symmetric gradient has none. -/
theorem vort_rotation (w : Fin 3 → ℝ) (A : Fin 3 → Fin 3 → ℝ) (hA : A = ![![0, -w 2, w 1], ![w 2, 0, -w 0], ![-w 1, w 0, 0]]) :
    Real.sqrt ((A 2 1 - A 1 2) ^ 2 + (A 0 2 - A 2 0) ^ 2 + (A 1 0 - A 0 1) ^ 2) = 2 * Real.sqrt (w 0 ^ 2 + w 1 ^ 2 + w 2 ^ 2) := by
  subst hA
  have e : ∀ x y z : ℝ, Real.sqrt ((x - -x) ^ 2 + (y - -y) ^ 2 + (z - -z) ^ 2) = 2 * Real.sqrt (x ^ 2 + y ^ 2 + z ^ 2) := by
    intro x y z
    rw [show (x - -x) ^ 2 + (y - -y) ^ 2 + (z - -z) ^ 2 = 2 ^ 2 * (x ^ 2 + y ^ 2 + z ^ 2) by ring, Real.sqrt_mul (by norm_num), Real.sqrt_sq (by norm_num)]
  exact e (w 0) (w 1) (w 2)

/-- **C109**: twice the Q-criterion is minus the trace of the squared gradient; it is the square of the rotation rate minus that of the strain rate. -/
theorem q_trace (A : Fin 3 → Fin 3 → ℝ) : rot2 A - strain2 A = -∑ i, ∑ j, A i j * A j i ∧
    rot2 A = ∑ i, ∑ j, ((A i j - A j i) / 2) ^ 2 ∧ strain2 A = ∑ i, ∑ j, ((A i j + A j i) / 2) ^ 2 := by
  unfold rot2 strain2
  simp only [Fin.sum_univ_three]
  refine ⟨?_, ?_, ?_⟩ <;> ring

/-- **C109**: the dimensional form tags where the size of Q exceeds the value. -/
theorem q_spec {g : Geom ℝ} (hg : ∀ d, 0 < g.dx d) (u0 : Fin 3 → ℝ) (A : Fin 3 → Fin 3 → ℝ) (eps big : ℝ) (maxLevel : ℕ) (vals : List ℝ) (level : ℕ) (hl : level ≤ maxLevel) (c : Cl) :
    qTag eps big false maxLevel vals level g (linearFlow g u0 A) c ↔ ∃ h : level < vals.length, vals[level] < |1 / 2 * ∑ i, ∑ j, A i j * A j i| := by
  unfold qTag
  dsimp only
  rw [velGrad_linear hg, (q_trace A).1, mul_neg, abs_neg]
  simp only [Bool.false_eq_true, false_and, true_and, false_or]
  constructor
  · rintro ⟨h1, h2⟩
    have h1' : level < vals.length := lt_of_lt_of_le h1 (min_le_left _ _)
    rw [((value_spec big maxLevel vals level).1 h1' hl).2] at h2
    exact ⟨h1', h2⟩
  · rintro ⟨h1, h2⟩
    have := (value_spec big maxLevel vals level).1 h1 hl
    refine ⟨this.1, ?_⟩
    rw [this.2]
    exact h2

/-- **C109**: the form without dimension tags where the squared rotation rate exceeds `2v+1` times the squared strain rate. -/
theorem q_nondim_spec {g : Geom ℝ} (hg : ∀ d, 0 < g.dx d) (u0 : Fin 3 → ℝ) (A : Fin 3 → Fin 3 → ℝ) {eps : ℝ} (he : 0 < eps) (hS : eps ≤ strain2 A) (big : ℝ) (maxLevel : ℕ) (vals : List ℝ)
    (level : ℕ) (hl : level ≤ maxLevel) (c : Cl) :
    qTag eps big true maxLevel vals level g (linearFlow g u0 A) c ↔ ∃ h : level < vals.length, (2 * vals[level] + 1) * strain2 A < rot2 A := by
  have pos : 0 < strain2 A := lt_of_lt_of_le he hS
  have key : ∀ v : ℝ, 1 / 2 * (rot2 A / max (strain2 A) eps - 1) > v ↔ (2 * v + 1) * strain2 A < rot2 A := by
    intro v
    rw [max_eq_left hS, gt_iff_lt, ← lt_div_iff₀ pos]
    constructor <;> intro k <;> linarith
  unfold qTag
  dsimp only
  rw [velGrad_linear hg]
  simp only [Bool.true_eq_false, false_and, true_and, or_false, key]
  constructor
  · rintro ⟨h1, h2⟩
    have h1' : level < vals.length := lt_of_lt_of_le h1 (min_le_left _ _)
    rw [((value_spec big maxLevel vals level).1 h1' hl).2] at h2
    exact ⟨h1', h2⟩
  · rintro ⟨h1, h2⟩
    have := (value_spec big maxLevel vals level).1 h1 hl
    refine ⟨this.1, ?_⟩
    rw [this.2]
    exact h2

/-- **C109**, disagreement with the manual, which says that a value of one means equal strength: where both have equal strength the criterion is zero, and one means three times. -/
theorem q_unity {R S : ℝ} (hS : 0 < S) : (1 / 2 * (R / S - 1) = 0 ↔ R = S) ∧ (1 / 2 * (R / S - 1) = 1 ↔ R = 3 * S) := by
  constructor
  · constructor
    · intro h
      have : R / S = 1 := by linarith
      rwa [div_eq_one_iff_eq hS.ne'] at this
    · rintro rfl
      rw [div_self hS.ne']
      ring
  · constructor
    · intro h
      have : R / S = 3 := by linarith
      rwa [div_eq_iff hS.ne'] at this
    · rintro rfl
      rw [mul_div_assoc, div_self hS.ne']
      ring

/-! ## Overset -/

/-- **C109**: with the three kinds of cells (1 solved, 0 hole, -1 received) a cell is tagged where solved and received cells touch, and by kind if asked, on levels up to the given one. -/
theorem overset_tag_spec (maxLev level : ℤ) (fringe hole : Bool) (ib : Cl → ℤ) (hib : ∀ c, ib c = 1 ∨ ib c = 0 ∨ ib c = -1) (c : Cl) :
    oversetTag maxLev level fringe hole ib c ↔ level ≤ maxLev ∧
      ((∃ e, Neighbour c e ∧ ((ib c = 1 ∧ ib e = -1) ∨ (ib c = -1 ∧ ib e = 1))) ∨ (fringe = true ∧ ib c = -1) ∨ (hole = true ∧ ib c = 0)) := by
  have two : ∀ e, |ib e - ib c| > 1 ↔ ((ib c = 1 ∧ ib e = -1) ∨ (ib c = -1 ∧ ib e = 1)) := by
    intro e
    have h1 := hib c
    have h2 := hib e
    rw [gt_iff_lt, lt_abs]
    omega
  have key : (max (max (max |ib (sh c 0 1) - ib c| |ib (sh c 0 (-1)) - ib c|) (max |ib (sh c 1 1) - ib c| |ib (sh c 1 (-1)) - ib c|))
        (max |ib (sh c 2 1) - ib c| |ib (sh c 2 (-1)) - ib c|) > 1) ↔ ∃ e, Neighbour c e ∧ |ib e - ib c| > 1 := by
    unfold Neighbour
    simp only [gt_iff_lt, lt_max_iff]
    constructor
    · rintro (((h | h) | (h | h)) | (h | h))
      exacts [⟨_, ⟨0, Or.inl rfl⟩, h⟩, ⟨_, ⟨0, Or.inr rfl⟩, h⟩, ⟨_, ⟨1, Or.inl rfl⟩, h⟩, ⟨_, ⟨1, Or.inr rfl⟩, h⟩, ⟨_, ⟨2, Or.inl rfl⟩, h⟩, ⟨_, ⟨2, Or.inr rfl⟩, h⟩]
    · rintro ⟨e, ⟨d, hd⟩, h⟩
      fin_cases d <;> rcases hd with rfl | rfl
      · exact Or.inl (Or.inl (Or.inl h))
      · exact Or.inl (Or.inl (Or.inr h))
      · exact Or.inl (Or.inr (Or.inl h))
      · exact Or.inl (Or.inr (Or.inr h))
      · exact Or.inr (Or.inl h)
      · exact Or.inr (Or.inr h)
  unfold oversetTag
  rw [key, not_lt]
  simp only [two]

/-! ## All criteria -/

/-- **C109**: a cell is tagged exactly if it was or some criterion tags it: no criterion takes back what another asked for. -/
theorem tag_union (criteria : List (Cl → Prop)) (tags : Cl → Prop) (c : Cl) : tagCells criteria tags c ↔ tags c ∨ ∃ r ∈ criteria, r c := by
  unfold tagCells
  induction criteria generalizing tags with
  | nil => simp
  | cons r l ih =>
    rw [List.foldl_cons, ih]
    simp only [List.mem_cons, exists_eq_or_imp]
    tauto

/-! ## Cases -/

/-- Unit cells about the origin, a rotation about the third axis, value 1 on level 0 only: tagged with angular velocity 1, on level 0 only. -/
noncomputable def exGeom : Geom ℝ := ⟨fun _ => 0, fun _ => 1, fun _ => 8⟩

example (c : Cl) : vortTag 1000 2 [1] 0 exGeom (linearFlow exGeom 0 ![![0, -1, 0], ![1, 0, 0], ![0, 0, 0]]) c := by
  rw [vort_spec (fun d => by simp [exGeom]) _ _ _ _ _ _ (by norm_num)]
  refine ⟨by simp, ?_⟩
  show (1 : ℝ) < _
  rw [Real.lt_sqrt (by norm_num)]
  simp
  norm_num

example (c : Cl) : ¬ vortTag 1000 2 [1] 1 exGeom (linearFlow exGeom 0 ![![0, -1, 0], ![1, 0, 0], ![0, 0, 0]]) c := by
  rw [vort_spec (fun d => by simp [exGeom]) _ _ _ _ _ _ (by norm_num)]
  rintro ⟨h, _⟩
  simp at h

/-- **C109** Inputs are refused exactly if there is neither a value nor a difference to test; such inputs would tag
nothing. -/
theorem field_accepts (fe ge : List ℝ) : (fieldAccepts fe ge = true ↔ fe ≠ [] ∨ ge ≠ []) := by
  unfold fieldAccepts
  cases fe <;> cases ge <;> simp

end AmrWind.Tag
