import Verif.Mix.Model
import Verif.Vof.CutProps
import Mathlib.Analysis.SpecialFunctions.Pow.Real

/-!
# C43, C62, C63: mixture density, hydrostatic reference state, level set to volume fraction
-/

set_option linter.unusedSectionVars false

namespace AmrWind.Mix

open Vof (Cell youngs cutVolume cbrt slabPart)
open MeasureTheory

/-! ## C43 -/

section
variable {K : Type*} [Field K] [LinearOrder K] [IsStrictOrderedRing K]

/-- C43: for a fraction in `[0, 1]` the mixture density is between the two phase densities, whichever is larger; it is
the liquid density at one and the gas density at zero. -/
theorem mix_between (rho1 rho2 : K) {f : K} (h0 : 0 ≤ f) (h1 : f ≤ 1) :
    min rho1 rho2 ≤ mixDensity rho1 rho2 f ∧ mixDensity rho1 rho2 f ≤ max rho1 rho2 ∧
    mixDensity rho1 rho2 1 = rho1 ∧ mixDensity rho1 rho2 0 = rho2 := by
  unfold mixDensity
  have a1 := min_le_left rho1 rho2
  have a2 := min_le_right rho1 rho2
  have b1 := le_max_left rho1 rho2
  have b2 := le_max_right rho1 rho2
  refine ⟨?_, ?_, by ring, by ring⟩ <;> nlinarith

/-- C43: with the liquid the heavier phase the density increases with the fraction, and determines it. -/
theorem mix_mono {rho1 rho2 : K} (h : rho2 < rho1) : StrictMono (mixDensity rho1 rho2) := by
  intro a b hab
  unfold mixDensity
  nlinarith

/-- C43: the density at the half step is between the old and the new density, hence between the phase densities. -/
theorem nph_between (rho1 rho2 : K) {f g : K} (hf0 : 0 ≤ f) (hf1 : f ≤ 1) (hg0 : 0 ≤ g) (hg1 : g ≤ 1) :
    min rho1 rho2 ≤ nphDensity (mixDensity rho1 rho2 f) (mixDensity rho1 rho2 g) ∧
      nphDensity (mixDensity rho1 rho2 f) (mixDensity rho1 rho2 g) ≤ max rho1 rho2 ∧
      nphDensity (mixDensity rho1 rho2 f) (mixDensity rho1 rho2 g) = mixDensity rho1 rho2 ((f + g) / 2) := by
  have e : nphDensity (mixDensity rho1 rho2 f) (mixDensity rho1 rho2 g) = mixDensity rho1 rho2 ((f + g) / 2) := by
    unfold nphDensity mixDensity
    ring
  rw [e]
  have := mix_between rho1 rho2 (f := (f + g) / 2) (by linarith) (by linarith)
  exact ⟨this.1, this.2.1, rfl⟩

end

/-- The function inside the band is non-decreasing. -/
theorem band_mono {a b : ℝ} (h : a ≤ b) : a + 1 / Real.pi * Real.sin (a * Real.pi) ≤ b + 1 / Real.pi * Real.sin (b * Real.pi) := by
  have h1 := Real.abs_sin_sub_sin_le (a * Real.pi) (b * Real.pi)
  have hp := Real.pi_pos
  have h2 : |a * Real.pi - b * Real.pi| = (b - a) * Real.pi := by
    rw [← sub_mul, abs_mul, abs_of_pos hp, abs_of_nonpos (by linarith)]
    ring
  rw [h2] at h1
  have h3 := (abs_le.mp h1).2
  have h4 : 1 / Real.pi * (Real.sin (a * Real.pi) - Real.sin (b * Real.pi)) ≤ b - a := by
    rw [one_div, inv_mul_le_iff₀ hp]
    linarith
  linarith

theorem band_neg_one : (-1 : ℝ) + 1 / Real.pi * Real.sin (-1 * Real.pi) = -1 := by
  simp

theorem band_one : (1 : ℝ) + 1 / Real.pi * Real.sin (1 * Real.pi) = 1 := by
  simp

theorem smooth_eq {eps : ℝ} (he : 0 < eps) (phi : ℝ) : smoothHeaviside eps phi =
    1 / 2 * (1 + (max (-1) (min 1 (phi / eps)) + 1 / Real.pi * Real.sin (max (-1) (min 1 (phi / eps)) * Real.pi))) := by
  unfold smoothHeaviside
  by_cases h1 : phi > eps
  · rw [if_pos h1]
    have : 1 ≤ phi / eps := by rw [one_le_div he]; linarith
    rw [min_eq_left this, max_eq_right (by norm_num), band_one]
    norm_num
  · rw [if_neg h1]
    push Not at h1
    have k1 : phi / eps ≤ 1 := by rw [div_le_one he]; exact h1
    rw [min_eq_right k1]
    by_cases h2 : phi < -eps
    · rw [if_pos h2]
      have : phi / eps ≤ -1 := by rw [div_le_iff₀ he]; linarith
      rw [max_eq_left this, band_neg_one]
      norm_num
    · rw [if_neg h2]
      push Not at h2
      have : -1 ≤ phi / eps := by rw [le_div_iff₀ he]; linarith
      rw [max_eq_right this, show phi / eps * Real.pi = phi * Real.pi / eps by ring]
      ring

/-- C43: the smoothed Heaviside function is in `[0, 1]`, non-decreasing, one and zero outside the band, one half at the
interface, odd about it, and continuous. -/
theorem smooth_heaviside {eps : ℝ} (he : 0 < eps) :
    (∀ phi, 0 ≤ smoothHeaviside eps phi ∧ smoothHeaviside eps phi ≤ 1) ∧
    Monotone (smoothHeaviside eps) ∧
    (∀ phi, eps ≤ phi → smoothHeaviside eps phi = 1) ∧ (∀ phi, phi ≤ -eps → smoothHeaviside eps phi = 0) ∧
    smoothHeaviside eps 0 = 1 / 2 ∧ (∀ phi, smoothHeaviside eps (-phi) = 1 - smoothHeaviside eps phi) ∧
    Continuous (smoothHeaviside eps) := by
  have hmono : Monotone (smoothHeaviside eps) := by
    intro a b hab
    rw [smooth_eq he, smooth_eq he]
    have : a / eps ≤ b / eps := by gcongr
    have h2 : max (-1) (min 1 (a / eps)) ≤ max (-1) (min 1 (b / eps)) :=
      max_le_max le_rfl (min_le_min le_rfl this)
    have := band_mono h2
    linarith
  have h1 : ∀ phi, eps ≤ phi → smoothHeaviside eps phi = 1 := by
    intro phi h
    rw [smooth_eq he, min_eq_left (by rw [one_le_div he]; linarith), max_eq_right (by norm_num), band_one]
    norm_num
  have h0 : ∀ phi, phi ≤ -eps → smoothHeaviside eps phi = 0 := by
    intro phi h
    have : phi / eps ≤ -1 := by rw [div_le_iff₀ he]; linarith
    rw [smooth_eq he, min_eq_right (by linarith), max_eq_left this, band_neg_one]
    norm_num
  refine ⟨fun phi => ⟨?_, ?_⟩, hmono, h1, h0, ?_, ?_, ?_⟩
  · have := hmono (min_le_left phi (-eps))
    rwa [h0 _ (min_le_right phi (-eps))] at this
  · have := hmono (le_max_left phi eps)
    rwa [h1 _ (le_max_right phi eps)] at this
  · rw [smooth_eq he]
    simp
  · intro phi
    rw [smooth_eq he, smooth_eq he]
    have : max (-1) (min 1 (-phi / eps)) = -max (-1) (min 1 (phi / eps)) := by
      rw [neg_div]
      rcases le_total (phi / eps) (-1) with h | h
      · rw [min_eq_left (by linarith), min_eq_right (by linarith), max_eq_right (by norm_num), max_eq_left h]
        norm_num
      · rcases le_total (phi / eps) 1 with k | k
        · rw [min_eq_right (by linarith), min_eq_right k, max_eq_right (by linarith), max_eq_right h]
        · rw [min_eq_right (by linarith), min_eq_left k, max_eq_left (by linarith), max_eq_right (by norm_num)]
    rw [this, neg_mul, Real.sin_neg]
    ring
  · have : smoothHeaviside eps = fun phi => 1 / 2 * (1 + (max (-1) (min 1 (phi / eps)) +
        1 / Real.pi * Real.sin (max (-1) (min 1 (phi / eps)) * Real.pi))) := funext fun phi => smooth_eq he phi
    rw [this]
    fun_prop

theorem cbrt_pos {x : ℝ} (h : 0 < x) : 0 < cbrt x := by
  unfold Vof.cbrt
  rw [if_pos h.le]
  exact Real.rpow_pos_of_pos h _

/-- C43: on every mesh the density computed from any level set is between the phase densities and, if the liquid is
heavier, non-decreasing in the level set; it is that of a phase outside a band around the interface. -/
theorem levelset_density {rho1 rho2 dx dy dz : ℝ} (hx : 0 < dx) (hy : 0 < dy) (hz : 0 < dz) :
    (∀ phi, min rho1 rho2 ≤ levelsetDensity rho1 rho2 dx dy dz phi ∧
      levelsetDensity rho1 rho2 dx dy dz phi ≤ max rho1 rho2) ∧
    (rho2 ≤ rho1 → Monotone (levelsetDensity rho1 rho2 dx dy dz)) ∧
    (∀ phi, cbrt (2 * dx * dy * dz) ≤ phi → levelsetDensity rho1 rho2 dx dy dz phi = rho1) ∧
    (∀ phi, phi ≤ -cbrt (2 * dx * dy * dz) → levelsetDensity rho1 rho2 dx dy dz phi = rho2) := by
  have he : 0 < cbrt (2 * dx * dy * dz) := cbrt_pos (by positivity)
  obtain ⟨hb, hm, h1, h0, _⟩ := smooth_heaviside he
  unfold levelsetDensity
  refine ⟨fun phi => ?_, fun hr a b hab => ?_, fun phi h => ?_, fun phi h => ?_⟩
  · have := mix_between rho1 rho2 (hb phi).1 (hb phi).2
    exact ⟨this.1, this.2.1⟩
  · have := hm hab
    unfold mixDensity
    nlinarith
  · rw [h1 phi h]; unfold mixDensity; ring
  · rw [h0 phi h]; unfold mixDensity; ring

/-- Water and air, a cell half full. -/
example : mixDensity (1000 : ℚ) 1 (1 / 2) = 1001 / 2 := by norm_num [mixDensity]

/-- A fraction outside `[0, 1]` is not limited here: the bounds on the fraction are needed. -/
example : mixDensity (1000 : ℚ) 1 (-1 / 100) < 0 := by norm_num [mixDensity]

/-! ## C62: hydrostatic reference state -/

section
variable {K : Type*} [Field K] [LinearOrder K] [IsStrictOrderedRing K]

/-- The height of a fluid column `[a, b]` that is below level `w` and above it. -/
def below (w a b : K) : K := max 0 (min w b - a)
def above (w a b : K) : K := max 0 (b - max w a)

/-- C62: in every cell of the domain, for every water level (inside the domain or not), the reference pressure and the
reference density are in discrete hydrostatic balance: the pressure difference across the cell is the weight of the
reference density in it. -/
theorem hydrostatic_balance {rho1 rho2 wlev gz zlo zhi dz : K} (hdz : 0 < dz) {k : ℤ} (h0 : 0 ≤ k)
    (h1 : zlo + (k + 1) * dz ≤ zhi) :
    p0 rho1 rho2 wlev gz zlo zhi dz (k + 1) - p0 rho1 rho2 wlev gz zlo zhi dz k = rho0 rho1 rho2 wlev zlo dz k * gz * dz := by
  have hk : (0 : K) ≤ k := by exact_mod_cast h0
  unfold p0 rho0
  simp only
  push_cast
  set z := zlo + (k : K) * dz with hz
  have hzlo : zlo ≤ z := by nlinarith
  have e1 : zlo + ((k : K) + 1) * dz = z + dz := by rw [hz]; ring
  rw [e1] at h1 ⊢
  have m1 : min (wlev - z) (wlev - zlo) = wlev - z := min_eq_left (by linarith)
  have m2 : min (wlev - (z + dz)) (wlev - zlo) = wlev - (z + dz) := min_eq_left (by linarith)
  rw [m1, m2]
  by_cases c1 : wlev ≤ z
  · -- gas only
    have v : max (min 1 ((wlev - z) / dz)) 0 = 0 := by
      apply max_eq_right
      exact le_trans (min_le_right _ _) (div_nonpos_of_nonpos_of_nonneg (by linarith) hdz.le)
    rw [v, max_eq_left (by linarith : wlev - z ≤ 0), max_eq_left (by linarith : wlev - (z + dz) ≤ 0),
      min_eq_right (by linarith : zhi - (z + dz) ≤ zhi - wlev), min_eq_right (by linarith : zhi - z ≤ zhi - wlev),
      max_eq_right (by linarith : (0 : K) ≤ zhi - z), max_eq_right (by linarith : (0 : K) ≤ zhi - (z + dz))]
    ring
  · push Not at c1
    by_cases c2 : z + dz ≤ wlev
    · -- liquid only
      have v : max (min 1 ((wlev - z) / dz)) 0 = 1 := by
        rw [min_eq_left (by rw [le_div_iff₀ hdz]; linarith), max_eq_left (by norm_num)]
      rw [v, max_eq_right (by linarith : (0 : K) ≤ wlev - z), max_eq_right (by linarith : (0 : K) ≤ wlev - (z + dz)),
        min_eq_left (by linarith : zhi - wlev ≤ zhi - (z + dz)), min_eq_left (by linarith : zhi - wlev ≤ zhi - z)]
      ring
    · push Not at c2
      have v : max (min 1 ((wlev - z) / dz)) 0 = (wlev - z) / dz := by
        rw [min_eq_right (by rw [div_le_iff₀ hdz]; linarith), max_eq_left]
        exact div_nonneg (by linarith) hdz.le
      rw [v, max_eq_right (by linarith : (0 : K) ≤ wlev - z), max_eq_left (by linarith : wlev - (z + dz) ≤ 0),
        min_eq_right (by linarith : zhi - (z + dz) ≤ zhi - wlev), min_eq_left (by linarith : zhi - wlev ≤ zhi - z),
        max_eq_right (by linarith : (0 : K) ≤ zhi - (z + dz)), max_eq_right (by linarith : (0 : K) ≤ zhi - wlev)]
      field_simp
      ring

/-- C62: for a water level inside the domain the reference pressure at a node is the weight of the liquid and gas columns
between the node and the top of the domain; it vanishes at the top. -/
theorem hydrostatic_pressure {rho1 rho2 wlev gz zlo zhi dz : K} (hdz : 0 < dz) (hw0 : zlo ≤ wlev) (hw1 : wlev ≤ zhi)
    {k : ℤ} (h0 : 0 ≤ k) (h1 : zlo + k * dz ≤ zhi) :
    p0 rho1 rho2 wlev gz zlo zhi dz k =
        -gz * (rho1 * below wlev (zlo + k * dz) zhi + rho2 * above wlev (zlo + k * dz) zhi) ∧
    (zlo + k * dz = zhi → p0 rho1 rho2 wlev gz zlo zhi dz k = 0) := by
  have hk : (0 : K) ≤ k := by exact_mod_cast h0
  have key : p0 rho1 rho2 wlev gz zlo zhi dz k =
        -gz * (rho1 * below wlev (zlo + k * dz) zhi + rho2 * above wlev (zlo + k * dz) zhi) := by
    unfold p0 below above
    simp only
    set z := zlo + (k : K) * dz with hz
    have hzlo : zlo ≤ z := by nlinarith
    have m1 : min (wlev - z) (wlev - zlo) = wlev - z := min_eq_left (by linarith)
    rw [m1, min_eq_left hw1]
    have m2 : min (zhi - wlev) (zhi - z) = zhi - max wlev z := by
      rcases le_total wlev z with h | h
      · rw [min_eq_right (by linarith), max_eq_right h]
      · rw [min_eq_left (by linarith), max_eq_left h]
    rw [m2]
    ring
  refine ⟨key, fun h => ?_⟩
  rw [key, h]
  unfold below above
  rw [min_eq_left hw1, max_eq_right hw1, max_eq_left (by linarith), max_eq_left (by linarith)]
  ring

/-- C62: a mesh refined by any ratio has the same reference pressure at the shared nodes. -/
theorem hydrostatic_levels (rho1 rho2 wlev gz zlo zhi dz : K) {r : ℕ} (hr : 0 < r) (k : ℤ) :
    p0 rho1 rho2 wlev gz zlo zhi (dz / r) (r * k) = p0 rho1 rho2 wlev gz zlo zhi dz k := by
  unfold p0
  have : (r : K) ≠ 0 := by exact_mod_cast hr.ne'
  have e : zlo + ((r * k : ℤ) : K) * (dz / r) = zlo + k * dz := by
    push_cast; field_simp
  rw [e]

/-- C62: reference densities lie between the phase densities and decrease upwards. -/
theorem hydrostatic_density {rho1 rho2 wlev zlo dz : K} (hdz : 0 < dz) (k : ℤ) :
    min rho1 rho2 ≤ rho0 rho1 rho2 wlev zlo dz k ∧ rho0 rho1 rho2 wlev zlo dz k ≤ max rho1 rho2 ∧
    (rho2 ≤ rho1 → rho0 rho1 rho2 wlev zlo dz (k + 1) ≤ rho0 rho1 rho2 wlev zlo dz k) := by
  have hb : ∀ t : K, 0 ≤ max (min 1 t) 0 ∧ max (min 1 t) 0 ≤ 1 := fun t =>
    ⟨le_max_right _ _, max_le (min_le_left _ _) (by norm_num)⟩
  have e : rho0 rho1 rho2 wlev zlo dz k = mixDensity rho1 rho2 (max (min 1 ((wlev - (zlo + k * dz)) / dz)) 0) := by
    unfold rho0 mixDensity; simp only; ring
  refine ⟨?_, ?_, ?_⟩
  · rw [e]; exact (mix_between rho1 rho2 (hb _).1 (hb _).2).1
  · rw [e]; exact (mix_between rho1 rho2 (hb _).1 (hb _).2).2.1
  · intro hr
    unfold rho0
    simp only
    have hle : max (min 1 ((wlev - (zlo + ((k + 1 : ℤ) : K) * dz)) / dz)) 0 ≤
        max (min 1 ((wlev - (zlo + (k : K) * dz)) / dz)) 0 := by
      apply max_le_max _ le_rfl
      apply min_le_min le_rfl
      apply div_le_div_of_nonneg_right _ hdz.le
      push_cast
      nlinarith
    nlinarith

end

/-- A domain `[-2, 1]` with water up to 1/4: the balance in the cell cut by the surface. -/
example : p0 (1000 : ℚ) 1 (1 / 4) (-10) (-2) 1 (1 / 2) 5 - p0 (1000 : ℚ) 1 (1 / 4) (-10) (-2) 1 (1 / 2) 4 =
    rho0 1000 1 (1 / 4) (-2) (1 / 2) 4 * (-10) * (1 / 2) := by
  norm_num [p0, rho0]

/-- Below the domain (ghost nodes) the balance does not extend: the pressure of the liquid stays that of the bottom. -/
theorem ghost_nodes_no_balance : p0 (1000 : ℚ) 1 (1 / 4) (-10) (-2) 1 (1 / 2) 0 - p0 (1000 : ℚ) 1 (1 / 4) (-10) (-2) 1 (1 / 2) (-1) ≠
    rho0 1000 1 (1 / 4) (-2) (1 / 2) (-1) * (-10) * (1 / 2) := by
  norm_num [p0, rho0]

/-! ## C63: level set to volume fraction -/

/-- The part of a cell (in cell units) where a linear level set with value `c` at the centre and slopes `a` per cell is
not negative. -/
def wetted (a1 a2 a3 c : ℝ) : Set (ℝ × ℝ × ℝ) :=
  {u | u.1 ∈ Set.Icc (0 : ℝ) 1 ∧ u.2.1 ∈ Set.Icc (0 : ℝ) 1 ∧ u.2.2 ∈ Set.Icc (0 : ℝ) 1 ∧
    0 ≤ c + a1 * (u.1 - 1 / 2) + a2 * (u.2.1 - 1 / 2) + a3 * (u.2.2 - 1 / 2)}

/-- A level set that is linear. -/
def linear {K : Type*} [Field K] (a1 a2 a3 b : K) : Cell → K := fun p => b + a1 * p.1 + a2 * p.2.1 + a3 * p.2.2

theorem wetted_eq (a1 a2 a3 c : ℝ) : wetted a1 a2 a3 c = slabPart (-a1) (-a2) (-a3) (c - (a1 + a2 + a3) / 2) 0 1 := by
  ext u
  unfold wetted slabPart
  simp only [Set.mem_ofPred_eq, zero_add]
  constructor
  · rintro ⟨h1, h2, h3, h4⟩; exact ⟨h1, h2, h3, by linarith⟩
  · rintro ⟨h1, h2, h3, h4⟩; exact ⟨h1, h2, h3, by linarith⟩

theorem youngs_linear {K : Type*} [Field K] [LinearOrder K] (a1 a2 a3 b : K) (p : Cell) :
    youngs (linear a1 a2 a3 b) p = (-32 * a1, -32 * a2, -32 * a3) := by
  obtain ⟨i, j, k⟩ := p
  unfold youngs linear
  simp only [Prod.mk.injEq]
  push_cast
  refine ⟨?_, ?_, ?_⟩ <;> ring

theorem cut_normal {tiny a1 a2 a3 c : ℝ} (hn : |a1| + |a2| + |a3| ≠ 0) :
    cutVolume tiny (|a1| / (|a1| + |a2| + |a3|)) (|a2| / (|a1| + |a2| + |a3|)) (|a3| / (|a1| + |a2| + |a3|))
      (c / (|a1| + |a2| + |a3|) + 1 / 2) 0 1 =
    cutVolume tiny (-a1) (-a2) (-a3) (c - (a1 + a2 + a3) / 2) 0 1 := by
  set N := |a1| + |a2| + |a3| with hN
  have hN0 : 0 ≤ N := by positivity
  have hNp : 0 < N := lt_of_le_of_ne hN0 (Ne.symm hn)
  unfold cutVolume
  simp only [mul_one, mul_zero, sub_zero, neg_neg, abs_neg]
  have q1 : |(|a1| / N)| = |a1| / N := abs_of_nonneg (by positivity)
  have q2 : |(|a2| / N)| = |a2| / N := abs_of_nonneg (by positivity)
  have q3 : |(|a3| / N)| = |a3| / N := abs_of_nonneg (by positivity)
  have s1 : |a1| / N + |a2| / N + |a3| / N = 1 := by
    rw [← add_div, ← add_div, ← hN, div_self hn]
  rw [q1, q2, q3, s1, ← hN, if_neg one_ne_zero, if_neg hn]
  have z1 : max 0 (-(|a1| / N)) = 0 := max_eq_left (by have : 0 ≤ |a1| / N := by positivity
                                                       linarith)
  have z2 : max 0 (-(|a2| / N)) = 0 := max_eq_left (by have : 0 ≤ |a2| / N := by positivity
                                                       linarith)
  have z3 : max 0 (-(|a3| / N)) = 0 := max_eq_left (by have : 0 ≤ |a3| / N := by positivity
                                                       linarith)
  have mx : ∀ a : ℝ, max 0 a = (|a| + a) / 2 := by
    intro a
    rcases le_total 0 a with h | h
    · rw [max_eq_right h, abs_of_nonneg h]; ring
    · rw [max_eq_left h, abs_of_nonpos h]; ring
  have al : (c - (a1 + a2 + a3) / 2 + max 0 a1 + max 0 a2 + max 0 a3) / N = c / N + 1 / 2 := by
    rw [mx, mx, mx]
    field_simp
    rw [hN]
    ring
  rw [z1, z2, z3, al]
  simp only [div_one, add_zero]

/-- C63: for a level set that is linear over the stencil of a cell, the volume fraction is the wetted fraction of the
cell up to a quarter of the machine epsilon; a cell the level set does not cut is exactly full or empty. It is assumed
that the cut-off distance is at least half the variation of the level set over the cell. -/
theorem levelset_to_vof_partial {tiny eps a1 a2 a3 b : ℝ} (ht : 0 ≤ tiny) (hn : a1 ≠ 0 ∨ a2 ≠ 0 ∨ a3 ≠ 0)
    (he : (|a1| + |a2| + |a3|) / 2 ≤ eps) (p : Cell) :
    ∃ v, levelsetToVof tiny eps (linear a1 a2 a3 b) p = some v ∧ 0 ≤ v ∧ v ≤ 1 ∧
      |v - volume.real (wetted a1 a2 a3 (linear a1 a2 a3 b p))| ≤ tiny / 4 ∧
      ((|a1| + |a2| + |a3|) / 2 ≤ linear a1 a2 a3 b p → v = 1) ∧
      (linear a1 a2 a3 b p ≤ -((|a1| + |a2| + |a3|) / 2) → v = 0) := by
  have hN : |a1| + |a2| + |a3| ≠ 0 := by
    intro h
    have e1 := abs_nonneg a1
    have e2 := abs_nonneg a2
    have e3 := abs_nonneg a3
    rcases hn with h' | h' | h' <;> have := abs_pos.mpr h' <;> linarith
  have hNp : 0 < |a1| + |a2| + |a3| := lt_of_le_of_ne (by positivity) (Ne.symm hN)
  set c := linear a1 a2 a3 b p with hc
  have hm : -a1 ≠ 0 ∨ -a2 ≠ 0 ∨ -a3 ≠ 0 := by
    rcases hn with h | h | h
    · exact Or.inl (neg_ne_zero.mpr h)
    · exact Or.inr (Or.inl (neg_ne_zero.mpr h))
    · exact Or.inr (Or.inr (neg_ne_zero.mpr h))
  -- the exact volume
  have hex := Vof.cut_volume_exact (alpha := c - (a1 + a2 + a3) / 2) (r0 := 0) one_pos hm
  rw [div_one, ← wetted_eq, ← cut_normal hN] at hex
  -- full and empty cells
  have hfull : 1 ≤ c / (|a1| + |a2| + |a3|) + 1 / 2 → volume.real (wetted a1 a2 a3 c) = 1 := by
    intro h
    have := hex
    unfold cutVolume at this
    simp only at this
    split at this
    · exact absurd this (by simp)
    · injection this with this
      rw [← this]
      have q1 : |(|a1| / (|a1| + |a2| + |a3|))| = |a1| / (|a1| + |a2| + |a3|) := abs_of_nonneg (by positivity)
      have q2 : |(|a2| / (|a1| + |a2| + |a3|))| = |a2| / (|a1| + |a2| + |a3|) := abs_of_nonneg (by positivity)
      have q3 : |(|a3| / (|a1| + |a2| + |a3|))| = |a3| / (|a1| + |a2| + |a3|) := abs_of_nonneg (by positivity)
      have s1 : |a1| / (|a1| + |a2| + |a3|) * 1 + |a2| / (|a1| + |a2| + |a3|) + |a3| / (|a1| + |a2| + |a3|) = 1 := by
        rw [mul_one, ← add_div, ← add_div, div_self hN]
      rw [q1, q2, q3, s1]
      generalize hx : c / (|a1| + |a2| + |a3|) + 1 / 2 - |a1| / (|a1| + |a2| + |a3|) * 0 +
        max 0 (-(|a1| / (|a1| + |a2| + |a3|)) * 1) + max 0 (-(|a2| / (|a1| + |a2| + |a3|))) +
        max 0 (-(|a3| / (|a1| + |a2| + |a3|))) = X
      have hX : 1 ≤ X := by
        rw [← hx]
        have k1 := le_max_left 0 (-(|a1| / (|a1| + |a2| + |a3|)) * 1)
        have k2 := le_max_left 0 (-(|a2| / (|a1| + |a2| + |a3|)))
        have k3 := le_max_left 0 (-(|a3| / (|a1| + |a2| + |a3|)))
        linarith
      rw [div_one, min_eq_left hX, max_eq_right (by norm_num : (0 : ℝ) ≤ 1)]
      norm_num [Vof.plic]
  have hempty : c / (|a1| + |a2| + |a3|) + 1 / 2 ≤ 0 → volume.real (wetted a1 a2 a3 c) = 0 := by
    intro h
    have := hex
    unfold cutVolume at this
    simp only at this
    split at this
    · exact absurd this (by simp)
    · injection this with this
      rw [← this]
      have q1 : |(|a1| / (|a1| + |a2| + |a3|))| = |a1| / (|a1| + |a2| + |a3|) := abs_of_nonneg (by positivity)
      have q2 : |(|a2| / (|a1| + |a2| + |a3|))| = |a2| / (|a1| + |a2| + |a3|) := abs_of_nonneg (by positivity)
      have q3 : |(|a3| / (|a1| + |a2| + |a3|))| = |a3| / (|a1| + |a2| + |a3|) := abs_of_nonneg (by positivity)
      have s1 : |a1| / (|a1| + |a2| + |a3|) * 1 + |a2| / (|a1| + |a2| + |a3|) + |a3| / (|a1| + |a2| + |a3|) = 1 := by
        rw [mul_one, ← add_div, ← add_div, div_self hN]
      rw [q1, q2, q3, s1]
      have z1 : max 0 (-(|a1| / (|a1| + |a2| + |a3|)) * 1) = 0 := max_eq_left (by
        have : 0 ≤ |a1| / (|a1| + |a2| + |a3|) := by positivity
        linarith)
      have z2 : max 0 (-(|a2| / (|a1| + |a2| + |a3|))) = 0 := max_eq_left (by
        have : 0 ≤ |a2| / (|a1| + |a2| + |a3|) := by positivity
        linarith)
      have z3 : max 0 (-(|a3| / (|a1| + |a2| + |a3|))) = 0 := max_eq_left (by
        have : 0 ≤ |a3| / (|a1| + |a2| + |a3|) := by positivity
        linarith)
      rw [z1, z2, z3]
      simp only [mul_zero, sub_zero, add_zero, div_one]
      rw [min_eq_right (by linarith), max_eq_left h]
      norm_num [Vof.plic]
  -- the model
  have hmod : levelsetToVof tiny eps (linear a1 a2 a3 b) p =
      if c < -eps then some 0
      else if c / (|a1| + |a2| + |a3|) + 1 / 2 ≥ 1 then some 1
      else if c / (|a1| + |a2| + |a3|) + 1 / 2 ≤ 0 then some 0
      else cutVolume tiny (|a1| / (|a1| + |a2| + |a3|)) (|a2| / (|a1| + |a2| + |a3|)) (|a3| / (|a1| + |a2| + |a3|))
        (c / (|a1| + |a2| + |a3|) + 1 / 2) 0 1 := by
    unfold levelsetToVof vofOfNormal
    rw [youngs_linear]
    have r : ∀ a : ℝ, |-32 * a / 32| = |a| := by
      intro a
      rw [show -32 * a / 32 = -a by ring, abs_neg]
    simp only [r]
    rw [if_neg hN, ← hc]
  rw [hmod]
  have hiff1 : 1 ≤ c / (|a1| + |a2| + |a3|) + 1 / 2 ↔ (|a1| + |a2| + |a3|) / 2 ≤ c := by
    rw [← sub_le_iff_le_add, le_div_iff₀ hNp]
    constructor <;> intro h <;> linarith
  have hiff0 : c / (|a1| + |a2| + |a3|) + 1 / 2 ≤ 0 ↔ c ≤ -((|a1| + |a2| + |a3|) / 2) := by
    rw [← le_sub_iff_add_le, div_le_iff₀ hNp]
    constructor <;> intro h <;> linarith
  by_cases h1 : c < -eps
  · rw [if_pos h1]
    refine ⟨0, rfl, le_rfl, by norm_num, ?_, fun h => ?_, fun _ => rfl⟩
    · rw [hempty (hiff0.mpr (by linarith))]
      simp; positivity
    · linarith
  rw [if_neg h1]
  by_cases h2 : c / (|a1| + |a2| + |a3|) + 1 / 2 ≥ 1
  · rw [if_pos h2]
    refine ⟨1, rfl, by norm_num, le_rfl, ?_, fun _ => rfl, fun h => ?_⟩
    · rw [hfull h2]
      simp; positivity
    · have := hiff0.mpr h
      linarith
  rw [if_neg h2]
  by_cases h3 : c / (|a1| + |a2| + |a3|) + 1 / 2 ≤ 0
  · rw [if_pos h3]
    refine ⟨0, rfl, le_rfl, by norm_num, ?_, fun h => absurd (hiff1.mpr h) (by simpa using h2), fun _ => rfl⟩
    rw [hempty h3]
    simp; positivity
  rw [if_neg h3, cut_normal hN]
  obtain ⟨v, hv, k0, k1, k⟩ := Vof.cut_volume_is_volume (alpha := c - (a1 + a2 + a3) / 2) (r0 := 0) ht one_pos hm
  rw [div_one, ← wetted_eq] at k
  exact ⟨v, hv, k0, k1, k, fun h => absurd (hiff1.mpr h) (by simpa using h2), fun h => absurd (hiff0.mpr h) h3⟩

/-- C63: a signed distance on a mesh of cubes meets the condition on the cut-off distance. -/
theorem cutoff_cubes {h n1 n2 n3 : ℝ} (hh : 0 < h) (hn : n1 ^ 2 + n2 ^ 2 + n3 ^ 2 = 1) :
    (|n1 * h| + |n2 * h| + |n3 * h|) / 2 ≤ vofEps h h h := by
  have e : vofEps h h h = 2 * h := by
    unfold vofEps Vof.cbrt
    rw [if_pos (by positivity), show h * h * h = h ^ (3 : ℝ) by norm_cast; ring, ← Real.rpow_mul hh.le]
    norm_num
  rw [e, abs_mul, abs_mul, abs_mul, abs_of_pos hh]
  have b : ∀ x : ℝ, x ^ 2 ≤ 1 → |x| ≤ 1 := fun x hx => by
    rw [← abs_one, ← sq_le_sq, one_pow]; exact hx
  have b1 := b n1 (by nlinarith [sq_nonneg n2, sq_nonneg n3])
  have b2 := b n2 (by nlinarith [sq_nonneg n1, sq_nonneg n3])
  have b3 := b n3 (by nlinarith [sq_nonneg n2, sq_nonneg n1])
  nlinarith

/-- Still water between cells: a quarter of the cell is wet. -/
example : levelsetToVof (0 : ℚ) 2 (linear 0 0 (-1) (-1 / 4)) (3, 4, 0) = some (1 / 4) := by
  decide +kernel

/-! ### What does not hold -/

/-- For flat cells (aspect ratio 1000) and a vertical interface the cut-off distance is less than half a cell: a cell that
is wet to a quarter gets no liquid. (`dx = 1000`, `dy = dz = 1`: the cut-off is twenty; the distance of the cell centre
is 250.) -/
theorem cutoff_loses_volume : vofEps 1000 1 1 = 20 ∧
    levelsetToVof (0 : ℚ) 20 (linear (-1000) 0 0 (-250)) (0, 0, 0) = some 0 ∧
    levelsetToVof (0 : ℚ) 1000 (linear (-1000) 0 0 (-250)) (0, 0, 0) = some (1 / 4) := by
  refine ⟨?_, by decide +kernel, by decide +kernel⟩
  unfold vofEps Vof.cbrt
  rw [if_pos (by norm_num), show (1000 : ℝ) * 1 * 1 = 10 ^ (3 : ℝ) by norm_num, ← Real.rpow_mul (by norm_num)]
  norm_num

/-- A cell with zero level set and no gradient gives no number. -/
theorem flat_zero_undefined (tiny eps : ℚ) (he : 0 ≤ eps) : levelsetToVof tiny eps (fun _ => 0) (0, 0, 0) = none := by
  unfold levelsetToVof vofOfNormal youngs
  simp [he]

/-- Next to a blanked cell the gradient across is halved, so the same still water gives another fraction: three quarters
wet becomes full. -/
theorem blanked_neighbour_wrong :
    levelsetToVof (0 : ℚ) 2 (linear 0 0 (-1) (1 / 4)) (0, 0, 0) = some (3 / 4) ∧
    levelsetToVofBlank (0 : ℚ) 2 (fun p => if p.2.2 < 0 then 0 else 1) (linear 0 0 (-1) (1 / 4)) (0, 0, 0) = some 1 := by
  constructor <;> decide +kernel

/-- Away from blanking changes both agree. -/
theorem blank_interior {K : Type*} [Field K] [LinearOrder K] (tiny eps : K) (ib : Cell → ℤ) (phi : Cell → K) (c : Cell)
    (h : bdy ib c = (0, 0, 0)) : levelsetToVofBlank tiny eps ib phi c = levelsetToVof tiny eps phi c := by
  unfold levelsetToVofBlank levelsetToVof
  rw [h]
  obtain ⟨i, j, k⟩ := c
  unfold youngsNeumann youngs
  simp

/-- Specification: the cells on the near side of the blanking change, in the direction of an axis: not above the cell if
the cell above has other blanking; otherwise not below it if the cell below has. -/
def NearSide (same_up same_down : Prop) (x q : ℤ) : Prop := (¬ same_up → q ≤ x) ∧ (same_up → ¬ same_down → x ≤ q)

/-- **C63** Next to a change of the blanking the fraction does not depend on the level set beyond the change (on the upper
side if there is one on both): it uses the value on the near side instead. -/
theorem blank_near_side {K : Type*} [Field K] [LinearOrder K] (tiny eps : K) (ib : Cell → ℤ) (phi phi' : Cell → K)
    (i j k : ℤ)
    (h : ∀ q : Cell, NearSide (ib (i, j, k) = ib (i + 1, j, k)) (ib (i, j, k) = ib (i - 1, j, k)) i q.1 →
      NearSide (ib (i, j, k) = ib (i, j + 1, k)) (ib (i, j, k) = ib (i, j - 1, k)) j q.2.1 →
      NearSide (ib (i, j, k) = ib (i, j, k + 1)) (ib (i, j, k) = ib (i, j, k - 1)) k q.2.2 → phi q = phi' q) :
    levelsetToVofBlank tiny eps ib phi (i, j, k) = levelsetToVofBlank tiny eps ib phi' (i, j, k) := by
  have side : ∀ (P Q : Prop) [Decidable P] [Decidable Q] (x : ℤ), ∃ b m p : ℤ,
      b = (if ¬ P then 1 else if ¬ Q then -1 else 0) ∧ m = (if b = -1 then x else x - 1) ∧
      p = (if b = 1 then x else x + 1) ∧ NearSide P Q x m ∧ NearSide P Q x p ∧ NearSide P Q x x := by
    intro P Q _ _ x
    refine ⟨_, _, _, rfl, rfl, rfl, ?_⟩
    unfold NearSide
    by_cases hP : P <;> by_cases hQ : Q <;> simp [hP, hQ]
  obtain ⟨b1, m1, p1, e1, f1, g1, n1, o1, z1⟩ := side (ib (i, j, k) = ib (i + 1, j, k)) (ib (i, j, k) = ib (i - 1, j, k)) i
  obtain ⟨b2, m2, p2, e2, f2, g2, n2, o2, z2⟩ := side (ib (i, j, k) = ib (i, j + 1, k)) (ib (i, j, k) = ib (i, j - 1, k)) j
  obtain ⟨b3, m3, p3, e3, f3, g3, n3, o3, z3⟩ := side (ib (i, j, k) = ib (i, j, k + 1)) (ib (i, j, k) = ib (i, j, k - 1)) k
  have hb : bdy ib (i, j, k) = (b1, b2, b3) := by
    rw [e1, e2, e3]; rfl
  have hy : youngsNeumann phi (b1, b2, b3) (i, j, k) = youngsNeumann phi' (b1, b2, b3) (i, j, k) := by
    unfold youngsNeumann
    simp only [← f1, ← f2, ← f3, ← g1, ← g2, ← g3]
    have e : ∀ a b c, NearSide (ib (i, j, k) = ib (i + 1, j, k)) (ib (i, j, k) = ib (i - 1, j, k)) i a →
      NearSide (ib (i, j, k) = ib (i, j + 1, k)) (ib (i, j, k) = ib (i, j - 1, k)) j b →
      NearSide (ib (i, j, k) = ib (i, j, k + 1)) (ib (i, j, k) = ib (i, j, k - 1)) k c → phi (a, b, c) = phi' (a, b, c) :=
      fun a b c ha hb hc => h (a, b, c) ha hb hc
    simp only [e _ _ _ n1 n2 n3, e _ _ _ n1 n2 o3, e _ _ _ n1 n2 z3, e _ _ _ n1 o2 n3, e _ _ _ n1 o2 o3, e _ _ _ n1 o2 z3,
      e _ _ _ n1 z2 n3, e _ _ _ n1 z2 o3, e _ _ _ n1 z2 z3, e _ _ _ o1 n2 n3, e _ _ _ o1 n2 o3, e _ _ _ o1 n2 z3,
      e _ _ _ o1 o2 n3, e _ _ _ o1 o2 o3, e _ _ _ o1 o2 z3, e _ _ _ o1 z2 n3, e _ _ _ o1 z2 o3, e _ _ _ o1 z2 z3,
      e _ _ _ z1 n2 n3, e _ _ _ z1 n2 o3, e _ _ _ z1 n2 z3, e _ _ _ z1 o2 n3, e _ _ _ z1 o2 o3, e _ _ _ z1 o2 z3,
      e _ _ _ z1 z2 n3, e _ _ _ z1 z2 o3]
  have hc : phi (i, j, k) = phi' (i, j, k) := h (i, j, k) z1 z2 z3
  unfold levelsetToVofBlank
  rw [hb, hy, hc]

/-- The level set in a blanked cell below does not matter: a case that meets the hypothesis. -/
example (v : ℚ) : levelsetToVofBlank (0 : ℚ) 2 (fun p => if p.2.2 < 0 then 0 else 1)
      (fun p => if p.2.2 < 0 then v else linear 0 0 (-1) (1 / 4) p) (0, 0, 0) =
    levelsetToVofBlank (0 : ℚ) 2 (fun p => if p.2.2 < 0 then 0 else 1) (linear 0 0 (-1) (1 / 4)) (0, 0, 0) := by
  apply blank_near_side
  rintro ⟨a, b, c⟩ _ _ hz
  have : (0 : ℤ) ≤ c := by
    have := hz.2
    simpa using this
  simp [not_lt.2 this]

end AmrWind.Mix
