import Verif.Abl.InitModel
import Verif.Interp.Props
import Mathlib.Analysis.SpecialFunctions.Trigonometric.Basic
import Mathlib.Analysis.SpecialFunctions.Pow.Real
import Mathlib.Analysis.SpecialFunctions.Exp
import Mathlib.Algebra.BigOperators.Intervals
import Mathlib.Tactic.FieldSimp
import Mathlib.Tactic.LinearCombination
import Mathlib.Tactic.NormNum
import Mathlib.Tactic.Ring

/-!
# C91: the initial state of an atmospheric run
-/

set_option linter.unusedSectionVars false

namespace AmrWind.Init

open AmrWind AmrWind.Vs AmrWind.Interp

variable {K : Type*} [Field K] [LinearOrder K] [IsStrictOrderedRing K]

/-! ## Temperature -/

theorem loop_none (z : K) : ∀ (t : List (K × K)) (acc : K),
    (∀ i a b, t[i]? = some a → t[i + 1]? = some b → ¬ (a.1 < z ∧ z ≤ b.1)) → tableLoop z t acc = acc
  | [], _, _ => rfl
  | [_], _, _ => rfl
  | a :: b :: r, acc, h => by
    have h0 := h 0 a b rfl rfl
    have e : tableLoop z (a :: b :: r) acc = tableLoop z (b :: r) (if a.1 < z ∧ z ≤ b.1 then a.2 + (z - a.1) * ((b.2 - a.2) / (b.1 - a.1)) else acc) := rfl
    rw [e, if_neg h0]
    exact loop_none z (b :: r) acc (fun i x y hx hy => h (i + 1) x y hx hy)

theorem loop_at (z : K) : ∀ (t : List (K × K)) (acc : K) (i : ℕ) (a b : K × K), (t.map Prod.fst).Pairwise (· < ·) →
    t[i]? = some a → t[i + 1]? = some b → a.1 < z → z ≤ b.1 →
    tableLoop z t acc = a.2 + (z - a.1) * ((b.2 - a.2) / (b.1 - a.1))
  | [], _, _, _, _, _, h, _, _, _ => by simp at h
  | [_], _, _, _, _, _, _, h, _, _ => by simp at h
  | x :: y :: r, acc, 0, a, b, hs, ha, hb, h1, h2 => by
    have e : tableLoop z (x :: y :: r) acc = tableLoop z (y :: r) (if x.1 < z ∧ z ≤ y.1 then x.2 + (z - x.1) * ((y.2 - x.2) / (y.1 - x.1)) else acc) := rfl
    simp only [List.getElem?_cons_zero, List.getElem?_cons_succ, Option.some.injEq] at ha hb
    subst ha; subst hb
    rw [e, if_pos ⟨h1, h2⟩]
    apply loop_none
    intro i p q hp hq hcon
    have hs' : ((y :: r).map Prod.fst).Pairwise (· < ·) := by
      rw [List.map_cons] at hs
      exact (List.pairwise_cons.mp hs).2
    have : y.1 ≤ p.1 := by
      cases i with
      | zero =>
        rw [List.getElem?_cons_zero, Option.some.injEq] at hp
        rw [hp]
      | succ i =>
        rw [List.getElem?_cons_succ] at hp
        rw [List.map_cons] at hs'
        exact le_of_lt ((List.pairwise_cons.mp hs').1 p.1 (List.mem_map_of_mem (List.mem_of_getElem? hp)))
    linarith [hcon.1]
  | x :: y :: r, acc, i + 1, a, b, hs, ha, hb, h1, h2 => by
    have e : tableLoop z (x :: y :: r) acc = tableLoop z (y :: r) (if x.1 < z ∧ z ≤ y.1 then x.2 + (z - x.1) * ((y.2 - x.2) / (y.1 - x.1)) else acc) := rfl
    rw [e]
    rw [List.map_cons] at hs
    exact loop_at z (y :: r) _ i a b (List.pairwise_cons.mp hs).2 ha hb h1 h2

/-- **C91.**  Up to the last height of the table the initial temperature is the interpolated one: linear between the heights, the
first value below the first height.

Partial (C91). Missing: heights above the table, where the first value is used (`table_above_wrong`). -/
theorem table_is_linear_partial (t : List (K × K)) (hs : StrictSorted (t.map Prod.fst)) (hsp : Spaced (t.map Prod.fst))
    (h2 : 2 ≤ t.length) (z : K) (last : K × K) (hl : t[t.length - 1]? = some last) (hz : z ≤ last.1) :
    table t z = linear (t.map Prod.fst) (t.map Prod.snd) z 1 0 := by
  obtain ⟨a, r, rfl⟩ : ∃ a r, t = a :: r := by cases t with
    | nil => simp at h2
    | cons a r => exact ⟨a, r, rfl⟩
  set t := a :: r with ht
  have hm : Matches (t.map Prod.fst) (t.map Prod.snd) 1 0 := ⟨by simp, by omega⟩
  obtain ⟨x0, xn, y0, yn, g0, gn, gy0, gyn, hc⟩ := linear_cases (t.map Prod.fst) (t.map Prod.snd) hs.sorted 1 0 hm (by simpa using h2) z
  have hx0 : x0 = a.1 := by
    rw [List.getElem?_map] at g0
    simpa [ht] using g0.symm
  have hy0 : y0 = a.2 := by
    rw [List.getElem?_map] at gy0
    simpa [ht] using gy0.symm
  have hxn : xn = last.1 := by
    rw [List.getElem?_map, List.length_map, hl] at gn
    simpa using gn.symm
  have hmin : ∀ (i : ℕ) (p : K × K), t[i]? = some p → a.1 ≤ p.1 := by
    intro i p hp
    have hs1 := hs
    unfold StrictSorted at hs1
    rw [ht, List.map_cons] at hs1
    cases i with
    | zero =>
      rw [ht, List.getElem?_cons_zero, Option.some.injEq] at hp
      rw [hp]
    | succ i =>
      rw [ht, List.getElem?_cons_succ] at hp
      exact le_of_lt ((List.pairwise_cons.mp hs1).1 p.1 (List.mem_map_of_mem (List.mem_of_getElem? hp)))
  have hlow : z ≤ a.1 → table t z = some a.2 := by
    intro h
    have e : table t z = some (tableLoop z t a.2) := rfl
    rw [e, loop_none z t a.2]
    intro i p q hp _ hcon
    linarith [hmin i p hp, hcon.1]
  rcases hc with ⟨h, e⟩ | ⟨h, e⟩ | ⟨h1, h2', i, xl, xr, yl, yr, gl, gr, hl', hr', k1, k2, k3, e⟩
  · rw [e, hy0]; exact hlow (by rw [← hx0]; exact h.le)
  · rw [hxn] at h; exact absurd hz (not_le.mpr h)
  · have hgap := hsp i xl xr gl gr
    rw [e]
    rw [List.getElem?_map] at gl gr hl' hr'
    rw [Nat.one_mul, Nat.add_zero] at hl' hr'
    obtain ⟨p, hp, hp1⟩ := Option.map_eq_some_iff.mp gl
    obtain ⟨q, hq, hq1⟩ := Option.map_eq_some_iff.mp gr
    rw [hp, Option.map_some, Option.some.injEq] at hl'
    rw [hq, Option.map_some, Option.some.injEq] at hr'
    rcases eq_or_lt_of_le k1 with he | hlt
    · have hi : i = 0 := by
        by_contra hne
        exact absurd (k3 (Nat.one_le_iff_ne_zero.mpr hne)) (by rw [he]; exact lt_irrefl _)
      subst hi
      have hpa : p = a := by
        rw [ht, List.getElem?_cons_zero, Option.some.injEq] at hp
        exact hp.symm
      rw [hlow (by rw [← he, ← hp1, hpa]), ← he, wR_left hgap, ← hl', hpa]
      simp
    · have e2 : table t z = some (tableLoop z t a.2) := rfl
      rw [e2, loop_at z t a.2 i p q hs hp hq (by rw [hp1]; exact hlt) (by rw [hq1]; exact k2)]
      have hw := wR_eq (q := z) hgap
      have hpos : (0 : K) < xr - xl := lt_trans eps_pos hgap
      have hw' : wR xl xr z = (z - xl) / (xr - xl) := by rw [eq_div_iff hpos.ne']; exact hw
      rw [hw', hp1, hq1, hl', hr']
      congr 1
      field_simp
      ring

example : table [((0 : ℚ), 300), (100, 300), (200, 308)] 150 = some 304 := by decide +kernel

/-- **C91 is false of the code above the table**: beyond the last height the initial temperature is the value of the FIRST height.
(The interpolation used elsewhere continues with the last value.) -/
theorem table_above_wrong (t : List (K × K)) (first last : K × K) (hs : StrictSorted (t.map Prod.fst)) (h0 : t[0]? = some first)
    (hl : t[t.length - 1]? = some last) (z : K) (hz : last.1 < z) : table t z = some first.2 := by
  cases t with
  | nil => simp at h0
  | cons a r =>
    rw [List.getElem?_cons_zero, Option.some.injEq] at h0
    subst h0
    have e : table (a :: r) z = some (tableLoop z (a :: r) a.2) := rfl
    rw [e, loop_none]
    intro i p q hp hq hcon
    have hlen : i + 1 < (a :: r).length := (List.getElem?_eq_some_iff.mp hq).1
    have hqm : ((a :: r).map Prod.fst)[i + 1]? = some q.1 := by rw [List.getElem?_map, hq]; rfl
    have hlm : ((a :: r).map Prod.fst)[(a :: r).length - 1]? = some last.1 := by rw [List.getElem?_map, hl]; rfl
    have : q.1 ≤ last.1 := sorted_get hs.sorted (by omega) hqm hlm
    linarith [hcon.2]

/-- An inversion of 8 K that is lost above the table: the air at 201 m is as cold as the ground. -/
example : table [((0 : ℚ), 300), (100, 300), (200, 308)] 201 = some 300 ∧
    linear [(0 : ℚ), 100, 200] [300, 300, 308] 201 1 0 = some 308 := by decide +kernel

/-- **C91.**  The temperature is the profile, plus the amplitude times a random number below the cutoff height if perturbations are
asked for; nothing else enters, since a new field is zero. -/
theorem temperature_spec (on : Bool) (cutoff delta rnd : ℝ) (tab : List (ℝ × ℝ)) (z : ℝ) :
    temp on cutoff delta rnd 0 tab z =
      (table tab z).map fun T => T + if on = true ∧ z < cutoff then delta * rnd else 0 := by
  unfold temp preTemp
  cases table tab z with
  | none => rfl
  | some T => cases on <;> by_cases h : z < cutoff <;> simp [h, add_comm]

/-! ## Velocity profiles -/

/-- **C91.**  The linear profile has the bottom velocity at the lower and the top velocity at the upper end of the domain, exactly when
the domain starts at zero (or the two are equal). -/
theorem linear_profile_ends (lo hi bottom top : K) (h : lo < hi) :
    (linearProfile lo hi bottom top lo = bottom ∧ linearProfile lo hi bottom top hi = top) ↔ lo = 0 ∨ top = bottom := by
  have hne : hi - lo ≠ 0 := sub_ne_zero.mpr h.ne'
  unfold linearProfile
  constructor
  · rintro ⟨h1, -⟩
    have : lo * (top - bottom) / (hi - lo) = 0 := by linarith
    rw [div_eq_zero_iff] at this
    rcases this with h2 | h2
    · rcases mul_eq_zero.mp h2 with h3 | h3
      · exact Or.inl h3
      · exact Or.inr (by linarith)
    · exact absurd h2 hne
  · rintro (rfl | rfl)
    · constructor
      · simp
      · rw [sub_zero] at hne ⊢
        field_simp
        ring
    · simp

/-- A domain that starts at -100 m. -/
example : linearProfile (-100 : ℚ) 900 4 20 (-100) = 12 / 5 := by norm_num [linearProfile]

/-- **C91.**  Without terrain the given profile is read at the coordinate of the cell, but never lower than half a cell; over terrain at
the height above it. -/
theorem profile_height_spec (dz z : K) (terrain : Option K) :
    (1 / 2 * dz ≤ z - terrain.getD 0 → profileHeight dz terrain z = z - terrain.getD 0) ∧
      (z - terrain.getD 0 ≤ 1 / 2 * dz → profileHeight dz terrain z = 1 / 2 * dz) := by
  unfold profileHeight
  exact ⟨fun h => max_eq_right h, fun h => max_eq_left h⟩

/-- **C91.**  With `initial_wind_profile` but no profile file the first element of an empty array is read. -/
theorem profile_missing (z : K) : profileAt ([] : List K) [] z = none := by simp [profileAt]

/-- **C91.**  A given profile stays between the values next to the height: for a nondecreasing table, bounds of all values bound the
initial wind. -/
theorem profile_bounded (hts vals : List K) (hs : Sorted hts) (hm : vals.length = hts.length) (h2 : 2 ≤ hts.length) (m M z : K)
    (hb : ∀ v ∈ vals, m ≤ v ∧ v ≤ M) : ∃ v, profileAt hts vals z = some v ∧ m ≤ v ∧ v ≤ M := by
  have hmt : Matches hts vals 1 0 := ⟨by rw [hm]; simp, by omega⟩
  unfold profileAt
  rw [if_pos (by omega)]
  obtain ⟨x0, xn, y0, yn, -, -, gy0, gyn, hc⟩ := linear_cases hts vals hs 1 0 hmt h2 z
  rcases hc with ⟨-, e⟩ | ⟨-, e⟩ | ⟨-, -, i, xl, xr, yl, yr, -, -, hl, hr, k1, k2, -, e⟩
  · exact ⟨y0, e, hb y0 (List.mem_of_getElem? gy0)⟩
  · exact ⟨yn, e, hb yn (List.mem_of_getElem? gyn)⟩
  · refine ⟨_, e, ?_⟩
    have w0 := wR_nonneg (xr := xr) k1
    have w1 := wR_le_one (xl := xl) k2
    obtain ⟨a1, a2⟩ := hb yl (List.mem_of_getElem? hl)
    obtain ⟨b1, b2⟩ := hb yr (List.mem_of_getElem? hr)
    constructor <;> nlinarith

/-- **C91.**  The mean wind of a table is the wind of its first row, speed and direction the wind blows to. -/
theorem table_wind (vel : Vec ℝ) (t s a : ℝ) (hs : 0 ≤ s) :
    let w := meanWind vel (some (t, s, a))
    mag w = s ∧ w.z = 0 ∧ w.x = s * Real.cos (Real.pi * a / 180) ∧ w.y = s * Real.sin (Real.pi * a / 180) := by
  refine ⟨?_, rfl, rfl, rfl⟩
  unfold meanWind mag magSqr
  have : s * Real.cos (Real.pi * a / 180) * (s * Real.cos (Real.pi * a / 180)) +
      s * Real.sin (Real.pi * a / 180) * (s * Real.sin (Real.pi * a / 180)) + 0 * 0 = s ^ 2 := by
    linear_combination s ^ 2 * Real.sin_sq_add_cos_sq (Real.pi * a / 180)
  simp only
  first
    | rw [this, Real.sqrt_sq hs]
    | (convert Real.sqrt_sq hs using 2; linear_combination this)

/-! ## Perturbations of the velocity -/

theorem bell (x : ℝ) : |x| * (Real.exp (1 / 2) * Real.exp (-(1 / 2) * x * x)) ≤ 1 := by
  have h := Real.add_one_le_exp ((x ^ 2 - 1) / 2)
  have h1 : |x| ≤ Real.exp ((x ^ 2 - 1) / 2) := by
    have : |x| ≤ (x ^ 2 - 1) / 2 + 1 := by
      have hs : |x| ^ 2 = x ^ 2 := sq_abs x
      nlinarith [sq_nonneg (|x| - 1)]
    linarith
  have e : Real.exp (1 / 2) * Real.exp (-(1 / 2) * x * x) = (Real.exp ((x ^ 2 - 1) / 2))⁻¹ := by
    rw [← Real.exp_add, ← Real.exp_neg]; congr 1; ring
  rw [e, ← div_eq_mul_inv, div_le_one (Real.exp_pos _)]
  exact h1

/-- **C91.**  The perturbation is nowhere larger than the amplitude asked for, and reaches it at the reference height. -/
theorem perturb_amplitude (delta ref periods len y z : ℝ) (hr : ref ≠ 0) :
    |perturb delta ref periods len y z| ≤ |delta| ∧ perturb delta ref periods len 0 ref = delta := by
  constructor
  · have e : perturb delta ref periods len y z =
        delta * ((z / ref) * (Real.exp (1 / 2) * Real.exp (-(1 / 2) * (z / ref) * (z / ref)))) *
          Real.cos (periods * 2 * Real.pi / len * y) := by
      unfold perturb
      field_simp
    rw [e, abs_mul, abs_mul]
    have hb : |(z / ref) * (Real.exp (1 / 2) * Real.exp (-(1 / 2) * (z / ref) * (z / ref)))| ≤ 1 := by
      rw [abs_mul, abs_of_pos (mul_pos (Real.exp_pos _) (Real.exp_pos _))]
      exact bell (z / ref)
    have hc := Real.abs_cos_le_one (periods * 2 * Real.pi / len * y)
    calc |delta| * _ * _ ≤ |delta| * 1 * 1 := by
          apply mul_le_mul (mul_le_mul_of_nonneg_left hb (abs_nonneg _)) hc (abs_nonneg _) (by positivity)
      _ = |delta| := by ring
  · unfold perturb
    rw [div_self hr, mul_zero, Real.cos_zero]
    have : Real.exp (-(1 / 2) * 1 * 1) = (Real.exp (1 / 2))⁻¹ := by
      rw [← Real.exp_neg]; norm_num
    rw [this]
    field_simp

/-- **C91.**  A whole number of periods fits a periodic domain. -/
theorem perturb_periodic (delta ref len y z : ℝ) (n : ℤ) (hl : len ≠ 0) :
    perturb delta ref n len (y + len) z = perturb delta ref n len y z := by
  unfold perturb
  congr 1
  have : (n : ℝ) * 2 * Real.pi / len * (y + len) = n * 2 * Real.pi / len * y + n * (2 * Real.pi) := by field_simp
  rw [this, Real.cos_add_int_mul_two_pi]

/-- Half a period does not (any number is accepted). -/
theorem perturb_half_jumps (delta ref len z : ℝ) (hd : delta ≠ 0) (hr : ref ≠ 0) (hz : z ≠ 0) (hl : len ≠ 0) :
    perturb delta ref (1 / 2) len len z = - perturb delta ref (1 / 2) len 0 z ∧ perturb delta ref (1 / 2) len 0 z ≠ 0 := by
  unfold perturb
  have : (1 / 2 : ℝ) * 2 * Real.pi / len * len = Real.pi := by field_simp
  rw [this, Real.cos_pi, mul_zero, Real.cos_zero]
  refine ⟨by ring, ?_⟩
  have := Real.exp_pos (1 / 2)
  have h2 := Real.exp_pos (-(1 / 2) * (z / ref) * (z / ref))
  simp only [mul_one]
  exact mul_ne_zero (mul_ne_zero (div_ne_zero (mul_ne_zero hd this.ne') hr) h2.ne') hz

theorem cos_sum (th : ℝ) (n : ℕ) :
    2 * Real.sin (th / 2) * ∑ j ∈ Finset.range n, Real.cos (th * (j + 1 / 2)) = Real.sin (n * th) := by
  induction n with
  | zero => simp
  | succ n ih =>
    rw [Finset.sum_range_succ, mul_add, ih]
    have e : 2 * Real.sin (th / 2) * Real.cos (th * (n + 1 / 2)) = Real.sin ((n + 1 : ℕ) * th) - Real.sin (n * th) := by
      have h1 : ((n + 1 : ℕ) : ℝ) * th = th * (n + 1 / 2) + th / 2 := by push_cast; ring
      have h2 : (n : ℝ) * th = th * (n + 1 / 2) - th / 2 := by ring
      rw [h1, h2, Real.sin_add, Real.sin_sub]
      ring
    rw [e]; ring

/-- **C91.**  The perturbation does not change the mean of a plane: its sum over the `n` cells of a row is zero when a whole number of
periods fits and that number is not a multiple of the number of cells. -/
theorem perturb_mean_zero (delta ref lo dy z : ℝ) (n : ℕ) (U : ℤ) (hn : 0 < n) (hdy : dy ≠ 0) (h : ¬ (n : ℤ) ∣ U) :
    ∑ j ∈ Finset.range n, perturb delta ref U (n * dy) (lo + (j + 1 / 2) * dy - lo) z = 0 := by
  unfold perturb
  rw [← Finset.mul_sum]
  apply mul_eq_zero_of_right
  have hn' : (n : ℝ) ≠ 0 := Nat.cast_ne_zero.mpr hn.ne'
  have e : ∀ j : ℕ, (U : ℝ) * 2 * Real.pi / (n * dy) * (lo + (j + 1 / 2) * dy - lo) = (U * 2 * Real.pi / n) * (j + 1 / 2) := by
    intro j; field_simp; ring
  simp only [e]
  have hs := cos_sum (U * 2 * Real.pi / n) n
  have h1 : (n : ℝ) * (U * 2 * Real.pi / n) = U * (2 * Real.pi) := by field_simp
  have h2 : Real.sin ((U : ℝ) * (2 * Real.pi)) = 0 := by
    have := Real.sin_int_mul_pi (U * 2)
    push_cast at this
    rw [show (U : ℝ) * (2 * Real.pi) = U * 2 * Real.pi by ring]; exact this
  rw [h1, h2] at hs
  rcases mul_eq_zero.mp hs with h3 | h3
  · exfalso
    have h4 : Real.sin (U * 2 * Real.pi / n / 2) = 0 := by linarith [mul_eq_zero.mp h3 |>.resolve_left (by norm_num)]
    obtain ⟨m, hm⟩ := Real.sin_eq_zero_iff.mp h4
    apply h
    refine ⟨m, ?_⟩
    have h5 : (m : ℝ) * n = U := by
      have hpi := Real.pi_ne_zero
      have : (m : ℝ) * Real.pi = U * Real.pi / n := by rw [hm]; ring
      rw [eq_div_iff hn'] at this
      have h6 : ((m : ℝ) * n - U) * Real.pi = 0 := by linear_combination this
      rcases mul_eq_zero.mp h6 with h7 | h7
      · linarith
      · exact absurd h7 hpi
    have : m * (n : ℤ) = U := by exact_mod_cast h5
    rw [← this]; ring
  · exact h3

example (delta ref lo z : ℝ) : ∑ j ∈ Finset.range 64, perturb delta ref (4 : ℤ) ((64 : ℕ) * 10) (lo + (j + 1 / 2) * 10 - lo) z = 0 :=
  perturb_mean_zero delta ref lo 10 z 64 4 (by norm_num) (by norm_num) (by decide)

/-- With as many periods as cells every cell of the row gets the same value: the mean changes (four periods on four cells). -/
theorem perturb_mean_aliased (delta ref z : ℝ) (hd : delta ≠ 0) (hr : ref ≠ 0) (hz : z ≠ 0) :
    ∑ j ∈ Finset.range 4, perturb delta ref (4 : ℤ) (4 * 1) (0 + ((j : ℝ) + 1 / 2) * 1 - 0) z ≠ 0 := by
  unfold perturb
  rw [← Finset.mul_sum]
  have hc : ∀ j : ℕ, Real.cos (((4 : ℤ) : ℝ) * 2 * Real.pi / (4 * 1) * (0 + ((j : ℝ) + 1 / 2) * 1 - 0)) = -1 := by
    intro j
    have : ((4 : ℤ) : ℝ) * 2 * Real.pi / (4 * 1) * (0 + ((j : ℝ) + 1 / 2) * 1 - 0) = Real.pi + (j : ℕ) * (2 * Real.pi) := by
      push_cast; ring
    rw [this, Real.cos_add_nat_mul_two_pi, Real.cos_pi]
  simp only [hc]
  have := Real.exp_pos (1 / 2)
  have h2 := Real.exp_pos (-(1 / 2) * (z / ref) * (z / ref))
  apply mul_ne_zero (mul_ne_zero (mul_ne_zero (div_ne_zero (mul_ne_zero hd this.ne') hr) h2.ne') hz)
  norm_num

/-- **C91.**  The perturbation is divergence free, also for differences over cells of any size: the first component depends on `y` and
`z` only, the second on `x` and `z`, the third is not perturbed. -/
theorem perturb_divergence_free (dU dV ref pU pV lx ly dx dy : ℝ) (i j : ℤ) (z : ℝ) :
    let u := fun (_i j : ℤ) => perturb dU ref pU ly ((j + 1 / 2) * dy) z
    let v := fun (i _j : ℤ) => perturb dV ref pV lx ((i + 1 / 2) * dx) z
    (u (i + 1) j - u (i - 1) j) / (2 * dx) + (v i (j + 1) - v i (j - 1)) / (2 * dy) = 0 := by
  simp

/-! ## Density, perturbation switch -/

/-- **C91.**  From an input file the density is the one given; with a NetCDF profile it is never set (and the perturbations are always
added, whatever the input file says). -/
theorem density_set (g : Given) :
    (g.netcdf = false → g.rho = some g.density ∧ g.perturbs = g.perturbVelocity.getD true) ∧
      (g.netcdf = true → g.rho = none ∧ g.perturbs = true) := by
  unfold Given.rho Given.perturbs
  constructor <;> intro h <;> simp [h]

/-! ## Energy -/

/-- **C91.**  The profile of Beare et al. is positive, at most the factor between the ground (at zero) and the cutoff, decreases with
height and falls to nothing at the cutoff. -/
theorem tke_beare (const factor cutoff tiny dz : ℝ) (hts vals : List ℝ) (terrain : Option ℝ) (hf : 0 < factor) (hc : 0 < cutoff) (z : ℝ) :
    ∃ k, tke const false true factor cutoff tiny hts vals dz terrain z = some k ∧
      (z < cutoff → 0 < k ∧ k = factor * (1 - z / cutoff) ^ 3 ∧ (0 ≤ z → k ≤ factor) ∧ (z < 0 → factor < k)) ∧
      (cutoff ≤ z → k = tiny) := by
  refine ⟨_, rfl, ?_, ?_⟩
  · intro h
    simp only [if_pos h]
    have h1 : z / cutoff < 1 := (div_lt_one hc).mpr h
    have e : (1 - z / cutoff) ^ (3 : ℝ) = (1 - z / cutoff) ^ (3 : ℕ) := by
      rw [← Real.rpow_natCast]; norm_num
    rw [e]
    have hp : 0 < 1 - z / cutoff := by linarith
    refine ⟨mul_pos hf (pow_pos hp 3), rfl, ?_, ?_⟩
    · intro hz
      have : 0 ≤ z / cutoff := div_nonneg hz hc.le
      have : (1 - z / cutoff) ^ 3 ≤ 1 := pow_le_one₀ hp.le (by linarith)
      nlinarith
    · intro hz
      have : z / cutoff < 0 := div_neg_of_neg_of_pos hz hc
      have : 1 < (1 - z / cutoff) ^ 3 := one_lt_pow₀ (by linarith) (by norm_num)
      nlinarith
  · intro h
    simp only [if_neg (not_lt.mpr h)]

/-- **C91.**  With a given wind profile the energy is that of the profile, and neither the constant nor the profile of Beare et al. has
an effect. -/
theorem tke_profile (const c2 factor f2 cutoff cut2 tiny dz z : ℝ) (b b2 : Bool) (hts vals : List ℝ) (terrain : Option ℝ) :
    tke const true b factor cutoff tiny hts vals dz terrain z = tke c2 true b2 f2 cut2 tiny hts vals dz terrain z := rfl

/-- **C91.**  The energy in the three cases: interpolated in the profile, the least value where the profile is empty, the constant. -/
theorem tke_cases (const factor cutoff tiny dz z : ℝ) (hts vals : List ℝ) (terrain : Option ℝ) :
    (hts ≠ [] → tke const true false factor cutoff tiny hts vals dz terrain z = Interp.linear hts vals (profileHeight dz terrain z) 1 0) ∧
    tke const true false factor cutoff tiny [] vals dz terrain z = some tiny ∧
    tke const false false factor cutoff tiny hts vals dz terrain z = some const := by
  refine ⟨fun h => ?_, ?_, ?_⟩
  · simp [tke, List.length_pos_iff.mpr h]
  · simp [tke]
  · simp [tke]

/-! ## Velocity from a file -/

/-- **C91.**  Every cell of level 0 gets the value of the file at its own indices, whatever the division of the domain into boxes. -/
theorem file_cells (file : ℕ → ℕ → ℕ → K) (lo hi : ℕ × ℕ × ℕ) (i j k : ℕ) (hi1 : lo.1 ≤ i ∧ i ≤ hi.1)
    (hj : lo.2.1 ≤ j ∧ j ≤ hi.2.1) (hk : lo.2.2 ≤ k ∧ k ≤ hi.2.2) : fromFile file lo hi i j k = some (file i j k) := by
  obtain ⟨a, b, c⟩ := lo
  obtain ⟨a', b', c'⟩ := hi
  simp only at hi1 hj hk
  unfold fromFile block
  simp only
  obtain ⟨p, rfl⟩ := Nat.exists_eq_add_of_le hi1.1
  obtain ⟨q, rfl⟩ := Nat.exists_eq_add_of_le hj.1
  obtain ⟨r, rfl⟩ := Nat.exists_eq_add_of_le hk.1
  rw [Nat.add_sub_cancel_left, Nat.add_sub_cancel_left, Nat.add_sub_cancel_left]
  obtain ⟨N, hN⟩ : ∃ N, N = a' - a + 1 := ⟨_, rfl⟩
  obtain ⟨M, hM⟩ : ∃ M, M = b' - b + 1 := ⟨_, rfl⟩
  obtain ⟨L, hL⟩ : ∃ L, L = c' - c + 1 := ⟨_, rfl⟩
  rw [← hN, ← hM, ← hL]
  have hp : p < N := by omega
  have hq : q < M := by omega
  have hr : r < L := by omega
  have hL0 : 0 < L := by omega
  have hM0 : 0 < M := by omega
  have e1 : p * L * M + q * L + r = (p * M + q) * L + r := by ring
  have hlt : p * L * M + q * L + r < N * M * L := by
    rw [e1]
    have h1 : p * M + q + 1 ≤ N * M := by
      calc p * M + q + 1 ≤ p * M + M := by omega
        _ = (p + 1) * M := by ring
        _ ≤ N * M := Nat.mul_le_mul_right _ hp
    calc (p * M + q) * L + r < (p * M + q) * L + L := by omega
      _ = (p * M + q + 1) * L := by ring
      _ ≤ N * M * L := Nat.mul_le_mul_right _ h1
  rw [if_pos hlt]
  have d1 : (p * L * M + q * L + r) / L = p * M + q := by
    rw [e1, Nat.add_comm, Nat.add_mul_div_right _ _ hL0, Nat.div_eq_of_lt hr, Nat.zero_add]
  have d2 : (p * L * M + q * L + r) % L = r := by
    rw [e1, Nat.add_comm, Nat.add_mul_mod_self_right, Nat.mod_eq_of_lt hr]
  have d3 : (p * L * M + q * L + r) / (M * L) = p := by
    rw [Nat.mul_comm M L, ← Nat.div_div_eq_div_mul, d1, Nat.add_comm, Nat.add_mul_div_right _ _ hM0, Nat.div_eq_of_lt hq, Nat.zero_add]
  have d4 : (p * M + q) % M = q := by
    rw [Nat.add_comm, Nat.add_mul_mod_self_right, Nat.mod_eq_of_lt hq]
  rw [d3, d1, d4, d2]

example (file : ℕ → ℕ → ℕ → ℚ) : fromFile file (8, 16, 0) (15, 31, 7) 10 20 3 = some (file 10 20 3) :=
  file_cells file _ _ 10 20 3 (by decide) (by decide) (by decide)

/-- **C91.**  On refined levels all ranks take part in the (collective) fill from the coarse level exactly when every rank has a box of
the level, or none; otherwise the ranks with boxes wait for the others. -/
theorem fill_collective (level : ℕ) (boxes : List ℕ) :
    (∃ c, ∀ b ∈ boxes, callsFill level b = c) ↔ level = 0 ∨ (∀ b ∈ boxes, b = 0) ∨ ∀ b ∈ boxes, b ≠ 0 := by
  unfold callsFill
  constructor
  · rintro ⟨c, h⟩
    by_cases hl : level = 0
    · exact Or.inl hl
    · right
      cases c with
      | false =>
        left; intro b hb
        have := h b hb
        simp [hl] at this
        exact this
      | true =>
        right; intro b hb
        have := h b hb
        simp [hl] at this
        omega
  · rintro (h | h | h)
    · exact ⟨false, fun b _ => by simp [h]⟩
    · exact ⟨false, fun b hb => by simp [h b hb]⟩
    · by_cases hl : level = 0
      · exact ⟨false, fun b _ => by simp [hl]⟩
      · exact ⟨true, fun b hb => by
          have := h b hb
          simp [hl]; omega⟩

/-- Two ranks, one box on level 1: one calls, the other does not. -/
example : callsFill 1 1 = true ∧ callsFill 1 0 = false := by decide

end AmrWind.Init
