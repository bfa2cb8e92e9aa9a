import Verif.Sampling.SpinProps
import Mathlib.Data.List.Range

/-!
# C112: the radar sweeps as prescribed and reports the velocity along its beams
-/

set_option linter.unusedSectionVars false

namespace AmrWind.Beam

open Vs

/-! ## The sweep -/

section sweep
variable {K : Type*} [Field K] [LinearOrder K] [IsStrictOrderedRing K] [FloorRing K]

/-- Usable inputs of the sweep. -/
structure Sweep.Ok (s : Sweep K) : Prop where
  angle : 0 ≤ s.angle
  speed : 0 < s.speed
  reset : 0 ≤ s.reset
  pos : 0 < s.angle / s.speed + s.reset
  elev : s.elevations ≠ []

theorem Sweep.speed_mul (s : Sweep K) (h : s.Ok) : s.speed * (s.angle / s.speed) = s.angle := by
  have := h.speed.ne'
  field_simp

/-- **C112.** Sweep number `n`, at the time `u` after its beginning: even sweeps go from minus half to plus half the sweep
angle at the given speed and then rest there for the reset time, odd ones go back likewise; the elevation is constant in
each sweep, the entries of the list are taken in turn. -/
theorem sweep_spec (s : Sweep K) (h : s.Ok) (n : ℕ) (u : K) (h0 : 0 ≤ u) (h1 : u < s.angle / s.speed + s.reset) :
    s.at (n * (s.angle / s.speed + s.reset) + u) =
      (if n % 2 = 0 then (if u < s.angle / s.speed then -(s.angle / 2) + s.speed * u else s.angle / 2)
        else (if u < s.angle / s.speed then s.angle / 2 - s.speed * u else -(s.angle / 2))) ∧
    s.elevation (n * (s.angle / s.speed + s.reset) + u) = s.elevations[n % s.elevations.length]? := by
  set d := s.angle / s.speed with hd
  set T := d + s.reset with hT
  have hTp : 0 < T := h.pos
  have hd0 : 0 ≤ d := div_nonneg h.angle h.speed.le
  have hsd : s.speed * d = s.angle := s.speed_mul h
  have htot : s.total = 2 * T := rfl
  constructor
  · rcases Nat.even_or_odd' n with ⟨m, rfl | rfl⟩
    · have hp : s.periodic (((2 * m : ℕ) : K) * T + u) = u := by
        unfold Sweep.periodic
        rw [htot]
        have : ⌊(((2 * m : ℕ) : K) * T + u) / (2 * T)⌋ = (m : ℤ) := by
          rw [Int.floor_eq_iff]
          push_cast
          rw [le_div_iff₀ (by linarith), div_lt_iff₀ (by linarith)]
          constructor <;> nlinarith
        rw [this]; push_cast; ring
      rw [if_pos (by omega)]
      unfold Sweep.at Sweep.atCycle Sweep.phase
      rw [hp, ← hd]
      by_cases hu : u < d
      · rw [if_pos hu]; simp only [hu, if_true]; ring
      · have h1' : u < d + s.reset := h1
        rw [if_neg hu]; simp only [hu, h1', if_false, if_true]
    · have hp : s.periodic (((2 * m + 1 : ℕ) : K) * T + u) = T + u := by
        unfold Sweep.periodic
        rw [htot]
        have : ⌊(((2 * m + 1 : ℕ) : K) * T + u) / (2 * T)⌋ = (m : ℤ) := by
          rw [Int.floor_eq_iff]
          push_cast
          rw [le_div_iff₀ (by linarith), div_lt_iff₀ (by linarith)]
          constructor <;> nlinarith
        rw [this]; push_cast; ring
      rw [if_neg (by omega)]
      unfold Sweep.at Sweep.atCycle Sweep.phase
      rw [hp, ← hd]
      have n1 : ¬ T + u < d := by have := h.reset; linarith
      have n2 : ¬ T + u < d + s.reset := by linarith
      by_cases hu : u < d
      · have n3 : T + u < 2 * d + s.reset := by linarith
        rw [if_pos hu]; simp only [n1, n2, n3, if_false, if_true]
        rw [hT]; linear_combination (-1 : K) * hsd
      · have n3 : ¬ T + u < 2 * d + s.reset := by linarith
        rw [if_neg hu]; simp only [n1, n2, n3, if_false]
        ring
  · have : s.count ((n : K) * T + u) = n := by
      unfold Sweep.count
      rw [← hd, ← hT, Int.floor_eq_iff]
      rw [le_div_iff₀ hTp, div_lt_iff₀ hTp]
      push_cast
      constructor <;> nlinarith
    unfold Sweep.elevation
    rw [this]
    simp

/-- Where the radar is in its sweeps. -/
theorem sweep_decompose (s : Sweep K) (h : s.Ok) (t : K) (ht : 0 ≤ t) :
    ∃ (n : ℕ) (u : K), t = n * (s.angle / s.speed + s.reset) + u ∧ 0 ≤ u ∧ u < s.angle / s.speed + s.reset := by
  have hT := h.pos
  refine ⟨⌊t / (s.angle / s.speed + s.reset)⌋.toNat,
    t - ⌊t / (s.angle / s.speed + s.reset)⌋ * (s.angle / s.speed + s.reset), ?_, ?_, ?_⟩
  · have h0 : 0 ≤ ⌊t / (s.angle / s.speed + s.reset)⌋ := Int.floor_nonneg.mpr (div_nonneg ht hT.le)
    have e : ((⌊t / (s.angle / s.speed + s.reset)⌋.toNat : ℕ) : K) = (⌊t / (s.angle / s.speed + s.reset)⌋ : K) := by
      conv_rhs => rw [← Int.toNat_of_nonneg h0]
      push_cast; rfl
    rw [e]; ring
  · have := Int.floor_le (t / (s.angle / s.speed + s.reset))
    rw [le_div_iff₀ hT] at this
    linarith
  · have := Int.lt_floor_add_one (t / (s.angle / s.speed + s.reset))
    rw [div_lt_iff₀ hT] at this
    linarith

/-- **C112.** At all times the sweep angle is within half the sweep angle to each side, and the elevation is one of those
given. -/
theorem sweep_range (s : Sweep K) (h : s.Ok) (t : K) (ht : 0 ≤ t) :
    |s.at t| ≤ s.angle / 2 ∧ ∃ e, s.elevation t = some e ∧ e ∈ s.elevations := by
  obtain ⟨n, u, rfl, h0, h1⟩ := sweep_decompose s h t ht
  obtain ⟨e1, e2⟩ := sweep_spec s h n u h0 h1
  have hsd := s.speed_mul h
  have hsp := h.speed
  have ha := h.angle
  constructor
  · rw [e1, abs_le]
    have k : ∀ u, u < s.angle / s.speed → s.speed * u ≤ s.angle := by
      intro u hu
      rw [← hsd]
      exact mul_le_mul_of_nonneg_left hu.le hsp.le
    have k0 : 0 ≤ s.speed * u := mul_nonneg hsp.le h0
    split_ifs with c1 c2 c2
    · have := k u c2; constructor <;> linarith
    · constructor <;> linarith
    · have := k u c2; constructor <;> linarith
    · constructor <;> linarith
  · rw [e2]
    have hl : 0 < s.elevations.length := List.length_pos_of_ne_nil h.elev
    have := Nat.mod_lt n hl
    exact ⟨_, List.getElem?_eq_getElem this, List.getElem_mem _⟩

/-- The distance swept from the end position, as one formula. -/
theorem cycle_formula (s : Sweep K) (h : s.Ok) (p : K) (h0 : 0 ≤ p) :
    s.atCycle p = -(s.angle / 2) +
      s.speed * max 0 (min (s.angle / s.speed) (min p (2 * (s.angle / s.speed) + s.reset - p))) := by
  set d := s.angle / s.speed with hd
  have hd0 : 0 ≤ d := div_nonneg h.angle h.speed.le
  have hsd : s.speed * d = s.angle := s.speed_mul h
  have hr := h.reset
  unfold Sweep.atCycle Sweep.phase
  rw [← hd]
  by_cases h1 : p < d
  · simp only [h1, if_true]
    rw [min_eq_left (show p ≤ 2 * d + s.reset - p by linarith), min_eq_right h1.le, max_eq_right h0]
    ring
  · by_cases h2 : p < d + s.reset
    · simp only [h1, h2, if_true, if_false]
      rw [min_eq_left (show d ≤ min p (2 * d + s.reset - p) from le_min (by linarith) (by linarith)), max_eq_right hd0,
        hsd]
      ring
    · by_cases h3 : p < 2 * d + s.reset
      · simp only [h1, h2, h3, if_true, if_false]
        rw [min_eq_right (show 2 * d + s.reset - p ≤ p by linarith),
          min_eq_right (show 2 * d + s.reset - p ≤ d by linarith), max_eq_right (by linarith)]
        linear_combination (-2 : K) * hsd
      · simp only [h1, h2, h3, if_false]
        rw [max_eq_left (le_trans (min_le_right _ _) (le_trans (min_le_right _ _) (by linarith)))]
        ring

theorem clamp_lipschitz (d e p q : K) : |max 0 (min d (min p (e - p))) - max 0 (min d (min q (e - q)))| ≤ |p - q| := by
  have h1 : |min p (e - p) - min q (e - q)| ≤ |p - q| := by
    refine (abs_min_sub_min_le_max p (e - p) q (e - q)).trans ?_
    rw [show e - p - (e - q) = -(p - q) by ring, abs_neg, max_self]
  have h2 : |min d (min p (e - p)) - min d (min q (e - q))| ≤ |min p (e - p) - min q (e - q)| := by
    refine (abs_min_sub_min_le_max d _ d _).trans ?_
    rw [sub_self, abs_zero]
    exact max_le (abs_nonneg _) le_rfl
  have h3 : |max 0 (min d (min p (e - p))) - max 0 (min d (min q (e - q)))| ≤
      |min d (min p (e - p)) - min d (min q (e - q))| := by
    refine (abs_max_sub_max_le_max 0 _ 0 _).trans ?_
    rw [sub_self, abs_zero]
    exact max_le (abs_nonneg _) le_rfl
  exact h3.trans (h2.trans h1)

theorem periodic_range (s : Sweep K) (h : s.Ok) (t : K) : 0 ≤ s.periodic t ∧ s.periodic t < s.total := by
  have hT : 0 < s.total := by unfold Sweep.total; linarith [h.pos]
  have f1 := Int.floor_le (t / s.total)
  have f2 := Int.lt_floor_add_one (t / s.total)
  rw [le_div_iff₀ hT] at f1
  rw [div_lt_iff₀ hT] at f2
  unfold Sweep.periodic
  constructor <;> linarith

/-- **C112.** The sweep angle never moves faster than the given speed, also across the turns, at all times. -/
theorem sweep_speed (s : Sweep K) (h : s.Ok) (t1 t2 : K) : |s.at t1 - s.at t2| ≤ s.speed * |t1 - t2| := by
  wlog h12 : t1 ≤ t2 with H
  · rw [abs_sub_comm, abs_sub_comm t1]
    exact H s h t2 t1 (le_of_not_ge h12)
  have hT : 0 < s.total := by unfold Sweep.total; linarith [h.pos]
  have hd0 : 0 ≤ s.angle / s.speed := div_nonneg h.angle h.speed.le
  have hr := h.reset
  obtain ⟨a0, a1⟩ := periodic_range s h t1
  obtain ⟨b0, b1⟩ := periodic_range s h t2
  have lip : ∀ p q, 0 ≤ p → 0 ≤ q → |s.atCycle p - s.atCycle q| ≤ s.speed * |p - q| := by
    intro p q hp hq
    rw [cycle_formula s h p hp, cycle_formula s h q hq]
    rw [show -(s.angle / 2) + s.speed * max 0 (min (s.angle / s.speed) (min p (2 * (s.angle / s.speed) + s.reset - p))) -
      (-(s.angle / 2) + s.speed * max 0 (min (s.angle / s.speed) (min q (2 * (s.angle / s.speed) + s.reset - q)))) =
      s.speed * (max 0 (min (s.angle / s.speed) (min p (2 * (s.angle / s.speed) + s.reset - p))) -
        max 0 (min (s.angle / s.speed) (min q (2 * (s.angle / s.speed) + s.reset - q)))) by ring]
    rw [abs_mul, abs_of_pos h.speed]
    exact mul_le_mul_of_nonneg_left (clamp_lipschitz _ _ _ _) h.speed.le
  have e0 : s.atCycle 0 = -(s.angle / 2) := by
    rw [cycle_formula s h 0 le_rfl, min_eq_left (show (0 : K) ≤ 2 * (s.angle / s.speed) + s.reset - 0 by linarith),
      min_eq_right hd0, max_self]
    ring
  have eT : s.atCycle s.total = -(s.angle / 2) := by
    rw [cycle_formula s h s.total hT.le, max_eq_left, mul_zero, add_zero]
    refine le_trans (min_le_right _ _) (le_trans (min_le_right _ _) ?_)
    unfold Sweep.total
    linarith
  have p1 : t1 = s.periodic t1 + ⌊t1 / s.total⌋ * s.total := by unfold Sweep.periodic; ring
  have p2 : t2 = s.periodic t2 + ⌊t2 / s.total⌋ * s.total := by unfold Sweep.periodic; ring
  have hm : ⌊t1 / s.total⌋ ≤ ⌊t2 / s.total⌋ := Int.floor_le_floor (div_le_div_of_nonneg_right h12 hT.le)
  rcases eq_or_lt_of_le hm with heq | hlt
  · have : t1 - t2 = s.periodic t1 - s.periodic t2 := by
      conv_lhs => rw [p1, p2, heq]
      ring
    rw [this]
    exact lip _ _ a0 b0
  · have hi : (⌊t1 / s.total⌋ : K) + 1 ≤ ⌊t2 / s.total⌋ := by exact_mod_cast hlt
    have hmul := mul_le_mul_of_nonneg_right hi hT.le
    have l1 := lip (s.periodic t1) s.total a0 hT.le
    have l2 := lip 0 (s.periodic t2) le_rfl b0
    rw [eT, abs_sub_comm (s.periodic t1), abs_of_nonneg (show 0 ≤ s.total - s.periodic t1 by linarith)] at l1
    rw [e0, abs_sub_comm (0 : K), sub_zero, abs_of_nonneg b0] at l2
    rw [abs_sub_comm t1, abs_of_nonneg (show 0 ≤ t2 - t1 by linarith)]
    have tri := abs_sub_le (s.at t1) (-(s.angle / 2)) (s.at t2)
    have hb : s.speed * (s.total - s.periodic t1) + s.speed * s.periodic t2 ≤ s.speed * (t2 - t1) := by
      rw [← mul_add]
      refine mul_le_mul_of_nonneg_left ?_ h.speed.le
      linarith
    unfold Sweep.at at tri ⊢
    linarith

/-- A radar sweeping 60 degrees at 30 degrees a second, with a reset of one second, at two elevations. -/
def exSweep : Sweep ℚ := ⟨60, 30, 1, [0, 2]⟩

example : exSweep.Ok := ⟨by norm_num [exSweep], by norm_num [exSweep], by norm_num [exSweep], by norm_num [exSweep], by
  simp [exSweep]⟩

/-! ## Averages along a line of sight -/

theorem sums_spec (vals : ℕ → K) : ∀ (w : List K) (a b : K) (m : ℕ),
    (w.zipIdx m).foldl (fun (a : K × K) p => (a.1 + p.1, a.2 + p.1 * vals p.2)) (a, b) =
      (a + w.sum, b + ((w.zipIdx m).map fun p => p.1 * vals p.2).sum)
  | [], a, b, m => by simp
  | x :: w, a, b, m => by
    simp only [List.zipIdx_cons, List.foldl_cons, List.map_cons, List.sum_cons]
    rw [sums_spec vals w]
    refine Prod.ext ?_ ?_ <;> simp only <;> ring

/-- **C112.** The value of a line is the weighted mean over the rays of the values at the line's points. -/
theorem line_average_spec (w : List K) (values : ℕ → K) (n : ℕ) (hw : 0 < w.sum) :
    lineAverage w values n = ((w.zipIdx).map fun p => p.1 * values (w.length * n + p.2)).sum / w.sum := by
  unfold lineAverage
  rw [sums_spec (fun j => values (w.length * n + j)) w 0 0 0]
  simp only [zero_add]
  rw [if_pos hw]

theorem weighted_le (w : List K) (hw : ∀ x ∈ w, 0 ≤ x) (f : ℕ → K) (c : K) : ∀ m, (∀ j, f j ≤ c) →
    ((w.zipIdx m).map fun p => p.1 * f p.2).sum ≤ w.sum * c := by
  induction w with
  | nil => intro m _; simp
  | cons x w ih =>
    intro m hf
    simp only [List.zipIdx_cons, List.map_cons, List.sum_cons]
    have h1 := ih (fun y hy => hw y (by simp [hy])) (m + 1) hf
    have h2 := mul_le_mul_of_nonneg_left (hf m) (hw x (by simp))
    linarith

theorem weighted_ge (w : List K) (hw : ∀ x ∈ w, 0 ≤ x) (f : ℕ → K) (c : K) : ∀ m, (∀ j, c ≤ f j) →
    w.sum * c ≤ ((w.zipIdx m).map fun p => p.1 * f p.2).sum := by
  induction w with
  | nil => intro m _; simp
  | cons x w ih =>
    intro m hf
    simp only [List.zipIdx_cons, List.map_cons, List.sum_cons]
    have h1 := ih (fun y hy => hw y (by simp [hy])) (m + 1) hf
    have h2 := mul_le_mul_of_nonneg_left (hf m) (hw x (by simp))
    linarith

/-- **C112.** It lies between bounds of the values; a constant is kept. -/
theorem line_average_bounds (w : List K) (values : ℕ → K) (n : ℕ) (hw : 0 < w.sum) (hp : ∀ x ∈ w, 0 ≤ x) (a b : K)
    (ha : ∀ i, a ≤ values i) (hb : ∀ i, values i ≤ b) : a ≤ lineAverage w values n ∧ lineAverage w values n ≤ b := by
  rw [line_average_spec w values n hw, le_div_iff₀ hw, div_le_iff₀ hw]
  constructor
  · have := weighted_ge w hp (fun j => values (w.length * n + j)) a 0 (fun j => ha _)
    linarith
  · have := weighted_le w hp (fun j => values (w.length * n + j)) b 0 (fun j => hb _)
    linarith

theorem los_dot (nquad : ℕ) (unit : ℕ → Vec K) (k i : ℕ) (v : Vec K)
    (hu : dot (unit (i % nquad)) (unit (i % nquad)) = 1) :
    losVelocity nquad unit k i v = dot v (unit (i % nquad)) := by
  unfold dot at hu
  simp only [losVelocity, dot, vmul, unitProjection]
  linear_combination (v.x * (unit (i % nquad)).x + v.y * (unit (i % nquad)).y + v.z * (unit (i % nquad)).z) * hu

/-- **C112.** In the first cone of an update the velocity along the line of sight is the component along each ray,
averaged over the rays: line `n`, rays `dir j`, velocities `vel`.

Partial (C112). Missing: all other cones of a step (`los_other_cones_wrong`). -/
theorem los_first_cone_partial (w : List K) (unit dir : ℕ → Vec K) (ncone : ℕ) (vel : ℕ → Vec K) (n : ℕ) (hw : 0 < w.sum)
    (hd : ∀ j, j < w.length → unit j = dir j) (hu : ∀ j, j < w.length → dot (dir j) (dir j) = 1) :
    losLine w unit ncone vel 0 n =
      ((w.zipIdx).map fun p => p.1 * dot (vel (w.length * n + p.2)) (dir p.2)).sum / w.sum := by
  unfold losLine
  rw [line_average_spec _ _ _ hw]
  congr 2
  apply List.map_congr_left
  intro p hp
  have hlt : p.2 < w.length := by
    have := List.snd_lt_add_of_mem_zipIdx hp
    simpa using this
  have hmod : (w.length * n + p.2) % w.length = p.2 := by rw [Nat.mul_add_mod, Nat.mod_eq_of_lt hlt]
  rw [los_dot _ _ _ _ _ (by rw [hmod, hd _ hlt]; exact hu _ hlt), hmod, hd _ hlt]
  simp

/-- **C112, not met.** In the other cones of the update the component is taken along the rays of the first cone:
`unit (k * nquad + j)` is ray `j` of cone `k`, but the value of cone `k` does not depend on it. -/
theorem los_other_cones (w : List K) (unit unit' : ℕ → Vec K) (ncone : ℕ) (vel : ℕ → Vec K) (k n : ℕ) (hl : 0 < w.length)
    (h : ∀ j, j < w.length → unit j = unit' j) : losLine w unit ncone vel k n = losLine w unit' ncone vel k n := by
  unfold losLine losVelocity
  have : ∀ i, unit (i % w.length) = unit' (i % w.length) := fun i => h _ (Nat.mod_lt _ hl)
  simp only [this]

/-- ... two cones in a step, the first looking along `x`, the second along `y`, in a steady uniform flow of velocity one
along `y`: the second cone reports 0 or 1/2 instead of 1. The values are those written when the last update had the same
two cones. -/
theorem los_other_cones_wrong :
    let unit : ℕ → Vec ℚ := fun c => if c = 0 then ⟨1, 0, 0⟩ else ⟨0, 1, 0⟩
    let v : Vec ℚ := ⟨0, 1, 0⟩
    dot v (unit 1) = 1 ∧ losLine [1] unit 2 (fun _ => v) 1 0 = 0 ∧
      losOutput [1] unit 2 2 (fun _ => v) (losLine [1] unit 2 (fun _ => v)) 1 0 = 0 ∧
      losOutput [1] unit 2 2 (fun _ => v) (fun _ _ => 1) 1 0 = 1 / 2 := by
  decide +kernel

/-- **C112, not met.** The velocities at the cones of the last update are taken along the rays of the present one: cones
that turn from `x` to `y` in a steady uniform flow along `y` report 1/2 between them at place 1 of 2, if the rays of the
last update were used correctly it would be 0. -/
theorem los_prior_wrong :
    let now : ℕ → Vec ℚ := fun _ => ⟨0, 1, 0⟩
    let last : ℕ → Vec ℚ := fun _ => ⟨1, 0, 0⟩
    let v : Vec ℚ := ⟨0, 1, 0⟩
    losOutput [1] now 2 2 (fun _ => v) (losLine [1] last 2 (fun _ => v)) 1 0 = 1 / 2 ∧
      losOutput [1] last 2 2 (fun _ => v) (losLine [1] last 2 (fun _ => v)) 1 0 = 0 := by
  decide +kernel

/-- **C112.** The first cone is reported as it was found at the last update. -/
theorem los_output_first (w : List K) (unit : ℕ → Vec K) (ncone ntotal : ℕ) (vel : ℕ → Vec K) (prior : ℕ → ℕ → K) (n : ℕ) :
    losOutput w unit ncone ntotal vel prior 0 n = prior 0 n := by
  simp [losOutput]

/-- **C112, not met.** With `output_cone_points` more positions are written than the list has: the read is outside. -/
theorem cone_points_overrun {α : Type*} (locs : List α) (ntotal npts nquad : ℕ) (h1 : 0 < ntotal) (h2 : 0 < npts)
    (hq : 1 ≤ nquad) (hl : locs.length = numOutput ntotal npts) : writeConePoints locs ntotal npts nquad = none := by
  unfold writeConePoints
  rw [if_neg]
  rw [hl]
  unfold numPointsAll numOutput
  have : 0 < ntotal * npts := Nat.mul_pos h1 h2
  have e : 2 * ntotal * (npts + (nquad - 1) * npts) = 2 * (ntotal * npts) + 2 * ntotal * ((nquad - 1) * npts) := by ring
  rw [e]
  omega

/-- **C112, not met.** The places for cones are counted once, for the first step: if later steps are longer than these
places, the radar falls behind without bound. -/
theorem radar_falls_behind (dt0 dt dts t0 : K) (hs : 0 ≤ dts) (n : ℕ) :
    n * (dt - (numPlaces dt0 dts).toNat * dts) ≤ lagAt dt dts (numPlaces dt0 dts) t0 dt n :=
  lag_grows dt dts t0 dt _ hs n

/-- **C112, not met.** With NetCDF output the velocity must be sampled by every sampling object, also by those without a
radar: sampling the temperature alone aborts. -/
theorem netcdf_needs_velocity : lineOfSightAccepts "netcdf" ["temperature"] = false ∧
    lineOfSightAccepts "native" ["temperature"] = true ∧
    lineOfSightAccepts "netcdf" ["temperature", "velocityx", "velocityy", "velocityz"] = true := by decide

end sweep

/-! ## The cone -/

/-- Unit vector. -/
def IsUnit' (v : Vec ℝ) : Prop := dot v v = 1

theorem cap_range {gam s : ℝ} (h1 : -1 ≤ s) (h2 : s ≤ 1) : Real.cos gam ≤ capCos gam s ∧ capCos gam s ≤ 1 := by
  have := Real.cos_le_one gam
  unfold capCos
  constructor <;> nlinarith

theorem ray_norm (eps : ℝ) (he : eps ≤ 1) (tau th : ℝ) (h1 : -1 ≤ tau) (h2 : tau ≤ 1) :
    Vs.normalize eps ⟨Real.sqrt (1 - tau * tau) * Real.cos th, Real.sqrt (1 - tau * tau) * Real.sin th, tau⟩ =
      ⟨Real.sqrt (1 - tau * tau) * Real.cos th, Real.sqrt (1 - tau * tau) * Real.sin th, tau⟩ ∧
    IsUnit' ⟨Real.sqrt (1 - tau * tau) * Real.cos th, Real.sqrt (1 - tau * tau) * Real.sin th, tau⟩ := by
  have hs := Real.mul_self_sqrt (show 0 ≤ 1 - tau * tau by nlinarith)
  have hcs := Real.sin_sq_add_cos_sq th
  have hm : magSqr ⟨Real.sqrt (1 - tau * tau) * Real.cos th, Real.sqrt (1 - tau * tau) * Real.sin th, tau⟩ = 1 := by
    simp only [magSqr]
    linear_combination (Real.sqrt (1 - tau * tau)) ^ 2 * hcs + hs
  have hmag : mag ⟨Real.sqrt (1 - tau * tau) * Real.cos th, Real.sqrt (1 - tau * tau) * Real.sin th, tau⟩ = 1 := by
    unfold mag; rw [hm, Real.sqrt_one]
  constructor
  · unfold Vs.normalize
    rw [if_neg (by rw [hmag]; exact not_lt.mpr he), hmag]
    simp
  · simpa [IsUnit', dot, magSqr] using hm

theorem flatMap_range_length {α β : Type*} (n : ℕ) (g : α → ℕ → β) (l : List α) :
    (l.flatMap fun p => (List.range n).map (g p)).length = n * l.length := by
  induction l with
  | nil => simp
  | cons a l ih => rw [List.flatMap_cons, List.length_append, ih]; simp; ring

/-- **C112.** The rays of the quadrature: unit vectors, all within the given half angle of the axis, one ray on the axis
itself and `ntheta` for each further abscissa; the weights are not negative and add up to the solid angle times the sum of
the weights of the rule, for a rule on the interval from -1 to 1. -/
theorem cap_spec (eps gam : ℝ) (he : eps ≤ 1) (ntheta : ℕ) (hn : 0 < ntheta) (xs ws : List ℝ)
    (hl : xs.length = ws.length) (hx : ∀ x ∈ xs, -1 ≤ x ∧ x ≤ 1) (hw : ∀ w ∈ ws, 0 ≤ w) (hne : xs ≠ []) :
    (capQuadrature eps gam ntheta xs ws).length = 1 + ntheta * (xs.length - 1) ∧
    (∃ w0, (capQuadrature eps gam ntheta xs ws)[0]? = some (⟨0, 0, 1⟩, w0)) ∧
    (∀ r ∈ capQuadrature eps gam ntheta xs ws, IsUnit' r.1 ∧ Real.cos gam ≤ dot r.1 ⟨0, 0, 1⟩ ∧ 0 ≤ r.2) ∧
    ((capQuadrature eps gam ntheta xs ws).map (·.2)).sum = 2 * Real.pi * (1 - Real.cos gam) * (1 / 2 * ws.sum) := by
  obtain ⟨x0, xs', rfl⟩ := List.exists_cons_of_ne_nil hne
  obtain ⟨w0, ws', rfl⟩ : ∃ w0 ws', ws = w0 :: ws' := by
    cases ws with
    | nil => simp at hl
    | cons a b => exact ⟨a, b, rfl⟩
  have hpi := Real.pi_pos
  have hg := Real.neg_one_le_cos gam
  have hc1 := Real.cos_le_one gam
  have hn' : (ntheta : ℝ) ≠ 0 := by exact_mod_cast hn.ne'
  have hn0 : (0 : ℝ) < ntheta := by exact_mod_cast hn
  simp only [List.length_cons, Nat.add_right_cancel_iff] at hl
  unfold capQuadrature
  simp only [List.map_cons]
  have hzlen : (List.map (capCos gam) xs').length = (List.map (fun w => w * (1 / 2) * (1 - Real.cos gam)) ws').length := by
    simp [hl]
  refine ⟨?_, ⟨_, rfl⟩, ?_, ?_⟩
  · rw [List.length_cons, flatMap_range_length, List.length_zip, List.length_map, List.length_map, hl, min_self,
      List.length_cons, hl, Nat.add_sub_cancel]
    ring
  · intro r hr
    rw [List.mem_cons] at hr
    rcases hr with rfl | hr
    · refine ⟨by norm_num [IsUnit', dot], ?_, ?_⟩
      · simp only [dot]; linarith
      · have := hw w0 (by simp)
        have h3 : 0 ≤ 1 - Real.cos gam := by linarith
        positivity
    · rw [List.mem_flatMap] at hr
      obtain ⟨p, hp, hr⟩ := hr
      rw [List.mem_map] at hr
      obtain ⟨i, _, rfl⟩ := hr
      have m1 := (List.of_mem_zip hp).1
      have m2 := (List.of_mem_zip hp).2
      rw [List.mem_map] at m1 m2
      obtain ⟨x, hx1, ex⟩ := m1
      obtain ⟨w, hw1, ew⟩ := m2
      have hxr := hx x (by simp [hx1])
      have hcr := cap_range (gam := gam) hxr.1 hxr.2
      obtain ⟨q1, q2⟩ := ray_norm eps he p.1 (2 * Real.pi / ntheta * i) (by rw [← ex]; linarith [hcr.1])
        (by rw [← ex]; exact hcr.2)
      refine ⟨?_, ?_, ?_⟩
      · simp only; rw [q1]; exact q2
      · simp only; rw [q1]; simp only [dot]; rw [← ex]; linarith [hcr.1]
      · have := hw w (by simp [hw1])
        have h3 : 0 ≤ 1 - Real.cos gam := by linarith
        simp only
        rw [← ew]
        positivity
  · have key : ∀ (l : List (ℝ × ℝ)), ((l.flatMap fun p => (List.range ntheta).map fun i : ℕ =>
        ((Vs.normalize eps ⟨Real.sqrt (1 - p.1 * p.1) * Real.cos (2 * Real.pi / (ntheta : ℝ) * (i : ℝ)),
          Real.sqrt (1 - p.1 * p.1) * Real.sin (2 * Real.pi / (ntheta : ℝ) * (i : ℝ)), p.1⟩ : Vec ℝ),
          2 * Real.pi / (ntheta : ℝ) * p.2)).map (·.2)).sum = 2 * Real.pi * (l.map (·.2)).sum := by
      intro l
      induction l with
      | nil => simp
      | cons p l ih =>
        rw [List.flatMap_cons, List.map_append, List.sum_append, ih, List.map_map]
        have : (List.map ((fun x : Vec ℝ × ℝ => x.2) ∘ fun i : ℕ =>
            ((Vs.normalize eps ⟨Real.sqrt (1 - p.1 * p.1) * Real.cos (2 * Real.pi / (ntheta : ℝ) * (i : ℝ)),
              Real.sqrt (1 - p.1 * p.1) * Real.sin (2 * Real.pi / (ntheta : ℝ) * (i : ℝ)), p.1⟩ : Vec ℝ),
              2 * Real.pi / (ntheta : ℝ) * p.2)) (List.range ntheta)).sum = 2 * Real.pi * p.2 := by
          rw [show ((fun x : Vec ℝ × ℝ => x.2) ∘ fun i : ℕ =>
            ((Vs.normalize eps ⟨Real.sqrt (1 - p.1 * p.1) * Real.cos (2 * Real.pi / (ntheta : ℝ) * (i : ℝ)),
              Real.sqrt (1 - p.1 * p.1) * Real.sin (2 * Real.pi / (ntheta : ℝ) * (i : ℝ)), p.1⟩ : Vec ℝ),
              2 * Real.pi / (ntheta : ℝ) * p.2)) = fun _ => 2 * Real.pi / (ntheta : ℝ) * p.2 from rfl]
          rw [List.map_const', List.length_range, List.sum_replicate, nsmul_eq_mul]
          field_simp
        rw [this]
        simp only [List.map_cons, List.sum_cons]
        ring
    have hz : (List.map (·.2) ((List.map (capCos gam) xs').zip
        (List.map (fun w => w * (1 / 2) * (1 - Real.cos gam)) ws'))) =
        List.map (fun w => w * (1 / 2) * (1 - Real.cos gam)) ws' := by
      exact List.map_snd_zip (le_of_eq hzlen.symm)
    have hsum : (List.map (fun w => w * (1 / 2) * (1 - Real.cos gam)) ws').sum = ws'.sum * (1 / 2 * (1 - Real.cos gam)) := by
      clear hz hw hl hzlen
      induction ws' with
      | nil => simp
      | cons a l ih => simp only [List.map_cons, List.sum_cons]; rw [ih]; ring
    simp only [List.map_cons, List.sum_cons]
    rw [key, hz, hsum]
    ring

/-- The rule that the radar uses has abscissae and weights as required. -/
theorem half_power_ok : halfPower.1.length = halfPower.2.length ∧
    (∀ x ∈ halfPower.1.map (fun x => 2 * x - 1), -1 ≤ x ∧ x ≤ 1) ∧ (∀ w ∈ halfPower.2.map (fun w => 4 * w), 0 ≤ w) := by
  refine ⟨by simp [halfPower], ?_, ?_⟩
  · intro x hx
    simp only [halfPower, List.map_cons, List.map_nil, List.mem_cons, List.not_mem_nil, or_false] at hx
    rcases hx with rfl | rfl | rfl | rfl | rfl <;> norm_num
  · intro x hx
    simp only [halfPower, List.map_cons, List.map_nil, List.mem_cons, List.not_mem_nil, or_false] at hx
    rcases hx with rfl | rfl | rfl | rfl | rfl <;> norm_num

/-- **C112.** The radar has 21 rays (five around each of four abscissae, and the axis), whatever number of radials the
input asks for, all within the cone. -/
theorem radar_rays (eps gam : ℝ) (he : eps ≤ 1) :
    (capNormal eps gam 5 halfPower.1 halfPower.2).length = 21 ∧
      ∀ r ∈ capNormal eps gam 5 halfPower.1 halfPower.2, IsUnit' r.1 ∧ Real.cos gam ≤ dot r.1 ⟨0, 0, 1⟩ ∧ 0 ≤ r.2 := by
  obtain ⟨h1, h2, h3⟩ := half_power_ok
  obtain ⟨c1, _, c3, _⟩ := cap_spec eps gam he 5 (by norm_num)
    (halfPower.1.map fun x => 2 * x - 1) (halfPower.2.map fun w => 4 * w) (by simpa using h1) h2 h3 (by simp [halfPower])
  refine ⟨?_, c3⟩
  unfold capNormal
  rw [c1]
  simp [halfPower]

theorem rodrigues_scale (n v : Vec ℝ) (θ c : ℝ) :
    rodrigues n θ ⟨c * v.x, c * v.y, c * v.z⟩ = ⟨c * (rodrigues n θ v).x, c * (rodrigues n θ v).y, c * (rodrigues n θ v).z⟩ := by
  ext <;> simp only [rodrigues, cross, dot] <;> ring

/-- **C112.** The middle ray of the cone lies along the given axis: its point `n` of `npts` is at the distance `n/npts` of
the beam length. The axis is a unit vector that is not vertical. -/
theorem cone_axis_spec {eps : ℝ} (he : 0 < eps) (axis start : Vec ℝ) (length : ℝ) (npts n : ℕ) (hu : dot axis axis = 1)
    (hv : eps ≤ mag (cross ⟨0, 0, 1⟩ axis)) :
    conePoint eps axis start length npts n ⟨0, 0, 1⟩ - start = ((n : ℝ) / npts * length) • axis := by
  have hm0 : 0 < mag (cross ⟨0, 0, 1⟩ axis) := he.trans_le hv
  have hmm := mag_sq (cross ⟨0, 0, 1⟩ axis)
  set m := mag (cross ⟨0, 0, 1⟩ axis) with hm
  simp only [cross] at hmm
  have hz1 : -1 ≤ axis.z := by unfold dot at hu; nlinarith [mul_self_nonneg axis.x, mul_self_nonneg axis.y]
  have hz2 : axis.z ≤ 1 := by unfold dot at hu; nlinarith [mul_self_nonneg axis.x, mul_self_nonneg axis.y]
  have hd : dot axis ⟨0, 0, 1⟩ = axis.z := by simp [dot]
  have hang : Real.pi * (Real.arccos (dot axis ⟨0, 0, 1⟩) * 180 / Real.pi) / 180 = Real.arccos axis.z := by
    rw [hd]; have := Real.pi_pos; field_simp
  have hcos : Real.cos (Real.arccos axis.z) = axis.z := Real.cos_arccos hz1 hz2
  have hsin : Real.sin (Real.arccos axis.z) = m := by
    rw [Real.sin_arccos]
    unfold dot at hu
    rw [show 1 - axis.z ^ 2 = m ^ 2 by linear_combination (-1 : ℝ) * hu - hmm]
    exact Real.sqrt_sq hm0.le
  have hrot : rodrigues ⟨(cross ⟨0, 0, 1⟩ axis).x / m, (cross ⟨0, 0, 1⟩ axis).y / m, (cross ⟨0, 0, 1⟩ axis).z / m⟩
      (Real.arccos axis.z) ⟨0, 0, 1⟩ = axis := by
    ext
    · simp only [rodrigues, cross, dot, hcos, hsin]; field_simp; ring
    · simp only [rodrigues, cross, dot, hcos, hsin]; field_simp; ring
    · simp only [rodrigues, cross, dot, hcos, hsin]; field_simp; ring
  have e : rotateEulerVec eps (cross ⟨0, 0, 1⟩ axis) (Real.arccos (dot axis ⟨0, 0, 1⟩) * 180 / Real.pi)
      ⟨1 / (npts : ℝ) * n * 0, 1 / (npts : ℝ) * n * 0, 1 / (npts : ℝ) * n * 1⟩ =
      ⟨1 / (npts : ℝ) * n * axis.x, 1 / (npts : ℝ) * n * axis.y, 1 / (npts : ℝ) * n * axis.z⟩ := by
    rw [rotate_euler_rotates he hv, ← hm, hang]
    rw [rodrigues_scale _ ⟨0, 0, 1⟩, hrot]
  unfold conePoint
  dsimp only
  rw [e]
  ext
  · simp only [sub_x, smul_x]; ring
  · simp only [sub_y, smul_y]; ring
  · simp only [sub_z, smul_z]; ring

example : (1 / 2 : ℝ) ≤ mag (cross ⟨0, 0, 1⟩ ⟨1, 0, 0⟩) := by
  have : mag (cross ⟨0, 0, 1⟩ (⟨1, 0, 0⟩ : Vec ℝ)) = 1 := by unfold mag; norm_num [magSqr, cross]
  rw [this]; norm_num

theorem dot_smul' (c : ℝ) (v : Vec ℝ) : dot ⟨c * v.x, c * v.y, c * v.z⟩ ⟨c * v.x, c * v.y, c * v.z⟩ = c ^ 2 * dot v v := by
  simp only [dot]; ring

theorem mag_eq_of_dot {v : Vec ℝ} {c : ℝ} (hc : 0 ≤ c) (h : dot v v = c ^ 2) : mag v = c := by
  have : magSqr v = c ^ 2 := by rw [← h]; rfl
  unfold mag; rw [this, Real.sqrt_sq hc]

theorem rodrigues_dot {n : Vec ℝ} (hn : dot n n = 1) (θ : ℝ) (v : Vec ℝ) :
    dot (rodrigues n θ v) (rodrigues n θ v) = dot v v := by
  have hcs := Real.sin_sq_add_cos_sq θ
  simp only [dot] at hn
  set c := Real.cos θ
  set s := Real.sin θ
  set d := n.x * v.x + n.y * v.y + n.z * v.z with hd
  simp only [rodrigues, dot, cross, ← hd]
  have hcross : (n.y * v.z - n.z * v.y) ^ 2 + (n.z * v.x - n.x * v.z) ^ 2 + (n.x * v.y - n.y * v.x) ^ 2 =
      (v.x ^ 2 + v.y ^ 2 + v.z ^ 2) - d ^ 2 := by
    rw [hd]; linear_combination (v.x ^ 2 + v.y ^ 2 + v.z ^ 2) * hn
  have l : ∀ a b e : ℝ, a = b → a - b = 0 := fun a b _ h => by linarith
  linear_combination s ^ 2 * hcross + (v.x ^ 2 + v.y ^ 2 + v.z ^ 2 - d ^ 2) * hcs + d ^ 2 * (1 - c) ^ 2 * hn +
    0 * hd

/-- **C112.** Every point `n` of a ray is at the distance `n/npts` of the beam length; so none is farther than the fraction
`(npts-1)/npts` of it: the end of the beam is not sampled. -/
theorem cone_distance {eps : ℝ} (he : 0 < eps) (axis start ray : Vec ℝ) (length : ℝ) (hL : 0 ≤ length) (npts n : ℕ)
    (hr : IsUnit' ray) (hv : eps ≤ mag (cross ⟨0, 0, 1⟩ axis)) :
    mag (conePoint eps axis start length npts n ray - start) = (n : ℝ) / npts * length ∧
      (n < npts → 0 < length → mag (conePoint eps axis start length npts n ray - start) < length) := by
  have hm0 : 0 < mag (cross ⟨0, 0, 1⟩ axis) := he.trans_le hv
  have hne : cross ⟨0, 0, 1⟩ axis ≠ ⟨0, 0, 0⟩ := by
    intro h; rw [h] at hm0; unfold mag magSqr at hm0; norm_num at hm0
  have hn1 := unit_dot hne
  have hmain : mag (conePoint eps axis start length npts n ray - start) = (n : ℝ) / npts * length := by
    apply mag_eq_of_dot (by positivity)
    set q := rotateEulerVec eps (cross ⟨0, 0, 1⟩ axis) (Real.arccos (dot axis ⟨0, 0, 1⟩) * 180 / Real.pi)
      ⟨1 / (npts : ℝ) * n * ray.x, 1 / (npts : ℝ) * n * ray.y, 1 / (npts : ℝ) * n * ray.z⟩ with hq
    have e : conePoint eps axis start length npts n ray - start = ⟨length * q.x, length * q.y, length * q.z⟩ := by
      ext
      · simp only [sub_x, conePoint, hq]; ring
      · simp only [sub_y, conePoint, hq]; ring
      · simp only [sub_z, conePoint, hq]; ring
    have hqq : dot q q = (1 / (npts : ℝ) * n) ^ 2 := by
      rw [hq, rotate_euler_rotates he hv, rodrigues_dot hn1, dot_smul']
      unfold IsUnit' at hr
      rw [hr, mul_one]
    rw [e, dot_smul', hqq]
    ring
  refine ⟨hmain, ?_⟩
  intro hlt hpos
  rw [hmain]
  have h0 : (0 : ℝ) < npts := by exact_mod_cast (by omega : 0 < npts)
  have : (n : ℝ) / npts < 1 := by rw [div_lt_one h0]; exact_mod_cast hlt
  nlinarith

/-- **C112.** Sweeping and elevating: for a unit vertical and an axis at right angles to it, the point at the distance
`rho` on the axis moves to the direction at the sweep angle about the vertical, raised by the elevation angle. -/
theorem sweep_point_spec {eps : ℝ} (he : 0 < eps) (he1 : eps ≤ 1) (axis vertical start : Vec ℝ) (sweep elev rho : ℝ)
    (ha : dot axis axis = 1) (hv : dot vertical vertical = 1) (hav : dot vertical axis = 0) :
    let p := sweepPoint eps axis vertical start sweep elev ⟨start.x + rho * axis.x, start.y + rho * axis.y,
      start.z + rho * axis.z⟩
    let a := sweep * (Real.pi / 180)
    let e := elev * (Real.pi / 180)
    let side := cross vertical axis
    p - start = (rho * (Real.cos e * Real.cos a)) • axis + (rho * (Real.cos e * Real.sin a)) • side +
      (rho * Real.sin e) • vertical := by
  intro p a e side
  have mv : mag vertical = 1 := mag_eq_of_dot zero_le_one (by rw [hv]; norm_num)
  have ra : Real.pi * sweep / 180 = a := by ring
  have re : Real.pi * elev / 180 = e := by ring
  have nv : Vs.normalize eps vertical = vertical := by
    unfold Vs.normalize
    rw [if_neg (by rw [mv]; exact not_lt.mpr he1), mv]; simp
  have rot : ∀ w, rotateEulerVec eps vertical sweep w = rodrigues vertical a w := by
    intro w
    rw [rotate_euler_rotates he (by rw [mv]; exact he1), mv, ra]
    simp
  have sw : rotateEulerVec eps vertical sweep axis =
      ⟨axis.x * Real.cos a + side.x * Real.sin a, axis.y * Real.cos a + side.y * Real.sin a,
        axis.z * Real.cos a + side.z * Real.sin a⟩ := by
    rw [rot]
    unfold rodrigues
    rw [hav]
    ext <;> simp [side]
  set s : Vec ℝ := ⟨axis.x * Real.cos a + side.x * Real.sin a, axis.y * Real.cos a + side.y * Real.sin a,
        axis.z * Real.cos a + side.z * Real.sin a⟩ with hs
  have hss : dot s s = 1 := by rw [← sw, rot, rodrigues_dot hv, ha]
  have hvs : dot vertical s = 0 := by
    simp only [hs, side, dot, cross]
    simp only [dot] at hav
    linear_combination Real.cos a * hav
  set n : Vec ℝ := cross (-vertical) s with hn
  have hnn : dot n n = 1 := by
    simp only [dot] at hss hvs hv
    simp only [hn, dot, cross, neg_x, neg_y, neg_z]
    linear_combination (s.x * s.x + s.y * s.y + s.z * s.z) * hv + hss -
      (vertical.x * s.x + vertical.y * s.y + vertical.z * s.z) * hvs
  have mn : mag n = 1 := mag_eq_of_dot zero_le_one (by rw [hnn]; norm_num)
  have hp : p = ⟨(rodrigues n e ⟨rho * s.x, rho * s.y, rho * s.z⟩).x + start.x,
      (rodrigues n e ⟨rho * s.x, rho * s.y, rho * s.z⟩).y + start.y,
      (rodrigues n e ⟨rho * s.x, rho * s.y, rho * s.z⟩).z + start.z⟩ := by
    have hq : rotateEulerVec eps vertical sweep ⟨start.x + rho * axis.x - start.x, start.y + rho * axis.y - start.y,
        start.z + rho * axis.z - start.z⟩ = ⟨rho * s.x, rho * s.y, rho * s.z⟩ := by
      rw [rot, show (⟨start.x + rho * axis.x - start.x, start.y + rho * axis.y - start.y,
        start.z + rho * axis.z - start.z⟩ : Vec ℝ) = ⟨rho * axis.x, rho * axis.y, rho * axis.z⟩ by ext <;> simp,
        rodrigues_scale, ← rot, sw]
    have hr : rotateEulerVec eps n elev ⟨rho * s.x, rho * s.y, rho * s.z⟩ =
        rodrigues n e ⟨rho * s.x, rho * s.y, rho * s.z⟩ := by
      rw [rotate_euler_rotates he (by rw [mn]; exact he1), mn, re]; simp
    show sweepPoint _ _ _ _ _ _ _ = _
    unfold sweepPoint
    dsimp only
    rw [nv, sw, hq, ← hn, hr]
  have hns : dot n s = 0 := by simp only [hn, dot, cross, neg_x, neg_y, neg_z]; ring
  have hx : cross n s = vertical := by
    simp only [dot] at hss hvs
    ext
    · simp only [hn, cross, neg_x, neg_y, neg_z]; linear_combination vertical.x * hss - s.x * hvs
    · simp only [hn, cross, neg_x, neg_y, neg_z]; linear_combination vertical.y * hss - s.y * hvs
    · simp only [hn, cross, neg_x, neg_y, neg_z]; linear_combination vertical.z * hss - s.z * hvs
  have hrod : rodrigues n e s = ⟨s.x * Real.cos e + vertical.x * Real.sin e, s.y * Real.cos e + vertical.y * Real.sin e,
      s.z * Real.cos e + vertical.z * Real.sin e⟩ := by
    unfold rodrigues
    rw [hns, hx]
    ext <;> simp
  rw [hp, rodrigues_scale, hrod]
  ext
  · simp only [sub_x, add_x, smul_x, hs]; ring
  · simp only [sub_y, add_y, smul_y, hs]; ring
  · simp only [sub_z, add_z, smul_z, hs]; ring

example : dot (⟨1, 0, 0⟩ : Vec ℝ) ⟨1, 0, 0⟩ = 1 ∧ dot (⟨0, 0, 1⟩ : Vec ℝ) ⟨1, 0, 0⟩ = 0 := by norm_num [dot]

/-- **C112** The numbers of points: `nquad` rays in a cone, `ntotal` cones in a scan, two scans; the axes have one ray per
cone. -/
theorem radar_point_numbers (ntotal npts nquad : ℕ) (h : 1 ≤ nquad) :
    numPointsCone npts nquad = nquad * npts ∧ numPointsScan ntotal npts nquad = ntotal * numPointsCone npts nquad ∧
    numPointsAll ntotal npts nquad = 2 * numPointsScan ntotal npts nquad ∧ numOutput ntotal npts = ntotal * npts := by
  obtain ⟨q, rfl⟩ : ∃ q, nquad = q + 1 := ⟨nquad - 1, by omega⟩
  refine ⟨?_, rfl, ?_, rfl⟩
  · unfold numPointsCone; rw [Nat.add_sub_cancel]; ring
  · unfold numPointsAll numPointsScan; ring

/-- **C112.** The direction kept for a ray is the unit vector from the radar to its last point. -/
theorem los_unit_spec {eps : ℝ} (he : 0 < eps) (start p : Vec ℝ) (h : eps ≤ mag (p - start)) :
    dot (losUnit eps start p) (losUnit eps start p) = 1 ∧ start + mag (p - start) • losUnit eps start p = p := by
  have e : losUnit eps start p = normalize eps (p - start) := rfl
  have hp : 0 < mag (p - start) := lt_of_lt_of_le he h
  have e2 : normalize eps (p - start) = (1 / mag (p - start)) • (p - start) := by
    unfold Vs.normalize
    rw [if_neg (not_lt.mpr h)]
    ext <;> simp only [smul_x, smul_y, smul_z] <;> ring
  rw [e, e2]
  have hsq : mag (p - start) ^ 2 = dot (p - start) (p - start) := by
    unfold mag
    rw [Real.sq_sqrt (by unfold magSqr; have := mul_self_nonneg (p - start).x; have := mul_self_nonneg (p - start).y; have := mul_self_nonneg (p - start).z; linarith)]
    rfl
  constructor
  · have : dot ((1 / mag (p - start)) • (p - start)) ((1 / mag (p - start)) • (p - start)) = dot (p - start) (p - start) / mag (p - start) ^ 2 := by
      simp only [dot, smul_x, smul_y, smul_z]; field_simp
    rw [this, ← hsq, div_self (by positivity)]
  · ext <;> simp only [add_x, add_y, add_z, smul_x, smul_y, smul_z, sub_x, sub_y, sub_z] <;> field_simp <;> ring

/-- **C112.** The weights of the rule of the radar: the middle one is half of that of a symmetric rule, and all together are one half
(to nine digits), so that the rule averages over the cone; abscissae grow and weights fall. -/
theorem half_power_weights : |2 * halfPower.2.sum - 1| < 1 / 10 ^ 9 ∧ halfPower.1.Pairwise (· < ·) ∧ halfPower.2.tail.Pairwise (· > ·) := by
  refine ⟨?_, ?_, ?_⟩ <;> norm_num [halfPower, abs_lt]

/-- C112: with as many positions as are written, all are written. -/
theorem cone_points_enough {α : Type*} (locs : List α) (ntotal npts nquad : ℕ) (h : locs.length = numPointsAll ntotal npts nquad) :
    writeConePoints locs ntotal npts nquad = some locs := by
  unfold writeConePoints
  rw [if_pos h.ge, ← h, List.take_length]

end AmrWind.Beam
