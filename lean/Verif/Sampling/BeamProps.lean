import Verif.Sampling.BeamModel
import Verif.Sampling.Points
import Verif.Interp.Props
import Verif.Vs.Props

/-!
# C110: a lidar samples the line that its tables prescribe at the time of the sample
-/

set_option linter.unusedSectionVars false

namespace AmrWind.Beam

open Vs

/-! ## Specification -/

/-- The direction at the given angles in degrees: the azimuth counts from the `x` direction towards the `y` direction, the
elevation from the horizontal upwards. -/
noncomputable def direction (az el : ℝ) : Vec ℝ :=
  ⟨Real.cos (az * (Real.pi / 180)) * Real.cos (el * (Real.pi / 180)),
    Real.sin (az * (Real.pi / 180)) * Real.cos (el * (Real.pi / 180)), Real.sin (el * (Real.pi / 180))⟩

/-- A usable time table: at least two entries, increasing by more than the smallest spacing of the interpolation. -/
structure Table (x y : List ℝ) : Prop where
  two : 2 ≤ x.length
  len : y.length = x.length
  inc : Interp.StrictSorted x
  spaced : Interp.Spaced x

/-! ## The beam -/

/-- **C110.** The beam has the given length and points in the direction of the angles read from the tables; azimuth and
elevation zero is the `x` direction, elevation 90 degrees is upwards. -/
theorem lidar_beam_spec (l : Lidar) (start : Vec ℝ) (time az el : ℝ)
    (ha : lookup l.times l.azimuths (l.tableTime time) = some az)
    (he : lookup l.times l.elevations (l.tableTime time) = some el) :
    ∃ e, l.stop start time = some e ∧ e - start = l.length • direction az el ∧ mag (e - start) = |l.length| ∧
      direction 0 0 = ⟨1, 0, 0⟩ ∧ (∀ a, direction a 90 = ⟨0, 0, 1⟩) := by
  have s90 : Real.sin (radians (90 - el)) = Real.cos (el * (Real.pi / 180)) := by
    rw [show radians (90 - el) = Real.pi / 2 - el * (Real.pi / 180) by unfold radians; ring, Real.sin_pi_div_two_sub]
  have c90 : Real.cos (radians (90 - el)) = Real.sin (el * (Real.pi / 180)) := by
    rw [show radians (90 - el) = Real.pi / 2 - el * (Real.pi / 180) by unfold radians; ring, Real.cos_pi_div_two_sub]
  have ra : radians az = az * (Real.pi / 180) := by unfold radians; ring
  refine ⟨⟨start.x + l.length * Real.cos (radians az) * Real.sin (radians (90 - el)),
    start.y + l.length * Real.sin (radians az) * Real.sin (radians (90 - el)),
    start.z + l.length * Real.cos (radians (90 - el))⟩, ?_, ?_, ?_, ?_, ?_⟩
  · unfold Lidar.stop; rw [ha, he]
  · ext
    · simp only [sub_x, smul_x, direction]; rw [s90, ra]; ring
    · simp only [sub_y, smul_y, direction]; rw [s90, ra]; ring
    · simp only [sub_z, smul_z, direction]; rw [c90]; ring
  · have h1 := Real.sin_sq_add_cos_sq (radians az)
    have h2 := Real.sin_sq_add_cos_sq (radians (90 - el))
    unfold mag
    rw [← Real.sqrt_sq_eq_abs]
    congr 1
    simp only [magSqr, sub_x, sub_y, sub_z]
    linear_combination l.length ^ 2 * (Real.sin (radians (90 - el)) ^ 2 * h1 + h2)
  · unfold direction; simp
  · intro a
    have e : (90 : ℝ) * (Real.pi / 180) = Real.pi / 2 := by ring
    unfold direction; rw [e]; simp

theorem one_matches {x y : List ℝ} (h : y.length = x.length) : Interp.Matches x y 1 0 := ⟨by omega, by norm_num⟩

/-- **C110.** Without repetition, at the times of the table the beam has the angles of the table, and between two of them
the angles lie between the two. -/
theorem lidar_at_table (x y : List ℝ) (h : Table x y) (k : ℕ) (t v : ℝ) (ht : x[k]? = some t) (hv : y[k]? = some v) :
    lookup x y (some t) = some v ∧
      (∀ t' v', x[k + 1]? = some t' → y[k + 1]? = some v' → ∀ q, t ≤ q → q ≤ t' →
        ∃ w, lookup x y (some q) = some w ∧ min v v' ≤ w ∧ w ≤ max v v') := by
  have h2 : ¬ x.length < 2 := by have := h.two; omega
  have hm := one_matches h.len
  constructor
  · unfold lookup
    rw [if_neg h2]
    exact Interp.linear_at_node x y h.inc h.spaced 1 0 hm h.two ht (by simpa using hv)
  · intro t' v' ht' hv' q hq hq'
    unfold lookup
    rw [if_neg h2]
    obtain ⟨x0, xn, y0, yn, g0, gn, _, _, hc⟩ := Interp.linear_cases x y h.inc.sorted 1 0 hm h.two q
    have l0 : x0 ≤ t := Interp.sorted_get h.inc.sorted (Nat.zero_le _) g0 ht
    have hk1 := (List.getElem?_eq_some_iff.mp ht').1
    have ln : t' ≤ xn := Interp.sorted_get h.inc.sorted (by omega) ht' gn
    rcases hc with ⟨a, _⟩ | ⟨a, _⟩ | ⟨_, _, r, xl, xr, yl, yr, g1, g2, g3, g4, k1, k2, k3, e⟩
    · exact absurd a (not_lt.mpr (l0.trans hq))
    · exact absurd a (not_lt.mpr (hq'.trans ln))
    · simp only [one_mul, add_zero] at g3 g4
      have hw : ∀ a b : ℝ, a < b → a ≤ q → q ≤ b → 0 ≤ Interp.wR a b q ∧ Interp.wR a b q ≤ 1 := by
        intro a b hab h1 h2
        unfold Interp.wR
        split_ifs
        · exact ⟨div_nonneg (by linarith) (by linarith), by rw [div_le_one (by linarith)]; linarith⟩
        · exact ⟨by norm_num, le_refl _⟩
      -- the bracket found is the bracket given, or shares a node with the query on it
      have hkr : r = k ∨ (r + 1 = k ∧ q = t) ∨ (r = k + 1 ∧ q = t') := by
        rcases Nat.lt_trichotomy r k with hlt | rfl | hgt
        · rcases Nat.lt_or_ge (r + 1) k with h' | h'
          · exact absurd (Interp.strict_get h.inc h' g2 ht) (not_lt.mpr (hq.trans k2))
          · have : r + 1 = k := by omega
            subst this
            rw [g2] at ht; injection ht with ht
            exact Or.inr (Or.inl ⟨rfl, le_antisymm (by rw [← ht]; exact k2) hq⟩)
        · exact Or.inl rfl
        · rcases Nat.lt_or_ge (k + 1) r with h' | h'
          · exact absurd (Interp.strict_get h.inc h' ht' g1) (not_lt.mpr (k1.trans hq'))
          · have : r = k + 1 := by omega
            subst this
            rw [g1] at ht'; injection ht' with ht'
            exact Or.inr (Or.inr ⟨rfl, le_antisymm hq' (by rw [← ht']; exact k1)⟩)
      rcases hkr with rfl | ⟨rfl, hqt⟩ | ⟨rfl, hqt⟩
      · rw [ht] at g1; injection g1 with g1; subst g1
        rw [ht'] at g2; injection g2 with g2; subst g2
        rw [hv] at g3; injection g3 with g3; subst g3
        rw [hv'] at g4; injection g4 with g4; subst g4
        have hlt : t < t' := Interp.strict_get h.inc (Nat.lt_succ_self _) ht ht'
        obtain ⟨w0, w1⟩ := hw t t' hlt hq hq'
        refine ⟨_, e, ?_, ?_⟩
        · nlinarith [min_le_left v v', min_le_right v v']
        · nlinarith [le_max_left v v', le_max_right v v']
      · refine ⟨v, ?_, min_le_left _ _, le_max_left _ _⟩
        rw [hqt]
        exact Interp.linear_at_node x y h.inc h.spaced 1 0 hm h.two ht (by simpa using hv)
      · refine ⟨v', ?_, min_le_right _ _, le_max_right _ _⟩
        rw [hqt]
        exact Interp.linear_at_node x y h.inc h.spaced 1 0 hm h.two ht' (by simpa using hv')

example : Table [0, 10] [0, 90] where
  two := by simp
  len := by simp
  inc := by unfold Interp.StrictSorted; simp
  spaced := by
    intro i a b ha hb
    rcases i with _ | i
    · simp at ha hb; subst ha; subst hb; norm_num [Interp.eps]
    · simp at hb

theorem fmod_period (p t : ℝ) (hp : 0 < p) (ht : 0 ≤ t) (k : ℕ) : Interp.fmod (t + k * p) p = Interp.fmod t p := by
  unfold Interp.fmod Interp.trunc
  have hk : 0 ≤ t + k * p := by positivity
  rw [if_pos (div_nonneg hk hp.le), if_pos (div_nonneg ht hp.le)]
  have : (t + k * p) / p = t / p + (k : ℤ) := by push_cast; field_simp
  rw [this, Int.floor_add_intCast]
  push_cast
  ring

theorem fmod_small (p t : ℝ) (hp : 0 < p) (ht : 0 ≤ t) (h : t < p) : Interp.fmod t p = t := by
  unfold Interp.fmod Interp.trunc
  rw [if_pos (div_nonneg ht hp.le)]
  have : ⌊t / p⌋ = 0 := by
    rw [Int.floor_eq_zero_iff]
    exact ⟨div_nonneg ht hp.le, (div_lt_one hp).mpr h⟩
  rw [this]; simp

/-- **C110.** With repetition the beam repeats with the length of the table; for a table that starts at time zero it runs
through the table in each period.

Partial (C110). Missing: tables that begin later than zero (`lidar_offset_table_wrong`). -/
theorem lidar_periodic_spec_partial (l : Lidar) (h : Table l.times l.azimuths) (hp : l.periodic = true) (a b : ℝ)
    (ha : l.times[0]? = some a) (hb : l.times[l.times.length - 1]? = some b) (start : Vec ℝ) (t : ℝ) (ht : 0 ≤ t)
    (k : ℕ) :
    l.stop start (t + k * (b - a)) = l.stop start t ∧
      (a = 0 → t < b → l.tableTime (t + k * b) = some t) := by
  have hab : a < b := Interp.strict_get h.inc (by have := h.two; omega) ha hb
  have hper : l.period = some (b - a) := by unfold Lidar.period; rw [hb, ha]
  have hne : b - a ≠ 0 := by linarith
  have e : ∀ u, l.tableTime u = some (Interp.fmod u (b - a)) := by
    intro u
    unfold Lidar.tableTime fmod?
    rw [if_pos hp, hper]
    simp [hne]
  constructor
  · unfold Lidar.stop
    rw [e, e, fmod_period _ _ (by linarith) ht]
  · intro h0 hlt
    subst h0
    rw [e, sub_zero, fmod_period _ _ hab ht, fmod_small _ _ hab ht hlt]

/-- A lidar looking along the angles of two entries. -/
noncomputable def exLidar (t0 t1 a0 a1 : ℝ) (per : Bool) : Lidar :=
  ⟨⟨0, 0, 0⟩, 2, 100, [t0, t1], [a0, a1], [0, 0], per⟩

/-- Reading a table of two entries. -/
theorem lookup_two (t0 t1 a0 a1 q : ℝ) (h : t0 + 1 ≤ t1) :
    lookup [t0, t1] [a0, a1] (some q) =
      some (if q < t0 then a0 else if t1 < q then a1 else (1 - (q - t0) / (t1 - t0)) * a0 + (q - t0) / (t1 - t0) * a1) := by
  have hsp : Interp.eps < t1 - t0 := by unfold Interp.eps; linarith [show (1 : ℝ) / 8388608 < 1 by norm_num]
  have ht : Table [t0, t1] [a0, a1] := by
    refine ⟨by simp, by simp, ?_, ?_⟩
    · unfold Interp.StrictSorted; simp; linarith
    · intro i a b ha hb
      rcases i with _ | i
      · simp at ha hb; subst ha; subst hb; exact hsp
      · simp at hb
  unfold lookup
  rw [if_neg (by simp)]
  obtain ⟨x0, xn, y0, yn, g0, gn, gy0, gyn, hc⟩ :=
    Interp.linear_cases _ _ ht.inc.sorted 1 0 (one_matches ht.len) ht.two q
  simp at g0 gn gy0 gyn
  subst g0; subst gn; subst gy0; subst gyn
  simp only [Option.bind_some]
  rcases hc with ⟨a, e⟩ | ⟨a, e⟩ | ⟨b1, b2, r, xl, xr, yl, yr, g1, g2, g3, g4, k1, k2, k3, e⟩
  · rw [e, if_pos a]
  · rw [e, if_neg (by linarith), if_pos a]
  · have hr : r = 0 := by
      have := (List.getElem?_eq_some_iff.mp g2).1
      simp at this; omega
    subst hr
    simp at g1 g2 g3 g4
    subst g1; subst g2; subst g3; subst g4
    rw [e, if_neg (not_lt.mpr b1), if_neg (not_lt.mpr b2)]
    unfold Interp.wR
    rw [if_pos hsp]

/-- **C110, not met.** A repeated table that does not start at time zero is read at the wrong time: the table from 10 to 20
seconds, azimuth 0 to 90 degrees, gives azimuth 0 at 15 seconds instead of 45. -/
theorem lidar_offset_table_wrong :
    lookup [10, 20] [0, 90] (some 15) = some 45 ∧
      lookup (exLidar 10 20 0 90 true).times (exLidar 10 20 0 90 true).azimuths
        ((exLidar 10 20 0 90 true).tableTime 15) = some 0 := by
  constructor
  · rw [lookup_two _ _ _ _ _ (by norm_num)]; norm_num
  · have hf : Interp.fmod (15 : ℝ) 10 = 5 := by
      rw [show (15 : ℝ) = 5 + (1 : ℕ) * 10 by norm_num, fmod_period _ _ (by norm_num) (by norm_num),
        fmod_small _ _ (by norm_num) (by norm_num) (by norm_num)]
    have e : (exLidar 10 20 0 90 true).tableTime 15 = some 5 := by
      unfold Lidar.tableTime Lidar.period exLidar fmod?
      norm_num [hf]
    rw [e]
    show lookup [10, 20] [0, 90] (some 5) = some 0
    rw [lookup_two _ _ _ _ _ (by norm_num)]; norm_num

/-- **C110, not met.** The azimuth is interpolated as a number: half way from 350 to 10 degrees the beam points
backwards. -/
theorem lidar_long_way :
    lookup [0, 10] [350, 10] (some 5) = some 180 ∧ direction 180 0 = ⟨-1, 0, 0⟩ ∧
      direction 350 0 = direction (-10) 0 ∧ 0 < (direction 350 0).x ∧ 0 < (direction 10 0).x := by
  have c10 : 0 < Real.cos (10 * (Real.pi / 180)) := by
    apply Real.cos_pos_of_mem_Ioo
    constructor <;> nlinarith [Real.pi_pos]
  have e : (350 : ℝ) * (Real.pi / 180) = (-10) * (Real.pi / 180) + 2 * Real.pi := by ring
  have cn : Real.cos (-10 * (Real.pi / 180)) = Real.cos (10 * (Real.pi / 180)) := by
    rw [neg_mul, Real.cos_neg]
  refine ⟨?_, ?_, ?_, ?_, ?_⟩
  · rw [lookup_two _ _ _ _ _ (by norm_num)]; norm_num
  · have : (180 : ℝ) * (Real.pi / 180) = Real.pi := by ring
    unfold direction; rw [this]; simp
  · unfold direction; rw [e, Real.cos_add_two_pi, Real.sin_add_two_pi]
  · simp only [direction]; rw [e, Real.cos_add_two_pi, cn]; simp [c10]
  · simp only [direction]; simp [c10]

/-- **C110.** A table with one entry gives a beam at rest, whatever the time and whether or not it repeats. -/
theorem lidar_single_entry (l : Lidar) (t a e : ℝ) (h1 : l.times = [t]) (h2 : l.azimuths = [a])
    (h3 : l.elevations = [e]) (start : Vec ℝ) (time : ℝ) :
    ∃ p, l.stop start time = some p ∧ p - start = l.length • direction a e := by
  obtain ⟨p, g1, g2, _⟩ := lidar_beam_spec l start time a e (by unfold lookup; rw [h1, h2]; simp)
    (by unfold lookup; rw [h1, h3]; simp)
  exact ⟨p, g1, g2⟩

example : (⟨⟨0, 0, 0⟩, 2, 100, [7], [30], [10], true⟩ : Lidar).accepted = true := by
  simp [Lidar.accepted]

/-- **C110, not met.** The sample of the step that ends at time `new` is taken along the beam of the time at which the
step began. -/
theorem lidar_lags (g : Sampling.Geo ℝ) (tol : ℝ) (l : Lidar) (cur new : ℝ) :
    l.points tol g cur new = l.points tol g cur cur := rfl

/-- ... for the table from 0 to 10 seconds, azimuth 0 to 90 degrees, and a step from 0 to 10 seconds, the beam is 90
degrees off. -/
theorem lidar_lags_example :
    (exLidar 0 10 0 90 false).stop ⟨0, 0, 0⟩ 0 = some ⟨100, 0, 0⟩ ∧
      (exLidar 0 10 0 90 false).stop ⟨0, 0, 0⟩ 10 = some ⟨0, 100, 0⟩ := by
  have d0 : direction 0 0 = ⟨1, 0, 0⟩ := by unfold direction; simp
  have d9 : direction 90 0 = ⟨0, 1, 0⟩ := by
    have e : (90 : ℝ) * (Real.pi / 180) = Real.pi / 2 := by ring
    unfold direction; rw [e]; simp
  have key : ∀ (t az : ℝ) (d : Vec ℝ), lookup [0, 10] [0, 90] (some t) = some az →
      lookup [0, 10] [0, 0] (some t) = some 0 → direction az 0 = d →
      (exLidar 0 10 0 90 false).stop ⟨0, 0, 0⟩ t = some ((100 : ℝ) • d) := by
    intro t az d h1 h2 h3
    obtain ⟨p, g1, g2, _⟩ := lidar_beam_spec (exLidar 0 10 0 90 false) ⟨0, 0, 0⟩ t az 0
      (by simpa [exLidar, Lidar.tableTime] using h1) (by simpa [exLidar, Lidar.tableTime] using h2)
    rw [g1, ← h3]
    congr 1
    have : (exLidar 0 10 0 90 false).length = 100 := rfl
    rw [this] at g2
    rw [← g2]
    ext <;> simp
  constructor
  · rw [key 0 0 _ (by rw [lookup_two _ _ _ _ _ (by norm_num)]; norm_num)
      (by rw [lookup_two _ _ _ _ _ (by norm_num)]; norm_num) d0]
    congr 1; ext <;> simp
  · rw [key 10 90 _ (by rw [lookup_two _ _ _ _ _ (by norm_num)]; norm_num)
      (by rw [lookup_two _ _ _ _ _ (by norm_num)]; norm_num) d9]
    congr 1; ext <;> simp

/-- The first and last points of a line of at least two. -/
theorem line_ends (n : ℕ) (hn : 2 ≤ n) (s e : Sampling.Pos ℝ) :
    (Sampling.linePoints n s e)[0]? = some s ∧ (Sampling.linePoints n s e)[n - 1]? = some e := by
  unfold Sampling.linePoints
  constructor
  · rw [List.getElem?_map, List.getElem?_range (by omega)]
    simp
  · rw [List.getElem?_map, List.getElem?_range (by omega)]
    simp only [Option.map_some]
    congr 1
    funext d
    have h1 : (max (n - 1) 1 : ℕ) = n - 1 := by omega
    have h2 : ((n - 1 : ℕ) : ℝ) ≠ 0 := by
      have : 0 < n - 1 := by omega
      exact_mod_cast this.ne'
    rw [h1]
    field_simp
    ring

/-- The domain of the examples: the cube from 0 to 1000. -/
noncomputable def exGeo : Sampling.Geo ℝ := ⟨fun _ => 0, fun _ => 1000, fun _ => 100, ⟨(0, 0, 0), (9, 9, 9)⟩⟩

/-- **C110, not met.** The check that brings lines into the domain is made once, at the beginning, and the end it corrects
is then recomputed: a lidar may sample outside the domain. -/
theorem lidar_leaves_domain :
    ∃ (l : Lidar) (pts : List (Sampling.Pos ℝ)) (p : Sampling.Pos ℝ), l.accepted = true ∧
      l.points (1 / 1000) exGeo 0 0 = some pts ∧ p ∈ pts ∧ ¬ Sampling.Inside exGeo p := by
  let l : Lidar := ⟨⟨500, 500, 500⟩, 2, 1000, [0], [0], [0], true⟩
  obtain ⟨e, g1, g2⟩ := lidar_single_entry l 0 0 0 rfl rfl rfl ⟨500, 500, 500⟩ 0
  have hs : l.start (1 / 1000) exGeo = toPos ⟨500, 500, 500⟩ := by
    funext d
    have : toPos ⟨500, 500, 500⟩ d = 500 := by cases d <;> rfl
    unfold Lidar.start Sampling.clampPos
    show Sampling.clampBound _ _ _ (toPos ⟨500, 500, 500⟩ d) = _
    rw [this]
    norm_num [Sampling.clampBound, exGeo]
  have hp : l.points (1 / 1000) exGeo 0 0 =
      some (Sampling.linePoints 2 (toPos ⟨500, 500, 500⟩) (toPos e)) := by
    unfold Lidar.points
    rw [hs]
    show (l.stop ⟨500, 500, 500⟩ 0).map _ = _
    rw [g1]
    rfl
  refine ⟨l, _, toPos e, by simp [l, Lidar.accepted], hp, ?_, ?_⟩
  · exact List.mem_of_getElem? (line_ends 2 le_rfl _ _).2
  · intro h
    have hx := (h .x).2
    have ex : e.x = 1500 := by
      have := congrArg Vec.x g2
      simp [l, direction] at this
      linarith
    have : toPos e .x = e.x := rfl
    rw [this, ex] at hx
    norm_num [exGeo] at hx

/-- **C110.** The points divide the beam evenly: point `i` of `n` is at the fraction `i/(n-1)` from the start. -/
theorem lidar_points_spec (l : Lidar) (tol : ℝ) (g : Sampling.Geo ℝ) (cur new : ℝ) (e : Vec ℝ) (hn : 2 ≤ l.npts)
    (h : l.stop ⟨l.start tol g .x, l.start tol g .y, l.start tol g .z⟩ cur = some e) :
    ∃ pts, l.points tol g cur new = some pts ∧ pts.length = l.npts ∧ pts[0]? = some (l.start tol g) ∧
      pts[l.npts - 1]? = some (toPos e) ∧
      ∀ i, i < l.npts → ∃ p, pts[i]? = some p ∧
        ∀ d, p d - l.start tol g d = (i / (l.npts - 1 : ℕ) : ℝ) * (toPos e d - l.start tol g d) := by
  refine ⟨_, ?_, ?_, (line_ends l.npts hn _ _).1, (line_ends l.npts hn _ _).2, ?_⟩
  · unfold Lidar.points; dsimp only; rw [h]; rfl
  · simp [Sampling.linePoints]
  · intro i hi
    unfold Sampling.linePoints
    rw [List.getElem?_map, List.getElem?_range hi]
    refine ⟨_, rfl, ?_⟩
    intro d
    have h1 : (max (l.npts - 1) 1 : ℕ) = l.npts - 1 := by omega
    dsimp only
    rw [h1]
    ring

/-- **C110** Inputs are accepted exactly if the table has entries and there is one azimuth and one elevation for each
time. -/
theorem lidar_accepted (l : Lidar) : l.accepted = true ↔
    l.times ≠ [] ∧ l.azimuths.length = l.times.length ∧ l.elevations.length = l.times.length := by
  unfold Lidar.accepted
  simp [List.length_pos_iff, and_assoc]

end AmrWind.Beam
