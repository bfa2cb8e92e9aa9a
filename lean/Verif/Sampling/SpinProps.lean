import Verif.Sampling.BeamProps
import Mathlib.Tactic.Linarith

/-!
# C111: the spinner lidar samples along beams of its length, at the rate and with the attitude that are prescribed
-/

set_option linter.unusedSectionVars false

namespace AmrWind.Beam

open Vs

/-! ## The clock -/

section clock
variable {K : Type*} [Field K] [LinearOrder K] [IsStrictOrderedRing K] [FloorRing K]

theorem scanLoop_spec (dts : K) (ns : ℤ) : ∀ (n k : ℕ) (t : K), (scanLoop dts ns n k t).1.length = n ∧
    (∀ i, i < n → (scanLoop dts ns n k t).1[i]? = some (if ((k + i : ℕ) : ℤ) < ns then some (t + i * dts) else none)) ∧
    (scanLoop dts ns n k t).2 = t + (min n (ns - k).toNat : ℕ) * dts
  | 0, k, t => by simp [scanLoop]
  | n + 1, k, t => by
    by_cases h : (k : ℤ) < ns
    · obtain ⟨h1, h2, h3⟩ := scanLoop_spec dts ns n (k + 1) (t + dts)
      have e : scanLoop dts ns (n + 1) k t =
          (some t :: (scanLoop dts ns n (k + 1) (t + dts)).1, (scanLoop dts ns n (k + 1) (t + dts)).2) := by
        conv_lhs => unfold scanLoop
        rw [if_pos h]
      rw [e]
      refine ⟨by simp [h1], ?_, ?_⟩
      · intro i hi
        rcases i with _ | i
        · simp [h]
        · simp only [List.getElem?_cons_succ]
          rw [h2 i (by omega), show k + 1 + i = k + (i + 1) by omega]
          push_cast
          rw [show t + dts + (i : K) * dts = t + ((i : K) + 1) * dts by ring]
      · dsimp only
        rw [h3]
        have : (min (n + 1) (ns - k).toNat : ℕ) = min n (ns - (k + 1 : ℕ)).toNat + 1 := by omega
        rw [this]; push_cast; ring
    · obtain ⟨h1, h2, h3⟩ := scanLoop_spec dts ns n (k + 1) t
      have e : scanLoop dts ns (n + 1) k t =
          (none :: (scanLoop dts ns n (k + 1) t).1, (scanLoop dts ns n (k + 1) t).2) := by
        conv_lhs => unfold scanLoop
        rw [if_neg h]
      rw [e]
      refine ⟨by simp [h1], ?_, ?_⟩
      · intro i hi
        rcases i with _ | i
        · simp [h]
        · simp only [List.getElem?_cons_succ]
          rw [h2 i (by omega), if_neg (by push_cast; omega), if_neg (by push_cast; omega)]
      · dsimp only
        rw [h3]
        have a : (ns - (k + 1 : ℕ)).toNat = 0 := by omega
        have b : (ns - k).toNat = 0 := by omega
        rw [a, b]; simp

/-- The number of beams taken in an update. -/
def taken (dt dts diff : K) (places : ℤ) : ℕ := min places.toNat (numBeams dt dts diff).toNat

/-- **C111.** An update fills its places in order with beams one sampling interval apart, starting at the time of the
scanner; the places left over get the fill value; the time of the scanner moves on by one interval for each beam. So the
beams of a whole run are taken at consecutive multiples of the interval, none twice and none left out. -/
theorem scan_spec (dt dts time t : K) (places : ℤ) :
    (scan dt dts time places t).1.length = places.toNat ∧
    (∀ i, i < places.toNat → (scan dt dts time places t).1[i]? =
      some (if i < taken dt dts (time - t) places then some (t + i * dts) else none)) ∧
    (scan dt dts time places t).2 = t + taken dt dts (time - t) places * dts := by
  obtain ⟨h1, h2, h3⟩ := scanLoop_spec dts (numBeams dt dts (time - t)) places.toNat 0 t
  refine ⟨h1, ?_, ?_⟩
  · intro i hi
    unfold scan
    rw [h2 i hi]
    have : ((0 + i : ℕ) : ℤ) < numBeams dt dts (time - t) ↔ i < taken dt dts (time - t) places := by
      unfold taken
      rw [Nat.zero_add]
      omega
    by_cases h : i < taken dt dts (time - t) places
    · rw [if_pos (this.mpr h), if_pos h]
    · rw [if_neg (fun g => h (this.mp g)), if_neg h]
  · unfold scan taken
    rw [h3]
    simp

theorem trunc_nonneg {a : K} (h : 0 ≤ a) : Interp.trunc a = ⌊a⌋ := by unfold Interp.trunc; rw [if_pos h]

/-- The lag of the scanner (time of the flow less time of the scanner, at an update) that comes after the lag `d`, when
`gap` passes between the updates. -/
def nextLag (dt dts : K) (places : ℤ) (gap d : K) : K := d - taken dt dts d places * dts + gap

/-- **C111.** For updates in every step of one size the scanner keeps up: a lag between zero and two intervals stays so. -/
theorem lag_bounded (dt dts d : K) (hs : 0 < dts) (hdt : dts ≤ dt) (h0 : 0 ≤ d) (h2 : d < 2 * dts) :
    0 ≤ nextLag dt dts (numPlaces dt dts) dt d ∧ nextLag dt dts (numPlaces dt dts) dt d < 2 * dts := by
  set r := dt / dts with hr
  have hdr : dt = r * dts := by rw [hr, div_mul_cancel₀ _ hs.ne']
  have hr1 : 1 ≤ r := by rw [hr, le_div_iff₀ hs]; linarith
  have hr0 : 0 ≤ r := by linarith
  have f1 := Int.floor_le r
  have f2 := Int.lt_floor_add_one r
  have c1 := Int.le_ceil r
  have c2 := Int.ceil_lt_add_one r
  have fpos : (1 : ℤ) ≤ ⌊r⌋ := by rw [Int.le_floor]; exact_mod_cast hr1
  have hfc : ⌊r⌋ ≤ ⌈r⌉ := Int.floor_le_ceil r
  have hcf : ⌈r⌉ ≤ ⌊r⌋ + 1 := Int.ceil_le_floor_add_one r
  have hcorr : timeCorr d dts = if dts < d then 1 else 0 := by
    unfold timeCorr
    by_cases h : dts < d
    · rw [if_pos h, if_pos h, trunc_nonneg (div_nonneg h0 hs.le), Int.floor_eq_iff]
      constructor
      · push_cast; rw [le_div_iff₀ hs]; linarith
      · push_cast; rw [div_lt_iff₀ hs]; linarith
    · rw [if_neg h, if_neg h]
  have hn : numBeams dt dts d = ⌊r⌋ + if dts < d then 1 else 0 := by
    unfold numBeams; rw [hcorr, ← hr, trunc_nonneg hr0]
  have hp : numPlaces dt dts = ⌈r⌉ := rfl
  unfold nextLag taken
  rw [hn, hp]
  by_cases h : dts < d
  · rw [if_pos h]
    have e : min ⌈r⌉.toNat (⌊r⌋ + 1).toNat = ⌈r⌉.toNat := by omega
    have e2 : ((⌈r⌉.toNat : ℕ) : K) = (⌈r⌉ : K) := by
      rw [show ((⌈r⌉.toNat : ℕ) : K) = (((⌈r⌉.toNat : ℕ) : ℤ) : K) by push_cast; rfl, Int.toNat_of_nonneg (by omega)]
    rw [e, e2]
    rw [hdr]
    constructor
    · nlinarith
    · nlinarith
  · rw [if_neg h, add_zero]
    have e : min ⌈r⌉.toNat ⌊r⌋.toNat = ⌊r⌋.toNat := by omega
    have e2 : ((⌊r⌋.toNat : ℕ) : K) = (⌊r⌋ : K) := by
      rw [show ((⌊r⌋.toNat : ℕ) : K) = (((⌊r⌋.toNat : ℕ) : ℤ) : K) by push_cast; rfl, Int.toNat_of_nonneg (by omega)]
    rw [e, e2]
    rw [hdr]
    push Not at h
    constructor
    · nlinarith
    · nlinarith

/-- The times of the updates of a run that updates every `gap`. -/
def updates (t0 gap : K) (n : ℕ) : List K := (List.range n).map fun i : ℕ => t0 + i * gap

theorem spin_append (dt dts : K) (places : ℤ) (t : K) (a b : List K) :
    (spin dt dts places t (a ++ b)).2 = (spin dt dts places (spin dt dts places t a).2 b).2 := by
  induction a generalizing t with
  | nil => rfl
  | cons x a ih =>
    simp only [List.cons_append, spin]
    exact ih _

theorem spin_succ (dt dts : K) (places : ℤ) (t0 gap : K) (n : ℕ) :
    (spin dt dts places t0 (updates t0 gap (n + 1))).2 =
      (scan dt dts (t0 + n * gap) places (spin dt dts places t0 (updates t0 gap n)).2).2 := by
  unfold updates
  rw [List.range_succ, List.map_append, spin_append]
  rfl

/-- The lag before update `n` of a run that begins with an update at the start. -/
def lagAt (dt dts : K) (places : ℤ) (t0 gap : K) (n : ℕ) : K :=
  t0 + n * gap - (spin dt dts places t0 (updates t0 gap n)).2

theorem lagAt_succ (dt dts : K) (places : ℤ) (t0 gap : K) (n : ℕ) :
    lagAt dt dts places t0 gap (n + 1) = nextLag dt dts places gap (lagAt dt dts places t0 gap n) := by
  unfold lagAt nextLag
  rw [spin_succ, (scan_spec _ _ _ _ _).2.2]
  push_cast
  ring

/-- **C111.** A run with steps of one size, not below the sampling interval, that samples in every step: before every
sample the scanner lags by less than two sampling intervals, and is never ahead.

Partial (C111). Missing: samples only every few steps, with which the scanner falls behind (`spin_falls_behind`). -/
theorem spin_keeps_up_partial (dt dts t0 : K) (hs : 0 < dts) (hdt : dts ≤ dt) (n : ℕ) :
    0 ≤ lagAt dt dts (numPlaces dt dts) t0 dt n ∧ lagAt dt dts (numPlaces dt dts) t0 dt n < 2 * dts := by
  induction n with
  | zero =>
    have : lagAt dt dts (numPlaces dt dts) t0 dt 0 = 0 := by simp [lagAt, updates, spin]
    rw [this]; exact ⟨le_rfl, by linarith⟩
  | succ n ih =>
    rw [lagAt_succ]
    exact lag_bounded dt dts _ hs hdt ih.1 ih.2

/-- If more time passes between the updates than fits in the places, the lag grows without bound. -/
theorem lag_grows (dt dts t0 gap : K) (places : ℤ) (hs : 0 ≤ dts) (n : ℕ) :
    n * (gap - places.toNat * dts) ≤ lagAt dt dts places t0 gap n := by
  induction n with
  | zero => simp [lagAt, updates, spin]
  | succ n ih =>
    rw [lagAt_succ]
    unfold nextLag
    have : (taken dt dts (lagAt dt dts places t0 gap n) places : K) ≤ places.toNat := by
      unfold taken; exact_mod_cast min_le_left _ _
    have := mul_le_mul_of_nonneg_right this hs
    push_cast
    linarith

/-- **C111, not met.** With samples only every `m` steps, `m` at least two, the beams owed do not fit: the lag grows
without bound, by at least `m` steps less the places of one step in each sample. -/
theorem spin_falls_behind (dt dts t0 : K) (hs : 0 ≤ dts) (m n : ℕ) :
    n * (m * dt - (numPlaces dt dts).toNat * dts) ≤ lagAt dt dts (numPlaces dt dts) t0 (m * dt) n :=
  lag_grows dt dts t0 (m * dt) _ hs n

/-- ... for instance, with 10 samples a step and output in every second step, after 100 samples the scanner is 1000
intervals behind. -/
theorem spin_behind_example : 1000 * (1 / 10 : ℚ) ≤ lagAt 1 (1 / 10) (numPlaces (1 : ℚ) (1 / 10)) 0 (2 * 1) 100 := by
  have h := spin_falls_behind (1 : ℚ) (1 / 10) 0 (by norm_num) 2 100
  have e : (numPlaces (1 : ℚ) (1 / 10)).toNat = 10 := by
    have : numPlaces (1 : ℚ) (1 / 10) = 10 := by
      unfold numPlaces
      rw [show (1 : ℚ) / (1 / 10) = ((10 : ℤ) : ℚ) by norm_num, Int.ceil_intCast]
    rw [this]; rfl
  rw [e] at h
  norm_num at h ⊢
  linarith

example : (1 / 10 : ℚ) ≤ 1 / 4 := by norm_num

end clock

/-! ## The beams -/

theorem pattern_ex {eps : ℝ} (he1 : eps ≤ 1) (a : Vec ℝ) (ha : mag a = 1) (ang : ℝ) (v : Vec ℝ) :
    dot (rotateEulerVec eps a ang v) (rotateEulerVec eps a ang v) = dot v v := by
  have hne : a ≠ ⟨0, 0, 0⟩ := by
    intro h; rw [h] at ha; unfold mag magSqr at ha; norm_num at ha
  have hn : Vs.normalize eps a = a := by
    unfold Vs.normalize
    rw [if_neg (by rw [ha]; exact not_lt.mpr he1), ha]
    simp
  unfold rotateEulerVec
  rw [hn]
  exact (quaternion_isometry hne ang).1 v v

/-- **C111.** The beam is a unit vector at all times, whatever the prisms do. -/
theorem pattern_unit {eps : ℝ} (he1 : eps ≤ 1) (inner outer : Prism) (time : ℝ) :
    dot (pattern eps inner outer time) (pattern eps inner outer time) = 1 := by
  have ux : dot (⟨1, 0, 0⟩ : Vec ℝ) ⟨1, 0, 0⟩ = 1 := by norm_num [dot]
  have r1 : ∀ a b, dot (rotateEulerVec eps ⟨1, 0, 0⟩ a (rotateEulerVec eps ⟨0, 0, 1⟩ b ⟨1, 0, 0⟩))
      (rotateEulerVec eps ⟨1, 0, 0⟩ a (rotateEulerVec eps ⟨0, 0, 1⟩ b ⟨1, 0, 0⟩)) = 1 := by
    intro a b
    rw [pattern_ex he1 _ mag_ex, pattern_ex he1 _ mag_ez, ux]
  unfold pattern
  dsimp only
  rw [(reflect_spec (r1 _ _)).2.1, (reflect_spec (r1 _ _)).2.1, ux]

/-- **C111.** Every beam has the given length, and starts at the position of the hub on the way between its last and its
present position. -/
theorem beam_length {eps : ℝ} (he1 : eps ≤ 1) (s : Spinner) (moved : Bool) (last now : Hub) (ns : ℤ)
    (k : ℕ) (time : ℝ) :
    mag ((s.beam eps moved last now ns k time).2 - (s.beam eps moved last now ns k time).1) = |s.length| ∧
      (moved = true → (s.beam eps moved last now ns k time).1 - last.center =
        ((k : ℝ) / ns) • (now.center - last.center)) ∧
      (moved = false → (s.beam eps moved last now ns k time).1 = last.center) := by
  refine ⟨?_, ?_, ?_⟩
  · set b := adjust (pattern eps s.inner s.outer time)
      (s.yaw + wayAngle last.yaw now.yaw (if moved then (if moved then (k : ℝ) else 0) / ns else 0) * (180 / Real.pi))
      (s.tilt + wayAngle last.tilt now.tilt (if moved then (if moved then (k : ℝ) else 0) / ns else 0) * (180 / Real.pi))
      (s.roll + wayAngle last.roll now.roll (if moved then (if moved then (k : ℝ) else 0) / ns else 0) * (180 / Real.pi))
      with hb
    have hu : dot b b = 1 := by
      rw [hb]
      unfold adjust
      rw [(rotation_isometry _).1, pattern_unit he1]
    have e : (s.beam eps moved last now ns k time).2 - (s.beam eps moved last now ns k time).1 =
        ⟨b.x * s.length, b.y * s.length, b.z * s.length⟩ := by
      ext
      · simp only [sub_x, Spinner.beam, hb]; ring
      · simp only [sub_y, Spinner.beam, hb]; ring
      · simp only [sub_z, Spinner.beam, hb]; ring
    rw [e]
    unfold mag
    rw [← Real.sqrt_sq_eq_abs]
    congr 1
    unfold dot at hu
    simp only [magSqr]
    linear_combination s.length ^ 2 * hu
  · intro h
    subst h
    ext
    · simp only [sub_x, smul_x, Spinner.beam, if_true]; ring
    · simp only [sub_y, smul_y, Spinner.beam, if_true]; ring
    · simp only [sub_z, smul_z, Spinner.beam, if_true]; ring
  · intro h
    subst h
    ext <;> simp [Spinner.beam]

/-- **C111.** The angles of the hub pass from the last to the present value on the shortest way: the angle at the fraction
`f` of the update differs from the last one by `f` times a difference that is congruent to the change and at most half a
turn, and at the end it is the present angle up to full turns. -/
theorem way_angle_spec (last now f : ℝ) (h0 : 0 ≤ f) :
    wayAngle last now 0 = last ∧ (∃ m : ℤ, wayAngle last now 1 = now + m * (2 * Real.pi)) ∧
      |wayAngle last now f - last| ≤ f * Real.pi ∧
      ∀ m : ℤ, |wayAngle last now f - last| ≤ f * |now - last + m * (2 * Real.pi)| := by
  have hp : (0 : ℝ) < 2 * Real.pi := by linarith [Real.pi_pos]
  obtain ⟨⟨k, hk⟩, l, u⟩ := Interp.angleDiff_spec last now hp
  have hd : |Interp.angleDiff last now (2 * Real.pi)| ≤ Real.pi := abs_le.mpr ⟨by linarith, by linarith⟩
  have e : wayAngle last now f - last = f * Interp.angleDiff last now (2 * Real.pi) := by unfold wayAngle; ring
  refine ⟨by simp [wayAngle], ⟨k, ?_⟩, ?_, ?_⟩
  · unfold wayAngle; rw [hk]; ring
  · rw [e, abs_mul, abs_of_nonneg h0]; exact mul_le_mul_of_nonneg_left hd h0
  · intro m
    rw [e, abs_mul, abs_of_nonneg h0]
    exact mul_le_mul_of_nonneg_left (Interp.angleDiff_shortest last now hp m) h0

/-- **C111.** A hub at rest, without rotation: the beam is the pattern turned by the fixed angles, at every place. -/
theorem beam_at_rest {eps : ℝ} (s : Spinner) (moved : Bool) (c : Vec ℝ) (ns : ℤ) (k : ℕ) (time : ℝ) :
    s.beam eps moved ⟨0, 0, 0, c⟩ ⟨0, 0, 0, c⟩ ns k time =
      (c, c + s.length • rotation ⟨s.roll, s.tilt, s.yaw⟩ (pattern eps s.inner s.outer time)) := by
  have hp : (0 : ℝ) < 2 * Real.pi := by linarith [Real.pi_pos]
  have hz : Interp.angleDiff (0 : ℝ) 0 (2 * Real.pi) = 0 := by
    have := Interp.angleDiff_shortest (0 : ℝ) 0 hp 0
    simpa using this
  have hw : ∀ f, wayAngle 0 0 f = 0 := by intro f; unfold wayAngle; rw [hz]; ring
  unfold Spinner.beam
  dsimp only
  simp only [hw, zero_mul, add_zero, sub_self, mul_zero, zero_add]
  refine Prod.ext rfl ?_
  ext <;> simp [adjust]

/-- The rotation of a hub with the given angles, in radians: the axes of the hub in the frame of the domain are the images
of the axes under this rotation, which turns by the roll about `x`, then by the tilt about `y`, then by the yaw about `z`. -/
noncomputable def attitude (yaw tilt roll : ℝ) (v : Vec ℝ) : Vec ℝ :=
  rotation ⟨roll * (180 / Real.pi), tilt * (180 / Real.pi), yaw * (180 / Real.pi)⟩ v

theorem radians_deg (a : ℝ) : radians (a * (180 / Real.pi)) = a := by
  have := Real.pi_pos
  unfold radians
  field_simp

/-- The matrix whose columns are the axes of the hub, by rows. -/
noncomputable def axesMatrix (f : Vec ℝ → Vec ℝ) : Fin 9 → ℝ :=
  ![(f ⟨1, 0, 0⟩).x, (f ⟨0, 1, 0⟩).x, (f ⟨0, 0, 1⟩).x, (f ⟨1, 0, 0⟩).y, (f ⟨0, 1, 0⟩).y, (f ⟨0, 0, 1⟩).y,
    (f ⟨1, 0, 0⟩).z, (f ⟨0, 1, 0⟩).z, (f ⟨0, 0, 1⟩).z]

theorem arg_polar {r t : ℝ} (hr : 0 < r) (h1 : -Real.pi < t) (h2 : t ≤ Real.pi) :
    Complex.arg ⟨r * Real.cos t, r * Real.sin t⟩ = t := by
  have : (⟨r * Real.cos t, r * Real.sin t⟩ : ℂ) = r * (Complex.cos t + Complex.sin t * Complex.I) := by
    apply Complex.ext <;> simp [← Complex.ofReal_cos, ← Complex.ofReal_sin]
  rw [this]
  exact Complex.arg_mul_cos_add_sin_mul_I hr ⟨h1, h2⟩

/-- **C111.** The angles taken from the orientation of the hub are its angles: for a hub with tilt below a quarter turn, if
the matrix received has the axes of the hub as its columns, the angles found are those of the hub, so that the beams turn
with the hub. -/
theorem hub_angles_spec (yaw tilt roll : ℝ) (c : Vec ℝ) (hy1 : -Real.pi < yaw) (hy2 : yaw ≤ Real.pi)
    (hr1 : -Real.pi < roll) (hr2 : roll ≤ Real.pi) (ht1 : -(Real.pi / 2) < tilt) (ht2 : tilt < Real.pi / 2) :
    hubAngles (axesMatrix (attitude yaw tilt roll)) c = ⟨yaw, tilt, roll, c⟩ := by
  have hc : 0 < Real.cos tilt := Real.cos_pos_of_mem_Ioo ⟨ht1, ht2⟩
  have e0 : axesMatrix (attitude yaw tilt roll) 0 = Real.cos tilt * Real.cos yaw := by
    show (attitude yaw tilt roll ⟨1, 0, 0⟩).x = _
    simp only [attitude, rotation, vmul, tcomp, xrot, yrot, zrot, radians_deg]
    ring
  have e3 : axesMatrix (attitude yaw tilt roll) 3 = Real.cos tilt * Real.sin yaw := by
    show (attitude yaw tilt roll ⟨1, 0, 0⟩).y = _
    simp only [attitude, rotation, vmul, tcomp, xrot, yrot, zrot, radians_deg]
    ring
  have e6 : axesMatrix (attitude yaw tilt roll) 6 = -Real.sin tilt := by
    show (attitude yaw tilt roll ⟨1, 0, 0⟩).z = _
    simp only [attitude, rotation, vmul, tcomp, xrot, yrot, zrot, radians_deg]
    ring
  have e7 : axesMatrix (attitude yaw tilt roll) 7 = Real.cos tilt * Real.sin roll := by
    show (attitude yaw tilt roll ⟨0, 1, 0⟩).z = _
    simp only [attitude, rotation, vmul, tcomp, xrot, yrot, zrot, radians_deg]
    ring
  have e8 : axesMatrix (attitude yaw tilt roll) 8 = Real.cos tilt * Real.cos roll := by
    show (attitude yaw tilt roll ⟨0, 0, 1⟩).z = _
    simp only [attitude, rotation, vmul, tcomp, xrot, yrot, zrot, radians_deg]
    ring
  have es : Real.sqrt ((Real.cos tilt * Real.sin roll) ^ 2 + (Real.cos tilt * Real.cos roll) ^ 2) =
      1 * Real.cos tilt := by
    rw [show (Real.cos tilt * Real.sin roll) ^ 2 + (Real.cos tilt * Real.cos roll) ^ 2 = Real.cos tilt ^ 2 by
      linear_combination Real.cos tilt ^ 2 * Real.sin_sq_add_cos_sq roll, Real.sqrt_sq hc.le, one_mul]
  have p := Real.pi_pos
  unfold hubAngles
  rw [e0, e3, e6, e7, e8, es, neg_neg]
  have g : Complex.arg ⟨1 * Real.cos tilt, Real.sin tilt⟩ = tilt := by
    have := arg_polar (r := 1) (t := tilt) one_pos (by linarith) (by linarith)
    rwa [one_mul (Real.sin tilt)] at this
  rw [g, arg_polar hc hy1 hy2, arg_polar hc hr1 hr2]

example : hubAngles (axesMatrix (attitude 0 0 0)) ⟨0, 0, 90⟩ = ⟨0, 0, 0, ⟨0, 0, 90⟩⟩ := by
  have := Real.pi_pos
  exact hub_angles_spec 0 0 0 _ (by linarith) (by linarith) (by linarith) (by linarith) (by linarith) (by linarith)

/-- **C111.** The beams of an update: as many places as the step has sampling intervals, rounded up; the places taken hold
the beams of consecutive times of the scanner; the others are filled. -/
theorem beams_spec {eps : ℝ} (s : Spinner) (moved : Bool) (last now : Hub) (dt dts time t : ℝ) :
    (s.beams eps moved last now dt dts time t).length = (numPlaces dt dts).toNat ∧
      ∀ i, i < (numPlaces dt dts).toNat → (s.beams eps moved last now dt dts time t)[i]? =
        some (if i < taken dt dts (time - t) (numPlaces dt dts) then
          some (s.beam eps moved last now (numBeams dt dts (time - t)) i (t + i * dts)) else none) := by
  obtain ⟨h1, h2, _⟩ := scan_spec dt dts time t (numPlaces dt dts)
  constructor
  · simp [Spinner.beams, h1]
  · intro i hi
    unfold Spinner.beams
    rw [List.getElem?_map, List.getElem?_zipIdx, h2 i hi]
    by_cases h : i < taken dt dts (time - t) (numPlaces dt dts)
    · simp [h]
    · simp [h]

/-- **C111, not met.** The beams of the update at time `time` are taken at scanner times after `time`, although the hub is
placed between its positions at the end of the last step and of this one: with a lag of zero the beam at place `i` is the
pattern of the time `time + i * dts`, while its hub is the fraction `i / ns` of the way to the position at `time`. -/
theorem pattern_ahead_of_hub {eps : ℝ} (s : Spinner) (last now : Hub) (dt dts time : ℝ) (i : ℕ)
    (hi : i < taken dt dts 0 (numPlaces dt dts)) :
    ∃ b, (s.beams eps true last now dt dts time time)[i]? = some (some b) ∧
      b = s.beam eps true last now (numBeams dt dts 0) i (time + i * dts) ∧
      b.1 - last.center = ((i : ℝ) / numBeams dt dts 0) • (now.center - last.center) := by
  have hp : i < (numPlaces dt dts).toNat := lt_of_lt_of_le hi (min_le_left _ _)
  have h := (beams_spec s (eps := eps) true last now dt dts time time).2 i hp
  rw [sub_self, if_pos hi] at h
  refine ⟨_, h, rfl, ?_⟩
  ext
  · simp only [sub_x, smul_x, Spinner.beam, if_true]; ring
  · simp only [sub_y, smul_y, Spinner.beam, if_true]; ring
  · simp only [sub_z, smul_z, Spinner.beam, if_true]; ring

/-- **C111** The two prisms: the beam starts along the axis and is reflected in two planes, whose normals make the angles
`a`, `b` with the axis and turn about it with the rates of the inner and of the outer prism. -/
theorem pattern_prisms {eps : ℝ} (he : 0 < eps) (he1 : eps ≤ 1) (inner outer : Prism) (time : ℝ) :
    let a := Real.pi * (-(inner.azimuth / 2 + 90)) / 180
    let b := Real.pi * (outer.azimuth / 2) / 180
    let θ := Real.pi * (inner.theta0 + inner.rot * time * 360) / 180
    let φ := Real.pi * (outer.theta0 + outer.rot * time * 360) / 180
    pattern eps inner outer time =
      reflect ⟨Real.cos b, Real.sin b * Real.cos φ, Real.sin b * Real.sin φ⟩
        (reflect ⟨Real.cos a, Real.sin a * Real.cos θ, Real.sin a * Real.sin θ⟩ ⟨1, 0, 0⟩) := by
  have hx : mag (⟨1, 0, 0⟩ : Vec ℝ) = 1 := by simp [mag, magSqr]
  have hz : mag (⟨0, 0, 1⟩ : Vec ℝ) = 1 := by simp [mag, magSqr]
  have rz : ∀ t : ℝ, rotateEulerVec eps ⟨0, 0, 1⟩ t ⟨1, 0, 0⟩ =
      ⟨Real.cos (Real.pi * t / 180), Real.sin (Real.pi * t / 180), 0⟩ := by
    intro t
    rw [rotate_euler_rotates he (by rw [hz]; exact he1), hz]
    unfold rodrigues cross dot
    ext <;> simp
  have rx : ∀ t c s : ℝ, rotateEulerVec eps ⟨1, 0, 0⟩ t ⟨c, s, 0⟩ =
      ⟨c, s * Real.cos (Real.pi * t / 180), s * Real.sin (Real.pi * t / 180)⟩ := by
    intro t c s
    rw [rotate_euler_rotates he (by rw [hx]; exact he1), hx]
    unfold rodrigues cross dot
    ext <;> simp <;> ring
  unfold pattern
  simp only [rz, rx]

end AmrWind.Beam
