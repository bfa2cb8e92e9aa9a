import Verif.Actuator.WingModel
import Verif.Actuator.DiskJk
import Verif.Actuator.Fllc
import Verif.Actuator.FllcOp
import Verif.Actuator.Spread

/-!
# C77: wings act on the fluid with the lift and drag of their airfoil, along their path
-/

set_option linter.unusedSectionVars false

namespace AmrWind.Wing

open AmrWind.Vs
open AmrWind.Disk (normalize_unit ne_zero_of_dot mag_of_dot tmul_quaternion vsum)
open scoped BigOperators

/-! ## Points -/

/-- C77: the points run in equal steps from the start of the wing to its end. -/
theorem points_spec (start fin : Vec ℝ) {npts : ℕ} (h : 2 ≤ npts) :
    point start fin npts 0 = some start ∧ point start fin npts (npts - 1) = some fin ∧
    ∀ i, ∃ p q, point start fin npts i = some p ∧ point start fin npts (i + 1) = some q ∧
      ((npts : ℝ) - 1) • (q - p) = fin - start := by
  have hn : (npts : ℝ) - 1 ≠ 0 := by
    have : (2 : ℝ) ≤ npts := by exact_mod_cast h
    linarith
  have h1 : npts ≠ 1 := by omega
  have hc : ((npts - 1 : ℕ) : ℝ) = (npts : ℝ) - 1 := by rw [Nat.cast_sub (by omega)]; simp
  refine ⟨?_, ?_, fun i => ⟨_, _, if_neg h1, if_neg h1, ?_⟩⟩
  · unfold point
    rw [if_neg h1]
    congr 1
    ext <;> simp
  · unfold point
    rw [if_neg h1]
    congr 1
    ext <;> simp only [add_x, add_y, add_z, smul_x, smul_y, smul_z, sub_x, sub_y, sub_z, hc] <;> field_simp <;> ring
  · ext <;> simp only [add_x, add_y, add_z, smul_x, smul_y, smul_z, sub_x, sub_y, sub_z] <;> push_cast <;> field_simp <;> ring

theorem mag_smul {c : ℝ} (hc : 0 ≤ c) (v : Vec ℝ) : mag (c • v) = c * mag v := by
  unfold mag magSqr
  simp only [smul_x, smul_y, smul_z]
  rw [show v.x * c * (v.x * c) + v.y * c * (v.y * c) + v.z * c * (v.z * c) = c ^ 2 * (v.x * v.x + v.y * v.y + v.z * v.z) by ring,
    Real.sqrt_mul (sq_nonneg c), Real.sqrt_sq hc]

/-- The sum with half weights at the ends. -/
theorem half_ends_sum (d : ℝ) (f : ℕ → ℝ) (m : ℕ) :
    ((List.range (m + 2)).map fun i => (if i = 0 ∨ i = m + 2 - 1 then d * (1 / 2) else d) * f i).sum =
      d * ∑ i ∈ Finset.range (m + 1), (f i + f (i + 1)) / 2 := by
  rw [Fllc.sum_map_range, Finset.sum_range_succ, Finset.sum_range_succ']
  have e : ∀ k ∈ Finset.range m, (if k + 1 = 0 ∨ k + 1 = m + 2 - 1 then d * (1 / 2) else d) * f (k + 1) = d * f (k + 1) := by
    intro k hk
    have := Finset.mem_range.mp hk
    rw [if_neg (by omega)]
  rw [Finset.sum_congr rfl e, if_pos (by simp), if_pos (by omega), ← Finset.sum_div, Finset.sum_add_distrib]
  rw [Finset.sum_range_succ' (fun i => f i), Finset.sum_range_succ (fun i => f (i + 1)), ← Finset.mul_sum]
  ring

/-- C77: the sum of a quantity per length over the segments is the trapezoidal rule on the points of the wing. -/
theorem widths_trapezoid (start fin : Vec ℝ) (m : ℕ) (f : ℕ → ℝ) :
    ∃ w, widths start fin (m + 2) = some w ∧ w.length = m + 2 ∧
      ((List.range (m + 2)).map fun i => w.getD i 0 * f i).sum =
        mag (fin - start) / (m + 1) * ∑ i ∈ Finset.range (m + 1), (f i + f (i + 1)) / 2 := by
  have hw : widths start fin (m + 2) = some _ := if_neg (by omega)
  refine ⟨_, hw, by simp, ?_⟩
  have hd : mag ((1 / (((m + 2 : ℕ) : ℝ) - 1)) • (fin - start)) = mag (fin - start) / (m + 1) := by
    rw [mag_smul (by push_cast; apply div_nonneg zero_le_one; have := Nat.cast_nonneg (α := ℝ) m; linarith)]
    push_cast
    rw [show (m : ℝ) + 2 - 1 = m + 1 by ring]
    ring
  rw [← half_ends_sum, hd]
  congr 1
  apply List.map_congr_left
  intro i hi
  rw [List.mem_range] at hi
  rw [List.getD_eq_getElem _ _ (by simpa using hi)]
  simp

/-- C77: the widths of the segments sum to the span. -/
theorem widths_sum (start fin : Vec ℝ) {npts : ℕ} (h : 2 ≤ npts) :
    ∃ w, widths start fin npts = some w ∧ w.sum = mag (fin - start) := by
  obtain ⟨m, rfl⟩ : ∃ m, npts = m + 2 := ⟨npts - 2, by omega⟩
  obtain ⟨w, hw, hl, hs⟩ := widths_trapezoid start fin m (fun _ => 1)
  refine ⟨w, hw, ?_⟩
  have e : ((List.range (m + 2)).map fun i => w.getD i 0 * 1) = w := by
    apply List.ext_getElem
    · simp [hl]
    · intro i h1 h2
      simp [List.getElem?_eq_getElem h2]
  rw [e] at hs
  have hm : (m : ℝ) + 1 ≠ 0 := by positivity
  rw [hs]
  simp
  field_simp

/-- One point: the code divides by zero (no check on `num_points`). -/
theorem one_point_undefined (start fin : Vec ℝ) : point start fin 1 0 = none ∧ widths start fin 1 = none := by
  constructor
  · unfold point; simp
  · unfold widths; simp

/-- C77: the chord of point `i` is looked up at the fraction `i / (npts - 1)` of the span. -/
theorem spanLoc_spec {start fin : Vec ℝ} (hne : fin - start ≠ ⟨0, 0, 0⟩) {npts : ℕ} (h : 2 ≤ npts) (i : ℕ) :
    spanLoc start fin npts i = some (i / ((npts : ℝ) - 1)) := by
  have hn : 0 < (npts : ℝ) - 1 := by
    have : (2 : ℝ) ≤ npts := by exact_mod_cast h
    linarith
  have h1 : npts ≠ 1 := by omega
  obtain ⟨h0, he, -⟩ := points_spec start fin h
  have hp : point start fin npts i = some (start + (i : ℝ) • ((1 / ((npts : ℝ) - 1)) • (fin - start))) := if_neg h1
  unfold spanLoc
  rw [h0, he, hp]
  simp only [Option.bind_some, Option.map_some]
  have e : start + (i : ℝ) • ((1 / ((npts : ℝ) - 1)) • (fin - start)) - start = ((i : ℝ) / ((npts : ℝ) - 1)) • (fin - start) := by
    ext <;> simp only [add_x, add_y, add_z, smul_x, smul_y, smul_z, sub_x, sub_y, sub_z] <;> field_simp <;> ring
  rw [e, mag_smul (by positivity)]
  have := (mag_pos hne).ne'
  congr 1
  field_simp

/-! ## Orientation of the kernel -/

/-- C77: for a wing along `y` the coordinates in which the kernel is evaluated are chord, span and thickness: the chord is
pitched nose up by the pitch angle. -/
theorem local_frame_partial {start fin : Vec ℝ} {L : ℝ} (hL : 0 < L) (h : fin - start = ⟨0, L, 0⟩) (pitch : ℝ) (d : Vec ℝ) :
    tmul (tmat start fin pitch) d =
      ⟨d.x * Real.cos (radians pitch) - d.z * Real.sin (radians pitch), d.y,
        d.x * Real.sin (radians pitch) + d.z * Real.cos (radians pitch)⟩ := by
  have hm : mag (⟨0, L, 0⟩ : Vec ℝ) = L := by
    unfold mag magSqr; simp [Real.sqrt_mul_self hL.le]
  have hr : Real.pi * -pitch / 180 = -radians pitch := by unfold radians; ring
  unfold tmat
  rw [h, tmul_quaternion, quaternion_rotates (by intro hh; simp at hh; exact hL.ne' hh), hr]
  generalize radians pitch = α
  ext <;> simp only [rodrigues, hm, Real.cos_neg, Real.sin_neg, dot, cross, add_x, add_y, add_z, smul_x, smul_y, smul_z] <;>
    field_simp <;> ring

/-- For a wing along `z` the third coordinate, which has the width of the thickness, is the distance along the span, for
every pitch: the widths given for span and thickness are exchanged, and a kernel without its spanwise component
(`disable_spanwise_gaussian`) drops a direction across the wing. -/
theorem vertical_wing_swaps {start fin : Vec ℝ} {L : ℝ} (hL : 0 < L) (h : fin - start = ⟨0, 0, L⟩) (pitch : ℝ) (d : Vec ℝ) :
    (tmul (tmat start fin pitch) d).z = d.z ∧ (d.x = 0 → (tmul (tmat start fin 0) d).y = d.y) := by
  have hm : mag (⟨0, 0, L⟩ : Vec ℝ) = L := by
    unfold mag magSqr; simp [Real.sqrt_mul_self hL.le]
  have hne : (⟨0, 0, L⟩ : Vec ℝ) ≠ ⟨0, 0, 0⟩ := by intro hh; simp at hh; exact hL.ne' hh
  unfold tmat
  rw [h]
  constructor
  · rw [tmul_quaternion, quaternion_rotates hne]
    simp only [rodrigues, hm, dot, cross, add_z, smul_x, smul_y, smul_z]
    field_simp
    ring
  · intro hx
    rw [tmul_quaternion, quaternion_rotates hne]
    have hr : radians (-0) = 0 := by unfold radians; simp
    simp only [rodrigues, hm, hr, Real.cos_zero, Real.sin_zero, dot, cross, add_y, smul_x, smul_y, smul_z]
    simp

/-! ## Motion -/

/-- The path of a wing. -/
noncomputable def path (m : Motion) (vel svec : Vec ℝ) (period t : ℝ) : Vec ℝ :=
  match m with
  | .none => ⟨0, 0, 0⟩
  | .linear => t • vel
  | .sine => Real.sin (2 * Real.pi * t / period) • svec

/-- The last of a list of steps. -/
def lastTime (t : ℝ) : List (Bool × ℝ) → ℝ
  | [] => t
  | (_, t') :: l => lastTime t' l

theorem disp_path (m : Motion) {vel vtr : Vec ℝ} (h : m = .linear → vtr = vel) (svec : Vec ℝ) (period t t' : ℝ) :
    disp m vtr svec period t t' = path m vel svec period t' - path m vel svec period t := by
  cases m
  · ext <;> simp [disp, path]
  · rw [h rfl]
    ext <;> simp only [disp, path, sub_x, sub_y, sub_z, smul_x, smul_y, smul_z] <;> ring
  · ext <;> simp only [disp, path, sub_x, sub_y, sub_z, smul_x, smul_y, smul_z] <;> ring

/-- C77: after any number of steps, of any sizes, a rank that was active at each has the wing at its place on the path. -/
theorem motion_history {meps : ℝ} (m : Motion) (vel svec : Vec ℝ) (period : ℝ) :
    ∀ (l : List (Bool × ℝ)) (t : ℝ) (s : St), (∀ p ∈ l, p.1 = true) → (m = .linear → s.vtr = vel) →
      (run meps m svec period s t l).pos =
        s.pos.map (· + (path m vel svec period (lastTime t l) - path m vel svec period t))
  | [], t, s, _, _ => by
    simp only [run, lastTime]
    conv_lhs => rw [← List.map_id s.pos]
    apply List.map_congr_left
    intro v _
    ext <;> simp
  | (a, t') :: l, t, s, ha, hv => by
    have ha' : a = true := ha (a, t') (by simp)
    subst ha'
    have e : run meps m svec period s t ((true, t') :: l) =
      run meps m svec period (move meps m svec period s t t') t' l := rfl
    have hv' : m = .linear → (move meps m svec period s t t').vtr = vel := by
      intro hm
      subst hm
      exact hv rfl
    rw [e, motion_history m vel svec period l t' _ (fun p hp => ha p (by simp [hp])) hv']
    simp only [move, lastTime, List.map_map]
    apply List.map_congr_left
    intro v _
    simp only [Function.comp]
    rw [disp_path m hv]
    ext <;> simp only [add_x, add_y, add_z, sub_x, sub_y, sub_z] <;> ring

/-- A rank that takes part only after a regrid keeps the wing where it was when it last took part: two ranks that both act
on the fluid with the same wing have it at different places. -/
theorem stale_rank (meps : ℝ) : ∃ (s : St) (a b : List (Bool × ℝ)),
    a.map Prod.snd = b.map Prod.snd ∧ a.getLast? = some (true, 2) ∧ b.getLast? = some (true, 2) ∧
    (run meps .linear ⟨0, 0, 0⟩ 1 s 0 a).pos = [⟨2, 0, 0⟩] ∧ (run meps .linear ⟨0, 0, 0⟩ 1 s 0 b).pos = [⟨1, 0, 0⟩] := by
  refine ⟨⟨[⟨0, 0, 0⟩], ⟨1, 0, 0⟩⟩, [(true, 1), (true, 2)], [(false, 1), (true, 2)], rfl, rfl, rfl, ?_, ?_⟩
  · simp only [run, rankStep, move, disp, if_true, List.map, List.cons.injEq, and_true]
    ext <;> simp <;> norm_num
  · simp only [run, rankStep, move, disp, if_true, List.map]
    simp only [Bool.false_eq_true, if_false]
    exact congrArg (fun v => [v]) (by ext <;> simp <;> norm_num)

/-- After a restart at time `t1` the wing starts again from its first position: what a run without the restart has moved
until then is lost. -/
theorem restart_loses_motion {meps : ℝ} (m : Motion) (vel svec : Vec ℝ) (period : ℝ) (pts : List (Vec ℝ)) {t0 t1 : ℝ}
    {l : List (Bool × ℝ)} (hl : ∀ p ∈ l, p.1 = true) :
    (run meps m svec period ⟨pts, vel⟩ t0 ((true, t1) :: l)).pos =
      (run meps m svec period ⟨pts, vel⟩ t1 l).pos.map (· + (path m vel svec period t1 - path m vel svec period t0)) := by
  rw [motion_history m vel svec period _ t0 ⟨pts, vel⟩ (by intro p hp; simp only [List.mem_cons] at hp; rcases hp with rfl | hp; rfl; exact hl p hp) (fun _ => rfl),
    motion_history m vel svec period l t1 ⟨pts, vel⟩ hl (fun _ => rfl)]
  simp only [List.map_map, lastTime]
  apply List.map_congr_left
  intro v _
  simp only [Function.comp]
  ext <;> simp only [add_x, add_y, add_z, sub_x, sub_y, sub_z] <;> ring

/-- C77: the velocity used for the relative wind is the mean velocity over the step (up to the machine epsilon in the
denominator for the sine), and it is zero at initialization, where the step has no length. -/
theorem motion_velocity (meps : ℝ) (m : Motion) (vel svec : Vec ℝ) (period : ℝ) (pts : List (Vec ℝ)) (t t' : ℝ) :
    let s := move meps m svec period ⟨pts, vel⟩ t t'
    (m = .linear → (t' - t) • s.vtr = path m vel svec period t' - path m vel svec period t) ∧
    (m = .sine → t' - t + meps ≠ 0 →
      (t' - t + meps) • s.vtr = path m vel svec period t' - path m vel svec period t) ∧
    (m = .sine → t' = t → s.vtr = ⟨0, 0, 0⟩) := by
  refine ⟨?_, ?_, ?_⟩
  · rintro rfl
    ext <;> simp only [move, path, sub_x, sub_y, sub_z, smul_x, smul_y, smul_z] <;> simp <;> ring
  · rintro rfl hne
    ext <;> simp only [move, path, disp, if_true, sub_x, sub_y, sub_z, smul_x, smul_y, smul_z] <;> field_simp
  · rintro rfl rfl
    ext <;> simp [move, disp]

/-! ## Forces -/

theorem mag_cross_unit {a b : Vec ℝ} (ha : dot a a = 1) (hb : dot b b = 1) (hab : dot a b = 0) :
    dot (cross a b) (cross a b) = 1 := by
  simp only [dot, cross] at *
  have e : (a.y * b.z - a.z * b.y) * (a.y * b.z - a.z * b.y) + (a.z * b.x - a.x * b.z) * (a.z * b.x - a.x * b.z) +
      (a.x * b.y - a.y * b.x) * (a.x * b.y - a.y * b.x) =
      (a.x * a.x + a.y * a.y + a.z * a.z) * (b.x * b.x + b.y * b.y + b.z * b.z) -
        (a.x * b.x + a.y * b.y + a.z * b.z) ^ 2 := by ring
  rw [e, ha, hb, hab]; ring

theorem normalize_of_unit {meps : ℝ} (hm : meps ≤ 1) {a : Vec ℝ} (ha : dot a a = 1) : Disk.normalize meps a = a := by
  unfold Disk.normalize
  rw [mag_of_dot ha, if_neg (not_lt.mpr hm)]
  ext <;> simp

/-- C77: the frame of the wing is orthonormal and right-handed: `y` along the span, `x` in the plane of the span and the
reference direction, on the side of the reference direction. -/
theorem frame_spec {meps : ℝ} (h0 : 0 < meps) (h1 : meps ≤ 1) {start fin bx : Vec ℝ} (hs : meps ≤ mag (fin - start))
    (hb : meps ≤ mag bx) (hc : meps ≤ mag (cross (Disk.normalize meps bx) (bladeY meps start fin))) :
    let ex := bladeX meps start fin bx
    let ey := bladeY meps start fin
    let ez := bladeZ meps start fin bx
    dot ex ex = 1 ∧ dot ey ey = 1 ∧ dot ez ez = 1 ∧ dot ex ey = 0 ∧ dot ey ez = 0 ∧ dot ex ez = 0 ∧ cross ex ey = ez ∧
      fin - start = mag (fin - start) • ey ∧ dot ez bx = 0 ∧ 0 < dot ex bx := by
  intro ex ey ez
  obtain ⟨hy1, hy2⟩ := normalize_unit h0 hs
  obtain ⟨hz1, hz2⟩ := normalize_unit h0 hc
  obtain ⟨hb1, hb2⟩ := normalize_unit h0 hb
  set c := mag (cross (Disk.normalize meps bx) (bladeY meps start fin)) with hcdef
  set u := Disk.normalize meps bx with hu
  have hcp : 0 < c := lt_of_lt_of_le h0 hc
  have hbp : 0 < mag bx := lt_of_lt_of_le h0 hb
  change dot ey ey = 1 at hy1
  change dot ez ez = 1 at hz1
  change cross u ey = c • ez at hz2
  have hx' := congrArg Vec.x hz2
  have hy' := congrArg Vec.y hz2
  have hz' := congrArg Vec.z hz2
  simp only [cross, smul_x, smul_y, smul_z] at hx' hy' hz'
  have hyz : dot ey ez = 0 := by
    have : c * dot ey ez = 0 := by
      simp only [dot]
      linear_combination (-ey.x) * hx' + (-ey.y) * hy' + (-ey.z) * hz'
    exact (mul_eq_zero.mp this).resolve_left hcp.ne'
  have huz : dot u ez = 0 := by
    have : c * dot u ez = 0 := by
      simp only [dot]
      linear_combination (-u.x) * hx' + (-u.y) * hy' + (-u.z) * hz'
    exact (mul_eq_zero.mp this).resolve_left hcp.ne'
  have hex : ex = cross ey ez := normalize_of_unit h1 (mag_cross_unit hy1 hz1 hyz)
  have hxx : dot ex ex = 1 := by rw [hex]; exact mag_cross_unit hy1 hz1 hyz
  refine ⟨hxx, hy1, hz1, ?_, hyz, ?_, ?_, hy2, ?_, ?_⟩
  · rw [hex]; simp only [dot, cross]; ring
  · rw [hex]; simp only [dot, cross]; ring
  · rw [hex]
    simp only [dot] at hy1 hyz
    ext <;> simp only [cross]
    · linear_combination ez.x * hy1 - ey.x * hyz
    · linear_combination ez.y * hy1 - ey.y * hyz
    · linear_combination ez.z * hy1 - ey.z * hyz
  · rw [hb2]
    have e : dot ez (mag bx • u) = mag bx * dot u ez := by simp only [dot, smul_x, smul_y, smul_z]; ring
    rw [e, huz, mul_zero]
  · rw [hb2]
    have e : dot ex (mag bx • u) = mag bx * c := by
      have : dot ex u = dot (c • ez) ez := by
        rw [hex, ← hz2]
        simp only [dot, cross]; ring
      have h2 : dot (c • ez) ez = c * dot ez ez := by simp only [dot, smul_x, smul_y, smul_z]; ring
      rw [show dot ex (mag bx • u) = mag bx * dot ex u by simp only [dot, smul_x, smul_y, smul_z]; ring, this, h2, hz1]
      ring
    rw [e]
    exact mul_pos hbp hcp

/-- C77: the angle of attack is the angle of the relative wind to the `x` axis of the wing plus the pitch. -/
theorem aoa_spec (w : Vec ℝ) (hy : w.y = 0) (pitch : ℝ) :
    w.x = mag w * Real.cos (aoa w pitch - radians pitch) ∧ w.z = mag w * Real.sin (aoa w pitch - radians pitch) ∧
      -Real.pi < aoa w pitch - radians pitch ∧ aoa w pitch - radians pitch ≤ Real.pi := by
  have hn : mag w = ‖(⟨w.x, w.z⟩ : ℂ)‖ := by
    rw [Complex.norm_eq_sqrt_sq_add_sq]
    unfold mag magSqr
    rw [hy]
    congr 1
    ring
  have e : aoa w pitch - radians pitch = Complex.arg ⟨w.x, w.z⟩ := by unfold aoa; ring
  rw [e, hn, Complex.norm_mul_cos_arg, Complex.norm_mul_sin_arg]
  exact ⟨rfl, rfl, Complex.neg_pi_lt_arg _, Complex.arg_le_pi _⟩

/-- C77: the force on the fluid of a section in a relative wind `v - vtr` has no component along the span; against the part
`W` of the wind across the span it is the drag, and across both it is the lift, both with the wing's sign reversed. -/
theorem section_force {meps : ℝ} (h0 : 0 < meps) (h1 : meps ≤ 1) {ex ey ez : Vec ℝ} (hx : dot ex ex = 1) (hy : dot ey ey = 1)
    (hz : dot ez ez = 1) (hxy : dot ex ey = 0) (hyz : dot ey ez = 0) (hxz : dot ex ez = 0) (vel vtr : Vec ℝ) (s : Sect)
    (hf : s.flags = ⟨1, 1, 1⟩) (hw : meps ≤ mag (windVector ex ez vel vtr)) :
    let w := windVector ex ez vel vtr
    let W := w.x • ex + w.z • ez
    let F := s.force meps ex ey ez w
    mag W = mag w ∧ dot F ey = 0 ∧ dot F W = -(s.drag w * mag w) ∧ dot F (cross W ey) = -(s.lift w * mag w) := by
  intro w W F
  have hwp : 0 < mag w := lt_of_lt_of_le h0 hw
  have hws := mag_sq w
  have hw0 : w.y = 0 := rfl
  have hWW : dot W W = mag w * mag w := by
    rw [hws, hw0]
    have : dot W W = w.x * w.x * dot ex ex + 2 * (w.x * w.z * dot ex ez) + w.z * w.z * dot ez ez := by
      simp only [W, dot, add_x, add_y, add_z, smul_x, smul_y, smul_z]; ring
    rw [this, hx, hz, hxz]; ring
  have hWm : mag W = mag w := by
    have : mag W = Real.sqrt (dot W W) := rfl
    rw [this, hWW, Real.sqrt_mul_self hwp.le]
  have hWy : dot W ey = 0 := by
    have : dot W ey = w.x * dot ex ey + w.z * dot ey ez := by
      simp only [W, dot, add_x, add_y, add_z, smul_x, smul_y, smul_z]; ring
    rw [this, hxy, hyz]; ring
  have hdd : dragDir meps ex ez w = (1 / mag w) • W := by
    unfold dragDir Disk.normalize
    rw [show w.x • ex + w.z • ez = W from rfl, hWm, if_neg (not_lt.mpr hw)]
  have hd1 : dot (dragDir meps ex ez w) (dragDir meps ex ez w) = 1 := by
    rw [hdd]
    have : dot ((1 / mag w) • W) ((1 / mag w) • W) = dot W W / (mag w * mag w) := by
      simp only [dot, smul_x, smul_y, smul_z]; field_simp
    rw [this, hWW]; field_simp
  have hdy : dot (dragDir meps ex ez w) ey = 0 := by
    rw [hdd]
    have : dot ((1 / mag w) • W) ey = (1 / mag w) * dot W ey := by simp only [dot, smul_x, smul_y, smul_z]; ring
    rw [this, hWy, mul_zero]
  have hl1 := mag_cross_unit hd1 hy hdy
  have hld : liftDir meps ex ey ez w = cross (dragDir meps ex ez w) ey := normalize_of_unit h1 hl1
  have hF : F = -((s.lift w) • liftDir meps ex ey ez w + (s.drag w) • dragDir meps ex ez w) := by
    simp only [F, Sect.force, hf]
    ext <;> simp
  have hWd : W = mag w • dragDir meps ex ez w := by
    rw [hdd]; ext <;> simp only [smul_x, smul_y, smul_z] <;> field_simp
  rw [hld] at hF
  set d := dragDir meps ex ez w with hd
  refine ⟨hWm, ?_, ?_, ?_⟩
  · rw [hF]
    have : dot (-((s.lift w) • cross d ey + (s.drag w) • d)) ey = -(s.drag w * dot d ey) := by
      simp only [dot, cross, neg_x, neg_y, neg_z, add_x, add_y, add_z, smul_x, smul_y, smul_z]; ring
    rw [this, hdy]; ring
  · rw [hF, hWd]
    have : dot (-((s.lift w) • cross d ey + (s.drag w) • d)) (mag w • d) = -(s.drag w * mag w * dot d d) := by
      simp only [dot, cross, neg_x, neg_y, neg_z, add_x, add_y, add_z, smul_x, smul_y, smul_z]; ring
    rw [this, hd1]; ring
  · rw [hF, hWd]
    have : dot (-((s.lift w) • cross d ey + (s.drag w) • d)) (cross (mag w • d) ey) =
        -(s.lift w * mag w * dot (cross d ey) (cross d ey)) := by
      simp only [dot, cross, neg_x, neg_y, neg_z, add_x, add_y, add_z, smul_x, smul_y, smul_z]; ring
    rw [this, hl1]; ring

/-- C77: lift and drag are half the square of the wind times chord, width and coefficient; with a prescribed speed its
square replaces that of the wind. -/
theorem section_coefficients (s : Sect) (h : s.two = false) (w : Vec ℝ) :
    let u := if s.uinf < 0 then mag w else s.uinf
    s.lift w = 1 / 2 * u ^ 2 * s.chord * s.dx * s.cl (aoa w s.pitch) ∧
    s.drag w = 1 / 2 * u ^ 2 * s.chord * s.dx * s.cd (aoa w s.pitch) := by
  intro u
  by_cases hu : s.uinf < 0
  · simp only [Sect.lift, Sect.drag, qfac, h, u, hu, if_true]
    constructor <;> simp only [Bool.false_eq_true, if_false] <;> ring
  · simp only [Sect.lift, Sect.drag, qfac, h, u, hu]
    constructor <;> simp only [Bool.false_eq_true, if_false] <;> ring

/-- C77: without the spanwise component of the kernel the points together give the two-dimensional Gaussian, whose integral
across the wing is one, of the force per length. -/
theorem two_dimensional (uinf vmag dx : ℝ) {eps : Vec ℝ} (hx : 0 < eps.x) (hy : 0 < eps.y) (hz : 0 < eps.z) {npts : ℕ} (hn : 0 < npts)
    {l : Vec ℝ} (hl : (l.x / eps.x) ^ 2 + (l.z / eps.z) ^ 2 < 16) :
    npts * (qfac uinf vmag dx eps.y true npts * Spread.gaussian3d ⟨l.x * 1, l.y * 0, l.z * 1⟩ eps) =
      qfac uinf vmag 1 eps.y false npts * (Spread.gauss eps.x l.x * Spread.gauss eps.z l.z) := by
  have hn' : (npts : ℝ) ≠ 0 := by positivity
  have hpi : Real.sqrt Real.pi * Real.sqrt Real.pi = Real.pi := Real.mul_self_sqrt Real.pi_pos.le
  have hg : Spread.gaussian3d ⟨l.x * 1, l.y * 0, l.z * 1⟩ eps =
      0.17958712212516656 / (eps.x * eps.y * eps.z) * (Real.exp (-(l.x / eps.x) ^ 2) * Real.exp (-(l.z / eps.z) ^ 2)) := by
    unfold Spread.gaussian3d
    have hm : magSqr (⟨l.x * 1 / eps.x, l.y * 0 / eps.y, l.z * 1 / eps.z⟩ : Vec ℝ) < 16 := by
      simp only [magSqr, mul_zero, zero_div, mul_one, add_zero]
      nlinarith [hl]
    simp only
    rw [if_pos hm, ← Real.exp_add]
    congr 2
    simp only [mul_zero, zero_div, mul_one]
    ring
  rw [hg]
  have hgx : ∀ e d : ℝ, 0 < e → Spread.gauss e d = 1 / Real.sqrt Real.pi / e * Real.exp (-(d / e) ^ 2) := by
    intro e d he
    unfold Spread.gauss
    congr 2
    field_simp
  rw [hgx _ _ hx, hgx _ _ hz]
  simp only [qfac, if_true, Bool.false_eq_true, if_false]
  have hsp : Real.sqrt Real.pi ≠ 0 := (Real.sqrt_pos.mpr Real.pi_pos).ne'
  have hq : (1 : ℝ) / Real.pi = 1 / Real.sqrt Real.pi * (1 / Real.sqrt Real.pi) := by
    rw [div_mul_div_comm, hpi, one_mul]
  rw [hq]
  field_simp

/-- C77: the wind seen by a section is the velocity relative to the moving section without its part along the span. -/
theorem wind_relative {ex ey ez : Vec ℝ} (hx : dot ex ex = 1) (hz : dot ez ez = 1) (hxy : dot ex ey = 0) (hyz : dot ey ez = 0)
    (hxz : dot ex ez = 0) (vtr : Vec ℝ) (a b c : ℝ) :
    let w := windVector ex ez (vtr + (a • ex + b • ey + c • ez)) vtr
    w.x • ex + w.z • ez = a • ex + c • ez := by
  intro w
  have h1 : w.x = a := by
    have : w.x = a * dot ex ex + b * dot ex ey + c * dot ex ez := by
      simp only [w, windVector, dot, add_x, add_y, add_z, smul_x, smul_y, smul_z, sub_x, sub_y, sub_z]; ring
    rw [this, hx, hxy, hxz]; ring
  have h2 : w.z = c := by
    have : w.z = a * dot ex ez + b * dot ey ez + c * dot ez ez := by
      simp only [w, windVector, dot, add_x, add_y, add_z, smul_x, smul_y, smul_z, sub_x, sub_y, sub_z]; ring
    rw [this, hz, hyz, hxz]; ring
  rw [h1, h2]

/-- C77: a thin airfoil has no lift without angle of attack and the lift slope of thin airfoil theory. -/
theorem thin_lift (a : ℝ) : thinCl 0 = 0 ∧ HasDerivAt thinCl (2 * Real.pi) a := by
  refine ⟨by simp [thinCl], ?_⟩
  have := (hasDerivAt_id a).const_mul (2 * Real.pi)
  exact this.congr_deriv (by ring)

/-- The drag of a flat plate is negative for a negative angle of attack: the plate pushes the fluid along. -/
theorem thin_drag_negative {factor a : ℝ} (hf : 0 < factor) (ha : a < 0) (hp : -Real.pi < a) : thinCd factor a < 0 :=
  mul_neg_of_pos_of_neg hf (Real.sin_neg_of_neg_of_neg_pi_lt ha hp)

/-- The wind stored for the lifting line correction is in the frame of the wing, the force is not: on a vertical wing with
drag only, in a wind at an angle to `x`, the correction sees a lift. -/
theorem correction_mixes_frames {meps : ℝ} (hm : 0 < meps) (hm1 : meps ≤ 1) :
    let ex : Vec ℝ := ⟨1, 0, 0⟩
    let ez : Vec ℝ := ⟨0, -1, 0⟩
    let w := windVector ex ez ⟨1, 1, 0⟩ ⟨0, 0, 0⟩
    w = ⟨1, 0, -1⟩ ∧ (∀ D : ℝ, D ≠ 0 → Fllc.lift meps (-(D • (w.x • ex + w.z • ez))) w 1 ≠ ⟨0, 0, 0⟩) := by
  intro ex ez w
  have hw : w = ⟨1, 0, -1⟩ := by
    ext <;> simp [w, windVector, ex, ez, dot]
  refine ⟨hw, fun D hD => ?_⟩
  intro hh
  have h2 := congrArg Vec.y hh
  rw [hw] at h2
  simp [Fllc.lift, ex, ez] at h2
  exact hD h2

/-! ## Boxes -/

/-- C77: if the longest chord is at least one (in the units of the input) the box extends at least three kernel widths from
the wing. -/
theorem radius_partial {epsInp epsChord : Vec ℝ} {chord maxEps maxEpsc maxChord : ℝ} (h1 : 1 ≤ maxChord) (hc : chord ≤ maxChord)
    (hc0 : 0 ≤ chord) (he0 : 0 ≤ maxEps) (he : epsInp.x ≤ maxEps ∧ epsInp.y ≤ maxEps ∧ epsInp.z ≤ maxEps)
    (hec0 : 0 ≤ epsChord.x ∧ 0 ≤ epsChord.y ∧ 0 ≤ epsChord.z)
    (hec : epsChord.x ≤ maxEpsc ∧ epsChord.y ≤ maxEpsc ∧ epsChord.z ≤ maxEpsc) :
    3 * (epsilon epsInp epsChord chord).x ≤ searchRadius maxEps maxEpsc maxChord ∧
    3 * (epsilon epsInp epsChord chord).y ≤ searchRadius maxEps maxEpsc maxChord ∧
    3 * (epsilon epsInp epsChord chord).z ≤ searchRadius maxEps maxEpsc maxChord := by
  have key : ∀ a b : ℝ, a ≤ maxEps → 0 ≤ b → b ≤ maxEpsc → 3 * max a (b * chord) ≤ searchRadius maxEps maxEpsc maxChord := by
    intro a b ha hb0 hb
    unfold searchRadius
    have hM : 0 ≤ max maxEps maxEpsc := le_trans he0 (le_max_left _ _)
    have h2 : a ≤ max maxEps maxEpsc * maxChord :=
      le_trans (le_trans ha (le_max_left _ _)) (le_mul_of_one_le_right hM h1)
    have h3 : b * chord ≤ max maxEps maxEpsc * maxChord :=
      mul_le_mul (le_trans hb (le_max_right _ _)) hc hc0 hM
    have := max_le h2 h3
    linarith
  exact ⟨key _ _ he.1 hec0.1 hec.1, key _ _ he.2.2 hec0.2.2 hec.2.2, key _ _ he.2.1 hec0.2.1 hec.2.1⟩

/-- A short chord shrinks the box below the kernel: with chord 1/10 and width 1 it ends at 3/10 of a width. -/
theorem short_chord_cuts : (epsilon ⟨1, 1, 1⟩ ⟨0, 0, 0⟩ (1 / 10)).x = 1 ∧ searchRadius 1 0 (1 / 10) = 3 / 10 := by
  constructor
  · simp [epsilon]
  · simp only [searchRadius]; norm_num

/-- C77: the box contains the points of the wing wherever its path takes it, within the domain for linear motion and for
amplitudes that are not negative for the sine. -/
theorem box_contains_partial (m : Motion) {p1 p2 rad plo phi v amp tiny p t period : ℝ} (hr : 0 ≤ rad) (ht : 0 ≤ tiny) (ht0 : 0 ≤ t)
    (hp : min p1 p2 ≤ p ∧ p ≤ max p1 p2)
    (hl : m = .linear → (tiny < |v| ∨ v = 0) ∧ plo ≤ p + t * v ∧ p + t * v ≤ phi) (hs : m = .sine → 0 ≤ amp) :
    let q := p + (path m ⟨v, 0, 0⟩ ⟨amp, 0, 0⟩ period t).x
    (box1 m p1 p2 rad plo phi v amp tiny).1 ≤ q ∧ q ≤ (box1 m p1 p2 rad plo phi v amp tiny).2 := by
  intro q
  cases m with
  | none => simp only [q, path, box1]; constructor <;> linarith [hp.1, hp.2]
  | linear =>
    obtain ⟨hv, h1, h2⟩ := hl rfl
    simp only [q, path, box1, smul_x]
    rw [mul_comm v t]
    constructor
    · by_cases hn : v < -tiny
      · rw [if_pos hn]; exact h1
      · rw [if_neg hn]
        have hv0 : 0 ≤ v := by
          rcases hv with hv | rfl
          · rcases lt_abs.mp hv with h | h
            · linarith
            · exact absurd (by linarith) hn
          · exact le_refl 0
        nlinarith [mul_nonneg ht0 hv0, hp.1]
    · by_cases hn : tiny < v
      · rw [if_pos hn]; exact h2
      · rw [if_neg hn]
        have hv0 : v ≤ 0 := by
          rcases hv with hv | rfl
          · rcases lt_abs.mp hv with h | h
            · exact absurd h hn
            · linarith
          · exact le_refl 0
        nlinarith [mul_nonneg ht0 (neg_nonneg.mpr hv0), hp.2]
  | sine =>
    have ha := hs rfl
    simp only [q, path, box1, smul_x]
    have h1 := Real.neg_one_le_sin (2 * Real.pi * t / period)
    have h2 := Real.sin_le_one (2 * Real.pi * t / period)
    constructor
    · nlinarith [hp.1]
    · nlinarith [hp.2]

/-- A negative amplitude of the sine shrinks the box instead: the wing leaves it, and it can be empty. -/
theorem negative_amplitude_box : box1 .sine 0 0 3 (-100) 100 0 (-10) 0 = (7, -7) := by
  simp only [box1]; norm_num

/-! ## Examples -/

example : ∃ w, widths ⟨0, -4, 0⟩ ⟨0, 4, 0⟩ 21 = some w ∧ w.sum = mag (⟨0, 4, 0⟩ - ⟨0, -4, 0⟩ : Vec ℝ) :=
  widths_sum _ _ (by norm_num)

example : (run (1 / 10 ^ 15) .sine ⟨0, 0, 2⟩ 4 ⟨[⟨0, 0, 0⟩], ⟨0, 0, 0⟩⟩ 0 [(true, 1 / 2), (true, 1)]).pos =
    [⟨0, 0, 0⟩].map (· + (path .sine ⟨0, 0, 0⟩ ⟨0, 0, 2⟩ 4 1 - path .sine ⟨0, 0, 0⟩ ⟨0, 0, 2⟩ 4 0)) :=
  motion_history .sine ⟨0, 0, 0⟩ ⟨0, 0, 2⟩ 4 _ _ _ (by simp) (by simp)

/-- The frame of a wing along `y` with the default reference direction exists. -/
example : 1 / 10 ^ 15 ≤ mag (cross (⟨1, 0, 0⟩ : Vec ℝ) ⟨0, 1, 0⟩) := by
  have : mag (cross (⟨1, 0, 0⟩ : Vec ℝ) ⟨0, 1, 0⟩) = 1 := mag_of_dot (by simp [dot, cross])
  rw [this]; norm_num

example (s : Sect) (hf : s.flags = ⟨1, 1, 1⟩) :
    dot (s.force (1 / 10 ^ 15) ⟨1, 0, 0⟩ ⟨0, 1, 0⟩ ⟨0, 0, 1⟩ (windVector ⟨1, 0, 0⟩ ⟨0, 0, 1⟩ ⟨2, 0, 0⟩ ⟨0, 0, 0⟩)) ⟨0, 1, 0⟩ = 0 := by
  have hw : mag (windVector ⟨1, 0, 0⟩ ⟨0, 0, 1⟩ ⟨2, 0, 0⟩ ⟨0, 0, 0⟩) = 2 := by
    unfold mag windVector magSqr
    simp [dot]
  exact (section_force (by norm_num) (by norm_num) (by simp [dot]) (by simp [dot]) (by simp [dot]) (by simp [dot]) (by simp [dot])
    (by simp [dot]) _ _ s hf (by rw [hw]; norm_num)).2.1

end AmrWind.Wing
