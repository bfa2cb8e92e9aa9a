import Mathlib.Analysis.Real.Pi.Bounds
import Mathlib.Tactic.Linarith
import Mathlib.Tactic.Ring
import Mathlib.Tactic.FieldSimp
import Mathlib.Tactic.NormNum
import Verif.Actuator.ExtModel
/-!
# C113: a turbine of an external solver acts on the flow with the forces of that solver, at its points
-/

set_option linter.unusedSectionVars false

namespace AmrWind.Ext

open Vs

/-! ## Points -/

/-- Every force point is the hub, or a point of exactly one blade, or a point of the tower, and of nothing else. -/
theorem points_partition (nb np nt i : ℕ) (hi : i < nb * np + 1 + nt) :
    (In hubPts i ∧ (∀ b < nb, ¬ In (bladePts np b) i) ∧ ¬ In (towerPts nb np nt) i) ∨
      (¬ In hubPts i ∧ (∃! b, b < nb ∧ In (bladePts np b) i) ∧ ¬ In (towerPts nb np nt) i) ∨
      (¬ In hubPts i ∧ (∀ b < nb, ¬ In (bladePts np b) i) ∧ In (towerPts nb np nt) i) := by
  unfold In hubPts bladePts towerPts
  dsimp only
  rcases Nat.eq_zero_or_pos i with h0 | h0
  · left
    refine ⟨by omega, fun b _ h => by omega, by omega⟩
  · right
    by_cases ht : i < nb * np + 1
    · left
      have hnp : 0 < np := by
        rcases Nat.eq_zero_or_pos np with h | h
        · subst h; simp at ht; omega
        · exact h
      have e := Nat.div_add_mod (i - 1) np
      have hm := Nat.mod_lt (i - 1) hnp
      have hlt : (i - 1) / np < nb := by
        rw [Nat.div_lt_iff_lt_mul hnp]; omega
      refine ⟨by omega, ⟨(i - 1) / np, ⟨hlt, ?_, ?_⟩, ?_⟩, by omega⟩
      · rw [mul_comm]; omega
      · rw [mul_comm ((i - 1) / np)]; omega
      · rintro c ⟨_, h1, h2⟩
        have : (i - 1) / np = c := by
          apply Nat.div_eq_of_lt_le
          · omega
          · rw [add_mul, one_mul]; omega
        exact this.symm
    · right
      refine ⟨by omega, fun b hb h => ?_, by omega⟩
      have : b * np + np ≤ nb * np := by
        calc b * np + np = (b + 1) * np := by ring
          _ ≤ nb * np := Nat.mul_le_mul_right _ hb
      omega

/-- Three blades of four points and a tower of two: the points 1 to 4, 5 to 8, 9 to 12 and 13, 14. -/
example : bladePts 4 2 = (9, 4) ∧ towerPts 3 4 2 = (13, 2) := by decide

/-- Counterexample: the velocity of the hub is that of velocity point 0 (it gives the force of the nacelle), but the velocities of the
first blade start at point 0 as well, and the last point of the last blade is in no blade. -/
theorem blade_velocities_shifted (nb nv : ℕ) (hv : 0 < nv) :
    In hubPts 0 ∧ In (bladeVel nv 0) 0 ∧ (∀ b < nb, ¬ In (bladeVel nv b) (nb * nv)) ∧
      ∀ b j, j < nv → (In (bladeVel nv b) (1 + b * nv + j) ↔ j + 1 < nv) := by
  unfold In hubPts bladeVel
  dsimp only
  refine ⟨by omega, by omega, fun b h hh => ?_, fun b j hj => by omega⟩
  have : b * nv + nv ≤ nb * nv := by
    calc b * nv + nv = (b + 1) * nv := by ring
      _ ≤ nb * nv := Nat.mul_le_mul_right _ h
  omega

/-- A run goes on only if the solver's force points are those of hub, blades and tower; without a tower in the solver there are no tower points. -/
theorem tower_count (nb np nt npts n : ℕ) :
    towerCount nb np nt npts = some n ↔ npts = nb * np + 1 + n ∧ (n = nt ∨ n = 0) := by
  unfold towerCount
  dsimp only
  split_ifs <;> simp <;> omega

example : towerCount 3 4 2 15 = some 2 ∧ towerCount 3 4 2 13 = some 0 ∧ towerCount 3 4 2 14 = none := by decide

section field
variable {K : Type*} [Field K] [LinearOrder K] [IsStrictOrderedRing K]

/-- The rotor lies in the box of the turbine, with a margin of an eighth of the diameter.

Partial (C113). Missing: kernels wider than the margin, which leave the box (`box_misses_spread`). -/
theorem box_contains_rotor_partial (bp p : Vec K) (diameter hh m : K) (hd : 0 ≤ diameter) (hh0 : 0 ≤ hh)
    (hp : magSqr (p - ⟨bp.x, bp.y, bp.z + hh⟩) ≤ (1 / 2 * diameter) ^ 2) (hm : |m| ≤ diameter / 8) :
    let b := boundBox bp diameter hh
    b.1.x ≤ p.x + m ∧ p.x + m ≤ b.2.x ∧ b.1.y ≤ p.y + m ∧ p.y + m ≤ b.2.y ∧ b.1.z ≤ p.z + m ∧ p.z + m ≤ b.2.z := by
  have hs : magSqr (p - ⟨bp.x, bp.y, bp.z + hh⟩) =
      (p.x - bp.x) ^ 2 + (p.y - bp.y) ^ 2 + (p.z - (bp.z + hh)) ^ 2 := by
    simp only [magSqr, sub_x, sub_y, sub_z]; ring
  rw [hs] at hp
  have hr : 0 ≤ 1 / 2 * diameter := by linarith
  have ax : |p.x - bp.x| ≤ 1 / 2 * diameter := abs_le_of_sq_le_sq (by nlinarith [sq_nonneg (p.y - bp.y), sq_nonneg (p.z - (bp.z + hh))]) hr
  have ay : |p.y - bp.y| ≤ 1 / 2 * diameter := abs_le_of_sq_le_sq (by nlinarith [sq_nonneg (p.x - bp.x), sq_nonneg (p.z - (bp.z + hh))]) hr
  have az : |p.z - (bp.z + hh)| ≤ 1 / 2 * diameter := abs_le_of_sq_le_sq (by nlinarith [sq_nonneg (p.y - bp.y), sq_nonneg (p.x - bp.x)]) hr
  rw [abs_le] at ax ay az hm
  simp only [boundBox]
  refine ⟨?_, ?_, ?_, ?_, ?_, ?_⟩ <;> linarith [ax.1, ax.2, ay.1, ay.2, az.1, az.2, hm.1, hm.2]

/-- Counterexample: at the far side of the rotor, a force spread by a width of more than an eighth of the diameter acts outside the box. -/
theorem box_misses_spread (bp : Vec K) (diameter hh w : K) (hw : diameter / 8 < w) :
    (boundBox bp diameter hh).2.x < bp.x + 1 / 2 * diameter + w := by
  simp only [boundBox]; linarith

example : boundBox (⟨0, 0, 0⟩ : Vec ℚ) 8 10 = (⟨-5, -5, -5⟩, ⟨5, 5, 15⟩) := by
  norm_num [boundBox]

theorem greatest_of_three (a b c : K) : IsGreatest {a, b, c} (max (max a b) c) := by
  constructor
  · rcases max_choice (max a b) c with h | h <;> rw [h]
    · rcases max_choice a b with h | h <;> rw [h] <;> simp
    · simp
  · rintro x (rfl | rfl | rfl)
    · exact (le_max_left _ _).trans (le_max_left _ _)
    · exact (le_max_right _ _).trans (le_max_left _ _)
    · exact le_max_right _ _

/-- The widths at a blade point are the greatest of the least width, the given width and the given multiple of the chord; the first two axes are
swapped with respect to the input. -/
theorem blade_widths (emin einp echord : Vec K) (c : K) :
    IsGreatest {emin.y, einp.y, echord.y * c} (bladeEps emin einp echord c).x ∧ IsGreatest {emin.x, einp.x, echord.x * c} (bladeEps emin einp echord c).y ∧
      IsGreatest {emin.z, einp.z, echord.z * c} (bladeEps emin einp echord c).z := by
  exact ⟨greatest_of_three _ _ _, greatest_of_three _ _ _, greatest_of_three _ _ _⟩

/-- The widths at a tower point are at least the least width, the given width and the width for the tower, with the same swap. -/
theorem tower_widths (emin einp etower : Vec K) :
    IsGreatest {emin.y, einp.y, etower.y} (towerEps emin einp etower).x ∧ IsGreatest {emin.x, einp.x, etower.x} (towerEps emin einp etower).y ∧
      IsGreatest {emin.z, einp.z, etower.z} (towerEps emin einp etower).z := by
  exact ⟨greatest_of_three _ _ _, greatest_of_three _ _ _, greatest_of_three _ _ _⟩

/-! ## The exchange -/

theorem length_ofFn_flatMap (ns : List (Node K)) : (ns.flatMap fun n => List.ofFn n.ori).length = ns.length * 9 := by
  induction ns with
  | nil => rfl
  | cons a l ih => simp only [List.flatMap_cons, List.length_append, List.length_ofFn, ih, List.length_cons]; omega

theorem ori_get (ns : List (Node K)) (i : ℕ) (hi : i < ns.length) (k : ℕ) (hk : k < 9) :
    (ns.flatMap fun n => List.ofFn n.ori)[i * 9 + k]? = some (ns[i].ori ⟨k, hk⟩) := by
  induction ns generalizing i with
  | nil => simp at hi
  | cons a l ih =>
    rw [List.flatMap_cons]
    cases i with
    | zero =>
      rw [List.getElem?_append_left (by simpa using hk)]
      rw [List.getElem?_ofFn, dif_pos (by omega)]
      congr 2; simp
    | succ i =>
      rw [List.getElem?_append_right (by simp; omega)]
      have e : (i + 1) * 9 + k - (List.ofFn a.ori).length = i * 9 + k := by simp; omega
      rw [e, ih i (by simpa using hi)]
      rfl

theorem pack_length (ns : List (Node K)) : (pack ns).length = ns.length * 15 := by
  unfold pack
  simp only [List.length_append, List.length_map, length_ofFn_flatMap]
  omega

/-- Every rank gets for every force point: the force of the solver reversed and over the density, the position shifted by the base, and the
matrix (stored column by column) with rows as rows. -/
theorem exchange (rho : K) (bp : Vec K) (ns : List (Node K)) (i : ℕ) (hi : i < ns.length) :
    unpack rho bp ns.length (pack ns) i =
      some ⟨⟨-ns[i].force.x / rho, -ns[i].force.y / rho, -ns[i].force.z / rho⟩,
        ⟨ns[i].pos.x + bp.x, ns[i].pos.y + bp.y, ns[i].pos.z + bp.z⟩,
        ⟨ns[i].ori 0, ns[i].ori 3, ns[i].ori 6, ns[i].ori 1, ns[i].ori 4, ns[i].ori 7, ns[i].ori 2, ns[i].ori 5, ns[i].ori 8⟩⟩ := by
  have g : ∀ k : ℕ, ∀ hk : k < 9, (pack ns)[ns.length + ns.length + ns.length + ns.length + ns.length + ns.length + i * 9 + k]? =
      some (ns[i].ori ⟨k, hk⟩) := by
    intro k hk
    unfold pack
    rw [List.getElem?_append_right (by simp only [List.length_append, List.length_map]; omega)]
    rw [← ori_get ns i hi k hk]
    congr 1
    simp only [List.length_append, List.length_map]
    omega
  have a1 : (pack ns)[i]? = some ns[i].force.x := by
    unfold pack
    simp only [List.append_assoc]
    rw [List.getElem?_append_left (by simpa using hi)]
    simp [hi]
  have a2 : (pack ns)[ns.length + i]? = some ns[i].force.y := by
    unfold pack
    simp only [List.append_assoc]
    rw [List.getElem?_append_right (by simp), List.getElem?_append_left (by simpa using hi)]
    simp [hi]
  have a3 : (pack ns)[ns.length + ns.length + i]? = some ns[i].force.z := by
    unfold pack
    simp only [List.append_assoc]
    rw [List.getElem?_append_right (by simp; omega), List.getElem?_append_right (by simp; omega), List.getElem?_append_left (by simp; omega)]
    simp only [List.length_map]
    rw [show ns.length + ns.length + i - ns.length - ns.length = i by omega]
    simp [hi]
  have a4 : (pack ns)[ns.length + ns.length + ns.length + i]? = some ns[i].pos.x := by
    unfold pack
    simp only [List.append_assoc]
    rw [List.getElem?_append_right (by simp; omega), List.getElem?_append_right (by simp; omega),
      List.getElem?_append_right (by simp; omega), List.getElem?_append_left (by simp; omega)]
    simp only [List.length_map]
    rw [show ns.length + ns.length + ns.length + i - ns.length - ns.length - ns.length = i by omega]
    simp [hi]
  have a5 : (pack ns)[ns.length + ns.length + ns.length + ns.length + i]? = some ns[i].pos.y := by
    unfold pack
    simp only [List.append_assoc]
    rw [List.getElem?_append_right (by simp; omega), List.getElem?_append_right (by simp; omega),
      List.getElem?_append_right (by simp; omega), List.getElem?_append_right (by simp; omega), List.getElem?_append_left (by simp; omega)]
    simp only [List.length_map]
    rw [show ns.length + ns.length + ns.length + ns.length + i - ns.length - ns.length - ns.length - ns.length = i by omega]
    simp [hi]
  have a6 : (pack ns)[ns.length + ns.length + ns.length + ns.length + ns.length + i]? = some ns[i].pos.z := by
    unfold pack
    simp only [List.append_assoc]
    rw [List.getElem?_append_right (by simp; omega), List.getElem?_append_right (by simp; omega),
      List.getElem?_append_right (by simp; omega), List.getElem?_append_right (by simp; omega), List.getElem?_append_right (by simp; omega),
      List.getElem?_append_left (by simp; omega)]
    simp only [List.length_map]
    rw [show ns.length + ns.length + ns.length + ns.length + ns.length + i - ns.length - ns.length - ns.length - ns.length - ns.length = i by omega]
    simp [hi]
  have o := fun k hk => (g k hk)
  unfold unpack
  rw [a1, a2, a3, a4, a5, a6]
  have e : ∀ j k, ns.length + ns.length + ns.length + ns.length + ns.length + ns.length + i * 3 * 3 + j + k * 3 =
      ns.length + ns.length + ns.length + ns.length + ns.length + ns.length + i * 9 + (j + k * 3) := by intro j k; ring
  simp only [e]
  rw [o _ (by norm_num), o _ (by norm_num), o _ (by norm_num), o _ (by norm_num), o _ (by norm_num), o _ (by norm_num), o _ (by norm_num),
    o _ (by norm_num), o _ (by norm_num)]
  rfl

example : unpack (2 : ℚ) ⟨10, 0, 0⟩ 1 (pack [⟨⟨4, 0, 0⟩, ⟨1, 2, 3⟩, fun k => k.val⟩]) 0 =
    some ⟨⟨-2, 0, 0⟩, ⟨11, 2, 3⟩, ⟨0, 3, 6, 1, 4, 7, 2, 5, 8⟩⟩ := by
  have h := exchange (2 : ℚ) ⟨10, 0, 0⟩ [⟨⟨4, 0, 0⟩, ⟨1, 2, 3⟩, fun k => k.val⟩] 0 (by simp)
  simp only [List.length_cons, List.length_nil, zero_add] at h
  rw [h]
  norm_num

/-- Action and reaction: in a flow with the density of the turbine, the flow gets the force of the solver reversed. -/
theorem reaction (rho f : K) (h : rho ≠ 0) : momentumRate rho (-f / rho) = -f := by
  unfold momentumRate; field_simp

/-- In a flow with another density the force on the flow is off by the ratio of the densities. -/
theorem reaction_other_density (rho rhoT f : K) (hT : rhoT ≠ 0) (hf : f ≠ 0) :
    momentumRate rho (-f / rhoT) = -f ↔ rho = rhoT := by
  unfold momentumRate
  constructor
  · intro h
    field_simp at h
    linarith
  · rintro rfl; field_simp

/-- The input is refused exactly if a density in it differs from that of the turbine and no override is given. -/
theorem density_accepts (tiny rho : K) (noCheck : Bool) (incflo cst : Option K) :
    densityAccepts tiny rho noCheck incflo cst = true ↔
      noCheck = true ∨ (∀ r, incflo = some r → |r - rho| ≤ tiny) ∧ ∀ r, cst = some r → |r - rho| ≤ tiny := by
  unfold densityAccepts densityOk
  cases incflo <;> cases cst <;> cases noCheck <;> simp

example : densityAccepts (0 : ℚ) 1 false (some 1) none = true ∧ densityAccepts (0 : ℚ) 1 false (some 1) (some 2) = false := by
  decide +kernel

/-! ## The correction of the blade velocities -/

/-- Counterexample: the relative velocities for the correction are those of the call before; the velocities sampled now do not enter. -/
theorem correction_lags (corr : List (Option (Vec K)) → List (Vec K) → List (Vec K)) (u xdot vel vel' : List (Vec K)) :
    (updateVel corr u xdot vel).1 = (updateVel corr u xdot vel').1 ∧
      ∀ xdot' v, (updateVel corr (updateVel corr u xdot vel).2 xdot' v).1 = velRel (updateVel corr u xdot vel).2 xdot' := ⟨rfl, fun _ _ => rfl⟩

/-- In any sequence of calls the velocities of call `i + 1` are those sampled then, corrected with the velocities the solver got in call `i`, relative to the points of
call `i + 1`; the first call uses what was in the buffer. -/
theorem correction_applied (corr : List (Option (Vec K)) → List (Vec K) → List (Vec K)) (u : List (Vec K)) (calls : List (List (Vec K) × List (Vec K))) :
    let outs := (calls.scanl (fun u c => (updateVel corr u c.1 c.2).2) u)
    outs.length = calls.length + 1 ∧ outs[0]? = some u ∧ ∀ i (h : i < calls.length), ∃ before after, outs[i]? = some before ∧ outs[i + 1]? = some after ∧
      after = corr (velRel before calls[i].1) calls[i].2 := by
  refine ⟨by simp, by simp, fun i h => ?_⟩
  have l1 : i < (calls.scanl (fun u c => (updateVel corr u c.1 c.2).2) u).length := by simp; omega
  have l2 : i + 1 < (calls.scanl (fun u c => (updateVel corr u c.1 c.2).2) u).length := by simp; omega
  refine ⟨_, _, List.getElem?_eq_getElem l1, List.getElem?_eq_getElem l2, ?_⟩
  rw [List.getElem_succ_scanl]
  rfl

/-- The relative velocity of force point `i` takes the fluid velocity of velocity point `i`; the points of both kinds have to be the same, and as
many, or the buffer is read outside. -/
theorem correction_points (u xdot : List (Vec K)) (i : ℕ) (hi : i < xdot.length) :
    (velRel u xdot)[i]? = some ((u[i]?).map fun v => ⟨v.x - xdot[i].x, v.y - xdot[i].y, v.z - xdot[i].z⟩) := by
  unfold velRel
  rw [List.getElem?_map, List.getElem?_zipIdx, List.getElem?_eq_getElem hi]
  simp

/-- Counterexample: with more force points than velocity points the buffer is read outside. -/
theorem correction_reads_outside (u xdot : List (Vec K)) (h : u.length < xdot.length) : none ∈ velRel u xdot := by
  have := correction_points u xdot u.length h
  rw [List.getElem?_eq_none (le_refl _)] at this
  exact List.mem_of_getElem? this

example : velRel [(⟨1, 0, 0⟩ : Vec ℚ)] [⟨1, 0, 0⟩, ⟨2, 0, 0⟩] = [some ⟨0, 0, 0⟩, none] := by decide +kernel

end field

/-! ## The frame of the rotor -/

/-- Rows of a matrix. -/
def row1 (t : Ten ℝ) : Vec ℝ := ⟨t.xx, t.xy, t.xz⟩
def row2 (t : Ten ℝ) : Vec ℝ := ⟨t.yx, t.yy, t.yz⟩
def row3 (t : Ten ℝ) : Vec ℝ := ⟨t.zx, t.zy, t.zz⟩

/-- For a shaft that is not vertical, the frame is orthonormal and right handed: first along the shaft, second horizontal, third upward.

Partial (C113). Missing: the velocity points of blades, which are shifted (`blade_velocities_shifted`). -/
theorem rotor_frame_partial (eps : ℝ) (he : 0 < eps) (ori : Ten ℝ) (hs : eps ≤ mag (row1 ori))
    (hv : eps * mag (row1 ori) ≤ Real.sqrt (ori.xx * ori.xx + ori.xy * ori.xy)) :
    let f := rotorFrame eps ori
    magSqr (row1 f) = 1 ∧ magSqr (row2 f) = 1 ∧ magSqr (row3 f) = 1 ∧ dot (row1 f) (row2 f) = 0 ∧ dot (row1 f) (row3 f) = 0 ∧
      dot (row2 f) (row3 f) = 0 ∧ cross (row1 f) (row2 f) = row3 f ∧ (row2 f).z = 0 ∧ 0 < (row3 f).z ∧
      row1 f = (1 / mag (row1 ori)) • row1 ori := by
  have hm0 : 0 < mag (row1 ori) := lt_of_lt_of_le he hs
  have hmm : mag (row1 ori) * mag (row1 ori) = ori.xx * ori.xx + ori.xy * ori.xy + ori.xz * ori.xz := by
    unfold mag
    rw [Real.mul_self_sqrt (by simp only [magSqr, row1]; nlinarith [mul_self_nonneg ori.xx, mul_self_nonneg ori.xy, mul_self_nonneg ori.xz])]
    rfl
  generalize hM : mag (row1 ori) = M at *
  have hx : Vs.normalize eps ⟨ori.xx, ori.xy, ori.xz⟩ = ⟨ori.xx / M, ori.xy / M, ori.xz / M⟩ := by
    have : mag ⟨ori.xx, ori.xy, ori.xz⟩ = M := hM
    unfold Vs.normalize
    rw [this, if_neg (not_lt.mpr hs)]
  obtain ⟨a, ha⟩ : ∃ a, a = ori.xx / M := ⟨_, rfl⟩
  obtain ⟨b, hb⟩ : ∃ b, b = ori.xy / M := ⟨_, rfl⟩
  obtain ⟨c, hc⟩ : ∃ c, c = ori.xz / M := ⟨_, rfl⟩
  rw [← ha, ← hb, ← hc] at hx
  have h1 : a * a + b * b + c * c = 1 := by
    rw [ha, hb, hc]
    field_simp
    nlinarith
  obtain ⟨h, hh⟩ : ∃ h, h = Real.sqrt (a * a + b * b) := ⟨_, rfl⟩
  have hab : 0 ≤ a * a + b * b := by nlinarith [mul_self_nonneg a, mul_self_nonneg b]
  have hhh : h * h = a * a + b * b := by rw [hh]; exact Real.mul_self_sqrt hab
  have hge : eps ≤ h := by
    have e : a * a + b * b = (ori.xx * ori.xx + ori.xy * ori.xy) / (M * M) := by rw [ha, hb]; field_simp
    rw [hh, e, Real.sqrt_div' _ (mul_self_nonneg M), Real.sqrt_mul_self hm0.le, le_div_iff₀ hm0]
    exact hv
  have h0 : 0 < h := lt_of_lt_of_le he hge
  have hy : mag (cross ⟨0, 0, 1⟩ ⟨a, b, c⟩) = h := by
    rw [hh]; unfold mag; congr 1; simp only [magSqr, cross]; ring
  have hz : mag (cross ⟨a, b, c⟩ (cross ⟨0, 0, 1⟩ ⟨a, b, c⟩)) = h := by
    rw [hh]; unfold mag; congr 1
    simp only [magSqr, cross]
    calc _ = (a * a + b * b) * (a * a + b * b + c * c) := by ring
      _ = a * a + b * b := by rw [h1, mul_one]
  have ny : Vs.normalize eps (cross ⟨0, 0, 1⟩ ⟨a, b, c⟩) = ⟨-b / h, a / h, 0⟩ := by
    unfold Vs.normalize
    rw [hy, if_neg (not_lt.mpr hge)]
    simp [cross]
  have nz : Vs.normalize eps (cross ⟨a, b, c⟩ (cross ⟨0, 0, 1⟩ ⟨a, b, c⟩)) = ⟨-(c * a) / h, -(c * b) / h, h⟩ := by
    unfold Vs.normalize
    rw [hz, if_neg (not_lt.mpr hge)]
    simp only [cross]
    ext
    · simp
    · simp
    · simp only
      rw [div_eq_iff h0.ne', hhh]; ring
  have hf : rotorFrame eps ori = ⟨a, b, c, -b / h, a / h, 0, -(c * a) / h, -(c * b) / h, h⟩ := by
    unfold rotorFrame
    rw [hx]
    dsimp only
    rw [ny, nz]
  dsimp only
  rw [hf]
  refine ⟨?_, ?_, ?_, ?_, ?_, ?_, ?_, rfl, h0, ?_⟩
  · simpa [magSqr, row1] using h1
  · simp only [magSqr, row2]; field_simp; nlinarith
  · simp only [magSqr, row3]
    have : -(c * a) / h * (-(c * a) / h) + -(c * b) / h * (-(c * b) / h) + h * h = c * c * (a * a + b * b) / (h * h) + h * h := by field_simp
    rw [this, ← hhh, mul_div_assoc, div_self (mul_pos h0 h0).ne']
    linarith
  · simp only [dot, row1, row2]; field_simp; ring
  · simp only [dot, row1, row3]
    have : a * (-(c * a) / h) + b * (-(c * b) / h) + c * h = c * (h * h - (a * a + b * b)) / h := by field_simp; ring
    rw [this, hhh]; simp
  · simp only [dot, row2, row3]; field_simp; ring
  · simp only [cross, row1, row2, row3]
    ext
    · simp only; field_simp; ring
    · simp only; field_simp; ring
    · simp only
      have : a * (a / h) - b * (-b / h) = (a * a + b * b) / h := by field_simp; ring
      rw [this, ← hhh]; field_simp
  · simp only [row1]
    ext
    · simp [ha, div_eq_mul_inv]
    · simp [hb, div_eq_mul_inv]
    · simp [hc, div_eq_mul_inv]

/-- A shaft in the direction (3, 0, 4)/5 meets the conditions. -/
example : (1 / 10 : ℝ) ≤ mag (row1 ⟨3 / 5, 0, 4 / 5, 0, 1, 0, 0, 0, 1⟩) ∧
    (1 / 10 : ℝ) * mag (row1 ⟨3 / 5, 0, 4 / 5, 0, 1, 0, 0, 0, 1⟩) ≤ Real.sqrt (3 / 5 * (3 / 5) + 0 * 0) := by
  have e : mag (row1 ⟨3 / 5, 0, 4 / 5, 0, 1, 0, 0, 0, 1⟩) = 1 := by
    unfold mag magSqr row1
    norm_num
  rw [e]
  constructor
  · norm_num
  · rw [show (3 / 5 * (3 / 5) + 0 * 0 : ℝ) = (3 / 5) * (3 / 5) by ring, Real.sqrt_mul_self (by norm_num)]
    norm_num

/-- Counterexample: for a vertical shaft the frame has zero rows. -/
theorem rotor_frame_vertical (eps : ℝ) (he : 0 < eps) (he1 : eps ≤ 1) : row2 (rotorFrame eps ⟨0, 0, 1, 1, 0, 0, 0, 1, 0⟩) = ⟨0, 0, 0⟩ := by
  have e : Vs.normalize eps ⟨0, 0, 1⟩ = ⟨0, 0, 1⟩ := by
    have : mag ⟨0, 0, 1⟩ = 1 := by unfold mag magSqr; norm_num
    unfold Vs.normalize
    rw [this, if_neg (not_lt.mpr he1)]
    norm_num
  have e2 : Vs.normalize eps (cross ⟨0, 0, 1⟩ ⟨0, 0, 1⟩) = ⟨0, 0, 0⟩ := by
    have : mag (cross ⟨0, 0, 1⟩ (⟨0, 0, 1⟩ : Vec ℝ)) = 0 := by unfold mag magSqr cross; norm_num
    unfold Vs.normalize
    rw [this, if_pos he]
  unfold rotorFrame
  simp only [e, e2, row2]

/-! ## The nacelle -/

/-- The factor on the velocity is between 1 and 8/7: the width is never so small that the velocity without the nacelle is not defined. -/
theorem nacelle_correction (emin : Vec ℝ) (cd area : ℝ) (h : 0 < cd * area) :
    1 ≤ nacelleCorrection (cd * area) (nacelleEps emin cd area).x ∧ nacelleCorrection (cd * area) (nacelleEps emin cd area).x ≤ 8 / 7 := by
  have hpi := Real.pi_pos
  have hq : 0 < 2 / Real.pi * cd * area := by rw [mul_assoc]; positivity
  have hs : 0 < Real.sqrt (2 / Real.pi * cd * area) := Real.sqrt_pos.mpr hq
  obtain ⟨e, he⟩ : ∃ e, e = (nacelleEps emin cd area).x := ⟨_, rfl⟩
  have hge : Real.sqrt (2 / Real.pi * cd * area) ≤ e := by rw [he]; exact le_max_left _ _
  rw [← he]
  have he0 : 0 < e := lt_of_lt_of_le hs hge
  have hee : 2 / Real.pi * cd * area ≤ e * e := by
    calc 2 / Real.pi * cd * area = Real.sqrt (2 / Real.pi * cd * area) * Real.sqrt (2 / Real.pi * cd * area) := (Real.mul_self_sqrt hq.le).symm
      _ ≤ e * e := mul_self_le_mul_self hs.le hge
  have hpe : 2 * (cd * area) ≤ Real.pi * (e * e) := by
    have := mul_le_mul_of_nonneg_left hee hpi.le
    have e2 : Real.pi * (2 / Real.pi * cd * area) = 2 * (cd * area) := by field_simp
    linarith
  have hr : cd * area / (2 * (2 * Real.pi) * e * e) ≤ 1 / 8 := by
    rw [div_le_iff₀ (by positivity)]; nlinarith
  have hr0 : 0 ≤ cd * area / (2 * (2 * Real.pi) * e * e) := by positivity
  unfold nacelleCorrection
  rw [if_pos he0]
  constructor
  · rw [le_div_iff₀ (by linarith)]; linarith
  · rw [div_le_iff₀ (by linarith)]; linarith

/-- The flow is slowed: the force of the nacelle on the flow is against the wind at the hub, between 1 and (8/7)² times the drag of a body with the given
coefficient and area in that wind. -/
theorem nacelle_drag (emin : Vec ℝ) (rho cd area : ℝ) (vel : Vec ℝ) (h : 0 < cd * area) :
    ∃ k, 1 ≤ k ∧ k ≤ (8 / 7) ^ 2 ∧
      nacelleForce rho cd area (nacelleEps emin cd area).x vel = (k * (1 / 2 * rho * (cd * area) * mag vel)) • vel := by
  obtain ⟨h1, h2⟩ := nacelle_correction emin cd area h
  refine ⟨nacelleCorrection (cd * area) (nacelleEps emin cd area).x * nacelleCorrection (cd * area) (nacelleEps emin cd area).x, by nlinarith, by nlinarith, ?_⟩
  unfold nacelleForce
  ext
  · simp only [smul_x]; ring
  · simp only [smul_y]; ring
  · simp only [smul_z]; ring

example : (0 : ℝ) < 1 / 2 * 4 := by norm_num

/-- The width at the nacelle is in each direction the least that is at least the smallest width given (its first two
entries swapped) and that of the drag of the nacelle. -/
theorem nacelle_width (emin : Vec ℝ) (cd area : ℝ) (w : ℝ) :
    ((nacelleEps emin cd area).x ≤ w ↔ Real.sqrt (2 / Real.pi * cd * area) ≤ w ∧ emin.y ≤ w) ∧
      ((nacelleEps emin cd area).y ≤ w ↔ Real.sqrt (2 / Real.pi * cd * area) ≤ w ∧ emin.x ≤ w) ∧
      ((nacelleEps emin cd area).z ≤ w ↔ Real.sqrt (2 / Real.pi * cd * area) ≤ w ∧ emin.z ≤ w) :=
  ⟨max_le_iff, max_le_iff, max_le_iff⟩

/-- Without a nacelle there is no force, whatever the width. -/
theorem nacelle_none (rho eps : ℝ) (vel : Vec ℝ) (cd area : ℝ) (h : cd * area = 0) : nacelleForce rho cd area eps vel = ⟨0, 0, 0⟩ := by
  unfold nacelleForce; simp [h]

/-! ## Output -/

/-- Output is written in every `freq`-th step, and in every step if `freq` is not positive. -/
theorem output_schedule (freq idx : ℤ) : writesOutput freq idx = true ↔ freq ≤ 0 ∨ freq ∣ idx := by
  unfold writesOutput
  rcases le_or_gt freq 0 with h | h
  · simp [h, not_lt.mpr h]
  · simp only [gt_iff_lt, h, decide_true, Bool.true_and, Bool.not_eq_true', decide_eq_false_iff_not, not_not, not_le.mpr h, false_or]
    exact ⟨fun e => Int.dvd_of_tmod_eq_zero e, fun e => Int.tmod_eq_zero_of_dvd e⟩

example : writesOutput 10 20 = true ∧ writesOutput 10 21 = false ∧ writesOutput 0 7 = true := by decide

end AmrWind.Ext
