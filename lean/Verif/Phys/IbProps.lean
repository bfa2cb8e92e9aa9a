import Verif.Phys.IbModel
import Verif.Pde.NodalProps
import Verif.Phys.CaseState

/-! # Immersed bodies (property C108) -/

set_option linter.unusedSectionVars false

namespace AmrWind.Ib

open AmrWind.Nodal

variable {C N : Type*}

/-! ## Shapes -/

/-- Specification: the open set of points a body occupies. The cylinder stands along the third axis, `height` high about its centre. -/
def Shape.Inside : Shape → Pt → Prop
  | .sphere c R, p => (p 0 - c 0) ^ 2 + (p 1 - c 1) ^ 2 + (p 2 - c 2) ^ 2 < R ^ 2
  | .cylinder c R h, p => (p 0 - c 0) ^ 2 + (p 1 - c 1) ^ 2 < R ^ 2 ∧ |p 2 - c 2| < h / 2
  | .box c s, p => ∀ n, |p n - c n| < s n / 2

/-- Specification: radii and sizes are positive. -/
def Shape.Ok : Shape → Prop
  | .sphere _ R => 0 < R
  | .cylinder _ R h => 0 < R ∧ 0 < h
  | .box _ s => ∀ n, 0 < s n

theorem box_neg (c : Pt) (s : Fin 3 → ℝ) (p : Pt) : (Shape.box c s).phi p < 0 ↔ ∀ n, |p n - c n| < s n / 2 := by
  unfold Shape.phi
  by_cases h : |p 0 - c 0| ≤ 1 / 2 * s 0 ∧ |p 1 - c 1| ≤ 1 / 2 * s 1 ∧ |p 2 - c 2| ≤ 1 / 2 * s 2
  · dsimp only
    rw [if_pos h, max_lt_iff, max_lt_iff, Fin.forall_fin_succ, Fin.forall_fin_two]
    show _ ↔ |p 0 - c 0| < s 0 / 2 ∧ |p 1 - c 1| < s 1 / 2 ∧ |p 2 - c 2| < s 2 / 2
    constructor <;> rintro ⟨a, b, d⟩ <;> refine ⟨?_, ?_, ?_⟩ <;> linarith
  · dsimp only
    rw [if_neg h]
    constructor
    · intro k
      exact absurd k (not_lt.mpr (le_min (abs_nonneg _) (le_min (abs_nonneg _) (abs_nonneg _))))
    · intro k
      exact absurd ⟨by linarith [k 0], by linarith [k 1], by linarith [k 2]⟩ h

/-- **C108**: the level set of a sphere and of a box is negative exactly inside it. -/
theorem shape_sign (s : Shape) (h : s.Ok) (hs : ∀ c R z, s ≠ .cylinder c R z) (p : Pt) : s.phi p < 0 ↔ s.Inside p := by
  cases s with
  | sphere c R =>
    show Real.sqrt _ - R < 0 ↔ _ < R ^ 2
    rw [sub_neg, Real.sqrt_lt' h]
    constructor <;> intro k <;> nlinarith
  | cylinder c R z => exact absurd rfl (hs c R z)
  | box c s => exact box_neg c s p

/-- **C108**, disagreement: the height of a cylinder is ignored: it reaches through the whole domain. -/
theorem cylinder_infinite (c : Pt) {R : ℝ} (hR : 0 < R) (h : ℝ) (p : Pt) :
    ((Shape.cylinder c R h).phi p < 0 ↔ (p 0 - c 0) ^ 2 + (p 1 - c 1) ^ 2 < R ^ 2) ∧ ∀ z, (Shape.cylinder c R h).phi p = (Shape.cylinder c R h).phi ![p 0, p 1, z] := by
  refine ⟨?_, fun z => rfl⟩
  show Real.sqrt _ - R < 0 ↔ _
  rw [sub_neg, Real.sqrt_lt' hR]
  constructor <;> intro k <;> nlinarith

/-- **C108**: the level set of a sphere is the distance from the surface: zero on it, and it changes by no more than the distance of two points. -/
theorem sphere_distance (c : Pt) (R : ℝ) (p q : Pt) :
    |(Shape.sphere c R).phi p - (Shape.sphere c R).phi q| ≤ Real.sqrt ((p 0 - q 0) ^ 2 + (p 1 - q 1) ^ 2 + (p 2 - q 2) ^ 2) := by
  have := Case.ball_distance R (c 0) (c 1) (c 2) (p 0) (p 1) (p 2) (q 0) (q 1) (q 2)
  unfold Case.ball at this
  show |(Real.sqrt _ - R) - (Real.sqrt _ - R)| ≤ _
  rw [abs_sub_comm]
  refine le_trans (le_of_eq ?_) this
  congr 1
  ring

/-- **C108**: inside a box the level set is minus the distance to the nearest face: moving by less in every direction stays inside, moving by more in some direction leaves it. -/
theorem box_distance (c : Pt) (s : Fin 3 → ℝ) (p : Pt) (h : ∀ n, |p n - c n| ≤ s n / 2) :
    (∀ q : Pt, (∀ n, |q n - p n| < -(Shape.box c s).phi p) → ∀ n, |q n - c n| < s n / 2) ∧
      ∃ n, s n / 2 - |p n - c n| = -(Shape.box c s).phi p := by
  have e : (Shape.box c s).phi p = max (|p 0 - c 0| - 1 / 2 * s 0) (max (|p 1 - c 1| - 1 / 2 * s 1) (|p 2 - c 2| - 1 / 2 * s 2)) :=
    if_pos ⟨by linarith [h 0], by linarith [h 1], by linarith [h 2]⟩
  have le : ∀ n, |p n - c n| - 1 / 2 * s n ≤ (Shape.box c s).phi p := by
    intro n
    rw [e]
    fin_cases n
    · exact le_max_left _ _
    · exact le_trans (le_max_left _ _) (le_max_right _ _)
    · exact le_trans (le_max_right _ _) (le_max_right _ _)
  refine ⟨fun q hq n => ?_, ?_⟩
  · have t : |q n - c n| ≤ |q n - p n| + |p n - c n| := by
      have := abs_add_le (q n - p n) (p n - c n)
      rwa [sub_add_sub_cancel] at this
    have := le n
    have := hq n
    linarith
  · rcases max_cases (|p 0 - c 0| - 1 / 2 * s 0) (max (|p 1 - c 1| - 1 / 2 * s 1) (|p 2 - c 2| - 1 / 2 * s 2)) with k | k
    · exact ⟨0, by rw [e, k.1]; ring⟩
    · rcases max_cases (|p 1 - c 1| - 1 / 2 * s 1) (|p 2 - c 2| - 1 / 2 * s 2) with j | j
      · exact ⟨1, by rw [e, k.1, j.1]; ring⟩
      · exact ⟨2, by rw [e, k.1, j.1]; ring⟩

/-- **C108**, disagreement: outside a box the level set is no distance: it vanishes in the planes of the faces, however far from the box. -/
theorem box_outside_wrong (c : Pt) (s : Fin 3 → ℝ) (h : ∀ n, 0 < s n) (y z : ℝ) : (Shape.box c s).phi ![c 0 + s 0 / 2, y, z] = 0 := by
  have e : |c 0 + s 0 / 2 - c 0| - 1 / 2 * s 0 = 0 := by
    rw [add_sub_cancel_left, abs_of_pos (by linarith [h 0])]
    ring
  show (if |c 0 + s 0 / 2 - c 0| ≤ 1 / 2 * s 0 ∧ |y - c 1| ≤ 1 / 2 * s 1 ∧ |z - c 2| ≤ 1 / 2 * s 2 then
      max (|c 0 + s 0 / 2 - c 0| - 1 / 2 * s 0) (max (|y - c 1| - 1 / 2 * s 1) (|z - c 2| - 1 / 2 * s 2))
    else min |(|c 0 + s 0 / 2 - c 0| - 1 / 2 * s 0)| (min |(|y - c 1| - 1 / 2 * s 1)| |(|z - c 2| - 1 / 2 * s 2)|)) = 0
  split_ifs with k
  · rw [e]
    refine max_eq_left (max_le ?_ ?_)
    · have := k.2.1
      linarith
    · have := k.2.2
      linarith
  · rw [e, abs_zero]
    apply min_eq_left
    apply le_min
    · exact abs_nonneg _
    · exact abs_nonneg _

/-! ## All bodies -/

theorem fold_min (f : Body → ℝ) (l : List Body) (v x : ℝ) : l.foldl (fun v b => min (f b) v) v < x ↔ v < x ∨ ∃ b ∈ l, f b < x := by
  induction l generalizing v with
  | nil => simp
  | cons b l ih =>
    rw [List.foldl_cons, ih, min_lt_iff]
    simp only [List.mem_cons, exists_eq_or_imp]
    tauto

/-- **C108**: the level set of all bodies is negative exactly in the cells with centre inside some body, whatever the order. -/
theorem levelset_union (m : Mesh C N) (bodies : List Body) (c : C) :
    (init m bodies).phi c < 0 ↔ ∃ b ∈ bodies, b.shape.phi (m.cell c) < 0 := by
  show List.foldl _ _ _ < 0 ↔ _
  rw [fold_min (fun b => b.shape.phi (m.cell c))]
  constructor
  · rintro (h | h)
    · norm_num at h
    · exact h
  · exact Or.inr

/-- **C108**: the order of the bodies does not matter for level set and mask. -/
theorem init_order (m : Mesh C N) {l l' : List Body} (h : l.Perm l') : init m l = init m l' := by
  have e1 : (init m l).phi = (init m l').phi := by
    funext c
    refine h.foldl_eq' (fun a _ b _ z => ?_) _
    exact min_left_comm _ _ _
  have e2 : (init m l).mask = (init m l').mask := by
    funext c
    refine h.foldl_eq' (fun a _ b _ z => ?_) _
    split_ifs <;> rfl
  calc init m l = ⟨(init m l).phi, (init m l).mask, fun _ _ => 0⟩ := rfl
    _ = ⟨(init m l').phi, (init m l').mask, fun _ _ => 0⟩ := by rw [e1, e2]

/-- **C108**: a node is masked exactly if some body masks it. -/
theorem mask_spec (m : Mesh C N) (bodies : List Body) (n : N) :
    (init m bodies).mask n = if (∃ b ∈ bodies, b.shape.masks (m.dx n) (m.node n) = true) then 0 else 1 := by
  have key : ∀ (l : List Body) (v : ℝ), l.foldl (fun v b => if b.shape.masks (m.dx n) (m.node n) then 0 else v) v =
      if (∃ b ∈ l, b.shape.masks (m.dx n) (m.node n) = true) then 0 else v := by
    intro l
    induction l with
    | nil => intro v; simp
    | cons b l ih =>
      intro v
      rw [List.foldl_cons, ih]
      by_cases hb : b.shape.masks (m.dx n) (m.node n) = true
      · simp [hb]
      · simp [hb]
  exact key bodies 1

/-- **C108**: a box masks all nodes of the cells with centre inside. -/
theorem box_masks_solid (c : Pt) (s dx : Fin 3 → ℝ) (p q : Pt) (h : (Shape.box c s).phi p < 0) (hq : ∀ n, |q n - p n| = dx n / 2) :
    (Shape.box c s).masks dx q = true := by
  have k := (box_neg c s p).mp h
  have t : ∀ n, |q n - c n| ≤ 1 / 2 * s n + 1 / 2 * dx n := by
    intro n
    have := abs_add_le (q n - p n) (p n - c n)
    rw [sub_add_sub_cancel, hq n] at this
    linarith [k n]
  exact decide_eq_true ⟨t 0, t 1, t 2⟩

/-- **C108**, disagreement: a sphere does not: here the cell centre is inside and a node of the cell is not masked. -/
theorem sphere_misses_solid : ∃ (c : Pt) (R : ℝ) (dx : Fin 3 → ℝ) (p q : Pt), (Shape.sphere c R).phi p < 0 ∧ (∀ n, |q n - p n| = dx n / 2) ∧
    (Shape.sphere c R).masks dx q = false := by
  refine ⟨fun _ => 0, 2, fun _ => 2, fun _ => 1, fun _ => 2, ?_, ?_, ?_⟩
  · show Real.sqrt _ - 2 < 0
    rw [sub_neg, Real.sqrt_lt' (by norm_num)]
    norm_num
  · intro n
    norm_num
  · refine decide_eq_false ?_
    rw [not_le, Real.lt_sqrt (by norm_num)]
    norm_num

/-- **C108**: the nodes a sphere masks are those of the ball, a cylinder those within its radius of the axis at any height, a box those of the box
grown by half a cell. -/
theorem shape_nodes (c : Pt) (R h : ℝ) (hR : 0 ≤ R) (s dx : Fin 3 → ℝ) (p : Pt) :
    ((Shape.sphere c R).masks dx p = true ↔ (p 0 - c 0) ^ 2 + (p 1 - c 1) ^ 2 + (p 2 - c 2) ^ 2 ≤ R ^ 2) ∧
    ((Shape.cylinder c R h).masks dx p = true ↔ (p 0 - c 0) ^ 2 + (p 1 - c 1) ^ 2 ≤ R ^ 2) ∧
    ((Shape.box c s).masks dx p = true ↔ ∀ n, |p n - c n| ≤ (s n + dx n) / 2) := by
  refine ⟨?_, ?_, ?_⟩
  · show decide _ = true ↔ _
    rw [decide_eq_true_iff, Real.sqrt_le_left hR]
    simp only [sq]
  · show decide _ = true ↔ _
    rw [decide_eq_true_iff, Real.sqrt_le_left hR]
    simp only [sq]
  · show decide _ = true ↔ _
    rw [decide_eq_true_iff, Fin.forall_fin_succ, Fin.forall_fin_succ, Fin.forall_fin_succ]
    have e : ∀ n, (1 : ℝ) / 2 * s n + 1 / 2 * dx n = (s n + dx n) / 2 := fun n => by ring
    rw [e, e, e]
    simp

example : (Shape.sphere (fun _ => 1) 2).masks (fun _ => 1) (fun _ => 2) = true :=
  (shape_nodes (fun _ => 1) 2 1 (by norm_num) (fun _ => 1) (fun _ => 1) (fun _ => 2)).1.2 (by norm_num)

/-! ## The velocity in the bodies -/

/-- With a band that is not negative (a cell size) the cells that get the velocity are those with a negative level set. -/
theorem dirichlet_spec (m : Mesh C N) (hb : ∀ c, 0 ≤ m.band c) (grad : (C → ℝ) → VF C ℝ) (eps : ℝ) (bc : Fin 3 → ℝ) (s : State C N) (u : VF C ℝ) (c : C) (n : Fin 3) :
    (applyDirichlet m grad eps bc s u).2 c n = if s.phi c < 0 then bc n else u c n := by
  show (if _ then _ else if _ then _ else _) = _
  by_cases h : s.phi c < 0
  · rw [if_pos h]
    by_cases h1 : s.phi c < -m.band c
    · rw [if_pos h1]
    · rw [if_neg h1, if_pos ⟨h, not_lt.mp h1⟩]
  · rw [if_neg (fun k => h (lt_of_lt_of_le k (neg_nonpos.mpr (hb c)))), if_neg (fun k => h k.1), if_neg h]

theorem update_phi (m : Mesh C N) (grad : (C → ℝ) → VF C ℝ) (eps : ℝ) (ex : Pt → Fin 3 → ℝ) (bodies : List Body) (s : State C N) (u : VF C ℝ) :
    (updateVelocities m grad eps ex bodies s u).1.phi = s.phi := by
  unfold updateVelocities
  induction bodies generalizing s u with
  | nil => rfl
  | cons b l ih =>
    rw [List.foldl_cons]
    by_cases hb : b.mms = true
    · simp only [hb, if_true]
      exact ih _ _
    · simp only [hb, Bool.false_eq_true, if_false]
      rw [ih]
      rfl

/-- **C108**: cells outside all bodies keep their velocity, for all lists of bodies. -/
theorem fluid_unchanged (m : Mesh C N) (hb : ∀ c, 0 ≤ m.band c) (grad : (C → ℝ) → VF C ℝ) (eps : ℝ) (ex : Pt → Fin 3 → ℝ) (bodies : List Body) (s : State C N) (u : VF C ℝ) (c : C)
    (hc : 0 < s.phi c) (n : Fin 3) : (updateVelocities m grad eps ex bodies s u).2 c n = u c n := by
  unfold updateVelocities
  induction bodies generalizing s u with
  | nil => rfl
  | cons b l ih =>
    rw [List.foldl_cons]
    by_cases hm : b.mms = true
    · simp only [hm, if_true]
      rw [ih (applyMms ex m s u).1 _ hc]
      exact if_neg (not_le.mpr hc)
    · simp only [hm, Bool.false_eq_true, if_false]
      rw [ih (applyDirichlet m grad eps b.vel s u).1 _ hc, dirichlet_spec m hb, if_neg (not_lt.mpr hc.le)]

/-- **C108**: in the cells inside any body the velocity is that of the last body in the input. -/
theorem last_wins (m : Mesh C N) (hb : ∀ c, 0 ≤ m.band c) (grad : (C → ℝ) → VF C ℝ) (eps : ℝ) (ex : Pt → Fin 3 → ℝ) (l : List Body) (b : Body) (hm : b.mms = false) (s : State C N)
    (u : VF C ℝ) (c : C) (hc : s.phi c < 0) : (updateVelocities m grad eps ex (l ++ [b]) s u).2 c = b.vel := by
  funext n
  have e : (updateVelocities m grad eps ex (l ++ [b]) s u).2 =
      (applyDirichlet m grad eps b.vel (updateVelocities m grad eps ex l s u).1 (updateVelocities m grad eps ex l s u).2).2 := by
    unfold updateVelocities
    rw [List.foldl_append]
    simp [hm]
  rw [e, dirichlet_spec m hb, update_phi, if_pos hc]

/-- **C108**: so if all bodies prescribe the same velocity every cell inside a body gets the velocity of its body.

Partial (C108). Missing: bodies with different velocities and the state after the projection (`first_overwritten`, `not_restored`). -/
theorem solid_velocity_partial (m : Mesh C N) (hb : ∀ c, 0 ≤ m.band c) (grad : (C → ℝ) → VF C ℝ) (eps : ℝ) (ex : Pt → Fin 3 → ℝ) (l : List Body) (v : Fin 3 → ℝ)
    (hv : ∀ b ∈ l, b.mms = false ∧ b.vel = v) (u : VF C ℝ) (c : C) (b : Body) (hbl : b ∈ l) (hc : b.shape.phi (m.cell c) < 0) :
    (updateVelocities m grad eps ex l (init m l) u).2 c = b.vel := by
  have hs : (init m l).phi c < 0 := (levelset_union m l c).mpr ⟨b, hbl, hc⟩
  rcases List.eq_nil_or_concat l with rfl | ⟨l', d, rfl⟩
  · simp at hbl
  · rw [List.concat_eq_append] at *
    have hd := hv d (by simp)
    rw [last_wins m hb grad eps ex l' d hd.1 _ u c hs, hd.2, (hv b hbl).2]

/-- **C108**, disagreement: with different velocities the cells of the first body get the velocity of the second. -/
theorem first_overwritten (m : Mesh C N) (hb : ∀ c, 0 ≤ m.band c) (grad : (C → ℝ) → VF C ℝ) (eps : ℝ) (ex : Pt → Fin 3 → ℝ) (a b : Body) (hm : b.mms = false) (u : VF C ℝ) (c : C)
    (hc : a.shape.phi (m.cell c) < 0) : (updateVelocities m grad eps ex [a, b] (init m [a, b]) u).2 c = b.vel :=
  last_wins m hb grad eps ex [a] b hm _ u c ((levelset_union m [a, b] c).mpr ⟨a, by simp, hc⟩)

/-- **C108**, disagreement: with the exact solution prescribed in a box, cells far outside it, in the plane of a face, are overwritten too. -/
theorem mms_box_wrong (m : Mesh C N) (grad : (C → ℝ) → VF C ℝ) (eps : ℝ) (ex : Pt → Fin 3 → ℝ) (p : Pt) (s v : Fin 3 → ℝ) (h : ∀ n, 0 < s n) (u : VF C ℝ) (c : C) (y z : ℝ)
    (hc : m.cell c = ![p 0 + s 0 / 2, y, z]) :
    (updateVelocities m grad eps ex [⟨.box p s, true, v⟩] (init m [⟨.box p s, true, v⟩]) u).2 c = ex (m.cell c) := by
  funext n
  show (if min _ _ ≤ (0 : ℝ) then _ else _) = _
  rw [if_pos]
  dsimp only
  rw [hc, box_outside_wrong p s h]
  exact min_le_left _ _

/-- **C108**: the normal is zero off the layer of cells inside the surface, and a unit vector in it wherever the gradient is not tiny. -/
theorem normal_spec (m : Mesh C N) (grad : (C → ℝ) → VF C ℝ) (eps : ℝ) (he : 0 ≤ eps) (bc : Fin 3 → ℝ) (s : State C N) (u : VF C ℝ) (c : C) :
    let nrm := (applyDirichlet m grad eps bc s u).1.normal
    let g := grad s.phi
    (¬ (-m.band c ≤ s.phi c ∧ s.phi c < 0) → nrm c = 0) ∧
      (-m.band c ≤ s.phi c → s.phi c < 0 → g c 0 ^ 2 + g c 1 ^ 2 + g c 2 ^ 2 > eps → nrm c 0 ^ 2 + nrm c 1 ^ 2 + nrm c 2 ^ 2 = 1) := by
  intro nrm g
  refine ⟨fun h => ?_, fun h1 h2 h3 => ?_⟩
  · funext n
    show (if _ then _ else _) = _
    split_ifs with a b
    · rfl
    · exact absurd ⟨b.2, b.1⟩ h
    · rfl
  · have e : ∀ n, nrm c n = g c n / Real.sqrt (g c 0 * g c 0 + g c 1 * g c 1 + g c 2 * g c 2) := by
      intro n
      show (if _ then _ else _) = _
      rw [if_neg (not_lt.mpr h1), if_pos ⟨h2, h1⟩]
      unfold unit
      dsimp only
      rw [if_pos]
      show g c 0 * g c 0 + g c 1 * g c 1 + g c 2 * g c 2 > eps
      nlinarith
    have pos : 0 < g c 0 * g c 0 + g c 1 * g c 1 + g c 2 * g c 2 := by nlinarith
    have sq := Real.sq_sqrt pos.le
    have ne := Real.sqrt_pos.mpr pos
    rw [e, e, e, div_pow, div_pow, div_pow, sq, ← add_div, ← add_div, div_eq_one_iff_eq pos.ne']
    ring

/-! ## The projection -/

/-- **C108**, disagreement: after the projection the velocity in a body is the prescribed one plus the change of the pressure gradient: nothing restores it. -/
theorem not_restored {B : Type*} (m : Mesh C N) (hb : ∀ c, 0 ≤ m.band c) (grad : (C → ℝ) → VF C ℝ) (eps : ℝ) (ex : Pt → Fin 3 → ℝ) (l : List Body) (b : Body) (hm : b.mms = false)
    (s : State C N) (P : Projector C N B ℝ) {su : Setup C ℝ} (h : su.Ok) (hd : ∀ c, dens su c = su.rho c) (hmap : su.mapped = false) (inflow zero : B) (w : Flow C N ℝ) (c : C)
    (hc : s.phi c < 0) (n : Fin 3) :
    (ibProject m grad eps ex (l ++ [b]) s P su inflow zero w).u c n =
      b.vel n + su.scale / su.rho c * (w.gp c n - (ibProject m grad eps ex (l ++ [b]) s P su inflow zero w).gp c n) := by
  have e := balance h hd (masked s.mask P) inflow zero { w with u := (updateVelocities m grad eps ex (l ++ [b]) s w.u).2 } c n
  have f1 : su.f c n = 1 := by simp [Setup.f, hmap]
  rw [f1] at e
  dsimp only at e
  rw [last_wins m hb grad eps ex l b hm s w.u c hc] at e
  show (project _ _ _ _ _).u c n = _ + _ * (_ - (project _ _ _ _ _).gp c n)
  linear_combination e

/-- So it is the prescribed one exactly if the pressure gradient in the cell did not change. -/
theorem restored_iff {B : Type*} (m : Mesh C N) (hb : ∀ c, 0 ≤ m.band c) (grad : (C → ℝ) → VF C ℝ) (eps : ℝ) (ex : Pt → Fin 3 → ℝ) (l : List Body) (b : Body) (hm : b.mms = false)
    (s : State C N) (P : Projector C N B ℝ) {su : Setup C ℝ} (h : su.Ok) (hd : ∀ c, dens su c = su.rho c) (hmap : su.mapped = false) (hsc : su.scale ≠ 0) (inflow zero : B)
    (w : Flow C N ℝ) (c : C) (hc : s.phi c < 0) (n : Fin 3) :
    (ibProject m grad eps ex (l ++ [b]) s P su inflow zero w).u c n = b.vel n ↔ (ibProject m grad eps ex (l ++ [b]) s P su inflow zero w).gp c n = w.gp c n := by
  rw [not_restored m hb grad eps ex l b hm s P h hd hmap inflow zero w c hc n]
  have := div_ne_zero hsc (h.rho c)
  constructor
  · intro k
    have z : su.scale / su.rho c * (w.gp c n - (ibProject m grad eps ex (l ++ [b]) s P su inflow zero w).gp c n) = 0 := by linarith
    rcases mul_eq_zero.mp z with z | z
    · exact absurd z this
    · linarith
  · intro k
    rw [k]
    ring

/-- **C108**: the divergence at nodes inside bodies has no influence on the projection. -/
theorem masked_nodes {B : Type*} (m : Mesh C N) (grad : (C → ℝ) → VF C ℝ) (eps : ℝ) (ex : Pt → Fin 3 → ℝ) (bodies : List Body) (s : State C N) (P Q : Projector C N B ℝ)
    (hs : P.solve = Q.solve) (hg : P.grad = Q.grad) (hd : ∀ b v n, s.mask n ≠ 0 → P.div b v n = Q.div b v n) (su : Setup C ℝ) (inflow zero : B) (w : Flow C N ℝ) :
    ibProject m grad eps ex bodies s P su inflow zero w = ibProject m grad eps ex bodies s Q su inflow zero w := by
  have e : ∀ b v, (fun n => P.div b v n * s.mask n) = fun n => Q.div b v n * s.mask n := by
    intro b v
    funext n
    by_cases h : s.mask n = 0
    · rw [h, mul_zero, mul_zero]
    · rw [hd b v n h]
  have k : ∀ w, phi (masked s.mask P) su inflow zero w = phi (masked s.mask Q) su inflow zero w := by
    intro w
    unfold phi masked
    dsimp only
    rw [e, hs]
  unfold ibProject project velocity
  have hg' : (masked s.mask P).grad = (masked s.mask Q).grad := hg
  simp only [k, hg']

/-- **C108**, disagreement: after a change of the mesh no node is masked. -/
theorem regrid_loses_mask {C' N' : Type*} (kept : C' → Option C) (m : Mesh C N) (m' : Mesh C' N') (bodies : List Body) (n : N')
    (h : ∃ b ∈ bodies, b.shape.masks (m'.dx n) (m'.node n) = true) :
    (regrid kept (init m bodies) : State C' N').mask n = 1 ∧ (init m' bodies).mask n = 0 := by
  refine ⟨rfl, ?_⟩
  rw [mask_spec, if_pos h]

/-- **C108**, disagreement: on a level that a change of the mesh has changed the bodies are gone: no cell, in a body or
not, gets the velocity of a body. -/
theorem regrid_loses_bodies {C' N' : Type*} (kept : C' → Option C) (s : State C N) (m : Mesh C' N') (grad : (C' → ℝ) → VF C' ℝ) (eps : ℝ)
    (ex : Pt → Fin 3 → ℝ) (bodies : List Body) (hb : ∀ b ∈ bodies, b.mms = false) (hm : ∀ c, 0 ≤ m.band c) (u : VF C' ℝ) {c : C'}
    (hc : kept c = none) (n : Fin 3) :
    (updateVelocities m grad eps ex bodies (regrid kept s : State C' N') u).2 c n = u c n := by
  have h0 : (regrid kept s : State C' N').phi c = 0 := by simp [regrid, hc]
  generalize (regrid kept s : State C' N') = t at h0
  induction bodies generalizing t u with
  | nil => rfl
  | cons b bodies ih =>
    have h1 := hb b List.mem_cons_self
    have h2 : ¬ (0 : ℝ) < -m.band c := by linarith [hm c]
    rw [updateVelocities, List.foldl_cons, h1, if_neg Bool.false_ne_true]
    refine (ih (fun b' h' => hb b' (List.mem_cons_of_mem _ h')) _ _ ?_).trans ?_
    · simpa [applyDirichlet] using h0
    · simp [applyDirichlet, h0, h2]

/-- **C108**, disagreement: with the exact solution prescribed, it is set in every cell of such a level, also in the
fluid. -/
theorem regrid_mms_everywhere {C' N' : Type*} (kept : C' → Option C) (s : State C N) (m : Mesh C' N') (grad : (C' → ℝ) → VF C' ℝ) (eps : ℝ)
    (ex : Pt → Fin 3 → ℝ) (bodies : List Body) (hb : ∀ b ∈ bodies, b.mms = true) (hne : bodies ≠ []) (u : VF C' ℝ) {c : C'}
    (hc : kept c = none) (n : Fin 3) :
    (updateVelocities m grad eps ex bodies (regrid kept s : State C' N') u).2 c n = ex (m.cell c) n := by
  have h0 : (regrid kept s : State C' N').phi c = 0 := by simp [regrid, hc]
  generalize (regrid kept s : State C' N') = t at h0
  induction bodies generalizing t u with
  | nil => exact absurd rfl hne
  | cons b bodies ih =>
    have h1 := hb b List.mem_cons_self
    rw [updateVelocities, List.foldl_cons, h1, if_pos rfl]
    by_cases hn : bodies = []
    · subst hn; simp [applyMms, h0]
    · exact ih (fun b' h' => hb b' (List.mem_cons_of_mem _ h')) hn _ _ (by simpa [applyMms] using h0)

/-- **C108**: on a level that has not changed the bodies act as before.

Partial (C108). Missing: level sets after a change of the mesh that are not kept, see the refutations of C108. -/
theorem regrid_kept_partial {C' N' : Type*} (kept : C' → Option C) (s : State C N) {c : C'} {c₀ : C} (hc : kept c = some c₀) :
    (regrid kept s : State C' N').phi c = s.phi c₀ ∧ (regrid kept s : State C' N').normal c = s.normal c₀ := by
  constructor
  · simp [regrid, hc]
  · funext n; simp [regrid, hc]

/-! ## A case -/

/-- A box and a sphere; one cell in each and one outside. -/
def exBodies : List Body := [⟨.box (fun _ => 0) (fun _ => 2), false, ![1, 0, 0]⟩, ⟨.sphere ![10, 0, 0] 2, false, ![0, 0, 3]⟩]

noncomputable def exMesh : Mesh (Fin 3) Unit := ⟨fun c => if c = 0 then fun _ => 0 else if c = 1 then ![10, 0, 0] else fun _ => 5, fun _ => fun _ => 1, fun _ => fun _ => 1, fun _ => 1⟩

example : (init exMesh exBodies).phi 0 < 0 ∧ (init exMesh exBodies).phi 1 < 0 ∧ ¬ (init exMesh exBodies).phi 2 < 0 := by
  refine ⟨(levelset_union _ _ _).mpr ⟨_, List.mem_cons_self, (box_neg _ _ _).mpr fun n => by simp [exMesh]⟩,
    (levelset_union _ _ _).mpr ⟨_, List.mem_cons_of_mem _ List.mem_cons_self, ?_⟩, fun h => ?_⟩
  · norm_num [Shape.phi, exMesh]
  · obtain ⟨b, hb, h⟩ := (levelset_union _ _ _).mp h
    simp only [exBodies, List.mem_cons, List.not_mem_nil, or_false] at hb
    rcases hb with rfl | rfl
    · have t := (box_neg _ _ _).mp h 0
      have t' : |(5 : ℝ) - 0| < 2 / 2 := t
      norm_num at t'
    · have h' : Real.sqrt (((5 : ℝ) - 10) * (5 - 10) + (5 - 0) * (5 - 0) + (5 - 0) * (5 - 0)) - 2 < 0 := h
      rw [sub_neg, Real.sqrt_lt' (by norm_num)] at h'
      norm_num at h'

/-- The cell inside the box gets the velocity of the sphere. -/
example (grad : (Fin 3 → ℝ) → VF (Fin 3) ℝ) (ex : Pt → Fin 3 → ℝ) (u : VF (Fin 3) ℝ) : (updateVelocities exMesh grad 0 ex exBodies (init exMesh exBodies) u).2 0 2 = 3 := by
  have := first_overwritten exMesh (fun _ => by simp [exMesh]) grad 0 ex ⟨.box (fun _ => 0) (fun _ => 2), false, ![1, 0, 0]⟩ ⟨.sphere ![10, 0, 0] 2, false, ![0, 0, 3]⟩ rfl u 0
    ((box_neg _ _ _).mpr fun n => by simp [exMesh])
  show (updateVelocities exMesh grad 0 ex [_, _] (init exMesh [_, _]) u).2 0 2 = 3
  rw [this]
  rfl

/-- After a change of the mesh that changes the level of all three cells, none is set. -/
example (grad : (Fin 3 → ℝ) → VF (Fin 3) ℝ) (ex : Pt → Fin 3 → ℝ) (u : VF (Fin 3) ℝ) (n : Fin 3) :
    (updateVelocities exMesh grad 0 ex exBodies (regrid (fun _ : Fin 3 => none) (init exMesh exBodies) : State (Fin 3) Unit) u).2 0 n = u 0 n :=
  regrid_loses_bodies _ _ _ _ _ _ _ (by simp [exBodies]) (by simp [exMesh]) u rfl n

end AmrWind.Ib
