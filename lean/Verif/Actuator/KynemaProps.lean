import Verif.Actuator.KynemaModel
import Mathlib.LinearAlgebra.Matrix.Notation
import Mathlib.Data.Matrix.Mul
import Mathlib.LinearAlgebra.Matrix.Determinant.Basic
import Mathlib.Tactic.LinearCombination
import Mathlib.Tactic.Ring
import Mathlib.Tactic.Linarith
import Mathlib.Tactic.FieldSimp
import Mathlib.Algebra.BigOperators.Fin
/-!
# C121: turbines solved by Kynema
-/

set_option linter.unusedSectionVars false

namespace AmrWind.Kyn

/-! ## Specification -/

/-- The point of node `k` of body `b`: the hub first, then the bodies one after the other. -/
def pointOf (sizes : List ℕ) (b k : ℕ) : ℕ := 1 + (sizes.take b).sum + k

/-- `k` steps of the structure under one and the same load; `none`: a step did not converge. -/
def held {S V L : Type*} (sol : Solver S V L) (ctl : Bool) (l : L) : ℕ → ℕ → S → Option S
  | 0, _, x => some x
  | k + 1, i, x => (sol.step x l).bind fun x' => held sol ctl l k (i + 1) (if ctl then sol.control i x' else x')

/-- The coupled history: for each step of the flow the loads are found from the structure as it then is and from the velocities of
that step, and the structure makes `N` steps under them. -/
def coupled {S V L : Type*} (sol : Solver S V L) (N : ℕ) (ctl : Bool) : List V → ℕ → S → Option S
  | [], _, x => some x
  | v :: vs, i, x => (held sol ctl (sol.aero x v) N i x).bind fun y => coupled sol N ctl vs (i + N) y

/-! ## Points and nodes -/

theorem loop_spec : ∀ (sizes : List ℕ) (b0 : ℕ) (d : ℕ), d < sizes.sum → ∃ b k s : ℕ, sizes[b]? = some s ∧ k < s ∧
    bodyLoop b0 sizes d = b0 + b ∧ nodeLoop sizes d = k ∧ d = (sizes.take b).sum + k
  | [], _, d, h => by simp at h
  | s :: rest, b0, d, h => by
    by_cases hc : ((d : ℤ) - (s : ℤ)) < 0
    · refine ⟨0, d, s, rfl, by omega, ?_, ?_, by simp⟩
      · simp only [bodyLoop, if_pos hc, add_zero]
      · simp only [nodeLoop, if_pos hc]; ring
    · rw [List.sum_cons] at h
      obtain ⟨b, k, s', h1, h2, h3, h4, h5⟩ := loop_spec rest (b0 + 1) (d - s) (by omega)
      have hd : ((d - s : ℕ) : ℤ) = (d : ℤ) - s := by omega
      rw [hd] at h3 h4
      refine ⟨b + 1, k, s', by simpa using h1, h2, ?_, ?_, ?_⟩
      · simp only [bodyLoop, if_neg hc, h3]; omega
      · simp only [nodeLoop, if_neg hc, h4]
      · simp only [List.take_succ_cons, List.sum_cons]; omega

theorem loop_at : ∀ (sizes : List ℕ) (b0 b k s : ℕ), sizes[b]? = some s → k < s →
    (sizes.take b).sum + k < sizes.sum ∧ bodyLoop b0 sizes (((sizes.take b).sum + k : ℕ) : ℤ) = b0 + b ∧
    nodeLoop sizes (((sizes.take b).sum + k : ℕ) : ℤ) = k
  | [], _, b, k, s, h, _ => by simp at h
  | s' :: rest, b0, 0, k, s, h, hk => by
    simp only [List.getElem?_cons_zero, Option.some.injEq] at h
    subst h
    have hc : (((k : ℕ) : ℤ) - (s' : ℤ)) < 0 := by omega
    refine ⟨by simp; omega, ?_, ?_⟩
    · simp only [List.take_zero, List.sum_nil, zero_add, bodyLoop, if_pos hc, add_zero]
    · simp only [List.take_zero, List.sum_nil, zero_add, nodeLoop, if_pos hc]; ring
  | s' :: rest, b0, b + 1, k, s, h, hk => by
    simp only [List.getElem?_cons_succ] at h
    obtain ⟨h1, h2, h3⟩ := loop_at rest (b0 + 1) b k s h hk
    simp only [List.take_succ_cons, List.sum_cons]
    have hc : ¬((((s' + (rest.take b).sum + k : ℕ) : ℤ) - (s' : ℤ)) < 0) := by omega
    have hd : (((s' + (rest.take b).sum + k : ℕ) : ℤ) - (s' : ℤ)) = (((rest.take b).sum + k : ℕ) : ℤ) := by omega
    refine ⟨by omega, ?_, ?_⟩
    · simp only [bodyLoop, if_neg hc]
      rw [hd, h2]; omega
    · simp only [nodeLoop, if_neg hc]
      rw [hd, h3]

/-- Every point but the hub is a node of a body. -/
theorem point_is_node (sizes : List ℕ) (n : ℕ) (h1 : 1 ≤ n) (h2 : n < numPts sizes) : ∃ b k s : ℕ, sizes[b]? = some s ∧ k < s ∧
    bodyIndex sizes n = b ∧ nodeIndex sizes n = k ∧ n = pointOf sizes b k := by
  unfold numPts at h2
  obtain ⟨b, k, s, a1, a2, a3, a4, a5⟩ := loop_spec sizes 0 (n - 1) (by omega)
  have hd : ((n - 1 : ℕ) : ℤ) = (n : ℤ) - 1 := by omega
  rw [hd] at a3 a4
  exact ⟨b, k, s, a1, a2, by rw [bodyIndex, a3, zero_add], a4, by unfold pointOf; omega⟩

/-- Every node of a body is a point, and the point leads back to the body and the node. -/
theorem node_is_point (sizes : List ℕ) (b k s : ℕ) (hb : sizes[b]? = some s) (hk : k < s) :
    1 ≤ pointOf sizes b k ∧ pointOf sizes b k < numPts sizes ∧ bodyIndex sizes (pointOf sizes b k) = b ∧
    nodeIndex sizes (pointOf sizes b k) = k := by
  obtain ⟨h1, h2, h3⟩ := loop_at sizes 0 b k s hb hk
  have hd : ((pointOf sizes b k : ℕ) : ℤ) - 1 = (((sizes.take b).sum + k : ℕ) : ℤ) := by unfold pointOf; omega
  refine ⟨by unfold pointOf; omega, by unfold pointOf numPts; omega, ?_, ?_⟩
  · rw [bodyIndex, hd, h2, zero_add]
  · rw [nodeIndex, hd, h3]

/-- Three blades, the second one with another number of nodes. -/
example : numPts [3, 2, 3] = 9 ∧ (List.range 9).map (fun n => (bodyIndex [3, 2, 3] n, nodeIndex [3, 2, 3] n)) =
    [(0, -1), (0, 0), (0, 1), (0, 2), (1, 0), (1, 1), (2, 0), (2, 1), (2, 2)] ∧ pointOf [3, 2, 3] 2 1 = 7 := by decide

theorem mem_inner (dir : ℕ) : ∀ (k idx n : ℕ) (p : ℕ × ℕ × ℕ), p ∈ inner dir k idx n ↔ ∃ j, j < k ∧ p = (idx + j, dir, n + j)
  | 0, idx, n, p => by simp [inner]
  | k + 1, idx, n, p => by
    rw [inner, List.mem_cons, mem_inner dir k]
    constructor
    · rintro (rfl | ⟨j, hj, rfl⟩)
      · exact ⟨0, by omega, rfl⟩
      · exact ⟨j + 1, by omega, by ext <;> simp <;> omega⟩
    · rintro ⟨j, hj, rfl⟩
      cases j with
      | zero => exact Or.inl rfl
      | succ j => exact Or.inr ⟨j, by omega, by ext <;> simp <;> omega⟩

/-- The running index visits the place of every point in every direction, the hub's left out, and nothing else. -/
theorem places_spec (N : ℕ) (hN : 1 ≤ N) (i d n : ℕ) : (i, d, n) ∈ places N ↔ d < 3 ∧ 1 ≤ n ∧ n < N ∧ i = d * N + n := by
  simp only [places, outer, List.append_nil, List.mem_append, mem_inner, Prod.mk.injEq]
  constructor
  · rintro (⟨j, hj, rfl, rfl, rfl⟩ | ⟨j, hj, rfl, rfl, rfl⟩ | ⟨j, hj, rfl, rfl, rfl⟩) <;> refine ⟨by omega, by omega, by omega, by omega⟩
  · rintro ⟨hd, h1, h2, rfl⟩
    rcases (by omega : d = 0 ∨ d = 1 ∨ d = 2) with rfl | rfl | rfl
    · exact Or.inl ⟨n - 1, by omega, by omega, rfl, by omega⟩
    · exact Or.inr (Or.inl ⟨n - 1, by omega, by omega, rfl, by omega⟩)
    · exact Or.inr (Or.inr ⟨n - 1, by omega, by omega, rfl, by omega⟩)

example : places 3 = [(1, 0, 1), (2, 0, 2), (4, 1, 1), (5, 1, 2), (7, 2, 1), (8, 2, 2)] := by decide

theorem writes_some {A I V : Type*} [DecidableEq I] (f : A → I) (g : A → V) (i : I) (w : V) : ∀ (l : List A) (buf : I → V),
    (∀ a ∈ l, f a = i → g a = w) → (∃ a ∈ l, f a = i) ∨ buf i = w →
    (l.foldl (fun b a => fun j => if j = f a then g a else b j) buf) i = w
  | [], buf, _, h => by simpa using h
  | a :: l, buf, hall, h => by
    rw [List.foldl_cons]
    refine writes_some f g i w l _ (fun a' ha' => hall a' (List.mem_cons_of_mem _ ha')) ?_
    by_cases hi : i = f a
    · exact Or.inr (by rw [if_pos hi]; exact hall a (List.mem_cons_self) hi.symm)
    · rcases h with ⟨a', ha', hf⟩ | hb
      · rcases List.mem_cons.mp ha' with rfl | hm
        · exact absurd hf.symm hi
        · exact Or.inl ⟨a', hm, hf⟩
      · exact Or.inr (by rw [if_neg hi]; exact hb)

theorem writes_none {A I V : Type*} [DecidableEq I] (f : A → I) (g : A → V) (i : I) : ∀ (l : List A) (buf : I → V),
    (∀ a ∈ l, f a ≠ i) → (l.foldl (fun b a => fun j => if j = f a then g a else b j) buf) i = buf i
  | [], _, _ => rfl
  | a :: l, buf, h => by
    rw [List.foldl_cons, writes_none f g i l _ fun a' ha' => h a' (List.mem_cons_of_mem _ ha')]
    exact if_neg (h a List.mem_cons_self).symm

theorem slot_inj {N d d' n n' : ℕ} (hn : n < N) (hn' : n' < N) (h : d * N + n = d' * N + n') : d = d' ∧ n = n' := by
  have hN : 0 < N := by omega
  have e1 : (d * N + n) / N = d := by rw [mul_comm, Nat.mul_add_div hN, Nat.div_eq_of_lt hn, add_zero]
  have e2 : (d' * N + n') / N = d' := by rw [mul_comm, Nat.mul_add_div hN, Nat.div_eq_of_lt hn', add_zero]
  have e : d = d' := by rw [← e1, ← e2, h]
  subst e
  exact ⟨rfl, by omega⟩

/-- What the solver has at a node is found at the point of the node, in the same direction: loads, positions and velocities. The places
of the hub keep what they had: its force is the flow's. -/
theorem loads_reach {V : Type*} (sizes : List ℕ) (get : ℕ → ℤ → ℕ → V) (buf : ℕ → V) :
    (∀ b k s d : ℕ, sizes[b]? = some s → k < s → d < 3 → fill sizes get buf (slot sizes d (pointOf sizes b k)) = get b k d) ∧
    ∀ d, d < 3 → fill sizes get buf (slot sizes d 0) = buf (slot sizes d 0) := by
  have hN : 1 ≤ numPts sizes := by unfold numPts; omega
  constructor
  · intro b k s d hb hk hd
    obtain ⟨h1, h2, h3, h4⟩ := node_is_point sizes b k s hb hk
    refine writes_some (fun p : ℕ × ℕ × ℕ => p.1) (fun p => get (bodyIndex sizes p.2.2) (nodeIndex sizes p.2.2) p.2.1) _ _ _ _ ?_ (Or.inl
      ⟨(slot sizes d (pointOf sizes b k), d, pointOf sizes b k), (places_spec _ hN _ _ _).mpr ⟨hd, h1, h2, rfl⟩, rfl⟩)
    rintro ⟨i, d', n⟩ hm hi
    obtain ⟨-, m1, m2, m3⟩ := (places_spec _ hN _ _ _).mp hm
    dsimp only at hi ⊢
    obtain ⟨rfl, rfl⟩ := slot_inj m2 h2 (by rw [← m3, hi]; rfl)
    rw [h3, h4]
  · intro d hd
    refine writes_none (fun p : ℕ × ℕ × ℕ => p.1) (fun p => get (bodyIndex sizes p.2.2) (nodeIndex sizes p.2.2) p.2.1) _ _ _ ?_
    rintro ⟨i, d', n⟩ hm hi
    obtain ⟨-, m1, m2, m3⟩ := (places_spec _ hN _ _ _).mp hm
    dsimp only at hi
    obtain ⟨-, h0⟩ := slot_inj m2 (by omega) (m3.symm.trans hi)
    omega

theorem foldl_curry {V : Type*} (B : ℕ × ℕ × ℕ → ℕ) (C : ℕ × ℕ × ℕ → ℤ) (D : ℕ × ℕ × ℕ → ℕ) (g : ℕ × ℕ × ℕ → V) :
    ∀ (l : List (ℕ × ℕ × ℕ)) (w : ℕ → ℤ → ℕ → V) (b : ℕ) (k : ℤ) (d : ℕ),
    (l.foldl (fun w p => fun b k d => if b = B p ∧ k = C p ∧ d = D p then g p else w b k d) w) b k d =
    (l.foldl (fun (w : ℕ × ℤ × ℕ → V) p => fun j => if j = (B p, C p, D p) then g p else w j) fun j => w j.1 j.2.1 j.2.2) (b, k, d)
  | [], _, _, _, _ => rfl
  | p :: l, w, b, k, d => by
    rw [List.foldl_cons, List.foldl_cons, foldl_curry B C D g l]
    have e : (fun j : ℕ × ℤ × ℕ => if j.1 = B p ∧ j.2.1 = C p ∧ j.2.2 = D p then g p else w j.1 j.2.1 j.2.2) =
        fun j => if j = (B p, C p, D p) then g p else w j.1 j.2.1 j.2.2 := by
      funext j
      obtain ⟨j1, j2, j3⟩ := j
      simp only [Prod.mk.injEq]
    rw [e]

/-- The velocity the flow has at the point of a node reaches that node, in the same direction. -/
theorem velocities_reach {V : Type*} (sizes : List ℕ) (fv : ℕ → V) (w : ℕ → ℤ → ℕ → V) (b k s d : ℕ) (hb : sizes[b]? = some s)
    (hk : k < s) (hd : d < 3) : passVel sizes fv w b k d = fv (slot sizes d (pointOf sizes b k)) := by
  have hN : 1 ≤ numPts sizes := by unfold numPts; omega
  obtain ⟨h1, h2, h3, h4⟩ := node_is_point sizes b k s hb hk
  unfold passVel
  rw [foldl_curry (fun p => bodyIndex sizes p.2.2) (fun p => nodeIndex sizes p.2.2) (fun p => p.2.1) (fun p => fv p.1)]
  refine writes_some (fun p : ℕ × ℕ × ℕ => (bodyIndex sizes p.2.2, nodeIndex sizes p.2.2, p.2.1)) (fun p => fv p.1) _ _ _ _ ?_ (Or.inl
    ⟨(slot sizes d (pointOf sizes b k), d, pointOf sizes b k), (places_spec _ hN _ _ _).mpr ⟨hd, h1, h2, rfl⟩, ?_⟩)
  · rintro ⟨i, d', n⟩ hm hi
    obtain ⟨-, m1, m2, m3⟩ := (places_spec _ hN _ _ _).mp hm
    dsimp only at hi ⊢
    obtain ⟨b', k', s', q1, q2, q3, q4, q5⟩ := point_is_node sizes n m1 m2
    simp only [Prod.mk.injEq] at hi
    obtain ⟨e1, e2, rfl⟩ := hi
    have eb : b' = b := by rw [← q3, e1]
    have ek : k' = k := by have : (k' : ℤ) = k := by rw [← q4, e2]
                           exact_mod_cast this
    subst eb ek
    rw [m3, q5]; rfl
  · simp only [h3, h4]

/-- Velocities and loads through the buffers of a small turbine: node 1 of body 1, direction 2. -/
example : passVel [2, 2] (fun i => 100 + i) (fun _ _ _ => 0) 1 1 2 = 114 ∧ slot [2, 2] 2 (pointOf [2, 2] 1 1) = 14 ∧
    fill [2, 2] (fun b k d => 100 * (b : ℤ) + 10 * k + d) (fun _ => -1) 14 = 112 ∧
    fill [2, 2] (fun b k d => 100 * (b : ℤ) + 10 * k + d) (fun _ => -1) 10 = -1 := by decide

/-! ## Matrices -/

section ring
variable {K : Type*} [CommRing K]

/-- The matrix passed for an orientation is a rotation when the quaternion has norm one: its transpose is its inverse and its determinant
is one. It turns a vector `v` into `q v q*`: the axis `(q1, q2, q3)` is kept. -/
theorem orientation_rotation (q0 q1 q2 q3 : K) (hq : q0 * q0 + q1 * q1 + q2 * q2 + q3 * q3 = 1) :
    rotMat q0 q1 q2 q3 * (rotMat q0 q1 q2 q3).transpose = 1 ∧ (rotMat q0 q1 q2 q3).det = 1 ∧
    (rotMat q0 q1 q2 q3).mulVec ![q1, q2, q3] = ![q1, q2, q3] := by
  refine ⟨?_, ?_, ?_⟩
  · ext i j
    rw [Matrix.mul_apply, Fin.sum_univ_three]
    have h2 : (q0 * q0 + q1 * q1 + q2 * q2 + q3 * q3) * (q0 * q0 + q1 * q1 + q2 * q2 + q3 * q3) = 1 := by rw [hq, mul_one]
    fin_cases i <;> fin_cases j <;> simp only [Matrix.transpose_apply, rotMat, Fin.mk_one, Fin.zero_eta, Fin.reduceFinMk, Matrix.one_apply_eq] <;>
      first | linear_combination h2 | (rw [Matrix.one_apply_ne (by decide)]; ring)
  · rw [Matrix.det_fin_three]
    have h3 : (q0 * q0 + q1 * q1 + q2 * q2 + q3 * q3) * (q0 * q0 + q1 * q1 + q2 * q2 + q3 * q3) *
        (q0 * q0 + q1 * q1 + q2 * q2 + q3 * q3) = 1 := by rw [hq]; ring
    simp only [rotMat]
    linear_combination h3
  · funext i
    rw [Matrix.mulVec, dotProduct, Fin.sum_univ_three]
    fin_cases i <;> simp [rotMat]
    · linear_combination q1 * hq
    · linear_combination q2 * hq
    · linear_combination q3 * hq

/-- A turn about the third axis by the angle whose half has cosine `c` and sine `s`: the first axis goes to
`(cos, sin, 0)` of the whole angle. -/
theorem orientation_sense (c s : K) : (rotMat c 0 0 s).mulVec ![1, 0, 0] = ![c * c - s * s, 2 * (c * s), 0] := by
  funext i
  rw [Matrix.mulVec, dotProduct, Fin.sum_univ_three]
  fin_cases i <;> simp [rotMat]

example : rotMat (3 / 5 : ℚ) 0 0 (4 / 5) 0 1 = -(24 / 25) ∧ rotMat (3 / 5 : ℚ) 0 0 (4 / 5) 1 0 = 24 / 25 := by
  constructor <;> norm_num [rotMat]

/-- Twice the kinetic energy of a section by its mass matrix is that of a rigid body of mass `m` whose centre of mass lies at
`(cx, cy, 0)`, `v` its velocity at the reference axis and `w` its rate of turn: `m |v + w × c|²` plus the energy of the turn about the
centre, for the inertia about the reference axis in the file. -/
theorem section_energy (m cx cy iedge iflap icp iplr vx vy vz wx wy wz : K) :
    dotProduct ![vx, vy, vz, wx, wy, wz] ((massMat m cx cy iedge iflap icp iplr).mulVec ![vx, vy, vz, wx, wy, wz]) =
    m * ((vx - wz * cy) * (vx - wz * cy) + (vy + wz * cx) * (vy + wz * cx) + (vz + wx * cy - wy * cx) * (vz + wx * cy - wy * cx)) +
    ((iedge - m * cy * cy) * (wx * wx) - 2 * (icp - m * cx * cy) * (wx * wy) + (iflap - m * cx * cx) * (wy * wy) +
      (iplr - m * (cx * cx + cy * cy)) * (wz * wz)) := by
  simp only [Matrix.mulVec, dotProduct, Fin.sum_univ_succ, massMat]
  simp
  ring

/-- The mass matrix, the stiffness matrix and the matrix of the hub are symmetric. -/
theorem matrices_symmetric (m cx cy iedge iflap icp iplr igen ratio : K) (k : ℕ → ℕ → K) (h : ℕ → K) :
    (massMat m cx cy iedge iflap icp iplr).transpose = massMat m cx cy iedge iflap icp iplr ∧
    (stiffMat k).transpose = stiffMat k ∧ (hubMat m h igen ratio).transpose = hubMat m h igen ratio := by
  refine ⟨?_, ?_, ?_⟩ <;> ext i j <;> fin_cases i <;> fin_cases j <;> rfl

/-- The entry of the stiffness matrix in row `i` and column `j` is the `Kij` of the file. -/
theorem stiffness_entry (k : ℕ → ℕ → K) (i j : Fin 6) (h : i ≤ j) : stiffMat k i j = k (i.val + 1) (j.val + 1) := by
  fin_cases i <;> fin_cases j <;> first | rfl | exact absurd h (by decide)

/-- Twice the energy of the turning hub: its own and, about the shaft, that of a generator turning `ratio` times as fast. -/
theorem hub_energy (m : K) (i : ℕ → K) (igen ratio wx wy wz : K) :
    dotProduct ![0, 0, 0, wx, wy, wz] ((hubMat m i igen ratio).mulVec ![0, 0, 0, wx, wy, wz]) =
    (i 0 * wx * wx + i 1 * wy * wy + i 2 * wz * wz + 2 * (i 3 * wx * wy + i 4 * wx * wz + i 5 * wy * wz)) +
    igen * ((ratio * wx) * (ratio * wx)) := by
  simp only [Matrix.mulVec, dotProduct, Fin.sum_univ_succ, hubMat]
  simp
  ring

end ring

/-- A section of 10 kg whose centre lies ahead of the axis. -/
example : massMat (10 : ℚ) 1 2 50 15 20 70 2 3 = 20 ∧ massMat (10 : ℚ) 1 2 50 15 20 70 0 5 = -20 ∧
    massMat (10 : ℚ) 1 2 50 15 20 70 5 1 = 10 := by
  decide +kernel

/-! ## Steps -/

variable {S V L : Type*}

theorem update_later (sol : Solver S V L) (N : ℕ) (ctl : Bool) (idx : ℕ) (v : V) (t : Turb S V L) (h1 : 1 ≤ t.counter) :
    update sol N ctl true idx v t = (sol.step t.x t.load).map fun x' =>
      publish (wrap N true { t with counter := t.counter + 1, x := if ctl then sol.control idx x' else x' }) := by
  have hf : first sol v { t with counter := t.counter + 1 } = { t with counter := t.counter + 1 } := by
    unfold first; exact if_neg (by simp; omega)
  rw [update, hf, move, if_pos rfl, Option.map_map]
  rfl

theorem substeps_later (sol : Solver S V L) (N : ℕ) (ctl : Bool) (v : V) : ∀ (k idx : ℕ) (t : Turb S V L), 1 ≤ t.counter →
    t.counter + (k + 1) = N → substeps sol N ctl v (k + 1) idx t = (held sol ctl t.load (k + 1) idx t.x).map fun y =>
      ⟨0, y, y, t.load, (y, t.load), t.written + 1, t.passed⟩
  | 0, idx, t, h1, hN => by
    have un : substeps sol N ctl v 1 idx t = (update sol N ctl true idx v t).bind fun t' => some t' := rfl
    rw [un, update_later sol N ctl idx v t h1]
    have un2 : held sol ctl t.load 1 idx t.x = (sol.step t.x t.load).bind fun x' => some (if ctl then sol.control idx x' else x') := rfl
    rw [un2]
    cases sol.step t.x t.load with
    | none => rfl
    | some x' =>
      simp only [Option.map_some, Option.bind_some, Option.some.injEq]
      unfold wrap
      rw [if_pos (by simpa using hN)]
      rfl
  | k + 1, idx, t, h1, hN => by
    have un : substeps sol N ctl v (k + 2) idx t =
        (update sol N ctl true idx v t).bind fun t' => substeps sol N ctl v (k + 1) (idx + 1) t' := rfl
    have un2 : held sol ctl t.load (k + 2) idx t.x = (sol.step t.x t.load).bind fun x' =>
        held sol ctl t.load (k + 1) (idx + 1) (if ctl then sol.control idx x' else x') := rfl
    rw [un, un2, update_later sol N ctl idx v t h1]
    cases sol.step t.x t.load with
    | none => rfl
    | some x' =>
      simp only [Option.map_some, Option.bind_some]
      have hw : publish (wrap N true { t with counter := t.counter + 1, x := if ctl then sol.control idx x' else x' }) =
          { t with counter := t.counter + 1, x := if ctl then sol.control idx x' else x' } := by
        unfold wrap
        rw [if_neg (by simp; omega), if_neg (by simp)]
        unfold publish
        rw [if_neg (by simp)]
      rw [hw, substeps_later sol N ctl v k (idx + 1) _ (by simp) (by simp; omega)]

/-- One step of the flow: the loads are found once, from the structure as it is at the start and the velocities of that step; the
structure makes `N` steps under them; what the flow then sees is the structure at the end with those loads. The output is written once,
the velocities are passed once and the counter is back at 0. The run aborts just when a step of the structure does not converge. -/
theorem flow_step (sol : Solver S V L) (N : ℕ) (hN : 1 ≤ N) (ctl : Bool) (v : V) (idx : ℕ) (t : Turb S V L) (h0 : t.counter = 0) :
    substeps sol N ctl v N idx t = (held sol ctl (sol.aero t.x v) N idx t.x).map fun y =>
      ⟨0, y, y, sol.aero t.x v, (y, sol.aero t.x v), t.written + 1, t.passed ++ [v]⟩ := by
  obtain ⟨k, rfl⟩ : ∃ k, N = k + 1 := ⟨N - 1, by omega⟩
  have un : substeps sol (k + 1) ctl v (k + 1) idx t =
      (update sol (k + 1) ctl true idx v t).bind fun t' => substeps sol (k + 1) ctl v k (idx + 1) t' := rfl
  have un2 : held sol ctl (sol.aero t.x v) (k + 1) idx t.x = (sol.step t.x (sol.aero t.x v)).bind fun x' =>
      held sol ctl (sol.aero t.x v) k (idx + 1) (if ctl then sol.control idx x' else x') := rfl
  have hf : first sol v { t with counter := t.counter + 1 } =
      { t with counter := t.counter + 1, motion := t.x, load := sol.aero t.x v, passed := t.passed ++ [v] } := by
    unfold first; exact if_pos (by simp [h0])
  rw [un, un2, update, hf, move, if_pos rfl]
  cases sol.step t.x (sol.aero t.x v) with
  | none => rfl
  | some x' =>
    simp only [Option.map_some, Option.bind_some]
    cases k with
    | zero =>
      unfold wrap
      rw [if_pos (by simp [h0])]
      rfl
    | succ k =>
      unfold wrap
      rw [if_neg (by simp [h0]), if_neg (by simp)]
      unfold publish
      rw [if_neg (by simp)]
      rw [substeps_later sol (k + 2) ctl v k (idx + 1) _ (by simp) (by simp; omega)]

/-- A whole run: the structure has the coupled history; velocities are passed, and output is written, once for each step of the flow; the
flow sees the structure as it is; the counter is back at 0.

Partial (C121). Missing: restarts, and the time that the controller is told (`restart_starts_over`, `controller_late`). -/
theorem run_spec_partial (sol : Solver S V L) (N : ℕ) (hN : 1 ≤ N) (ctl : Bool) : ∀ (vs : List V) (idx : ℕ) (t : Turb S V L), t.counter = 0 →
    t.out.1 = t.x → (runSteps sol N ctl vs idx t).map (·.x) = coupled sol N ctl vs idx t.x ∧
    ∀ t', runSteps sol N ctl vs idx t = some t' → t'.counter = 0 ∧ t'.passed = t.passed ++ vs ∧ t'.written = t.written + vs.length ∧
      t'.out.1 = t'.x
  | [], idx, t, h0, ho => by
    refine ⟨rfl, fun t' h => ?_⟩
    cases h
    exact ⟨h0, by simp, by simp, ho⟩
  | v :: vs, idx, t, h0, ho => by
    have un : runSteps sol N ctl (v :: vs) idx t = (substeps sol N ctl v N idx t).bind fun t' => runSteps sol N ctl vs (idx + N) t' := rfl
    rw [un, flow_step sol N hN ctl v idx t h0]
    have un2 : coupled sol N ctl (v :: vs) idx t.x =
      (held sol ctl (sol.aero t.x v) N idx t.x).bind fun y => coupled sol N ctl vs (idx + N) y := rfl
    rw [un2]
    cases held sol ctl (sol.aero t.x v) N idx t.x with
    | none => exact ⟨rfl, fun t' h => by cases h⟩
    | some y =>
      simp only [Option.map_some, Option.bind_some]
      obtain ⟨h1, h2⟩ := run_spec_partial sol N hN ctl vs (idx + N)
        ⟨0, y, y, sol.aero t.x v, (y, sol.aero t.x v), t.written + 1, t.passed ++ [v]⟩ rfl rfl
      refine ⟨h1, fun t' h => ?_⟩
      obtain ⟨a, b, c, d⟩ := h2 t' h
      refine ⟨a, by rw [b]; simp, by rw [c]; simp; omega, d⟩

/-- Before the first step the structure is not moved, whatever the number of substeps: the flow sees it as built, with the loads for the
first velocities. -/
theorem begin_spec (sol : Solver S V L) (N : ℕ) (ctl : Bool) (x0 : S) (l0 : L) (v0 v1 : V) :
    begin_ sol N ctl x0 l0 v0 v1 = some ⟨0, x0, x0, sol.aero x0 v1, (x0, sol.aero x0 v1), 2, [v0, v1]⟩ := by
  have hu : ∀ (v : V) (t : Turb S V L), t.counter = 0 →
      update sol N ctl false 0 v t = some ⟨0, t.x, t.x, sol.aero t.x v, (t.x, sol.aero t.x v), t.written + 1, t.passed ++ [v]⟩ := by
    intro v t h0
    have hf : first sol v { t with counter := t.counter + 1 } =
        { t with counter := t.counter + 1, motion := t.x, load := sol.aero t.x v, passed := t.passed ++ [v] } := by
      unfold first; exact if_pos (by simp [h0])
    rw [update, hf, move, if_neg (by simp), Option.map_some]
    congr 1
    unfold wrap
    by_cases hc : t.counter + 1 = N
    · rw [if_pos hc]; rfl
    · rw [if_neg hc, if_pos rfl]; rfl
  rw [begin_, hu v0 _ rfl, Option.bind_some, hu v1 _ rfl]
  rfl

/-- A structure that counts its steps and logs, at each call of the controller, the time given to it. -/
def clock : Solver (ℕ × List (ℕ × ℕ)) ℚ ℚ := ⟨fun x v => v + x.1, fun x _ => some (x.1 + 1, x.2), fun i x => (x.1, x.2 ++ [(i, x.1)])⟩

/-- Two steps of the flow with three substeps each. -/
example : ((begin_ clock 3 true (0, []) 0 5 7).bind fun t => runSteps clock 3 true [7, 9] 0 t).map
      (fun t => (t.x, t.load, t.written, t.passed)) =
    some ((6, [(0, 1), (1, 2), (2, 3), (3, 4), (4, 5), (5, 6)]), 12, 4, [5, 7, 7, 9]) := by decide +kernel

theorem held_clock (l : ℚ) : ∀ (k i : ℕ) (log : List (ℕ × ℕ)),
    held clock true l k i (i, log) = some (i + k, log ++ (List.range k).map fun j : ℕ => (i + j, i + j + 1))
  | 0, i, log => by simp [held]
  | k + 1, i, log => by
    have un : held clock true l (k + 1) i (i, log) = held clock true l k (i + 1) (i + 1, log ++ [(i, i + 1)]) := rfl
    rw [un, held_clock l k (i + 1), List.range_succ_eq_map]
    simp only [Option.some.injEq, Prod.mk.injEq, List.map_cons, List.map_map, List.append_assoc, List.cons_append, List.nil_append]
    refine ⟨by omega, ?_⟩
    congr 2
    refine List.map_congr_left fun j _ => ?_
    simp only [Function.comp, Prod.mk.injEq]
    omega

theorem coupled_clock (N : ℕ) : ∀ (vs : List ℚ) (i : ℕ) (log : List (ℕ × ℕ)), (∀ p ∈ log, p.2 = p.1 + 1) →
    ∃ log', coupled clock N true vs i (i, log) = some (i + N * vs.length, log') ∧ ∀ p ∈ log', p.2 = p.1 + 1
  | [], i, log, h => ⟨log, by simp [coupled], h⟩
  | v :: vs, i, log, h => by
    have un : coupled clock N true (v :: vs) i (i, log) =
      (held clock true (clock.aero (i, log) v) N i (i, log)).bind fun y => coupled clock N true vs (i + N) y := rfl
    rw [un, held_clock, Option.bind_some]
    obtain ⟨log', h1, h2⟩ := coupled_clock N vs (i + N) (log ++ (List.range N).map fun j : ℕ => (i + j, i + j + 1)) (by
      intro p hp
      rcases List.mem_append.mp hp with hp | hp
      · exact h p hp
      · obtain ⟨j, -, rfl⟩ := List.mem_map.mp hp; rfl)
    refine ⟨log', ?_, h2⟩
    rw [h1]
    simp only [Option.some.injEq, Prod.mk.injEq, and_true, List.length_cons]
    ring

/-- A run of `n` steps of the flow makes `n N` steps of the structure. The controller is called after each of them with the time at
which that step began: it is always told a time one step of the structure behind the state it acts on. -/
theorem controller_late (N : ℕ) (hN : 1 ≤ N) (vs : List ℚ) (v0 v1 : ℚ) : ∃ t,
    ((begin_ clock N true (0, []) 0 v0 v1).bind fun t => runSteps clock N true vs 0 t) = some t ∧ t.x.1 = N * vs.length ∧
    ∀ p ∈ t.x.2, p.2 = p.1 + 1 := by
  rw [begin_spec, Option.bind_some]
  obtain ⟨log, h1, h2⟩ := coupled_clock N vs 0 [] (by simp)
  obtain ⟨h3, -⟩ := run_spec_partial clock N hN true vs 0 (⟨0, (0, []), (0, []), clock.aero (0, []) v1, ((0, []), clock.aero (0, []) v1), 2, [v0, v1]⟩ : Turb _ _ _)
    rfl rfl
  rw [h1] at h3
  obtain ⟨t, ht, hx⟩ := Option.map_eq_some_iff.mp h3
  refine ⟨t, ht, by rw [hx]; simp, by rw [hx]; exact h2⟩

/-- turbine_kynema_ops.H:17-32 with KynemaIface.cpp:665-735: what a run of the flow does with the turbine. Nothing is read from a
checkpoint: the other two modes cannot occur. -/
def session (sol : Solver S V L) (N : ℕ) (ctl restarted : Bool) (x0 : S) (l0 : L) (v0 v1 : V) (vs : List V) : Option (Turb S V L) :=
  match mode restarted with
  | .init => (begin_ sol N ctl x0 l0 v0 v1).bind fun t => runSteps sol N ctl vs 0 t
  | _ => none

/-- False of the code: "a turbine goes on from a checkpoint". When the flow is restarted the turbine starts over as built, at time 0: a run of
`m` steps, stopped and restarted for `n` more, leaves the structure after `n N` steps; without the stop it is after `(m + n) N`. -/
theorem restart_starts_over (N : ℕ) (hN : 1 ≤ N) (vs ws : List ℚ) (hv : vs ≠ []) (v0 v1 : ℚ) : ∃ t u,
    session clock N true true (0, []) 0 v0 v1 ws = some t ∧ session clock N true false (0, []) 0 v0 v1 (vs ++ ws) = some u ∧
    t.x.1 = N * ws.length ∧ u.x.1 = N * (vs.length + ws.length) ∧ t.x.1 ≠ u.x.1 := by
  obtain ⟨t, h1, h2, -⟩ := controller_late N hN ws v0 v1
  obtain ⟨u, h3, h4, -⟩ := controller_late N hN (vs ++ ws) v0 v1
  rw [List.length_append] at h4
  refine ⟨t, u, h1, h3, h2, h4, ?_⟩
  rw [h2, h4]
  have : 0 < vs.length := List.length_pos_iff.mpr hv
  have : 0 < N * vs.length := Nat.mul_pos hN this
  rw [Nat.mul_add]
  omega

/-! ## Inputs -/

/-- Sixty seconds at a speed of `r` revolutions a minute are `r` full turns; a yaw of 180 degrees is half a turn. An input in radians
wins. -/
theorem units (r w : ℝ) (o : Option ℝ) : rotorSpeed none (some r) * 60 = r * (2 * Real.pi) ∧ rotorSpeed (some w) o = w ∧
    yawAngle none (some r) * 180 = r * Real.pi ∧ yawAngle (some w) o = w ∧ rotorSpeed none none = 0 ∧ yawAngle none none = 0 := by
  refine ⟨?_, rfl, ?_, rfl, ?_, ?_⟩
  · simp only [rotorSpeed, Option.getD_some]; ring
  · simp only [yawAngle, Option.getD_some]; ring
  · simp [rotorSpeed]
  · simp [yawAngle]

/-- False of the code: "the diameter is that of the circle the tips run on". The axis of the blade starts at the hub: the diameter comes out
short by the diameter of the hub. -/
theorem diameter_without_hub {K : Type*} [Field K] [LinearOrder K] [IsStrictOrderedRing K] (z : List K) (tip hubRadius : K)
    (h : z.getLast? = some tip) (hr : 0 < hubRadius) : ∃ d, diameter z = some d ∧ d = 2 * (hubRadius + tip) - 2 * hubRadius ∧
    d < 2 * (hubRadius + tip) := by
  refine ⟨2 * tip, by rw [diameter, h]; rfl, by ring, by linarith⟩

example : diameter [(0 : ℚ), 30, 60] = some 120 := by decide +kernel

end AmrWind.Kyn
