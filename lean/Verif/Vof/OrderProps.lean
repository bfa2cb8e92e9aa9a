import Verif.Vof.AdvectProps

/-!
# C32 (debris), C34 (order of the sweeps), and examples for the advection theorems
-/

namespace AmrWind.Vof

/-! ## C32: debris -/

section debris
variable {K : Type*} [Field K] [LinearOrder K]

/-- An isolated cell: it holds some fluid and none of its six neighbours reaches the threshold. -/
def Isolated (small : K) (c : Cell → K) (a : Cell) : Prop := 0 < c a ∧ ∀ b ∈ neighbours a, c b < small

theorem neighbours_symm {a b : Cell} (h : b ∈ neighbours a) : a ∈ neighbours b := by
  obtain ⟨i, j, k⟩ := a
  obtain ⟨i', j', k'⟩ := b
  simp only [neighbours, List.mem_cons, Prod.mk.injEq, List.not_mem_nil, or_false] at h ⊢
  rcases h with ⟨rfl, rfl, rfl⟩ | ⟨rfl, rfl, rfl⟩ | ⟨rfl, rfl, rfl⟩ | ⟨rfl, rfl, rfl⟩ | ⟨rfl, rfl, rfl⟩ |
    ⟨rfl, rfl, rfl⟩ <;> simp

theorem neighbours_ne {a b : Cell} (h : b ∈ neighbours a) : b ≠ a := by
  obtain ⟨i, j, k⟩ := a
  rintro rfl
  simp only [neighbours, List.mem_cons, Prod.mk.injEq, List.not_mem_nil, or_false] at h
  omega

theorem removeDebris_of_ne {small : K} {c : Cell → K} {a b : Cell} (h : b ≠ a) :
    removeDebris small c c a b = c b := by
  unfold removeDebris
  split
  · exact Function.update_of_ne h _ _
  · rfl

theorem removeDebris_le {small : K} {c : Cell → K} (a b : Cell) : removeDebris small c c a b ≤ c b := by
  by_cases h : b = a
  · subst h
    unfold removeDebris
    split
    · rename_i h
      rw [Function.update_self]; exact h.1.le
    · exact le_rfl
  · rw [removeDebris_of_ne h]

theorem debrisLoop_le (small : K) (l : List Cell) (c : Cell → K) (b : Cell) : debrisLoop small l c b ≤ c b := by
  induction l generalizing c with
  | nil => exact le_rfl
  | cons a l ih => exact (ih (removeDebris small c c a)).trans (removeDebris_le a b)

/-- A neighbour that falls below the threshold during the loop does so when it is removed, with all its own neighbours
below the threshold. -/
theorem debris_drop {small : K} (hs : 0 < small) (l : List Cell) (c : Cell → K) {a b : Cell} (hb : b ∈ neighbours a)
    (h1 : small ≤ c b) (h2 : debrisLoop small l c b < small) (h3 : 0 < debrisLoop small l c a) :
    debrisLoop small l c a < small := by
  induction l generalizing c with
  | nil => exact absurd h2 (not_lt.mpr h1)
  | cons d l ih =>
    have e : debrisLoop small (d :: l) c = debrisLoop small l (removeDebris small c c d) := rfl
    rw [e] at h2 h3 ⊢
    by_cases hd : small ≤ removeDebris small c c d b
    · exact ih _ hd h2 h3
    · have hdb : b = d := by
        by_contra h
        rw [removeDebris_of_ne h] at hd
        exact hd h1
      subst hdb
      have hiso : 0 < c b ∧ ∀ x ∈ neighbours b, c x < small := by
        by_contra h
        unfold removeDebris at hd
        rw [if_neg h] at hd
        exact hd h1
      have ha := hiso.2 a (neighbours_symm hb)
      refine lt_of_le_of_lt ?_ ha
      exact (debrisLoop_le small l _ a).trans (removeDebris_le b a)

/-- C32 (debris), the part that holds: whatever the order of the cells in the loop, an isolated cell that survives held
less than the threshold. Missing: isolated cells below the threshold may survive (`debris_survives`). -/
theorem debris_removed_partial {small : K} (hs : 0 < small) (l : List Cell) (c : Cell → K) {a : Cell} (ha : a ∈ l)
    (hiso : Isolated small (debrisLoop small l c) a) :
    debrisLoop small l c a < small ∧ debrisLoop small l c a = c a := by
  obtain ⟨hpos, hn⟩ := hiso
  constructor
  swap
  · -- values are old values or zero
    clear hn ha
    induction l generalizing c with
    | nil => rfl
    | cons d l ih =>
      have e : debrisLoop small (d :: l) c = debrisLoop small l (removeDebris small c c d) := rfl
      rw [e] at hpos ⊢
      rw [ih _ hpos]
      by_cases h : a = d
      · subst h
        rw [ih _ hpos] at hpos
        unfold removeDebris at hpos ⊢
        split
        · rename_i h
          rw [if_pos h, Function.update_self] at hpos
          exact absurd hpos (lt_irrefl _)
        · rfl
      · exact removeDebris_of_ne h
  · induction l generalizing c with
    | nil => exact absurd ha List.not_mem_nil
    | cons d l ih =>
      have e : debrisLoop small (d :: l) c = debrisLoop small l (removeDebris small c c d) := rfl
      rw [e] at hpos hn ⊢
      by_cases had : a = d
      · subst had
        have hnr : ¬(0 < c a ∧ ∀ b ∈ neighbours a, c b < small) := by
          intro h
          have h0 : removeDebris small c c a a = 0 := by
            unfold removeDebris; rw [if_pos h, Function.update_self]
          have := debrisLoop_le small l (removeDebris small c c a) a
          rw [h0] at this
          exact absurd hpos (not_lt.mpr this)
        have hca : 0 < c a :=
          lt_of_lt_of_le hpos ((debrisLoop_le small l _ a).trans (removeDebris_le a a))
        push Not at hnr
        obtain ⟨b, hb, hbs⟩ := hnr hca
        apply debris_drop hs l _ hb ?_ (hn b hb) hpos
        rw [removeDebris_of_ne (neighbours_ne hb)]
        exact hbs
      · rcases List.mem_cons.mp ha with h | h
        · exact absurd h had
        · exact ih _ h hpos hn

/-- C32 (debris) is false of the code: the loop works in place, so a cell that is kept because of a neighbour is left
isolated when that neighbour is removed after it. -/
theorem debris_survives : ∃ (l : List Cell) (c : Cell → ℚ), (∀ a, 0 ≤ c a ∧ c a ≤ 1) ∧
    (∀ a, c a ≠ 0 → a ∈ l) ∧ ∃ a ∈ l, Isolated (1 / 10 ^ 6) (debrisLoop (1 / 10 ^ 6) l c) a := by
  refine ⟨[(0, 0, 0), (1, 0, 0)],
    fun a => if a = (0, 0, 0) then 1 / 10 ^ 7 else if a = (1, 0, 0) then 1 / 2 else 0, ?_, ?_, (0, 0, 0), ?_, ?_, ?_⟩
  · intro a
    dsimp only
    split_ifs <;> norm_num
  · intro a h
    dsimp only at h
    split_ifs at h with h1 h2
    · simp [h1]
    · simp [h2]
    · exact absurd rfl h
  · decide
  · decide +kernel
  · decide +kernel

/-- The cleanup reads ghost cells from before the sweep, so it can remove a cell whose neighbour (in the next box) is
half full, and the outcome depends on how the level is cut into boxes. -/
theorem debris_stale : ∃ (old c : Cell → ℚ) (a b : Cell), b ∈ neighbours a ∧ c a = 1 / 2 ∧ c b = 1 / 2 ∧
    debrisBox (1 / 10 ^ 6) old [a] c a = 0 ∧ debrisBox (1 / 10 ^ 6) old [a, b] c a = 1 / 2 :=
  ⟨fun _ => 0, fun a => if a = (0, 0, 0) ∨ a = (1, 0, 0) then 1 / 2 else 0, (0, 0, 0), (1, 0, 0), by decide,
    by decide +kernel, by decide +kernel, by decide +kernel, by decide +kernel⟩

/-- A single isolated cell is removed. -/
example : debrisLoop (1 / 10 ^ 6) [(0, 0, 0), (1, 0, 0)]
    (fun a : Cell => if a = (0, 0, 0) then (1 / 2 : ℚ) else 0) (0, 0, 0) = 0 := by decide +kernel

end debris

/-! ## C34 -/

theorem sweepAt_eq (n : ℕ) : sweepAt n = n % 3 + 1 := by
  induction n with
  | zero => rfl
  | succ n ih =>
    rw [sweepAt, ih, nextSweep]
    split <;> omega

theorem sweepDir_z {s k : ℕ} : sweepDir s k = .z ↔ (s + k) % 3 = 0 := by
  unfold sweepDir
  split_ifs with h1 h2 <;> simp [h1]

theorem sweepDir_y {s k : ℕ} : sweepDir s k = .y ↔ (s + k) % 3 = 1 := by
  unfold sweepDir
  split_ifs with h1 h2
  · simp [h1]
  · simp [h2]
  · simp [h2]

theorem sweepDir_x {s k : ℕ} : sweepDir s k = .x ↔ (s + k) % 3 = 2 := by
  unfold sweepDir
  split_ifs with h1 h2
  · simp [h1]
  · simp [h2]
  · simp; omega

/-- C34. In every step each direction is swept exactly once. -/
theorem each_direction_once (n : ℕ) (d : Dir) : ∃! k, k < 3 ∧ sweepDir (sweepAt n) k = d := by
  rw [sweepAt_eq]
  have hn : n % 3 = 0 ∨ n % 3 = 1 ∨ n % 3 = 2 := by omega
  cases d
  · refine ⟨(4 - n % 3) % 3, ⟨by omega, sweepDir_x.mpr (by omega)⟩, ?_⟩
    rintro k ⟨hk, h⟩
    have := sweepDir_x.mp h
    omega
  · refine ⟨(3 - n % 3) % 3, ⟨by omega, sweepDir_y.mpr (by omega)⟩, ?_⟩
    rintro k ⟨hk, h⟩
    have := sweepDir_y.mp h
    omega
  · refine ⟨2 - n % 3, ⟨by omega, sweepDir_z.mpr (by omega)⟩, ?_⟩
    rintro k ⟨hk, h⟩
    have := sweepDir_z.mp h
    omega

/-- C34. The order rotates: the next step begins with the direction that came second, and ends with the one that came
first. -/
theorem order_rotates (n : ℕ) :
    sweepDir (sweepAt (n + 1)) 0 = sweepDir (sweepAt n) 1 ∧ sweepDir (sweepAt (n + 1)) 1 = sweepDir (sweepAt n) 2 ∧
    sweepDir (sweepAt (n + 1)) 2 = sweepDir (sweepAt n) 0 := by
  have key : ∀ s s' k k' : ℕ, (s + k) % 3 = (s' + k') % 3 → sweepDir s k = sweepDir s' k' := by
    intro s s' k k' h
    unfold sweepDir
    rw [h]
  rw [sweepAt_eq, sweepAt_eq]
  exact ⟨key _ _ _ _ (by omega), key _ _ _ _ (by omega), key _ _ _ _ (by omega)⟩

/-- C34. Two steps of a run use the same order exactly if their numbers differ by a multiple of three: there are three
orders and each is used every third step. -/
theorem order_every_third (m n : ℕ) :
    (∀ k < 3, sweepDir (sweepAt m) k = sweepDir (sweepAt n) k) ↔ m % 3 = n % 3 := by
  constructor
  · intro h
    have h0 := h 0 (by norm_num)
    have hz := @sweepDir_z (sweepAt m) 0
    have hy := @sweepDir_y (sweepAt m) 0
    have hx := @sweepDir_x (sweepAt m) 0
    rw [h0, sweepDir_z] at hz
    rw [h0, sweepDir_y] at hy
    rw [h0, sweepDir_x] at hx
    rw [sweepAt_eq, sweepAt_eq] at hz hy hx
    omega
  · intro h k _
    rw [sweepAt_eq, sweepAt_eq, h]

/-- The first step sweeps y, then x, then z. -/
example : sweepDir (sweepAt 0) 0 = .y ∧ sweepDir (sweepAt 0) 1 = .x ∧ sweepDir (sweepAt 0) 2 = .z := by decide

/-- The component number of a direction. -/
def Dir.comp : Dir → ℤ
  | .x => 0
  | .y => 1
  | .z => 2

/-- C34. The fluxes averaged down between levels are those of the direction being swept. -/
theorem average_direction (s k : ℕ) : averageDir s k = (sweepDir s k).comp := by
  unfold averageDir sweepDir
  rw [Int.tmod_eq_emod_of_nonneg (by positivity)]
  have h : (s + k) % 3 = 0 ∨ (s + k) % 3 = 1 ∨ (s + k) % 3 = 2 := by omega
  rcases h with h | h | h
  · rw [if_pos h]; simp only [Dir.comp]; omega
  · rw [if_neg (by omega), if_pos h]; simp only [Dir.comp]; omega
  · rw [if_neg (by omega), if_neg (by omega)]; simp only [Dir.comp]; omega

/-- The counter is a member of the advection operator, starts at zero and is not in the checkpoint: a run restarted
after `n` steps begins again with the first order, and continues the sequence only if `n` is a multiple of three. -/
theorem restart_order (n : ℕ) : (∀ j, sweepAt j = sweepAt (n + j)) ↔ 3 ∣ n := by
  constructor
  · intro h
    have := h 0
    rw [sweepAt_eq, sweepAt_eq] at this
    omega
  · intro h j
    rw [sweepAt_eq, sweepAt_eq]
    omega

/-! ## Examples for the advection theorems -/

/-- A domain of 2 × 1 × 1 cells, periodic in x, with walls in y and z. -/
def exD : Domain where
  lo := fun _ => 0
  n := fun d => match d with | .x => 2 | _ => 1
  wallLo := fun d => match d with | .x => false | _ => true
  wallHi := fun d => match d with | .x => false | _ => true

/-- Uniform flow along x with Courant number 1/2. -/
noncomputable def exF : Flow where
  dt := 1 / 2
  dx := fun _ => 1
  u := fun d _ => match d with | .x => 1 | _ => 0

/-- Alternating full and empty cells; after the x sweep all cells are half full. -/
noncomputable def exC : ℕ → Cell → ℝ
  | 0, (i, _, _) => if i % 2 = 0 then 1 else 0
  | _ + 1, _ => 1 / 2

theorem exC_mem (k : ℕ) (a : Cell) : 0 ≤ exC k a ∧ exC k a ≤ 1 := by
  obtain ⟨i, j, l⟩ := a
  cases k with
  | zero => simp only [exC]; split <;> norm_num
  | succ k => simp only [exC]; norm_num

theorem exWall (d : Dir) (f : Cell) (h : exD.WallFace d f) : exF.u d f = 0 := by
  cases d
  · simp [Domain.WallFace, exD] at h
  · rfl
  · rfl

/-- The fields above are one step of the scheme, with the order x, z, y. -/
theorem exStep : IsStep ⟨(1 / 10) ^ 3, 0⟩ exD exF 2 exC := by
  intro k hk a ha
  have still : ∀ (d : Dir) (c : Cell → ℝ), (∀ a, 0 ≤ c a ∧ c a ≤ 1) → d ≠ .x → ∀ g : Cell → ℝ,
      sweepRaw ⟨(1 / 10) ^ 3, 0⟩ exD d exF.dt (exF.dx d) g (exF.u d) c a = some (c a) := by
    intro d c hc hd g
    obtain ⟨v, l, r, rL, lR, hv, -, -, -, -, -, eq⟩ := raw_eq (e := 1 / 10) (thr := 0) (dt := exF.dt) (dx := exF.dx d)
      (by norm_num) (by norm_num) exD d g (exF.u d) c hc (exWall d) a
    rw [hv, eq]
    congr 1
    have hz : ∀ f, exF.u d f = 0 := by
      intro f
      cases d
      · exact absurd rfl hd
      · rfl
      · rfl
    simp only [hz]
    norm_num
  interval_cases k
  · have hd : sweepDir 2 0 = .x := by decide
    rw [hd]
    refine ⟨1 / 2, ?_, ?_⟩
    swap
    · show exC (0 + 1) a = clip (1 / 2)
      unfold clip
      simp only [exC]
      norm_num
    obtain ⟨i, j, l⟩ := a
    have hx := ha .x
    simp only [Dir.idx, exD, Domain.hi] at hx
    have face : ∀ (i j l : ℤ), faceVof ⟨(1 / 10) ^ 3, 0⟩ exD .x (exF.dt / exF.dx .x) (exF.u .x) (exC 0) (i, j, l) =
        some (if (i - 1) % 2 = 0 then 1 else 0) := by
      intro i j l
      unfold faceVof
      have hE : ∀ i j l : ℤ, eulerianImplicit ⟨(1 / 10) ^ 3, 0⟩ .x (1 / 2) (1 / 2) (exC 0) (i, j, l) =
          some (0, if i % 2 = 0 then 1 else 0) := by
        intro i j l
        unfold eulerianImplicit
        by_cases h : i % 2 = 0
        · have : exC 0 (i, j, l) = 1 := by simp only [exC]; rw [if_pos h]
          rw [this, if_pos h]
          norm_num
        · have : exC 0 (i, j, l) = 0 := by simp only [exC]; rw [if_neg h]
          rw [this, if_neg h]
          norm_num
      have hu : ∀ f, exF.u .x f * (exF.dt / exF.dx .x) = 1 / 2 := by
        intro f; simp [exF]
      simp only [hu, Dir.move, hE, exD, Bool.false_and, Bool.or_self, Bool.false_eq_true, if_false]
      congr 1
      rw [add_zero, ← sub_eq_add_neg]
    unfold sweepRaw
    rw [face]
    simp only [Dir.move, face]
    congr 1
    simp only [exF, exC]
    have e1 : i + 1 - 1 = i := by ring
    rw [e1]
    by_cases h : i % 2 = 0
    · rw [if_pos h, if_neg (by omega)]; norm_num
    · rw [if_neg h, if_pos (by omega)]; norm_num
  · have hd : sweepDir 2 1 = .z := by decide
    rw [hd]
    refine ⟨exC 1 a, still .z (exC 1) (exC_mem 1) (by decide) _, ?_⟩
    unfold clip
    simp only [exC]
    norm_num
  · have hd : sweepDir 2 2 = .y := by decide
    rw [hd]
    refine ⟨exC 2 a, still .y (exC 2) (exC_mem 2) (by decide) _, ?_⟩
    unfold clip
    simp only [exC]
    norm_num

theorem exDiv (a : Cell) (_ : exD.Mem a) : exF.div a = 0 := by
  simp [Flow.div, exF]

theorem exClosed (k : ℕ) : exD.Closed (sweepDir 2 k) (exF.u (sweepDir 2 k)) (exC k) := by
  by_cases hx : sweepDir 2 k = .x
  · rw [hx]
    right
    refine ⟨rfl, rfl, ?_, ?_⟩
    · intro a
      simp [exF]
    · rintro ⟨i, j, l⟩
      have h2 : ((exD.n .x : ℕ) : ℤ) = 2 := rfl
      simp only [Dir.move, h2]
      cases k with
      | zero => simp only [exC]; rw [Int.add_emod_right]
      | succ k => rfl
  · left
    cases h : sweepDir 2 k with
    | x => exact absurd h hx
    | y => exact ⟨rfl, rfl⟩
    | z => exact ⟨rfl, rfl⟩

/-- The Courant conditions hold. -/
theorem exOut (d : Dir) (a : Cell) (_ : exD.Mem a) : exF.outflow d a ≤ 1 := by
  unfold Flow.outflow Flow.cour
  cases d <;> simp [exF] <;> norm_num

theorem exIn (a : Cell) (_ : exD.Mem a) : exF.inflow .x a + exF.inflow .y a + exF.inflow .z a ≤ 1 / 2 := by
  unfold Flow.inflow Flow.cour
  simp [exF]

/-- The hypotheses of `step_no_clip` and `volume_drift` hold for the example; the total is 1 before and after. -/
example : |exD.total (exC 3) - exD.total (exC 0)| ≤ (2 * 1 * 1 : ℕ) * (3 * (5 * (1 / 10) + 0)) :=
  volume_drift (by norm_num) (by norm_num) le_rfl exStep (fun k _ => exC_mem k) (fun k _ => exClosed k) exDiv exWall
    exOut exIn

example : exD.total (exC 3) = exD.total (exC 0) := by
  apply volume_conserved exStep (fun k _ => exClosed k) exDiv
  intro k hk a ha v hv
  obtain ⟨v', hv', hc⟩ := exStep k hk a ha
  have : v = v' := by
    have := hv.symm.trans hv'
    injection this
  subst this
  -- the transported value is one half everywhere
  have h2 : exC (k + 1) a = 1 / 2 := rfl
  rw [h2] at hc
  unfold clip at hc
  constructor
  · by_contra h
    push Not at h
    rw [min_eq_right (by linarith), max_eq_left h.le] at hc
    norm_num at hc
  · by_contra h
    push Not at h
    rw [min_eq_left h.le] at hc
    norm_num at hc

example : exD.total (exC 0) = 1 ∧ exC 0 (0, 0, 0) ≠ exC 3 (0, 0, 0) := by
  refine ⟨?_, by norm_num [exC]⟩
  simp only [Domain.total, exD, exC, Finset.sum_range_succ, Finset.sum_range_zero]
  norm_num

/-- A history: the three sweeps, then the same field for ever (a cleanup with nothing to do). -/
example : History ⟨(1 / 10) ^ 3, 0⟩ exD exC := by
  intro n
  by_cases h : n < 3
  · exact Or.inl ⟨_, _, _, _, _, exStep n h⟩
  · right
    refine ⟨[], fun a _ => ?_⟩
    obtain ⟨m, rfl⟩ : ∃ m, n = m + 1 := ⟨n - 1, by omega⟩
    rfl

end AmrWind.Vof
