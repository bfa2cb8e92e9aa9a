/-
C95: which points the overset masks leave to the solver.
-/
import Mathlib.Tactic.Linarith
import Mathlib.Tactic.Ring
import Mathlib.Tactic.NormNum
import Verif.Plane.Lemmas
import Verif.Overset.Model

namespace AmrWind.Overset

open Plane (irange)

set_option linter.unusedSectionVars false

/-- Two points whose indices differ by at most `n`. -/
def Near (n : ℤ) (c d : Cell) : Prop := |d.1 - c.1| ≤ n ∧ |d.2.1 - c.2.1| ≤ n ∧ |d.2.2 - c.2.2| ≤ n

/-- The eight cells that meet at the node `c`. -/
def Touches (c d : Cell) : Prop := (d.1 = c.1 - 1 ∨ d.1 = c.1) ∧ (d.2.1 = c.2.1 - 1 ∨ d.2.1 = c.2.1) ∧ (d.2.2 = c.2.2 - 1 ∨ d.2.2 = c.2.2)

theorem mem_around (lo hi : ℤ) (c d : Cell) : d ∈ around lo hi c ↔ (c.1 + lo ≤ d.1 ∧ d.1 ≤ c.1 + hi) ∧
    (c.2.1 + lo ≤ d.2.1 ∧ d.2.1 ≤ c.2.1 + hi) ∧ c.2.2 + lo ≤ d.2.2 ∧ d.2.2 ≤ c.2.2 + hi := by
  obtain ⟨i, j, k⟩ := d
  unfold around
  simp only [List.mem_flatMap, List.mem_map, Plane.mem_irange, Prod.mk.injEq]
  constructor
  · rintro ⟨a, ha, b, hb, e, he, rfl, rfl, rfl⟩; exact ⟨ha, hb, he⟩
  · rintro ⟨ha, hb, he⟩; exact ⟨i, ha, j, hb, k, he, rfl, rfl, rfl⟩

theorem around_near (n : ℤ) (c d : Cell) : d ∈ around (-n) n c ↔ Near n c d := by
  rw [mem_around]; unfold Near
  simp only [abs_le]
  constructor
  · rintro ⟨⟨h1, h2⟩, ⟨h3, h4⟩, h5, h6⟩; refine ⟨⟨?_, ?_⟩, ⟨?_, ?_⟩, ?_, ?_⟩ <;> omega
  · rintro ⟨⟨h1, h2⟩, ⟨h3, h4⟩, h5, h6⟩; refine ⟨⟨?_, ?_⟩, ⟨?_, ?_⟩, ?_, ?_⟩ <;> omega

theorem around_node (c d : Cell) : d ∈ around (-1) 0 c ↔ Touches c d := by
  rw [mem_around]; unfold Touches
  constructor
  · rintro ⟨⟨h1, h2⟩, ⟨h3, h4⟩, h5, h6⟩; refine ⟨?_, ?_, ?_⟩ <;> omega
  · rintro ⟨h1, h2, h3⟩; refine ⟨⟨?_, ?_⟩, ⟨?_, ?_⟩, ?_, ?_⟩ <;> omega

theorem foldl_flag {α : Type*} (p : α → Prop) [DecidablePred p] (l : List α) (b : Bool) :
    l.foldl (fun b d => if p d then true else b) b = true ↔ b = true ∨ ∃ d ∈ l, p d := by
  induction l generalizing b with
  | nil => simp
  | cons x xs ih =>
    rw [List.foldl_cons, ih]
    by_cases h : p x
    · simp [h]
    · simp [h]

theorem foldl_or {α : Type*} (p : α → Bool) (l : List α) (b : Bool) :
    l.foldl (fun b d => b || p d) b = true ↔ b = true ∨ ∃ d ∈ l, p d = true := by
  induction l generalizing b with
  | nil => simp
  | cons x xs ih =>
    rw [List.foldl_cons, ih]
    simp [or_assoc]

section field
variable {K : Type*} [Field K] [LinearOrder K] [IsStrictOrderedRing K]

theorem foldl_max_spec (l : List K) (a : K) : (∀ x ∈ l, x ≤ l.foldl max a) ∧ a ≤ l.foldl max a ∧
    (l.foldl max a = a ∨ l.foldl max a ∈ l) := by
  induction l generalizing a with
  | nil => simp
  | cons x xs ih =>
    obtain ⟨h1, h2, h3⟩ := ih (max a x)
    rw [List.foldl_cons]
    refine ⟨?_, le_trans (le_max_left a x) h2, ?_⟩
    · intro y hy
      rcases List.mem_cons.1 hy with rfl | hy
      · exact le_trans (le_max_right a y) h2
      · exact h1 y hy
    · rcases h3 with h3 | h3
      · rw [h3]
        rcases max_choice a x with h | h
        · left; exact h
        · right; rw [h]; exact List.mem_cons_self
      · right; exact List.mem_cons_of_mem _ h3

theorem foldl_min_spec (l : List K) (a : K) : (∀ x ∈ l, l.foldl min a ≤ x) ∧ l.foldl min a ≤ a ∧
    (l.foldl min a = a ∨ l.foldl min a ∈ l) := by
  induction l generalizing a with
  | nil => simp
  | cons x xs ih =>
    obtain ⟨h1, h2, h3⟩ := ih (min a x)
    rw [List.foldl_cons]
    refine ⟨?_, le_trans h2 (min_le_left a x), ?_⟩
    · intro y hy
      rcases List.mem_cons.1 hy with rfl | hy
      · exact le_trans h2 (min_le_right a y)
      · exact h1 y hy
    · rcases h3 with h3 | h3
      · rw [h3]
        rcases min_choice a x with h | h
        · left; exact h
        · right; rw [h]; exact List.mem_cons_self
      · right; exact List.mem_cons_of_mem _ h3

/-- The free surface passes within `n` cells of `c`: a cell there is a mixture, or two differ. -/
def Interface (n : ℤ) (tol : K) (vof : Cell → K) (c : Cell) : Prop :=
  (∃ d, Near n c d ∧ tol < vof d ∧ vof d < 1 - tol) ∨ ∃ d e, Near n c d ∧ Near n c e ∧ tol < vof d - vof e

/-- C95: the band test finds exactly the cells with the free surface among their neighbours. -/
theorem interface_band_iff (vof : Cell → K) (n : ℤ) (tol : K) (c : Cell) (hn : 0 ≤ n) (h : ∀ d, 0 ≤ vof d ∧ vof d ≤ 1) :
    interfaceBand vof n tol c = true ↔ Interface n tol vof c := by
  have hc : c ∈ around (-n) n c := by
    rw [around_near]; unfold Near; simp [hn]
  obtain ⟨a1, a2, a3⟩ := foldl_max_spec ((around (-n) n c).map vof) 0
  obtain ⟨b1, b2, b3⟩ := foldl_min_spec ((around (-n) n c).map vof) 1
  unfold interfaceBand Interface
  dsimp only
  generalize hM : ((around (-n) n c).map vof).foldl max 0 = M at *
  generalize hm : ((around (-n) n c).map vof).foldl min 1 = m at *
  have hMm : m ≤ M := le_trans (b1 _ (List.mem_map_of_mem hc)) (a1 _ (List.mem_map_of_mem hc))
  rw [abs_of_nonneg (sub_nonneg.2 hMm)]
  have hMx : ∃ d, Near n c d ∧ vof d = M := by
    rcases a3 with a3 | a3
    · refine ⟨c, (around_near n c c).1 hc, le_antisymm (a1 _ (List.mem_map_of_mem hc)) ?_⟩
      rw [a3]; exact (h c).1
    · obtain ⟨d, hd, e⟩ := List.mem_map.1 a3
      exact ⟨d, (around_near n c d).1 hd, e⟩
  have hmn : ∃ d, Near n c d ∧ vof d = m := by
    rcases b3 with b3 | b3
    · refine ⟨c, (around_near n c c).1 hc, le_antisymm ?_ (b1 _ (List.mem_map_of_mem hc))⟩
      rw [b3]; exact (h c).2
    · obtain ⟨d, hd, e⟩ := List.mem_map.1 b3
      exact ⟨d, (around_near n c d).1 hd, e⟩
  rw [Bool.or_eq_true, decide_eq_true_iff, List.any_eq_true]
  constructor
  · rintro (g | ⟨v, hv, g⟩)
    · right
      obtain ⟨d, hd, ed⟩ := hMx
      obtain ⟨e, he, ee⟩ := hmn
      exact ⟨d, e, hd, he, by rw [ed, ee]; exact g⟩
    · left
      obtain ⟨d, hd, rfl⟩ := List.mem_map.1 hv
      rw [Bool.and_eq_true, decide_eq_true_iff, decide_eq_true_iff] at g
      exact ⟨d, (around_near n c d).1 hd, g.2, g.1⟩
  · rintro (⟨d, hd, g1, g2⟩ | ⟨d, e, hd, he, g⟩)
    · right
      refine ⟨vof d, List.mem_map_of_mem ((around_near n c d).2 hd), ?_⟩
      rw [Bool.and_eq_true, decide_eq_true_iff, decide_eq_true_iff]
      exact ⟨g2, g1⟩
    · left
      have t1 := a1 _ (List.mem_map_of_mem (f := vof) ((around_near n c d).2 hd))
      have t2 := b1 _ (List.mem_map_of_mem (f := vof) ((around_near n c e).2 he))
      linarith

theorem near_solid_iff (ib : Cell → ℤ) (c : Cell) : nearSolid ib c = true ↔ ∃ d, Near 1 c d ∧ ib d = 0 := by
  unfold nearSolid
  rw [foldl_flag (fun d => ib d = 0)]
  simp only [Bool.false_eq_true, false_or, around_near]

theorem near_boundary_iff (ib : Cell → ℤ) (c : Cell) : nearBoundary ib c = true ↔ ∃ d, Near 1 c d ∧ ib d = 1 := by
  unfold nearBoundary
  rw [foldl_flag (fun d => ib d = 1)]
  simp only [Bool.false_eq_true, false_or, around_near]

/-- The blanking marks a point as solved here (1), a hole (0) or received from the other solver (-1). -/
def Blank (ib : Cell → ℤ) : Prop := ∀ c, ib c = 1 ∨ ib c = 0 ∨ ib c = -1

/-- C95: the mask used outside the projections is 1 at the points solved here and 0 elsewhere. -/
theorem plain_mask (ib : Cell → ℤ) (h : Blank ib) (c : Cell) : (iblankToMask ib c = 1 ↔ ib c = 1) ∧ (iblankToMask ib c = 0 ↔ ib c ≠ 1) := by
  unfold iblankToMask
  rcases h c with h | h | h <;> rw [h] <;> decide

/-- C95: the nodes at which the pressure is solved for: those owned, and received ones next to an owned node and away from holes where
the free surface passes one of their eight cells or a neighbour of these. -/
theorem node_mask_iff (ib : Cell → ℤ) (vof : Cell → K) (tol : K) (hb : Blank ib) (hv : ∀ d, 0 ≤ vof d ∧ vof d ≤ 1) (c : Cell) :
    (nodeMask ib vof tol c = 1 ↔ ib c = 1 ∨ ib c = -1 ∧ (∃ d, Near 1 c d ∧ ib d = 1) ∧ (∀ d, Near 1 c d → ib d ≠ 0) ∧
      ∃ d, Touches c d ∧ Interface 1 tol vof d) ∧ (nodeMask ib vof tol c = 1 ∨ nodeMask ib vof tol c = 0) := by
  have hi : nearInterfaceNode vof tol c = true ↔ ∃ d, Touches c d ∧ Interface 1 tol vof d := by
    unfold nearInterfaceNode
    rw [foldl_or]
    simp only [Bool.false_eq_true, false_or, around_node]
    exact exists_congr fun d => and_congr_right fun _ => interface_band_iff vof 1 tol d (by norm_num) hv
  have key : (nearBoundary ib c && nearInterfaceNode vof tol c && !nearSolid ib c) = true ↔
      (∃ d, Near 1 c d ∧ ib d = 1) ∧ (∀ d, Near 1 c d → ib d ≠ 0) ∧ ∃ d, Touches c d ∧ Interface 1 tol vof d := by
    rw [Bool.and_eq_true, Bool.and_eq_true, near_boundary_iff, hi, Bool.not_eq_true', ← Bool.not_eq_true, near_solid_iff]
    push Not
    tauto
  rw [← key]
  unfold nodeMask
  rcases hb c with h | h | h
  · simp [h]
  · simp [h]
  · simp only [h]
    split_ifs with g
    · simp [g.2]
    · have := fun w => g ⟨trivial, w⟩
      constructor
      · constructor
        · intro e; exfalso; revert e; decide
        · rintro (e | ⟨-, e⟩)
          · exfalso; revert e; decide
          · exact absurd e this
      · right; decide

/-- C95: the cells in which the face velocities are corrected, in the same way. -/
theorem mac_mask_iff (ib : Cell → ℤ) (vof : Cell → K) (tol : K) (hb : Blank ib) (hv : ∀ d, 0 ≤ vof d ∧ vof d ≤ 1) (c : Cell) :
    (macMask ib vof tol c = 1 ↔ ib c = 1 ∨ ib c = -1 ∧ (∃ d, Near 1 c d ∧ ib d = 1) ∧ (∀ d, Near 1 c d → ib d ≠ 0) ∧
      Interface 1 tol vof c) ∧ (macMask ib vof tol c = 1 ∨ macMask ib vof tol c = 0) := by
  have key : (nearBoundary ib c && interfaceBand vof 1 tol c && !nearSolid ib c) = true ↔
      (∃ d, Near 1 c d ∧ ib d = 1) ∧ (∀ d, Near 1 c d → ib d ≠ 0) ∧ Interface 1 tol vof c := by
    rw [Bool.and_eq_true, Bool.and_eq_true, near_boundary_iff, interface_band_iff vof 1 tol c (by norm_num) hv, Bool.not_eq_true',
      ← Bool.not_eq_true, near_solid_iff]
    push Not
    tauto
  rw [← key]
  unfold macMask
  rcases hb c with h | h | h
  · simp [h]
  · simp [h]
  · simp only [h]
    split_ifs with g
    · simp [g.2]
    · have := fun w => g ⟨trivial, w⟩
      constructor
      · constructor
        · intro e; exfalso; revert e; decide
        · rintro (e | ⟨-, e⟩)
          · exfalso; revert e; decide
          · exact absurd e this
      · right; decide

/-- C95: after the projection of the face velocities the mask is again the plain one, with and without a free surface. -/
theorem mask_restored (vof : Option (Cell → K)) (ib : Cell → ℤ) (tol : K) :
    revertMac vof ib (prepareMac vof ib tol (iblankToMask ib)) = iblankToMask ib := by
  cases vof <;> rfl

/-- C95: without a free surface the projection sees the plain mask; with one, the mask above. -/
theorem mask_in_projection (ib : Cell → ℤ) (tol : K) (v : Cell → K) :
    prepareMac (K := K) none ib tol (iblankToMask ib) = iblankToMask ib ∧ prepareMac (some v) ib tol (iblankToMask ib) = macMask ib v tol :=
  ⟨rfl, rfl⟩

end field

/-- C95: a hole is never solved for, whatever the volume fraction. -/
theorem hole_masked {K : Type*} [Field K] [LinearOrder K] [IsStrictOrderedRing K] (ib : Cell → ℤ) (vof : Cell → K) (tol : K) (c : Cell) (h : ib c = 0) :
    nodeMask ib vof tol c = 0 ∧ macMask ib vof tol c = 0 ∧ iblankToMask ib c = 0 := by
  unfold nodeMask macMask iblankToMask
  simp [h]

/-- A received region above an owned one, water below `z = 0`. -/
def demoIb : Cell → ℤ := fun c => if c.1 < 0 then 1 else -1
@[inherit_doc demoIb]
def demoVof : Cell → ℚ := fun c => if c.2.2 < 0 then 1 else 0

example : Blank demoIb ∧ (∀ d, 0 ≤ demoVof d ∧ demoVof d ≤ 1) := by
  constructor
  · intro c; unfold demoIb; split_ifs <;> simp
  · intro c; unfold demoVof; split_ifs <;> norm_num

/-- The received node at the surface next to the owned region is solved for, one further away is not, nor is one far above. -/
example : nodeMask demoIb demoVof (1 / 10000) (0, 0, 0) = 1 ∧ nodeMask demoIb demoVof (1 / 10000) (1, 0, 0) = 0 ∧
    nodeMask demoIb demoVof (1 / 10000) (0, 0, 3) = 0 ∧ nodeMask demoIb demoVof (1 / 10000) (-1, 0, 3) = 1 := by decide +kernel

end AmrWind.Overset
