import Verif.Sampling.FreeSurface

/-!
# C72: the free surface sampler

Specification: `InCell` says that a place lies between the faces of a cell (low face included).
-/

set_option linter.unusedSectionVars false

namespace AmrWind.FreeSurface

open AmrWind.Vof (Dir fitPlane mixedYoungs Layered layered_normal layered_fit)
open AmrWind.Plane (irange mem_irange)

section
variable {K : Type*} [Field K] [LinearOrder K] [IsStrictOrderedRing K] [FloorRing K]

/-- The place `x` is in cell `i` of the direction, low face included. -/
def InCell (plo dx : K) (i : ℤ) (x : K) : Prop := plo + (i : K) * dx ≤ x ∧ x < plo + ((i : K) + 1) * dx

/-- What the grid of sampling lines must satisfy in one direction: inside the domain, from low to high. -/
structure LineOk (eps : K) (N : ℕ) (s e plo phi : K) : Prop where
  pos : 1 ≤ N
  lo : plo ≤ s
  one : s ≤ phi - eps
  up : 2 ≤ N → s < e ∧ e ≤ phi - eps

theorem spacing_mul {N : ℕ} (h : 2 ≤ N) (s e : K) : spacing N s e * ((N : K) - 1) = e - s := by
  unfold spacing
  rw [Nat.max_eq_left (by omega), Nat.cast_sub (by omega), Nat.cast_one]
  have : (N : K) - 1 ≠ 0 := by
    have : (2 : K) ≤ N := by exact_mod_cast h
    linarith
  field_simp

/-- C72: a cell holds exactly the sampling lines that lie in it. -/
theorem axis_range_spec {eps : K} {N : ℕ} {s e plo phi dx : K} (hl : LineOk eps N s e plo phi) (hdx : 0 < dx)
    (i n : ℤ) :
    ((axisRange eps N s e plo phi dx i).1 ≤ n ∧ n < (axisRange eps N s e plo phi dx i).2) ↔
      (0 ≤ n ∧ n < N) ∧ InCell plo dx i (gridLoc N s e n) := by
  unfold axisRange InCell gridLoc
  simp only
  have elo : plo + ((i : K) + 1 / 2) * dx - 1 / 2 * dx = plo + i * dx := by ring
  have ehi : plo + ((i : K) + 1 / 2) * dx + 1 / 2 * dx = plo + (i + 1) * dx := by ring
  by_cases h1 : N = 1
  · rw [if_pos h1]
    have hne : ¬ |phi - s| < eps := by
      rw [not_lt]
      exact le_trans (by linarith [hl.one]) (le_abs_self _)
    simp only [hne, false_or]
    have hc : (plo + ((i : K) + 1 / 2) * dx - s ≤ 1 / 2 * dx ∧ s - (plo + ((i : K) + 1 / 2) * dx) < 1 / 2 * dx) ↔
        (plo + (i : K) * dx ≤ s ∧ s < plo + ((i : K) + 1) * dx) := by
      constructor
      · rintro ⟨a, b⟩; constructor <;> linarith
      · rintro ⟨a, b⟩; constructor <;> linarith
    simp only [hc]
    subst h1
    by_cases hin : plo + (i : K) * dx ≤ s ∧ s < plo + ((i : K) + 1) * dx
    · rw [if_pos hin]
      constructor
      · rintro ⟨a, b⟩
        have hn : n = 0 := by omega
        subst hn
        exact ⟨⟨le_refl _, by norm_num⟩, by simpa using hin⟩
      · rintro ⟨⟨a, b⟩, -⟩
        exact ⟨a, by exact_mod_cast b⟩
    · rw [if_neg hin]
      constructor
      · rintro ⟨a, b⟩; omega
      · rintro ⟨⟨a, b⟩, h⟩
        have hn : n = 0 := by
          have : n < 1 := by exact_mod_cast b
          omega
        subst hn
        exact absurd (by simpa using h) hin
  · rw [if_neg h1, elo, ehi]
    have hN : 2 ≤ N := by have := hl.pos; omega
    obtain ⟨hse, he⟩ := hl.up hN
    have hsp := spacing_mul hN s e
    have hN' : (2 : K) ≤ N := by exact_mod_cast hN
    have hd : 0 < spacing N s e := by
      by_contra hc
      have := mul_nonpos_of_nonpos_of_nonneg (not_lt.mp hc) (by linarith : (0 : K) ≤ (N : K) - 1)
      linarith
    set d := spacing N s e with hdd
    set f := ⌈(plo + (i : K) * dx - s) / d⌉ with hf
    set a0 := ⌈(plo + ((i : K) + 1) * dx - s) / d⌉ with ha0
    have hfn : f ≤ n ↔ plo + (i : K) * dx ≤ s + d * n := by
      rw [hf, Int.ceil_le, div_le_iff₀ hd]
      constructor <;> intro h <;> linarith
    have han : n < a0 ↔ s + d * n < plo + ((i : K) + 1) * dx := by
      rw [ha0, Int.lt_ceil, lt_div_iff₀ hd]
      constructor <;> intro h <;> linarith
    have hfa : f ≤ a0 := by
      apply Int.ceil_mono
      apply div_le_div_of_nonneg_right _ hd.le
      nlinarith
    have hbig : |s + (a0 : K) * d - phi| < eps → (N : ℤ) ≤ a0 := by
      intro h
      by_contra hc
      have hle : a0 ≤ (N : ℤ) - 1 := by omega
      have hle' : (a0 : K) ≤ (N : K) - 1 := by exact_mod_cast hle
      have h2 := (abs_lt.mp h).1
      nlinarith
    have ha2 : min (N : ℤ) (if |plo + ((i : K) + 1) * dx - phi| < eps ∧ |s + (a0 : K) * d - phi| < eps then a0 + 1
        else a0) = min (N : ℤ) a0 := by
      by_cases hc : |plo + ((i : K) + 1) * dx - phi| < eps ∧ |s + (a0 : K) * d - phi| < eps
      · rw [if_pos hc]
        have := hbig hc.2
        omega
      · rw [if_neg hc]
    rw [ha2]
    rw [← hfn, ← han]
    have hN0 : (0 : ℤ) < N := by exact_mod_cast (by omega : 0 < N)
    generalize (N : ℤ) = M at *
    by_cases hc : M ≤ max (min 0 (min M a0)) f ∨ max (min 0 (min M a0)) f < 0
    · rw [if_pos hc]
      omega
    · rw [if_neg hc]
      omega

/-- A place in the domain is in exactly one cell. -/
theorem one_cell {plo dx x : K} (hdx : 0 < dx) {M : ℕ} (hx : plo ≤ x ∧ x < plo + M * dx) :
    ∃ i : ℤ, (0 ≤ i ∧ i < M ∧ InCell plo dx i x) ∧ ∀ j, InCell plo dx j x → j = i := by
  have key : ∀ j, InCell plo dx j x ↔ ⌊(x - plo) / dx⌋ = j := by
    intro j
    rw [Int.floor_eq_iff, le_div_iff₀ hdx, div_lt_iff₀ hdx]
    unfold InCell
    constructor <;> rintro ⟨a, b⟩ <;> constructor <;> linarith
  refine ⟨⌊(x - plo) / dx⌋, ⟨?_, ?_, (key _).mpr rfl⟩, fun j hj => ((key j).mp hj).symm⟩
  · exact Int.floor_nonneg.mpr (div_nonneg (by linarith) hdx.le)
  · rw [Int.floor_lt, div_lt_iff₀ hdx]
    push_cast
    linarith

/-- The sampling lines of an accepted grid are in the domain. -/
theorem gridLoc_inside {eps : K} {N : ℕ} {s e plo phi : K} (heps : 0 < eps) (hl : LineOk eps N s e plo phi) {n : ℤ}
    (h0 : 0 ≤ n) (h1 : n < N) : plo ≤ gridLoc N s e n ∧ gridLoc N s e n < phi := by
  unfold gridLoc
  by_cases hN : 2 ≤ N
  · obtain ⟨hse, he⟩ := hl.up hN
    have hsp := spacing_mul hN s e
    have hN' : (2 : K) ≤ N := by exact_mod_cast hN
    have hd : 0 < spacing N s e := by
      by_contra hc
      have := mul_nonpos_of_nonpos_of_nonneg (not_lt.mp hc) (by linarith : (0 : K) ≤ (N : K) - 1)
      linarith
    have hn0 : (0 : K) ≤ n := by exact_mod_cast h0
    have hn1 : (n : K) ≤ (N : K) - 1 := by
      have : n ≤ (N : ℤ) - 1 := by omega
      exact_mod_cast this
    have hlo := hl.lo
    constructor
    · nlinarith
    · nlinarith
  · have : N = 1 := by have := hl.pos; omega
    subst this
    have hn : n = 0 := by
      have : n < 1 := by exact_mod_cast h1
      omega
    subst hn
    have := hl.lo
    have := hl.one
    simp only [Int.cast_zero, mul_zero, add_zero]
    constructor <;> linarith

/-- C72: with the plane inside the domain and the grid going up, each sampling line falls in the range of exactly one
cell of the direction, the cell that contains it. -/
theorem each_line_one_cell {eps : K} {N : ℕ} {s e plo phi dx : K} (heps : 0 < eps) (hl : LineOk eps N s e plo phi)
    (hdx : 0 < dx) {M : ℕ} (hphi : phi = plo + M * dx) {n : ℤ} (h0 : 0 ≤ n) (h1 : n < N) :
    ∃ i : ℤ, (0 ≤ i ∧ i < M) ∧ ∀ j, ((axisRange eps N s e plo phi dx j).1 ≤ n ∧ n < (axisRange eps N s e plo phi dx j).2) ↔
      j = i := by
  obtain ⟨i, ⟨hi0, hi1, hi⟩, hu⟩ := one_cell (plo := plo) (x := gridLoc N s e n) hdx (M := M)
    (by have := gridLoc_inside heps hl h0 h1; rwa [hphi] at this)
  refine ⟨i, ⟨hi0, hi1⟩, fun j => ?_⟩
  rw [axis_range_spec hl hdx]
  constructor
  · rintro ⟨-, h⟩; exact hu j h
  · rintro rfl; exact ⟨⟨h0, h1⟩, hi⟩

/-- A disagreement: if the plane is given from high to low (as in the documentation's own example) no cell holds any
line. -/
theorem reversed_no_lines {eps : K} {N : ℕ} {s e plo phi dx : K} (hN : 2 ≤ N) (hes : e < s) (hdx : 0 < dx)
    (hs : s ≤ phi - eps) (i n : ℤ) :
    ¬ ((axisRange eps N s e plo phi dx i).1 ≤ n ∧ n < (axisRange eps N s e plo phi dx i).2) := by
  unfold axisRange
  simp only
  have elo : plo + ((i : K) + 1 / 2) * dx - 1 / 2 * dx = plo + i * dx := by ring
  have ehi : plo + ((i : K) + 1 / 2) * dx + 1 / 2 * dx = plo + (i + 1) * dx := by ring
  rw [if_neg (by omega), elo, ehi]
  have hsp := spacing_mul hN s e
  have hN' : (2 : K) ≤ N := by exact_mod_cast hN
  have hd : spacing N s e < 0 := by
    by_contra hc
    have := mul_nonneg (not_lt.mp hc) (by linarith : (0 : K) ≤ (N : K) - 1)
    linarith
  have hfa : ⌈(plo + ((i : K) + 1) * dx - s) / spacing N s e⌉ ≤ ⌈(plo + (i : K) * dx - s) / spacing N s e⌉ := by
    apply Int.ceil_mono
    apply div_le_div_of_nonpos_of_le hd.le
    nlinarith
  have hneg : |s + (⌈(plo + ((i : K) + 1) * dx - s) / spacing N s e⌉ : K) * spacing N s e - phi| < eps →
      ⌈(plo + ((i : K) + 1) * dx - s) / spacing N s e⌉ ≤ -1 := by
    intro h
    by_contra hc
    have hc' : (0 : ℤ) ≤ ⌈(plo + ((i : K) + 1) * dx - s) / spacing N s e⌉ := by omega
    have hc'' : (0 : K) ≤ ⌈(plo + ((i : K) + 1) * dx - s) / spacing N s e⌉ := by exact_mod_cast hc'
    have := (abs_lt.mp h).1
    nlinarith
  have hM : (0 : ℤ) < N := by exact_mod_cast (by omega : 0 < N)
  generalize hA : ⌈(plo + ((i : K) + 1) * dx - s) / spacing N s e⌉ = a0 at *
  generalize ⌈(plo + (i : K) * dx - s) / spacing N s e⌉ = f at *
  have h1 : ∀ a1, (if |plo + ((i : K) + 1) * dx - phi| < eps ∧ |s + (a0 : K) * spacing N s e - phi| < eps then a0 + 1
      else a0) = a1 → a1 = a0 ∨ (a1 = a0 + 1 ∧ a0 ≤ -1) := by
    intro a1 h
    by_cases hc : |plo + ((i : K) + 1) * dx - phi| < eps ∧ |s + (a0 : K) * spacing N s e - phi| < eps
    · rw [if_pos hc] at h; exact Or.inr ⟨h.symm, hneg hc.2⟩
    · rw [if_neg hc] at h; exact Or.inl h.symm
  generalize hB : (if |plo + ((i : K) + 1) * dx - phi| < eps ∧ |s + (a0 : K) * spacing N s e - phi| < eps then a0 + 1
      else a0) = a1
  have h2 := h1 a1 hB
  generalize (N : ℤ) = M at *
  by_cases hc : M ≤ max (min 0 (min M a1)) f ∨ max (min 0 (min M a1)) f < 0
  · rw [if_pos hc]; omega
  · rw [if_neg hc]; omega

/-- C72: after `check_bounds` the ends of the plane are inside the domain. -/
theorem checkBound_inside {tol plo phi : K} (ht : 0 < tol) (hw : plo + 20 * tol ≤ phi) (s : K) :
    plo + tol ≤ checkBound tol plo phi s ∧ checkBound tol plo phi s ≤ phi - tol := by
  unfold checkBound
  simp only
  by_cases h1 : s < plo + tol
  · rw [if_pos h1]
    by_cases h2 : phi - tol < plo + 10 * tol
    · exact absurd h2 (by linarith)
    · rw [if_neg h2]; constructor <;> linarith
  · rw [if_neg h1]
    by_cases h2 : phi - tol < s
    · rw [if_pos h2]; constructor <;> linarith
    · rw [if_neg h2]; constructor <;> linarith

/-- C72: a plane inside the domain is not changed. -/
theorem checkBound_id {tol plo phi s : K} (h1 : plo + tol ≤ s) (h2 : s ≤ phi - tol) : checkBound tol plo phi s = s := by
  unfold checkBound
  simp only
  rw [if_neg (not_lt.mpr h1), if_neg (not_lt.mpr h2)]

/-- C72: with one instance the height reported for a grid point is the one found for it. -/
theorem one_instance (h : ℕ → ℕ → K) {npts idx : ℕ} (hi : idx < npts) : outEntry h npts 1 idx 0 = some (h 0 idx) := by
  unfold outEntry
  simp [hi]

end

/-- A disagreement: with two instances and two grid points, the second height reported for the first point is the first
height of the second point. -/
theorem instances_scrambled (h : ℕ → ℕ → ℚ) :
    outEntry h 2 2 0 1 = some (h 0 1) ∧ outEntry h 2 2 1 0 = some (h 1 0) := by
  constructor <;> rfl

/-- Five lines over `[1/2, 5/2]` in a domain of three unit cells: lines 0; 1 and 2; 3 and 4. -/
example : (List.range 3).map (fun i => axisRange (1 / 1000) 5 (1 / 2 : ℚ) (5 / 2) 0 3 1 (i : ℕ)) = [(0, 1), (1, 3), (3, 5)] ∧
    LineOk (1 / 1000 : ℚ) 5 (1 / 2) (5 / 2) 0 3 :=
  ⟨by decide +kernel, ⟨by norm_num, by norm_num, by norm_num, fun _ => by norm_num⟩⟩

/-- The same lines from high to low: none. -/
example : (List.range 3).map (fun i => axisRange (1 / 1000) 5 (5 / 2 : ℚ) (1 / 2) 0 3 1 (i : ℕ)) =
    [(5, 5), (3, 1), (1, 0)] := by
  decide +kernel

end AmrWind.FreeSurface
