import Verif.Waves.StokesAlgebra

/-!
# The coefficients of the code are the closed forms in `coth kd`

Each lemma takes one coefficient of stokes_waves_K.H:120-245, times the hyperbolic function of the depth it meets on
the surface, to the form `StokesAlgebra` is about.
-/

set_option linter.unusedVariables false
set_option linter.unusedSimpArgs false

namespace AmrWind.Waves

theorem cl_side {r S : ℝ} (hr : 1 < r) (hS : S = (r ^ 2 - 1) / (r ^ 2 + 1)) : r ^ 2 - 1 ≠ 0 ∧ r ^ 2 + 1 ≠ 0 ∧
    5 * r ^ 2 + 1 ≠ 0 ∧ 5 * r ^ 2 + 3 ≠ 0 ∧ 1 - S = 2 / (r ^ 2 + 1) ∧ 3 + 2 * S = (5 * r ^ 2 + 1) / (r ^ 2 + 1) ∧
    4 + S = (5 * r ^ 2 + 3) / (r ^ 2 + 1) := by
  have hp : r ^ 2 + 1 ≠ 0 := by positivity
  refine ⟨by nlinarith, hp, by positivity, by positivity, ?_, ?_, ?_⟩
  · rw [hS]; field_simp; ring
  · rw [hS]; field_simp; ring
  · rw [hS]; field_simp; ring

theorem cl_b22 {r S s : ℝ} (hr : 1 < r) (hs : s ≠ 0) (hS : S = (r ^ 2 - 1) / (r ^ 2 + 1)) : r * (1 + 2 * S) / (2 *
      (1 - S)) = (closed r).b22 := by
  obtain ⟨hm, hp, h5, h6, hC, h3, h4⟩ := cl_side hr hS
  simp only [hC, h3, h4, closed]
  rw [hS]
  field_simp
  ring

theorem cl_b31 {r S s : ℝ} (hr : 1 < r) (hs : s ≠ 0) (hS : S = (r ^ 2 - 1) / (r ^ 2 + 1)) : -3 * (1 + 3 * S + 3 * S
      ^ 2 + 2 * S ^ 3) / (8 * (1 - S) ^ 3) = (closed r).b31 := by
  obtain ⟨hm, hp, h5, h6, hC, h3, h4⟩ := cl_side hr hS
  simp only [hC, h3, h4, closed]
  rw [hS]
  field_simp
  ring

theorem cl_b42 {r S s : ℝ} (hr : 1 < r) (hs : s ≠ 0) (hS : S = (r ^ 2 - 1) / (r ^ 2 + 1)) : r * (6 - 26 * S - 182 *
      S ^ 2 - 204 * S ^ 3 - 25 * S ^ 4 + 26 * S ^ 5) / (6 * (3 + 2 * S) * (1 - S) ^ 4) = (closed r).b42 := by
  obtain ⟨hm, hp, h5, h6, hC, h3, h4⟩ := cl_side hr hS
  simp only [hC, h3, h4, closed]
  rw [hS]
  field_simp
  ring

theorem cl_b44 {r S s : ℝ} (hr : 1 < r) (hs : s ≠ 0) (hS : S = (r ^ 2 - 1) / (r ^ 2 + 1)) : r * (24 + 92 * S + 122 *
      S ^ 2 + 66 * S ^ 3 + 67 * S ^ 4 + 34 * S ^ 5) / (24 * (3 + 2 * S) * (1 - S) ^ 4) = (closed r).b44 := by
  obtain ⟨hm, hp, h5, h6, hC, h3, h4⟩ := cl_side hr hS
  simp only [hC, h3, h4, closed]
  rw [hS]
  field_simp
  ring

theorem cl_b53 {r S s : ℝ} (hr : 1 < r) (hs : s ≠ 0) (hS : S = (r ^ 2 - 1) / (r ^ 2 + 1)) : 9 * (132 + 17 * S - 2216
      * S ^ 2 - 5897 * S ^ 3 - 6292 * S ^ 4 - 2687 * S ^ 5 + 194 * S ^ 6 + 467 * S ^ 7 + 82 * S ^ 8) / (128 * (3 + 2
      * S) * (4 + S) * (1 - S) ^ 6) = (closed r).b53 := by
  obtain ⟨hm, hp, h5, h6, hC, h3, h4⟩ := cl_side hr hS
  simp only [hC, h3, h4, closed]
  rw [hS]
  field_simp
  ring

theorem cl_b55 {r S s : ℝ} (hr : 1 < r) (hs : s ≠ 0) (hS : S = (r ^ 2 - 1) / (r ^ 2 + 1)) : 5 * (300 + 1579 * S +
      3176 * S ^ 2 + 2949 * S ^ 3 + 1188 * S ^ 4 + 675 * S ^ 5 + 1326 * S ^ 6 + 827 * S ^ 7 + 130 * S ^ 8) / (384 *
      (3 + 2 * S) * (4 + S) * (1 - S) ^ 6) = (closed r).b55 := by
  obtain ⟨hm, hp, h5, h6, hC, h3, h4⟩ := cl_side hr hS
  simp only [hC, h3, h4, closed]
  rw [hS]
  field_simp
  ring

theorem cl_g2 {r S s : ℝ} (hr : 1 < r) (hs : s ≠ 0) (hS : S = (r ^ 2 - 1) / (r ^ 2 + 1)) : (2 + 7 * S ^ 2) / (4 * (1
      - S) ^ 2) = (closed r).g2 := by
  obtain ⟨hm, hp, h5, h6, hC, h3, h4⟩ := cl_side hr hS
  simp only [hC, h3, h4, closed]
  rw [hS]
  field_simp
  ring

theorem cl_g4 {r S s : ℝ} (hr : 1 < r) (hs : s ≠ 0) (hS : S = (r ^ 2 - 1) / (r ^ 2 + 1)) : (4 + 32 * S - 116 * S ^ 2
      - 400 * S ^ 3 - 71 * S ^ 4 + 146 * S ^ 5) / (32 * (1 - S) ^ 5) = (closed r).g4 := by
  obtain ⟨hm, hp, h5, h6, hC, h3, h4⟩ := cl_side hr hS
  simp only [hC, h3, h4, closed]
  rw [hS]
  field_simp
  ring

theorem cl_p31 {r S s : ℝ} (hr : 1 < r) (hs : s ≠ 0) (hS : S = (r ^ 2 - 1) / (r ^ 2 + 1)) : ((-4 - 20 * S + 10 * S ^
      2 - 13 * S ^ 3) / (8 * s * (1 - S) ^ 3)) * (r * s) = (closed r).p31 := by
  obtain ⟨hm, hp, h5, h6, hC, h3, h4⟩ := cl_side hr hS
  simp only [hC, h3, h4, closed]
  rw [hS]
  field_simp
  ring

theorem cl_q31 {r S s : ℝ} (hr : 1 < r) (hs : s ≠ 0) (hS : S = (r ^ 2 - 1) / (r ^ 2 + 1)) : ((-4 - 20 * S + 10 * S ^
      2 - 13 * S ^ 3) / (8 * s * (1 - S) ^ 3)) * s = (closed r).q31 := by
  obtain ⟨hm, hp, h5, h6, hC, h3, h4⟩ := cl_side hr hS
  simp only [hC, h3, h4, closed]
  rw [hS]
  field_simp
  ring

theorem cl_p51 {r S s : ℝ} (hr : 1 < r) (hs : s ≠ 0) (hS : S = (r ^ 2 - 1) / (r ^ 2 + 1)) : ((-1184 + 32 * S + 13232
      * S ^ 2 + 21712 * S ^ 3 + 20940 * S ^ 4 + 12554 * S ^ 5 - 500 * S ^ 6 - 3341 * S ^ 7 - 670 * S ^ 8) / (64 * s
      * (3 + 2 * S) * (4 + S) * (1 - S) ^ 6)) * (r * s) = (closed r).p51 := by
  obtain ⟨hm, hp, h5, h6, hC, h3, h4⟩ := cl_side hr hS
  simp only [hC, h3, h4, closed]
  rw [hS]
  field_simp
  ring

theorem cl_q51 {r S s : ℝ} (hr : 1 < r) (hs : s ≠ 0) (hS : S = (r ^ 2 - 1) / (r ^ 2 + 1)) : ((-1184 + 32 * S + 13232
      * S ^ 2 + 21712 * S ^ 3 + 20940 * S ^ 4 + 12554 * S ^ 5 - 500 * S ^ 6 - 3341 * S ^ 7 - 670 * S ^ 8) / (64 * s
      * (3 + 2 * S) * (4 + S) * (1 - S) ^ 6)) * s = (closed r).q51 := by
  obtain ⟨hm, hp, h5, h6, hC, h3, h4⟩ := cl_side hr hS
  simp only [hC, h3, h4, closed]
  rw [hS]
  field_simp
  ring

theorem cl_p22 {r S s : ℝ} (hr : 1 < r) (hs : s ≠ 0) (hS : S = (r ^ 2 - 1) / (r ^ 2 + 1)) : 2 * (3 * S ^ 2 / (2 * (1
      - S) ^ 2)) * ((r ^ 2 + 1) / (r ^ 2 - 1)) = (closed r).p22 := by
  obtain ⟨hm, hp, h5, h6, hC, h3, h4⟩ := cl_side hr hS
  simp only [hC, h3, h4, closed]
  rw [hS]
  field_simp
  ring

theorem cl_q22 {r S s : ℝ} (hr : 1 < r) (hs : s ≠ 0) (hS : S = (r ^ 2 - 1) / (r ^ 2 + 1)) : 2 * (3 * S ^ 2 / (2 * (1
      - S) ^ 2)) * (2 * r / (r ^ 2 - 1)) = (closed r).q22 := by
  obtain ⟨hm, hp, h5, h6, hC, h3, h4⟩ := cl_side hr hS
  simp only [hC, h3, h4, closed]
  rw [hS]
  field_simp
  ring

theorem cl_p42 {r S s : ℝ} (hr : 1 < r) (hs : s ≠ 0) (hS : S = (r ^ 2 - 1) / (r ^ 2 + 1)) : 2 * ((12 * S - 14 * S ^
      2 - 264 * S ^ 3 - 45 * S ^ 4 - 13 * S ^ 5) / (24 * (1 - S) ^ 5)) * ((r ^ 2 + 1) / (r ^ 2 - 1)) = (closed
      r).p42 := by
  obtain ⟨hm, hp, h5, h6, hC, h3, h4⟩ := cl_side hr hS
  simp only [hC, h3, h4, closed]
  rw [hS]
  field_simp
  ring

theorem cl_q42 {r S s : ℝ} (hr : 1 < r) (hs : s ≠ 0) (hS : S = (r ^ 2 - 1) / (r ^ 2 + 1)) : 2 * ((12 * S - 14 * S ^
      2 - 264 * S ^ 3 - 45 * S ^ 4 - 13 * S ^ 5) / (24 * (1 - S) ^ 5)) * (2 * r / (r ^ 2 - 1)) = (closed r).q42 :=
      by
  obtain ⟨hm, hp, h5, h6, hC, h3, h4⟩ := cl_side hr hS
  simp only [hC, h3, h4, closed]
  rw [hS]
  field_simp
  ring

theorem cl_p33 {r S s : ℝ} (hr : 1 < r) (hs : s ≠ 0) (hS : S = (r ^ 2 - 1) / (r ^ 2 + 1)) : 3 * ((-2 * S ^ 2 + 11 *
      S ^ 3) / (8 * s * (1 - S) ^ 3)) * (s * (r * (r ^ 2 + 3) / (r ^ 2 - 1))) = (closed r).p33 := by
  obtain ⟨hm, hp, h5, h6, hC, h3, h4⟩ := cl_side hr hS
  simp only [hC, h3, h4, closed]
  rw [hS]
  field_simp
  ring

theorem cl_q33 {r S s : ℝ} (hr : 1 < r) (hs : s ≠ 0) (hS : S = (r ^ 2 - 1) / (r ^ 2 + 1)) : 3 * ((-2 * S ^ 2 + 11 *
      S ^ 3) / (8 * s * (1 - S) ^ 3)) * (s * ((3 * r ^ 2 + 1) / (r ^ 2 - 1))) = (closed r).q33 := by
  obtain ⟨hm, hp, h5, h6, hC, h3, h4⟩ := cl_side hr hS
  simp only [hC, h3, h4, closed]
  rw [hS]
  field_simp
  ring

theorem cl_p53 {r S s : ℝ} (hr : 1 < r) (hs : s ≠ 0) (hS : S = (r ^ 2 - 1) / (r ^ 2 + 1)) : 3 * ((4 * S + 105 * S ^
      2 + 198 * S ^ 3 - 1376 * S ^ 4 - 1302 * S ^ 5 - 117 * S ^ 6 + 58 * S ^ 7) / (32 * s * (3 + 2 * S) * (1 - S) ^
      6)) * (s * (r * (r ^ 2 + 3) / (r ^ 2 - 1))) = (closed r).p53 := by
  obtain ⟨hm, hp, h5, h6, hC, h3, h4⟩ := cl_side hr hS
  simp only [hC, h3, h4, closed]
  rw [hS]
  field_simp
  ring

theorem cl_q53 {r S s : ℝ} (hr : 1 < r) (hs : s ≠ 0) (hS : S = (r ^ 2 - 1) / (r ^ 2 + 1)) : 3 * ((4 * S + 105 * S ^
      2 + 198 * S ^ 3 - 1376 * S ^ 4 - 1302 * S ^ 5 - 117 * S ^ 6 + 58 * S ^ 7) / (32 * s * (3 + 2 * S) * (1 - S) ^
      6)) * (s * ((3 * r ^ 2 + 1) / (r ^ 2 - 1))) = (closed r).q53 := by
  obtain ⟨hm, hp, h5, h6, hC, h3, h4⟩ := cl_side hr hS
  simp only [hC, h3, h4, closed]
  rw [hS]
  field_simp
  ring

theorem cl_p44 {r S s : ℝ} (hr : 1 < r) (hs : s ≠ 0) (hS : S = (r ^ 2 - 1) / (r ^ 2 + 1)) : 4 * ((10 * S ^ 3 - 174 *
      S ^ 4 + 291 * S ^ 5 + 278 * S ^ 6) / (48 * (3 + 2 * S) * (1 - S) ^ 5)) * ((r ^ 4 + 6 * r ^ 2 + 1) / (r ^ 2 -
      1) ^ 2) = (closed r).p44 := by
  obtain ⟨hm, hp, h5, h6, hC, h3, h4⟩ := cl_side hr hS
  simp only [hC, h3, h4, closed]
  rw [hS]
  field_simp
  ring

theorem cl_q44 {r S s : ℝ} (hr : 1 < r) (hs : s ≠ 0) (hS : S = (r ^ 2 - 1) / (r ^ 2 + 1)) : 4 * ((10 * S ^ 3 - 174 *
      S ^ 4 + 291 * S ^ 5 + 278 * S ^ 6) / (48 * (3 + 2 * S) * (1 - S) ^ 5)) * (4 * r * (r ^ 2 + 1) / (r ^ 2 - 1) ^
      2) = (closed r).q44 := by
  obtain ⟨hm, hp, h5, h6, hC, h3, h4⟩ := cl_side hr hS
  simp only [hC, h3, h4, closed]
  rw [hS]
  field_simp
  ring

theorem cl_p55 {r S s : ℝ} (hr : 1 < r) (hs : s ≠ 0) (hS : S = (r ^ 2 - 1) / (r ^ 2 + 1)) : 5 * ((-6 * S ^ 3 + 272 *
      S ^ 4 - 1552 * S ^ 5 + 852 * S ^ 6 + 2029 * S ^ 7 + 430 * S ^ 8) / (64 * s * (3 + 2 * S) * (4 + S) * (1 - S) ^
      6)) * (s * (r * (r ^ 4 + 10 * r ^ 2 + 5) / (r ^ 2 - 1) ^ 2)) = (closed r).p55 := by
  obtain ⟨hm, hp, h5, h6, hC, h3, h4⟩ := cl_side hr hS
  simp only [hC, h3, h4, closed]
  rw [hS]
  field_simp
  ring

theorem cl_q55 {r S s : ℝ} (hr : 1 < r) (hs : s ≠ 0) (hS : S = (r ^ 2 - 1) / (r ^ 2 + 1)) : 5 * ((-6 * S ^ 3 + 272 *
      S ^ 4 - 1552 * S ^ 5 + 852 * S ^ 6 + 2029 * S ^ 7 + 430 * S ^ 8) / (64 * s * (3 + 2 * S) * (4 + S) * (1 - S) ^
      6)) * (s * ((5 * r ^ 4 + 10 * r ^ 2 + 1) / (r ^ 2 - 1) ^ 2)) = (closed r).q55 := by
  obtain ⟨hm, hp, h5, h6, hC, h3, h4⟩ := cl_side hr hS
  simp only [hC, h3, h4, closed]
  rw [hS]
  field_simp
  ring

end AmrWind.Waves
