import Verif.Actuator.FllcModel
import Mathlib.Algebra.Order.Archimedean.Basic
import Mathlib.Data.List.GetD
import Mathlib.Algebra.BigOperators.Intervals
import Mathlib.Tactic.FieldSimp
import Mathlib.Tactic.Positivity

/-!
# C50: the points of the filtered lifting line correction; C74: the correction
-/

set_option linter.unusedSectionVars false

namespace AmrWind.Fllc

open AmrWind.Interp (linear Sorted linear_bounded Matches)
open AmrWind.Vs

section Points

variable {K : Type*} [Field K] [LinearOrder K] [IsStrictOrderedRing K]

theorem stepDr_some {r e : List K} {ratio meps cur dr : K} (h : stepDr r e ratio meps cur = some dr) :
    ratio ≠ 0 ∧ meps < dr ∧ ∃ e1 e2, linear r e cur 1 0 = some e1 ∧ linear r e (cur + e1 / ratio) 1 0 = some e2 ∧
      dr = min (e1 / ratio) (e2 / ratio) := by
  unfold stepDr at h
  by_cases h0 : ratio = 0
  · rw [if_pos h0] at h; simp at h
  · rw [if_neg h0] at h
    obtain ⟨e1, h1, h⟩ := Option.bind_eq_some_iff.mp h
    obtain ⟨e2, h2, h⟩ := Option.bind_eq_some_iff.mp h
    by_cases h3 : meps < min (e1 / ratio) (e2 / ratio)
    · simp only [if_pos h3, Option.some.injEq] at h
      subst h
      exact ⟨h0, h3, e1, e2, h1, h2, rfl⟩
    · exact absurd ((if_neg h3).symm.trans h) (by simp)

/-- C50: the loop ends: after `n` rounds with `n · meps` at least the remaining span it is no longer running. -/
theorem grow_terminates {r e : List K} {ratio meps tip : K} : ∀ (n : ℕ) (cur : K), tip - cur ≤ n * meps →
    grow r e ratio meps tip n cur ≠ .more
  | 0, cur, h => by
    unfold grow
    rw [if_neg (by push_cast at h; linarith)]
    simp
  | n + 1, cur, h => by
    unfold grow
    by_cases hc : cur < tip
    · rw [if_pos hc]
      cases hs : stepDr r e ratio meps cur with
      | none => simp
      | some dr =>
        obtain ⟨-, hdr, -⟩ := stepDr_some hs
        have hm : tip - min (cur + dr) tip ≤ n * meps := by
          push_cast at h
          rcases le_total (cur + dr) tip with h1 | h1
          · rw [min_eq_left h1]; linarith
          · rw [min_eq_right h1, sub_self]
            by_contra hneg
            have h2 : (n : K) * meps < 0 := not_le.mp hneg
            have h3 : meps < 0 := by
              by_contra h4
              exact absurd h2 (not_lt.mpr (mul_nonneg (Nat.cast_nonneg n) (not_lt.mp h4)))
            linarith
        have := grow_terminates (r := r) (e := e) (ratio := ratio) n (min (cur + dr) tip) hm
        simp only
        cases hg : grow r e ratio meps tip n (min (cur + dr) tip) with
        | done l => simp [Out.cons]
        | abort => simp [Out.cons]
        | more => exact absurd hg this
    · rw [if_neg hc]; simp

/-- More rounds than needed change nothing. -/
theorem grow_stable {r e : List K} {ratio meps tip : K} : ∀ (n k : ℕ) (cur : K), grow r e ratio meps tip n cur ≠ .more →
    grow r e ratio meps tip (n + k) cur = grow r e ratio meps tip n cur
  | 0, k, cur, h => by
    by_cases hc : cur < tip
    · exact absurd (by unfold grow; rw [if_pos hc]) h
    · cases k with
      | zero => rfl
      | succ k => simp only [grow, if_neg hc]
  | n + 1, k, cur, h => by
    rw [show n + 1 + k = (n + k) + 1 by omega]
    by_cases hc : cur < tip
    · simp only [grow, if_pos hc] at h ⊢
      cases hs : stepDr r e ratio meps cur with
      | none => rfl
      | some dr =>
        rw [hs] at h
        simp only at h ⊢
        rw [grow_stable n k]
        intro hm
        rw [hm] at h
        exact h rfl
    · simp only [grow, if_neg hc]

/-- C50: for every span the loop ends, whatever the chords, with a result that more rounds do not change. -/
theorem points_end [Archimedean K] {r e : List K} {ratio meps tip : K} (hm : 0 < meps) (cur : K) :
    ∃ n, grow r e ratio meps tip n cur ≠ .more ∧ ∀ k, grow r e ratio meps tip (n + k) cur = grow r e ratio meps tip n cur := by
  obtain ⟨n, hn⟩ := Archimedean.arch (tip - cur) hm
  rw [nsmul_eq_mul] at hn
  have := grow_terminates (r := r) (e := e) (ratio := ratio) n cur hn
  exact ⟨n, this, fun k => grow_stable n k cur this⟩

/-- C50: the points start at the root, end exactly at the tip and increase strictly, and the spacing after each point is at
most epsilon over the ratio there, and at most epsilon over the ratio one such spacing further on. -/
theorem points_spec {r e : List K} {ratio meps tip : K} (hm : 0 ≤ meps) : ∀ (n : ℕ) (cur : K) (l : List K), cur ≤ tip →
    grow r e ratio meps tip n cur = .done l →
    l.head? = some cur ∧ l.getLast? = some tip ∧ l.Pairwise (· < ·) ∧
      ∀ (i : ℕ) (a b : K), l[i]? = some a → l[i + 1]? = some b →
        ∃ e1 e2, linear r e a 1 0 = some e1 ∧ linear r e (a + e1 / ratio) 1 0 = some e2 ∧ b - a ≤ e1 / ratio ∧ b - a ≤ e2 / ratio ∧
          (b = tip ∨ b - a = min (e1 / ratio) (e2 / ratio))
  | 0, cur, l, hct, h => by
    unfold grow at h
    by_cases hc : cur < tip
    · rw [if_pos hc] at h; simp at h
    · rw [if_neg hc] at h
      have hl : l = [cur] := by injection h with h; exact h.symm
      have : cur = tip := le_antisymm hct (not_lt.mp hc)
      subst hl
      subst this
      refine ⟨rfl, rfl, List.pairwise_singleton _ _, fun i a b _ hb => ?_⟩
      simp at hb
  | n + 1, cur, l, hct, h => by
    unfold grow at h
    by_cases hc : cur < tip
    · rw [if_pos hc] at h
      cases hs : stepDr r e ratio meps cur with
      | none => rw [hs] at h; simp at h
      | some dr =>
        rw [hs] at h
        simp only at h
        obtain ⟨h0, hdr, e1, e2, g1, g2, g3⟩ := stepDr_some hs
        cases hg : grow r e ratio meps tip n (min (cur + dr) tip) with
        | abort => rw [hg] at h; simp [Out.cons] at h
        | more => rw [hg] at h; simp [Out.cons] at h
        | done l' =>
          rw [hg] at h
          have hl : l = cur :: l' := by simp only [Out.cons] at h; injection h with h; exact h.symm
          subst hl
          obtain ⟨i1, i2, i3, i4⟩ := points_spec hm n _ l' (min_le_right _ _) hg
          have hlt : cur < min (cur + dr) tip := lt_min (by linarith) hc
          obtain ⟨l'', rfl⟩ : ∃ l'', l' = min (cur + dr) tip :: l'' := by
            cases l' with
            | nil => simp at i1
            | cons a t => simp only [List.head?_cons, Option.some.injEq] at i1; exact ⟨t, by rw [i1]⟩
          refine ⟨rfl, ?_, ?_, ?_⟩
          · rw [List.getLast?_cons_cons]; exact i2
          · rw [List.pairwise_cons]
            refine ⟨fun b hb => ?_, i3⟩
            rcases List.mem_cons.mp hb with rfl | hb
            · exact hlt
            · exact lt_trans hlt ((List.pairwise_cons.mp i3).1 b hb)
          · intro i a b ha hb
            cases i with
            | zero =>
              simp only [List.getElem?_cons_zero, Option.some.injEq] at ha
              simp only [Nat.zero_add, List.getElem?_cons_succ, List.getElem?_cons_zero, Option.some.injEq] at hb
              subst ha
              subst hb
              have hle : min (cur + dr) tip - cur ≤ dr := by linarith [min_le_left (cur + dr) tip]
              refine ⟨e1, e2, g1, g2, ?_, ?_, ?_⟩
              · exact le_trans hle (by rw [g3]; exact min_le_left _ _)
              · exact le_trans hle (by rw [g3]; exact min_le_right _ _)
              · rcases le_total (cur + dr) tip with h1 | h1
                · right; rw [min_eq_left h1, ← g3]; ring
                · left; exact min_eq_right h1
            | succ i => exact i4 i a b (by simpa using ha) (by simpa using hb)
    · rw [if_neg hc] at h
      have hl : l = [cur] := by injection h with h; exact h.symm
      have : cur = tip := le_antisymm hct (not_lt.mp hc)
      subst hl
      subst this
      refine ⟨rfl, rfl, List.pairwise_singleton _ _, fun i a b _ hb => ?_⟩
      simp at hb

theorem linear_ge {r e : List K} (hr : Sorted r) (h2 : 2 ≤ r.length) (hl : e.length = r.length) {c : K} (hc : ∀ x ∈ e, c ≤ x)
    (q : K) : ∃ v, linear r e q 1 0 = some v ∧ c ≤ v := by
  have hmem : ∀ (i : ℕ) (x : K), e[i]? = some x → c ≤ x := fun i x h => hc x (List.mem_of_getElem? h)
  obtain ⟨v, hv, h1, h3, h4⟩ := linear_bounded r e hr 1 0 ⟨by rw [hl, one_mul], Nat.one_pos⟩ h2 q
  refine ⟨v, hv, ?_⟩
  have g0 : r[0]? = some r[0] := List.getElem?_eq_getElem (by omega)
  have gn : r[r.length - 1]? = some r[r.length - 1] := List.getElem?_eq_getElem (by omega)
  by_cases hlo : q < r[0]
  · exact hmem _ v (h1 _ g0 hlo)
  · by_cases hhi : r[r.length - 1] < q
    · exact hmem _ v (h3 _ gn hhi)
    · obtain ⟨i, yl, yr, -, hyl, hyr, hmin, -⟩ := h4 _ _ g0 gn (not_lt.mp hlo) (not_lt.mp hhi)
      exact le_trans (le_min (hmem _ _ hyl) (hmem _ _ hyr)) hmin

/-- C50: with epsilons of at least `c` and `c / ratio` above the machine epsilon the assertion never fails: the result is
a list of points. -/
theorem points_defined {r e : List K} (hr : Sorted r) (h2 : 2 ≤ r.length) (hl : e.length = r.length) {c ratio meps tip : K}
    (hratio : 0 < ratio) (hc : ∀ x ∈ e, c ≤ x) (hm : meps < c / ratio) : ∀ (n : ℕ) (cur : K), tip - cur ≤ n * meps →
    ∃ l, grow r e ratio meps tip n cur = .done l := by
  have hstep : ∀ cur, ∃ dr, stepDr r e ratio meps cur = some dr := by
    intro cur
    obtain ⟨e1, h1, g1⟩ := linear_ge hr h2 hl hc cur
    obtain ⟨e2, h3, g3⟩ := linear_ge hr h2 hl hc (cur + e1 / ratio)
    refine ⟨min (e1 / ratio) (e2 / ratio), ?_⟩
    unfold stepDr
    rw [if_neg hratio.ne', h1, Option.bind_some, h3, Option.bind_some]
    simp only
    rw [if_pos]
    exact lt_min (lt_of_lt_of_le hm (div_le_div_of_nonneg_right g1 hratio.le))
      (lt_of_lt_of_le hm (div_le_div_of_nonneg_right g3 hratio.le))
  have hna : ∀ (n : ℕ) (cur : K), grow r e ratio meps tip n cur ≠ .abort := by
    intro n
    induction n with
    | zero =>
      intro cur
      unfold grow
      by_cases hc : cur < tip
      · rw [if_pos hc]; simp
      · rw [if_neg hc]; simp
    | succ n ih =>
      intro cur
      unfold grow
      by_cases hc : cur < tip
      · rw [if_pos hc]
        obtain ⟨dr, hdr⟩ := hstep cur
        rw [hdr]
        simp only
        have := ih (min (cur + dr) tip)
        cases hg : grow r e ratio meps tip n (min (cur + dr) tip) with
        | done l => simp [Out.cons]
        | abort => exact absurd hg this
        | more => simp [Out.cons]
      · rw [if_neg hc]; simp
  intro n cur hn
  have h1 := grow_terminates (r := r) (e := e) (ratio := ratio) n cur hn
  have h3 := hna n cur
  cases hg : grow r e ratio meps tip n cur with
  | done l => exact ⟨l, rfl⟩
  | abort => exact absurd hg h3
  | more => exact absurd hg h1

/-- A disagreement with the comment of the code ("ensure that the spacing will always meet the requirement"): a narrow part
of the blade between two points is stepped over. Here epsilon is 1/10 in the middle and no point is placed there. -/
theorem narrow_part_skipped : grow [(0 : ℚ), 1 / 2, 1] [1, 1 / 10, 1] 1 (1 / 1000) 1 5 0 = .done [0, 1] ∧
    linear [(0 : ℚ), 1 / 2, 1] [1, 1 / 10, 1] (1 / 2) 1 0 = some (1 / 10) := by
  constructor
  · have h1 : stepDr [(0 : ℚ), 1 / 2, 1] [1, 1 / 10, 1] 1 (1 / 1000) 0 = some 1 := by decide +kernel
    simp only [grow]
    rw [if_pos (by norm_num), h1]
    simp only
    rw [show min ((0 : ℚ) + 1) 1 = 1 by norm_num, if_neg (lt_irrefl _)]
    rfl
  · decide +kernel

/-- A blade of one point, or of points that all coincide: the widths are read outside the list. -/
theorem weights_one_point (a : K) : weights [a] = none := by unfold weights; simp

/-! ### The widths are those of the trapezoidal rule -/

theorem trap_sum (x f : ℕ → K) : ∀ n : ℕ,
    (∑ i ∈ Finset.range (n + 2), (if i = 0 then (x 1 - x 0) / 2 else if i = n + 1 then (x i - x (i - 1)) / 2
      else (x (i + 1) - x (i - 1)) / 2) * f i) = ∑ i ∈ Finset.range (n + 1), (x (i + 1) - x i) * ((f i + f (i + 1)) / 2)
  | 0 => by
    simp only [Finset.sum_range_succ, Finset.sum_range_zero, zero_add, if_true, Nat.one_ne_zero, if_false, Nat.sub_self]
    ring
  | n + 1 => by
    have ih := trap_sum x f n
    rw [Finset.sum_range_succ] at ih
    rw [Finset.sum_range_succ _ (n + 1), ← ih, Finset.sum_range_succ _ (n + 2), Finset.sum_range_succ _ (n + 1)]
    have e : ∀ i ∈ Finset.range (n + 1), (if i = 0 then (x 1 - x 0) / 2 else if i = n + 1 + 1 then (x i - x (i - 1)) / 2
        else (x (i + 1) - x (i - 1)) / 2) * f i = (if i = 0 then (x 1 - x 0) / 2 else if i = n + 1 then (x i - x (i - 1)) / 2
        else (x (i + 1) - x (i - 1)) / 2) * f i := by
      intro i hi
      have := Finset.mem_range.mp hi
      rw [if_neg (by omega : ¬ i = n + 1 + 1), if_neg (by omega : ¬ i = n + 1)]
    rw [Finset.sum_congr rfl e]
    have a1 : ¬ n + 1 = 0 := by omega
    have a2 : ¬ n + 1 = n + 1 + 1 := by omega
    have a3 : ¬ n + 2 = 0 := by omega
    have a4 : n + 2 = n + 1 + 1 := rfl
    have a5 : n + 2 - 1 = n + 1 := rfl
    simp only [if_neg a1, if_neg a2, if_neg a3, if_pos a4, if_true, Nat.add_sub_cancel, a5]
    ring

theorem sum_map_range (g : ℕ → K) (n : ℕ) : ((List.range n).map g).sum = ∑ i ∈ Finset.range n, g i := by
  induction n with
  | zero => simp
  | succ n ih => rw [List.range_succ, List.map_append, List.sum_append, ih, Finset.sum_range_succ]; simp

/-- C74: for increasing points the widths are positive and integrate every function by the trapezoidal rule: the sum of
width times value over the points is the sum over the intervals of length times mean value. -/
theorem weights_trapezoid {x : List K} (hx : x.Pairwise (· < ·)) {n : ℕ} (hn : x.length = n + 2) :
    ∃ w, weights x = some w ∧ w.length = x.length ∧ (∀ a ∈ w, 0 < a) ∧
      ∀ f : ℕ → K, ((List.range x.length).map fun i => w.getD i 0 * f i).sum =
        ∑ i ∈ Finset.range (n + 1), (x.getD (i + 1) 0 - x.getD i 0) * ((f i + f (i + 1)) / 2) := by
  have hget : ∀ i j, i < j → j < x.length → x.getD i 0 < x.getD j 0 := by
    intro i j hij hj
    rw [List.getD_eq_getElem _ _ hj, List.getD_eq_getElem _ _ (by omega)]
    exact List.pairwise_iff_getElem.mp hx i j (by omega) hj hij
  have hw : weights x = some ((List.range x.length).map fun i =>
      if i = 0 then (x.getD 1 0 - x.getD 0 0) / 2 else if i = n + 1 then (x.getD i 0 - x.getD (i - 1) 0) / 2
      else (x.getD (i + 1) 0 - x.getD (i - 1) 0) / 2) := by
    unfold weights
    rw [if_neg (by omega)]
    congr 1
    apply List.map_congr_left
    intro i hi
    have hi := List.mem_range.mp hi
    rw [show x.length - 1 = n + 1 by omega]
    by_cases h0 : i = 0
    · simp only [if_pos h0]
      rw [abs_of_pos (by linarith [hget 0 1 (by omega) (by omega)])]
    · simp only [if_neg h0]
      by_cases h1 : i = n + 1
      · simp only [if_pos h1]
        rw [abs_of_pos (by linarith [hget (i - 1) i (by omega) hi])]
      · simp only [if_neg h1]
        rw [abs_of_pos (by linarith [hget (i - 1) (i + 1) (by omega) (by omega)])]
  refine ⟨_, hw, by simp, ?_, ?_⟩
  · intro a ha
    obtain ⟨i, hi, rfl⟩ := List.mem_map.mp ha
    have hi := List.mem_range.mp hi
    by_cases h0 : i = 0
    · simp only [if_pos h0]
      linarith [hget 0 1 (by omega) (by omega)]
    · simp only [if_neg h0]
      by_cases h1 : i = n + 1
      · simp only [if_pos h1]
        linarith [hget (i - 1) i (by omega) hi]
      · simp only [if_neg h1]
        linarith [hget (i - 1) (i + 1) (by omega) (by omega)]
  · intro f
    rw [sum_map_range, hn, ← trap_sum (fun i => x.getD i 0) f n]
    apply Finset.sum_congr rfl
    intro i hi
    have hi := Finset.mem_range.mp hi
    rw [List.getD_eq_getElem _ _ (by simp; omega), List.getElem_map, List.getElem_range]

/-- C74: the widths add up to the span. -/
theorem weights_sum {x : List K} (hx : x.Pairwise (· < ·)) {n : ℕ} (hn : x.length = n + 2) :
    ∃ w, weights x = some w ∧ w.sum = x.getD (n + 1) 0 - x.getD 0 0 := by
  obtain ⟨w, hw, hl, -, h⟩ := weights_trapezoid hx hn
  refine ⟨w, hw, ?_⟩
  have h1 := h fun _ => 1
  have h2 : ((List.range x.length).map fun i => w.getD i 0 * 1) = w := by
    apply List.ext_getElem
    · simp [hl]
    · intro i h1 h2
      simp only [List.getElem_map, List.getElem_range, mul_one]
      exact List.getD_eq_getElem _ _ h2
  rw [h2] at h1
  rw [h1]
  have := Finset.sum_range_sub (fun i => x.getD i 0) (n + 1)
  rw [← this]
  apply Finset.sum_congr rfl
  intro i _
  ring

/-- Three chords of 1, 1/2, 1/4 on a unit span, in halves of epsilon. -/
example : ∃ l, grow [(0 : ℚ), 1 / 2, 1] [1, 1 / 2, 1 / 4] 2 (1 / 100) 1 100 0 = .done l := by
  refine points_defined (K := ℚ) (r := [0, 1 / 2, 1]) (e := [1, 1 / 2, 1 / 4]) (by unfold Sorted; decide +kernel) (by decide) rfl (c := 1 / 4) (by norm_num) ?_ (by norm_num) 100 0
    (by norm_num)
  intro x hx
  simp only [List.mem_cons, List.not_mem_nil, or_false] at hx
  rcases hx with rfl | rfl | rfl <;> norm_num

end Points

end AmrWind.Fllc
