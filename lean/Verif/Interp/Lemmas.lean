import Verif.Interp.Model
import Mathlib.Tactic.LinearCombination
import Mathlib.Tactic.FieldSimp
import Mathlib.Tactic.Ring

/-! Helper lemmas for table look-up and interpolation. -/

set_option linter.unusedSectionVars false

namespace AmrWind.Interp

variable {K : Type*} [Field K] [LinearOrder K] [IsStrictOrderedRing K]

theorem eps_pos : (0 : K) < eps := by unfold eps; positivity

theorem bisectLoop_range (x : List K) (q xl : K) (il ir : ℕ) (h : il < ir) (hr : ir ≤ x.length)
    (h2 : il + 1 < x.length)
    (hlast : ∀ xn, x[x.length - 1]? = some xn → (q - xn) * (q - xl) ≤ 0) :
    ∃ r, bisectLoop x q xl il ir = some r ∧ il ≤ r ∧ r < ir ∧ r + 1 < x.length := by
  induction hn : ir - il using Nat.strong_induction_on generalizing il ir with
  | _ n ih =>
    unfold bisectLoop
    by_cases h1 : ir - il > 1
    · rw [dif_pos h1]
      have hm : (il + ir) / 2 < x.length := by omega
      rw [List.getElem?_eq_getElem hm]
      simp only
      split
      · obtain ⟨r, e, a, b, c⟩ := ih ((il + ir) / 2 - il) (by omega) il ((il + ir) / 2) (by omega)
          (by omega) h2 rfl
        exact ⟨r, e, a, by omega, c⟩
      · rename_i hc
        have hne : (il + ir) / 2 ≠ x.length - 1 := by
          intro he
          apply hc
          apply hlast
          rw [← he]
          exact List.getElem?_eq_getElem hm
        obtain ⟨r, e, a, b, c⟩ := ih (ir - (il + ir) / 2) (by omega) ((il + ir) / 2) ir (by omega) hr
          (by omega) rfl
        exact ⟨r, e, by omega, b, c⟩
    · rw [dif_neg h1]
      exact ⟨il, rfl, le_rfl, h, h2⟩

/-- Sorted tables. -/
theorem sorted_get {x : List K} (hs : x.Pairwise (· ≤ ·)) {i j : ℕ} (hij : i ≤ j)
    {a b : K} (ha : x[i]? = some a) (hb : x[j]? = some b) : a ≤ b := by
  obtain ⟨hi, rfl⟩ := List.getElem?_eq_some_iff.mp ha
  obtain ⟨hj, rfl⟩ := List.getElem?_eq_some_iff.mp hb
  rcases Nat.lt_or_ge i j with h | h
  · exact List.pairwise_iff_getElem.mp hs i j hi hj h
  · obtain rfl : i = j := by omega
    exact le_rfl

theorem bisectLoop_sorted (x : List K) (hs : x.Pairwise (· ≤ ·)) (q xl : K) (h0 : x[0]? = some xl)
    (hq : xl ≤ q) (il ir : ℕ) (h : il < ir) (hr : ir ≤ x.length)
    (hl : ∀ a, x[il]? = some a → a ≤ q) (hl' : 1 ≤ il → ∀ a, x[il]? = some a → a < q)
    (hru : ∀ b, x[ir]? = some b → q ≤ b) {r : ℕ} (e : bisectLoop x q xl il ir = some r) :
    (∀ a, x[r]? = some a → a ≤ q) ∧ (1 ≤ r → ∀ a, x[r]? = some a → a < q) ∧
      (∀ b, x[r + 1]? = some b → q ≤ b) := by
  induction hn : ir - il using Nat.strong_induction_on generalizing il ir with
  | _ n ih =>
    unfold bisectLoop at e
    by_cases h1 : ir - il > 1
    · rw [dif_pos h1] at e
      have hm : (il + ir) / 2 < x.length := by omega
      have hme := List.getElem?_eq_getElem hm
      rw [hme] at e
      simp only at e
      by_cases hc : (q - x[(il + ir) / 2]) * (q - xl) ≤ 0
      · rw [if_pos hc] at e
        refine ih ((il + ir) / 2 - il) (by omega) il ((il + ir) / 2) (by omega) (by omega) hl hl' ?_ e rfl
        intro b hb
        rw [hme] at hb
        injection hb with hb
        subst hb
        rcases eq_or_lt_of_le hq with he | hlt
        · rw [← he]; exact sorted_get hs (Nat.zero_le _) h0 hme
        · by_contra hcon
          push Not at hcon
          have := mul_pos (sub_pos.mpr hcon) (sub_pos.mpr hlt)
          linarith
      · rw [if_neg hc] at e
        push Not at hc
        have hlt : x[(il + ir) / 2] < q := by
          have hnn : 0 ≤ q - xl := sub_nonneg.mpr hq
          have := pos_of_mul_pos_left hc hnn
          linarith
        refine ih (ir - (il + ir) / 2) (by omega) ((il + ir) / 2) ir (by omega) hr ?_ ?_ hru e rfl
        · intro a ha; rw [hme] at ha; injection ha with ha; rw [← ha]; exact hlt.le
        · intro _ a ha; rw [hme] at ha; injection ha with ha; rw [← ha]; exact hlt
    · rw [dif_neg h1] at e
      injection e with e
      subst e
      refine ⟨hl, hl', ?_⟩
      have : il + 1 = ir := by omega
      rw [this]; exact hru

/-- `check_bounds` reads only the two ends and decides the position of the query relative to them. -/
theorem checkBounds_cases (x : List K) (q : K) (h2 : 2 ≤ x.length) :
    ∃ x0 xn, x[0]? = some x0 ∧ x[x.length - 1]? = some xn ∧
      ((q < x0 ∧ checkBounds x q = some ⟨0, .LOWLIM⟩) ∨
       (x0 ≤ q ∧ xn < q ∧ checkBounds x q = some ⟨x.length - 1, .UPLIM⟩) ∨
       (x0 ≤ q ∧ q ≤ xn ∧ checkBounds x q = some ⟨0, .VALID⟩)) := by
  have h0 : 0 < x.length := by omega
  have hn : x.length - 1 < x.length := by omega
  refine ⟨x[0], x[x.length - 1], List.getElem?_eq_getElem h0, List.getElem?_eq_getElem hn, ?_⟩
  unfold checkBounds
  rw [if_neg (by omega), List.getElem?_eq_getElem h0, List.getElem?_eq_getElem hn]
  simp only
  by_cases a : q < x[0]
  · left; exact ⟨a, by rw [if_pos a]⟩
  · right
    rw [if_neg a]
    by_cases b : x[x.length - 1] < q
    · left; exact ⟨not_lt.mp a, b, by rw [if_pos b]⟩
    · right; exact ⟨not_lt.mp a, not_lt.mp b, by rw [if_neg b]⟩

/-- The result of `bisection_search` for a query inside. -/
theorem bisection_inside (x : List K) (q : K) (h2 : 2 ≤ x.length) {x0 xn : K} (h0 : x[0]? = some x0)
    (hn : x[x.length - 1]? = some xn) (hq0 : x0 ≤ q) (hqn : q ≤ xn) :
    ∃ r, bisectionSearch x q = some ⟨r, .VALID⟩ ∧ bisectLoop x q x0 0 x.length = some r ∧
      r + 1 < x.length := by
  obtain ⟨y0, yn, e0, en, hc⟩ := checkBounds_cases x q h2
  rw [h0] at e0; injection e0 with e0; subst e0
  rw [hn] at en; injection en with en; subst en
  have hcb : checkBounds x q = some ⟨0, .VALID⟩ := by
    rcases hc with ⟨a, _⟩ | ⟨_, a, _⟩ | ⟨_, _, a⟩
    · exact absurd a (not_lt.mpr hq0)
    · exact absurd a (not_lt.mpr hqn)
    · exact a
  obtain ⟨r, e, _, _, hr⟩ := bisectLoop_range x q x0 0 x.length (by omega) le_rfl (by omega) (by
    intro z hz
    rw [hn] at hz; injection hz with hz; subst hz
    exact mul_nonpos_of_nonpos_of_nonneg (sub_nonpos.mpr hqn) (sub_nonneg.mpr hq0))
  refine ⟨r, ?_, e, hr⟩
  unfold bisectionSearch
  rw [hcb]
  simp only [reduceCtorEq, or_self, if_false, h0, e, Option.map_some]

theorem bisection_low (x : List K) (q : K) (h2 : 2 ≤ x.length) {x0 : K} (h0 : x[0]? = some x0)
    (hq : q < x0) : bisectionSearch x q = some ⟨0, .LOWLIM⟩ := by
  obtain ⟨y0, yn, e0, en, hc⟩ := checkBounds_cases x q h2
  rw [h0] at e0; injection e0 with e0; subst e0
  rcases hc with ⟨_, a⟩ | ⟨a, _⟩ | ⟨a, _⟩
  · unfold bisectionSearch; rw [a]; simp
  · exact absurd hq (not_lt.mpr a)
  · exact absurd hq (not_lt.mpr a)

theorem bisection_high (x : List K) (q : K) (h2 : 2 ≤ x.length) {x0 xn : K} (h0 : x[0]? = some x0)
    (hn : x[x.length - 1]? = some xn) (hq0 : x0 ≤ q) (hq : xn < q) :
    bisectionSearch x q = some ⟨x.length - 1, .UPLIM⟩ := by
  obtain ⟨y0, yn, e0, en, hc⟩ := checkBounds_cases x q h2
  rw [h0] at e0; injection e0 with e0; subst e0
  rw [hn] at en; injection en with en; subst en
  rcases hc with ⟨a, _⟩ | ⟨_, _, a⟩ | ⟨_, a, _⟩
  · exact absurd a (not_lt.mpr hq0)
  · unfold bisectionSearch; rw [a]; simp
  · exact absurd hq (not_lt.mpr a)

theorem scanFrom_spec (x : List K) (q : K) (it : ℕ) (k : ℕ) (hk : it ≤ k) (hkl : k < x.length)
    (hlt : ∀ j a, it ≤ j → j < k → x[j]? = some a → a < q) (hle : ∀ a, x[k]? = some a → q ≤ a) :
    scanFrom x q it = k - 1 := by
  induction hn : k - it generalizing it with
  | zero =>
    obtain rfl : it = k := by omega
    unfold scanFrom
    rw [dif_pos hkl, if_pos (hle _ (List.getElem?_eq_getElem hkl))]
  | succ n ih =>
    unfold scanFrom
    have hl : it < x.length := by omega
    rw [dif_pos hl, if_neg (not_le.mpr (hlt it _ le_rfl (by omega) (List.getElem?_eq_getElem hl)))]
    exact ih (it + 1) (by omega) (fun j a h1 h2 => hlt j a (by omega) h2) (by omega)

/-! ### Interpolation weights -/

/-- The right weight of the code. -/
def wR (xl xr q : K) : K := if eps < xr - xl then (q - xl) / (xr - xl) else 1

theorem wR_nonneg {xl xr q : K} (h : xl ≤ q) : 0 ≤ wR xl xr q := by
  unfold wR
  split
  · rename_i h1
    exact div_nonneg (sub_nonneg.mpr h) (eps_pos.trans h1).le
  · exact zero_le_one

theorem wR_le_one {xl xr q : K} (h : q ≤ xr) : wR xl xr q ≤ 1 := by
  unfold wR
  split
  · rename_i h1
    have := eps_pos.trans h1
    rw [div_le_one this]; linarith
  · exact le_rfl

theorem wR_right {xl xr : K} : wR xl xr xr = 1 := by
  unfold wR
  split
  · rename_i h1
    exact div_self (eps_pos.trans h1).ne'
  · rfl

theorem wR_left {xl xr : K} (h : eps < xr - xl) : wR xl xr xl = 0 := by
  unfold wR; rw [if_pos h]; simp

theorem wR_eq {xl xr q : K} (h : eps < xr - xl) : wR xl xr q * (xr - xl) = q - xl := by
  unfold wR; rw [if_pos h]; exact div_mul_cancel₀ _ (eps_pos.trans h).ne'

theorem wR_mono {xl xr q q' : K} (h : q ≤ q') : wR xl xr q ≤ wR xl xr q' := by
  unfold wR
  split
  · rename_i h1
    exact div_le_div_of_nonneg_right (by linarith) (eps_pos.trans h1).le
  · exact le_rfl

theorem interpCell_eq (x y : List K) (q : K) (j nc c : ℕ) {xl xr yl yr : K} (h1 : x[j]? = some xl)
    (h2 : x[j + 1]? = some xr) (h3 : y[nc * j + c]? = some yl) (h4 : y[nc * (j + 1) + c]? = some yr) :
    interpCell x y q j nc c = some ((1 - wR xl xr q) * yl + wR xl xr q * yr) := by
  unfold interpCell; rw [h1, h2, h3, h4]; rfl

/-- A convex combination lies between. -/
theorem convex_between {w a b : K} (h0 : 0 ≤ w) (h1 : w ≤ 1) :
    min a b ≤ (1 - w) * a + w * b ∧ (1 - w) * a + w * b ≤ max a b := by
  constructor
  · have ha := min_le_left a b
    have hb := min_le_right a b
    nlinarith [mul_le_mul_of_nonneg_left ha (sub_nonneg.mpr h1), mul_le_mul_of_nonneg_left hb h0]
  · have ha := le_max_left a b
    have hb := le_max_right a b
    nlinarith [mul_le_mul_of_nonneg_left ha (sub_nonneg.mpr h1), mul_le_mul_of_nonneg_left hb h0]

theorem linear_small (x y : List K) (q : K) (nc c : ℕ) (h : x.length < 2) :
    linear x y q nc c = y[c]? := by
  unfold linear bisectionSearch checkBounds
  rw [if_pos h]; simp [linearImpl]

end AmrWind.Interp
