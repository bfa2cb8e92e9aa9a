import Verif.Interp.Lemmas
import Mathlib.Algebra.Order.Ring.Rat
import Mathlib.Data.Rat.Floor
import Mathlib.Algebra.Order.Archimedean.Basic

/-!
# Properties C18-C22: table look-up and interpolation

`some v` means the C++ call returns `v` having read only inside its tables.
-/

set_option linter.unusedSectionVars false

namespace AmrWind.Interp

variable {K : Type*} [Field K] [LinearOrder K] [IsStrictOrderedRing K]

/-! ## Specification -/

/-- Index `i` brackets the query: `x[i] ≤ q ≤ x[i+1]`, both entries in the table. -/
def Brackets (x : List K) (q : K) (i : ℕ) : Prop :=
  ∃ a b, x[i]? = some a ∧ x[i + 1]? = some b ∧ a ≤ q ∧ q ≤ b

/-- Nondecreasing and strictly increasing tables. -/
def Sorted (x : List K) : Prop := x.Pairwise (· ≤ ·)
def StrictSorted (x : List K) : Prop := x.Pairwise (· < ·)

/-- Adjacent points are further apart than single-precision epsilon (which the code uses as the smallest
spacing over which it interpolates). -/
def Spaced (x : List K) : Prop := ∀ (i : ℕ) (a b : K), x[i]? = some a → x[i + 1]? = some b → eps < b - a

theorem StrictSorted.sorted {x : List K} (h : StrictSorted x) : Sorted x :=
  List.Pairwise.imp (fun h => le_of_lt h) h

theorem strict_get {x : List K} (hs : StrictSorted x) {i j : ℕ} (hij : i < j)
    {a b : K} (ha : x[i]? = some a) (hb : x[j]? = some b) : a < b := by
  obtain ⟨hi, rfl⟩ := List.getElem?_eq_some_iff.mp ha
  obtain ⟨hj, rfl⟩ := List.getElem?_eq_some_iff.mp hb
  exact List.pairwise_iff_getElem.mp hs i j hi hj hij

/-! ## C18 -/

/-- **C18.**  For any table of at least two points, sorted or not, none of the three searches reads
outside the table, the index returned is in the table, and for a query that is not reported out of range
the next entry is in the table too (except for `nearest_search`, whose index is already the answer). -/
theorem searches_stay_in_table (x : List K) (q : K) (h2 : 2 ≤ x.length) :
    (∃ r, bisectionSearch x q = some r ∧ r.idx < x.length ∧ (r.lim = .VALID → r.idx + 1 < x.length)) ∧
    (∀ hint, ∃ r, findIndex x q hint = some r ∧ r.idx < x.length ∧
      (r.lim = .VALID → r.idx + 1 < x.length)) ∧
    (∃ r, nearestSearch x q = some r ∧ r.idx < x.length) := by
  obtain ⟨x0, xn, h0, hn, hc⟩ := checkBounds_cases x q h2
  have hb : ∃ r, bisectionSearch x q = some r ∧ r.idx < x.length ∧
      (r.lim = .VALID → r.idx + 1 < x.length) := by
    rcases hc with ⟨a, _⟩ | ⟨a, b, _⟩ | ⟨a, b, _⟩
    · exact ⟨_, bisection_low x q h2 h0 a, by simp; omega, by simp⟩
    · exact ⟨_, bisection_high x q h2 h0 hn a b, by simp; omega, by simp⟩
    · obtain ⟨r, e, _, hr⟩ := bisection_inside x q h2 h0 hn a b
      exact ⟨_, e, by simp; omega, by simpa using hr⟩
  refine ⟨hb, ?_, ?_⟩
  · intro hint
    have hscan : ∀ it, scanFrom x q it + 1 < x.length := by
      intro it
      induction hk : x.length - it using Nat.strong_induction_on generalizing it with
      | _ n ih =>
        unfold scanFrom
        split
        · rename_i hl
          split
          · omega
          · exact ih (x.length - (it + 1)) (by omega) (it + 1) rfl
        · omega
    unfold findIndex
    rcases hc with ⟨_, e⟩ | ⟨_, _, e⟩ | ⟨_, _, e⟩ <;> rw [e]
    · exact ⟨_, rfl, by simp; omega, by simp⟩
    · exact ⟨_, rfl, by simp; omega, by simp⟩
    · have := hscan hint
      exact ⟨_, rfl, by simp; omega, by simpa using this⟩
  · obtain ⟨r, e, h1, h3⟩ := hb
    unfold nearestSearch
    rw [e]
    simp only
    split
    · exact ⟨r, rfl, h1⟩
    · rename_i hlim
      have hv : r.lim = .VALID := by rcases h : r.lim <;> simp_all
      have h4 := h3 hv
      rw [List.getElem?_eq_getElem h1, List.getElem?_eq_getElem h4]
      simp only
      split
      · exact ⟨_, rfl, h4⟩
      · exact ⟨r, rfl, h1⟩

/-- **C18.**  On a nondecreasing table `bisection_search` says "below" exactly for a query below the first
entry, "above" exactly for one above the last entry, and otherwise returns an index that brackets the
query; of all bracketing indices it is the smallest whose right end reaches the query. -/
theorem bisection_brackets (x : List K) (hs : Sorted x) (q : K) (h2 : 2 ≤ x.length) :
    ∃ x0 xn r, x[0]? = some x0 ∧ x[x.length - 1]? = some xn ∧ bisectionSearch x q = some r ∧
      (r.lim = .LOWLIM ↔ q < x0) ∧ (r.lim = .UPLIM ↔ xn < q) ∧
      (r.lim = .LOWLIM → r.idx = 0) ∧ (r.lim = .UPLIM → r.idx = x.length - 1) ∧
      (r.lim = .VALID → Brackets x q r.idx ∧
        ∀ (j : ℕ) (a : K), 1 ≤ j → j ≤ r.idx → x[j]? = some a → a < q) := by
  obtain ⟨x0, xn, h0, hn, hc⟩ := checkBounds_cases x q h2
  have h0n : x0 ≤ xn := sorted_get hs (Nat.zero_le _) h0 hn
  rcases hc with ⟨a, _⟩ | ⟨a, b, _⟩ | ⟨a, b, _⟩
  · refine ⟨x0, xn, _, h0, hn, bisection_low x q h2 h0 a, ?_, ?_, ?_, ?_, ?_⟩ <;> simp [a]
    exact (a.trans_le h0n).le
  · refine ⟨x0, xn, _, h0, hn, bisection_high x q h2 h0 hn a b, ?_, ?_, ?_, ?_, ?_⟩ <;> simp [a, b]
  · obtain ⟨r, e, el, hr⟩ := bisection_inside x q h2 h0 hn a b
    obtain ⟨k1, k2, k3⟩ := bisectLoop_sorted x hs q x0 h0 a 0 x.length (by omega) le_rfl
      (by intro c hc; rw [h0] at hc; injection hc with hc; rw [← hc]; exact a)
      (by omega) (by intro c hc; rw [List.getElem?_eq_none le_rfl] at hc; simp at hc) el
    refine ⟨x0, xn, _, h0, hn, e, ?_, ?_, ?_, ?_, ?_⟩
    · simp [a]
    · simp [b]
    · simp
    · simp
    · intro _
      have hr1 : r < x.length := by omega
      have g1 := List.getElem?_eq_getElem hr1
      have g2 := List.getElem?_eq_getElem hr
      refine ⟨⟨_, _, g1, g2, k1 _ g1, k3 _ g2⟩, ?_⟩
      intro j c hj1 hj2 hjc
      exact (sorted_get hs hj2 hjc g1).trans_lt (k2 (by simp only at hj2; omega) _ g1)

/-- **C18.**  `find_index` with the default hint gives the same answer as `bisection_search`, and so does
any hint that does not exceed the answer's right end. -/
theorem findIndex_eq_bisection (x : List K) (hs : Sorted x) (q : K) (h2 : 2 ≤ x.length) (hint : ℕ)
    (h1 : 1 ≤ hint) (hh : ∀ r, bisectionSearch x q = some r → r.lim = .VALID → hint ≤ r.idx + 1) :
    findIndex x q hint = bisectionSearch x q := by
  obtain ⟨x0, xn, r, h0, hn, e, ilow, iup, zlow, zup, hval⟩ := bisection_brackets x hs q h2
  obtain ⟨y0, yn, g0, gn, hc⟩ := checkBounds_cases x q h2
  rw [h0] at g0; injection g0 with g0; subst g0
  rw [hn] at gn; injection gn with gn; subst gn
  unfold findIndex
  rcases hc with ⟨a, c⟩ | ⟨a, b, c⟩ | ⟨a, b, c⟩ <;> rw [c]
  · rw [bisection_low x q h2 h0 a]; simp
  · rw [bisection_high x q h2 h0 hn a b]; simp
  · have hv : r.lim = .VALID := by
      rcases hl : r.lim
      · exact absurd (ilow.mp hl) (not_lt.mpr a)
      · exact absurd (iup.mp hl) (not_lt.mpr b)
      · rfl
    obtain ⟨⟨u, v, g1, g2, k1, k2⟩, hmin⟩ := hval hv
    have hlen : r.idx + 1 < x.length := (List.getElem?_eq_some_iff.mp g2).1
    have := scanFrom_spec x q hint (r.idx + 1) (hh r e hv) hlen
      (fun j c hj1 hj2 hjc => hmin j c (by omega) (by omega) hjc)
      (fun c hc => by rw [g2] at hc; injection hc with hc; rw [← hc]; exact k2)
    rw [e]
    simp only [reduceCtorEq, or_self, if_false, this]
    cases r
    simp_all

/-- **C18.**  For a query inside a nondecreasing table `nearest_search` returns an entry closest to the
query. -/
theorem nearest_is_nearest (x : List K) (hs : Sorted x) (q : K) (h2 : 2 ≤ x.length) {x0 xn : K}
    (h0 : x[0]? = some x0) (hn : x[x.length - 1]? = some xn) (hq0 : x0 ≤ q) (hqn : q ≤ xn) :
    ∃ r a, nearestSearch x q = some r ∧ r.lim = .VALID ∧ x[r.idx]? = some a ∧
      ∀ (j : ℕ) (b : K), x[j]? = some b → |q - a| ≤ |q - b| := by
  obtain ⟨y0, yn, r, g0, gn, e, ilow, iup, _, _, hval⟩ := bisection_brackets x hs q h2
  rw [h0] at g0; injection g0 with g0; subst g0
  rw [hn] at gn; injection gn with gn; subst gn
  have hv : r.lim = .VALID := by
    rcases hl : r.lim
    · exact absurd (ilow.mp hl) (not_lt.mpr hq0)
    · exact absurd (iup.mp hl) (not_lt.mpr hqn)
    · rfl
  obtain ⟨⟨u, v, g1, g2, k1, k2⟩, _⟩ := hval hv
  have hother : ∀ (j : ℕ) (b : K), x[j]? = some b → b ≤ u ∨ v ≤ b := by
    intro j b hj
    rcases Nat.lt_or_ge r.idx j with h | h
    · exact Or.inr (sorted_get hs h g2 hj)
    · exact Or.inl (sorted_get hs h hj g1)
  have au : |q - u| = q - u := abs_of_nonneg (by linarith)
  have av : |q - v| = v - q := by rw [abs_sub_comm]; exact abs_of_nonneg (by linarith)
  have hfar : ∀ (j : ℕ) (b : K), x[j]? = some b → q - u ≤ |q - b| ∨ v - q ≤ |q - b| := by
    intro j b hj
    rcases hother j b hj with h | h
    · left; exact le_trans (by linarith) (le_abs_self (q - b))
    · right; rw [abs_sub_comm]; exact le_trans (by linarith) (le_abs_self (b - q))
  unfold nearestSearch
  rw [e]
  simp only [hv, reduceCtorEq, or_self, if_false, g1, g2]
  by_cases hc : v - q < q - u
  · refine ⟨_, v, if_pos hc, rfl, g2, fun j b hj => ?_⟩
    rw [av]
    rcases hfar j b hj with h | h
    · linarith
    · exact h
  · refine ⟨_, u, if_neg hc, hv, g1, fun j b hj => ?_⟩
    rw [au]
    rcases hfar j b hj with h | h
    · exact h
    · push Not at hc; linarith

/-- A concrete table. -/
example : Sorted [(0 : ℚ), 1, 3, 7] ∧ bisectionSearch [(0 : ℚ), 1, 3, 7] 2 = some ⟨1, .VALID⟩ ∧
    bisectionSearch [(0 : ℚ), 1, 3, 7] 9 = some ⟨3, .UPLIM⟩ ∧
    nearestSearch [(0 : ℚ), 1, 3, 7] (11 / 4) = some ⟨2, .VALID⟩ := by
  refine ⟨by unfold Sorted; decide +kernel, ?_, ?_, ?_⟩ <;> decide +kernel

/-! ## C19 -/

/-- The table of component `comp` matches the table of points. -/
def Matches (x y : List K) (ncomp comp : ℕ) : Prop := y.length = ncomp * x.length ∧ comp < ncomp

theorem Matches.get {x y : List K} {nc c : ℕ} (h : Matches x y nc c) {i : ℕ} (hi : i < x.length) :
    ∃ v, y[nc * i + c]? = some v := by
  have : nc * i + c < y.length := by
    rw [h.1]
    calc nc * i + c < nc * i + nc := by have := h.2; omega
      _ = nc * (i + 1) := by ring
      _ ≤ nc * x.length := Nat.mul_le_mul_left _ hi
  exact ⟨_, List.getElem?_eq_getElem this⟩

/-- What `interp::linear` computes on a nondecreasing table: one of three cases. -/
theorem linear_cases (x y : List K) (hs : Sorted x) (nc c : ℕ) (hm : Matches x y nc c)
    (h2 : 2 ≤ x.length) (q : K) :
    ∃ x0 xn y0 yn, x[0]? = some x0 ∧ x[x.length - 1]? = some xn ∧ y[c]? = some y0 ∧
      y[nc * (x.length - 1) + c]? = some yn ∧
      ((q < x0 ∧ linear x y q nc c = some y0) ∨ (xn < q ∧ linear x y q nc c = some yn) ∨
        (x0 ≤ q ∧ q ≤ xn ∧ ∃ r xl xr yl yr, x[r]? = some xl ∧ x[r + 1]? = some xr ∧
          y[nc * r + c]? = some yl ∧ y[nc * (r + 1) + c]? = some yr ∧ xl ≤ q ∧ q ≤ xr ∧
          (1 ≤ r → xl < q) ∧
          linear x y q nc c = some ((1 - wR xl xr q) * yl + wR xl xr q * yr))) := by
  obtain ⟨x0, xn, r, h0, hn, e, ilow, iup, zlow, zup, hval⟩ := bisection_brackets x hs q h2
  obtain ⟨y0, hy0⟩ := hm.get (i := 0) (by omega)
  obtain ⟨yn, hyn⟩ := hm.get (i := x.length - 1) (by omega)
  rw [Nat.mul_zero, Nat.zero_add] at hy0
  refine ⟨x0, xn, y0, yn, h0, hn, hy0, hyn, ?_⟩
  unfold linear
  rw [e]
  simp only
  rcases hl : r.lim
  · left
    refine ⟨ilow.mp hl, ?_⟩
    unfold linearImpl
    rw [if_pos (Or.inl hl), zlow hl, Nat.mul_zero, Nat.zero_add, hy0]
  · right; left
    refine ⟨iup.mp hl, ?_⟩
    unfold linearImpl
    rw [if_pos (Or.inr hl), zup hl, hyn]
  · right; right
    obtain ⟨⟨u, v, g1, g2, k1, k2⟩, hmin⟩ := hval hl
    have hlen : r.idx + 1 < x.length := (List.getElem?_eq_some_iff.mp g2).1
    obtain ⟨yl, hyl⟩ := hm.get (i := r.idx) (by omega)
    obtain ⟨yr, hyr⟩ := hm.get (i := r.idx + 1) hlen
    refine ⟨?_, ?_, r.idx, u, v, yl, yr, g1, g2, hyl, hyr, k1, k2, ?_, ?_⟩
    · by_contra hcon; push Not at hcon; rw [ilow.mpr hcon] at hl; simp at hl
    · by_contra hcon; push Not at hcon; rw [iup.mpr hcon] at hl; simp at hl
    · intro h1; exact hmin r.idx u h1 le_rfl g1
    · unfold linearImpl
      rw [if_neg (by simp [hl])]
      exact interpCell_eq x y q r.idx nc c g1 g2 hyl hyr

/-- **C19.**  `interp::linear` never reads outside its tables, clamps outside the range, and inside the
range the result lies between the two neighbouring table values. -/
theorem linear_bounded (x y : List K) (hs : Sorted x) (nc c : ℕ) (hm : Matches x y nc c)
    (h2 : 2 ≤ x.length) (q : K) :
    ∃ v, linear x y q nc c = some v ∧
      (∀ x0, x[0]? = some x0 → q < x0 → y[c]? = some v) ∧
      (∀ xn, x[x.length - 1]? = some xn → xn < q → y[nc * (x.length - 1) + c]? = some v) ∧
      (∀ x0 xn, x[0]? = some x0 → x[x.length - 1]? = some xn → x0 ≤ q → q ≤ xn →
        ∃ i yl yr, Brackets x q i ∧ y[nc * i + c]? = some yl ∧ y[nc * (i + 1) + c]? = some yr ∧
          min yl yr ≤ v ∧ v ≤ max yl yr) := by
  obtain ⟨x0, xn, y0, yn, h0, hn, hy0, hyn, hc⟩ := linear_cases x y hs nc c hm h2 q
  have h0n : x0 ≤ xn := sorted_get hs (Nat.zero_le _) h0 hn
  rcases hc with ⟨a, e⟩ | ⟨a, e⟩ | ⟨a, b, r, xl, xr, yl, yr, g1, g2, g3, g4, k1, k2, _, e⟩
  · refine ⟨_, e, fun _ _ _ => hy0, ?_, ?_⟩
    · intro z hz hlt; rw [hn] at hz; injection hz with hz; subst hz
      exact absurd (hlt.trans (a.trans_le h0n)) (lt_irrefl _)
    · intro z z' hz _ hle; rw [h0] at hz; injection hz with hz; subst hz
      exact absurd a (not_lt.mpr hle)
  · refine ⟨_, e, ?_, fun _ _ _ => hyn, ?_⟩
    · intro z hz hlt; rw [h0] at hz; injection hz with hz; subst hz
      exact absurd (a.trans (hlt.trans_le h0n)) (lt_irrefl _)
    · intro z z' _ hz _ hle; rw [hn] at hz; injection hz with hz; subst hz
      exact absurd a (not_lt.mpr hle)
  · refine ⟨_, e, ?_, ?_, ?_⟩
    · intro z hz hlt; rw [h0] at hz; injection hz with hz; subst hz; exact absurd hlt (not_lt.mpr a)
    · intro z hz hlt; rw [hn] at hz; injection hz with hz; subst hz; exact absurd hlt (not_lt.mpr b)
    · intro _ _ _ _ _ _
      obtain ⟨l, u⟩ := convex_between (a := yl) (b := yr) (wR_nonneg k1) (wR_le_one (xl := xl) k2)
      exact ⟨r, yl, yr, ⟨xl, xr, g1, g2, k1, k2⟩, g3, g4, l, u⟩

/-- **C19.**  At a node the table value is returned. -/
theorem linear_at_node (x y : List K) (hs : StrictSorted x) (hsp : Spaced x) (nc c : ℕ)
    (hm : Matches x y nc c) (h2 : 2 ≤ x.length) {k : ℕ} {q v : K} (hk : x[k]? = some q)
    (hv : y[nc * k + c]? = some v) : linear x y q nc c = some v := by
  obtain ⟨x0, xn, y0, yn, h0, hn, hy0, hyn, hc⟩ := linear_cases x y hs.sorted nc c hm h2 q
  have hkl := (List.getElem?_eq_some_iff.mp hk).1
  have l0 : x0 ≤ q := sorted_get hs.sorted (Nat.zero_le _) h0 hk
  have ln : q ≤ xn := sorted_get hs.sorted (by omega) hk hn
  rcases hc with ⟨a, e⟩ | ⟨a, e⟩ | ⟨a, b, r, xl, xr, yl, yr, g1, g2, g3, g4, k1, k2, k3, e⟩
  · exact absurd a (not_lt.mpr l0)
  · exact absurd a (not_lt.mpr ln)
  · rw [e]
    have hkr : k = r ∨ k = r + 1 := by
      by_contra hcon
      push Not at hcon
      rcases Nat.lt_or_ge k r with h | h
      · exact absurd (strict_get hs h hk g1) (not_lt.mpr k1)
      · exact absurd (strict_get hs (show r + 1 < k by omega) g2 hk) (not_lt.mpr k2)
    rcases hkr with rfl | rfl
    · rw [hk] at g1; injection g1 with g1; subst g1
      rw [hv] at g3; injection g3 with g3; subst g3
      rw [wR_left (hsp _ _ _ hk g2)]; simp
    · rw [hk] at g2; injection g2 with g2; subst g2
      rw [hv] at g4; injection g4 with g4; subst g4
      rw [wR_right]; simp

/-- **C19.**  Affine data are reproduced inside the range. -/
theorem linear_affine (x y : List K) (hs : StrictSorted x) (hsp : Spaced x) (nc c : ℕ)
    (hm : Matches x y nc c) (h2 : 2 ≤ x.length) (a b : K)
    (hy : ∀ i u, x[i]? = some u → y[nc * i + c]? = some (a * u + b)) {q x0 xn : K}
    (h0 : x[0]? = some x0) (hn : x[x.length - 1]? = some xn) (hq0 : x0 ≤ q) (hqn : q ≤ xn) :
    linear x y q nc c = some (a * q + b) := by
  obtain ⟨z0, zn, y0, yn, g0, gn, hy0, hyn, hc⟩ := linear_cases x y hs.sorted nc c hm h2 q
  rw [h0] at g0; injection g0 with g0; subst g0
  rw [hn] at gn; injection gn with gn; subst gn
  rcases hc with ⟨h, e⟩ | ⟨h, e⟩ | ⟨_, _, r, xl, xr, yl, yr, g1, g2, g3, g4, k1, k2, k3, e⟩
  · exact absurd h (not_lt.mpr hq0)
  · exact absurd h (not_lt.mpr hqn)
  · rw [e]
    rw [hy r xl g1] at g3; injection g3 with g3
    rw [hy (r + 1) xr g2] at g4; injection g4 with g4
    congr 1
    have := wR_eq (q := q) (hsp _ _ _ g1 g2)
    rw [← g3, ← g4]
    linear_combination a * this

/-- **C19.**  Monotone data are interpolated monotonically (clamping included). -/
theorem linear_monotone (x y : List K) (hs : Sorted x) (nc c : ℕ) (hm : Matches x y nc c)
    (h2 : 2 ≤ x.length)
    (hy : ∀ i j u v, i ≤ j → y[nc * i + c]? = some u → y[nc * j + c]? = some v → u ≤ v)
    {q q' v v' : K} (hq : q ≤ q') (e : linear x y q nc c = some v) (e' : linear x y q' nc c = some v') :
    v ≤ v' := by
  obtain ⟨x0, xn, y0, yn, h0, hn, hy0, hyn, hc⟩ := linear_cases x y hs nc c hm h2 q
  obtain ⟨z0, zn, w0, wn, g0, gn, hw0, hwn, hc'⟩ := linear_cases x y hs nc c hm h2 q'
  rw [h0] at g0; injection g0 with g0; subst g0
  rw [hn] at gn; injection gn with gn; subst gn
  rw [hy0] at hw0; injection hw0 with hw0; subst hw0
  rw [hyn] at hwn; injection hwn with hwn; subst hwn
  have h0n : x0 ≤ xn := sorted_get hs (Nat.zero_le _) h0 hn
  have hy0' : y[nc * 0 + c]? = some y0 := by simpa using hy0
  -- every value lies between the first and the last
  have hlo : ∀ r yl yr w, y[nc * r + c]? = some yl → y[nc * (r + 1) + c]? = some yr → 0 ≤ w → w ≤ 1 →
      y0 ≤ (1 - w) * yl + w * yr := by
    intro r yl yr w a b w0 w1
    have h1 := hy 0 r y0 yl (Nat.zero_le _) hy0' a
    have h3 := hy 0 (r + 1) y0 yr (Nat.zero_le _) hy0' b
    exact le_trans (le_min h1 h3) (convex_between w0 w1).1
  have hhi : ∀ r xr yl yr w, x[r + 1]? = some xr → y[nc * r + c]? = some yl →
      y[nc * (r + 1) + c]? = some yr → 0 ≤ w → w ≤ 1 → (1 - w) * yl + w * yr ≤ yn := by
    intro r xr yl yr w hx a b w0 w1
    have hlen := (List.getElem?_eq_some_iff.mp hx).1
    have h1 := hy r (x.length - 1) yl yn (by omega) a hyn
    have h3 := hy (r + 1) (x.length - 1) yr yn (by omega) b hyn
    exact le_trans (convex_between w0 w1).2 (max_le h1 h3)
  rcases hc with ⟨a, f⟩ | ⟨a, f⟩ | ⟨a, b, r, xl, xr, yl, yr, g1, g2, g3, g4, k1, k2, k3, f⟩
  · rw [e] at f; injection f with f; subst f
    rcases hc' with ⟨a', f'⟩ | ⟨a', f'⟩ | ⟨a', b', r', xl', xr', yl', yr', m1, m2, m3, m4, l1, l2, l3, f'⟩
    · rw [e'] at f'; injection f' with f'; rw [f']
    · rw [e'] at f'; injection f' with f'; rw [f']
      exact hy 0 (x.length - 1) v yn (Nat.zero_le _) hy0' hyn
    · rw [e'] at f'; injection f' with f'; rw [f']
      exact hlo _ _ _ _ m3 m4 (wR_nonneg l1) (wR_le_one l2)
  · rw [e] at f; injection f with f; subst f
    rcases hc' with ⟨a', f'⟩ | ⟨a', f'⟩ | ⟨a', b', _⟩
    · exact absurd (a.trans_le hq) (not_lt.mpr (a'.le.trans h0n))
    · rw [e'] at f'; injection f' with f'; rw [f']
    · exact absurd (a.trans_le hq) (not_lt.mpr b')
  · rw [e] at f; injection f with f; subst f
    rcases hc' with ⟨a', f'⟩ | ⟨a', f'⟩ | ⟨a', b', r', xl', xr', yl', yr', m1, m2, m3, m4, l1, l2, l3, f'⟩
    · exact absurd (a.trans hq) (not_le.mpr a')
    · rw [e'] at f'; injection f' with f'; rw [f']
      exact hhi _ _ _ _ _ g2 g3 g4 (wR_nonneg k1) (wR_le_one k2)
    · rw [e'] at f'; injection f' with f'; rw [f']
      have hrr : r ≤ r' := by
        by_contra hcon
        push Not at hcon
        have h5 := sorted_get hs (show r' + 1 ≤ r by omega) m2 g1
        have h6 := k3 (by omega)
        linarith
      rcases eq_or_lt_of_le hrr with rfl | hlt
      · rw [g1] at m1; injection m1 with m1; subst m1
        rw [g2] at m2; injection m2 with m2; subst m2
        rw [g3] at m3; injection m3 with m3; subst m3
        rw [g4] at m4; injection m4 with m4; subst m4
        have hw := wR_mono (xl := xl) (xr := xr) hq
        have hd := hy r (r + 1) yl yr (by omega) g3 g4
        nlinarith
      · have h7 := hy r (r + 1) yl yr (by omega) g3 g4
        have h8 := hy (r + 1) r' yr yl' (by omega) g4 m3
        have h9 := hy r' (r' + 1) yl' yr' (by omega) m3 m4
        have c1 := (convex_between (a := yl) (b := yr) (wR_nonneg k1) (wR_le_one (xl := xl) k2)).2
        have c2 := (convex_between (a := yl') (b := yr') (wR_nonneg l1) (wR_le_one (xl := xl') l2)).1
        rw [max_eq_right h7] at c1
        rw [min_eq_left h9] at c2
        linarith

/-- A concrete table meeting all hypotheses of C19, with two components. -/
example : StrictSorted [(0 : ℚ), 1, 3] ∧ Matches [(0 : ℚ), 1, 3] [0, 10, 2, 12, 6, 16] 2 1 ∧
    linear [(0 : ℚ), 1, 3] [0, 10, 2, 12, 6, 16] 2 2 1 = some 14 := by
  refine ⟨by unfold StrictSorted; decide +kernel, ⟨rfl, by decide⟩, by decide +kernel⟩

example : Spaced [(0 : ℚ), 1, 3] := by
  intro i a b h1 h2
  rcases i with _ | _ | _ | i
  · simp at h1 h2; subst h1; subst h2; decide +kernel
  · simp at h1 h2; subst h1; subst h2; decide +kernel
  · simp at h2
  · simp at h2

/-- Without the spacing hypothesis exactness at the nodes fails: with a first interval of 10⁻⁸ the query
at the first node returns the second value. -/
theorem linear_node_fails_tiny_spacing :
    StrictSorted [(0 : ℚ), 1 / 100000000, 1] ∧ Matches [(0 : ℚ), 1 / 100000000, 1] [5, 6, 7] 1 0 ∧
    linear [(0 : ℚ), 1 / 100000000, 1] [5, 6, 7] 0 1 0 = some 6 := by
  refine ⟨by unfold StrictSorted; decide +kernel, ⟨rfl, by decide⟩, by decide +kernel⟩

/-- A single-point table is constant; an empty point table still reads the first value. -/
theorem linear_short_table (x y : List K) (q : K) (nc c : ℕ) (h : x.length < 2) :
    linear x y q nc c = y[c]? := linear_small x y q nc c h

/-! ## C20 -/

theorem monotonicFrom_eq (x y : List K) (hs : Sorted x) (nc c : ℕ) (h2 : 2 ≤ x.length)
    (qs : List K) (hq : qs.Pairwise (· ≤ ·)) (hint : ℕ) (h1 : 1 ≤ hint)
    (hh : ∀ q ∈ qs, ∀ r, bisectionSearch x q = some r → r.lim = .VALID → hint ≤ r.idx + 1) :
    monotonicFrom x y nc c qs hint = linearVec x y qs nc c := by
  induction qs generalizing hint with
  | nil => rfl
  | cons q qs ih =>
    rw [List.pairwise_cons] at hq
    have hf := findIndex_eq_bisection x hs q h2 hint h1 (hh q List.mem_cons_self)
    obtain ⟨x0, xn, r, h0, hn, e, ilow, iup, zlow, zup, hval⟩ := bisection_brackets x hs q h2
    have h0n : x0 ≤ xn := sorted_get hs (Nat.zero_le _) h0 hn
    unfold monotonicFrom linearVec
    rw [hf, e]
    simp only [List.map_cons, linear, e]
    congr 1
    refine ih hq.2 (r.idx + 1) (by omega) ?_
    intro q' hq' r' e' hv'
    have hle := hq.1 q' hq'
    obtain ⟨x0', xn', r'', h0', hn', e'', ilow', iup', _, _, hval'⟩ := bisection_brackets x hs q' h2
    rw [h0] at h0'; injection h0' with h0'; subst h0'
    rw [hn] at hn'; injection hn' with hn'; subst hn'
    rw [e'] at e''; injection e'' with e''; subst e''
    obtain ⟨⟨u, v, g1, g2, k1, k2⟩, hmin⟩ := hval' hv'
    rcases hl : r.lim
    · rw [zlow hl]; omega
    · exfalso
      have := iup'.mpr ((iup.mp hl).trans_le hle)
      rw [hv'] at this; simp at this
    · obtain ⟨⟨u0, v0, g10, g20, k10, k20⟩, hmin0⟩ := hval hl
      by_contra hcon
      push Not at hcon
      have h5 := sorted_get hs (show r'.idx + 1 ≤ r.idx by omega) g2 g10
      have h6 := hmin0 r.idx u0 (by omega) le_rfl g10
      linarith

/-- **C20.**  For nondecreasing queries `linear_monotonic` gives, query by query, exactly what
`interp::linear` gives. -/
theorem linear_monotonic_eq_linear (x y : List K) (hs : Sorted x) (nc c : ℕ) (h2 : 2 ≤ x.length)
    (qs : List K) (hq : qs.Pairwise (· ≤ ·)) :
    linearMonotonic x y qs nc c = linearVec x y qs nc c :=
  monotonicFrom_eq x y hs nc c h2 qs hq 1 le_rfl (fun _ _ _ _ _ => by omega)

/-- A concrete case. -/
example : Sorted [(0 : ℚ), 1, 3] ∧ ([-1, 0, 1 / 2, 2, 2, 5] : List ℚ).Pairwise (· ≤ ·) ∧
    linearMonotonic [(0 : ℚ), 1, 3] [0, 2, 6] [-1, 0, 1 / 2, 2, 2, 5] 1 0 =
      [some 0, some 0, some 1, some 4, some 4, some 6] := by
  refine ⟨by unfold Sorted; decide +kernel, by decide +kernel, by decide +kernel⟩

/-- For unsorted queries the results differ: the second query 1/2 is extrapolated from the wrong cell. -/
theorem linear_monotonic_unsorted_differs :
    linearMonotonic [(0 : ℚ), 1, 3] [0, 2, 3] [2, 1 / 2] 1 0 ≠
      linearVec [(0 : ℚ), 1, 3] [0, 2, 3] [2, 1 / 2] 1 0 := by decide +kernel

/-! ## C21 -/

section Angle
variable [FloorRing K]

theorem fmod_eq (a b : K) : fmod a b = a - b * (trunc (a / b) : K) := rfl

/-- `fmod` has absolute value below `|b|` and the sign of `a`. -/
theorem fmod_nonneg {a b : K} (hb : 0 < b) (ha : 0 ≤ a) : 0 ≤ fmod a b ∧ fmod a b < b := by
  unfold fmod trunc
  rw [if_pos (div_nonneg ha hb.le)]
  have h1 := Int.floor_le (a / b)
  have h2 := Int.lt_floor_add_one (a / b)
  rw [le_div_iff₀ hb] at h1
  rw [div_lt_iff₀ hb] at h2
  constructor <;> nlinarith

theorem fmod_neg {a b : K} (hb : 0 < b) (ha : a < 0) : -b < fmod a b ∧ fmod a b ≤ 0 := by
  unfold fmod trunc
  rw [if_neg (not_le.mpr (div_neg_of_neg_of_pos ha hb))]
  have h1 := Int.le_ceil (a / b)
  have h2 := Int.ceil_lt_add_one (a / b)
  rw [div_le_iff₀ hb] at h1
  have h3 : ((⌈a / b⌉ : K) - 1) * b < a := by rw [← lt_div_iff₀ hb]; linarith
  constructor <;> nlinarith

/-- **C21.**  The wrapped difference of two angles differs from the plain one by a multiple of the upper
bound and lies in `[-ub/2, ub/2)`. -/
theorem angleDiff_spec (ya yb : K) {ub : K} (hub : 0 < ub) :
    (∃ k : ℤ, angleDiff ya yb ub = yb - ya + k * ub) ∧
    -(ub / 2) ≤ angleDiff ya yb ub ∧ angleDiff ya yb ub < ub / 2 := by
  have hin : -ub < fmod (yb - ya) ub ∧ fmod (yb - ya) ub < ub := by
    rcases le_or_gt 0 (yb - ya) with h | h
    · have := fmod_nonneg hub h; exact ⟨by linarith, this.2⟩
    · have := fmod_neg hub h; exact ⟨this.1, by linarith⟩
  have hout := fmod_nonneg hub (show 0 ≤ fmod (yb - ya) ub + 3 / 2 * ub by linarith)
  refine ⟨⟨1 - trunc ((yb - ya) / ub) - trunc ((fmod (yb - ya) ub + 3 / 2 * ub) / ub), ?_⟩, ?_, ?_⟩
  · unfold angleDiff
    rw [fmod_eq (fmod (yb - ya) ub + 3 / 2 * ub) ub]
    rw [show fmod (yb - ya) ub + 3 / 2 * ub - ub * (trunc ((fmod (yb - ya) ub + 3 / 2 * ub) / ub) : K) -
      1 / 2 * ub = fmod (yb - ya) ub + ub -
        ub * (trunc ((fmod (yb - ya) ub + 3 / 2 * ub) / ub) : K) by ring]
    conv_lhs => rw [show fmod (yb - ya) ub + ub = (yb - ya) - ub * (trunc ((yb - ya) / ub) : K) + ub from rfl]
    push_cast
    ring
  · unfold angleDiff; linarith [hout.1]
  · unfold angleDiff; linarith [hout.2]

/-- **C21.**  The wrapped difference is a shortest way round: no equivalent difference is smaller. -/
theorem angleDiff_shortest (ya yb : K) {ub : K} (hub : 0 < ub) (m : ℤ) :
    |angleDiff ya yb ub| ≤ |yb - ya + m * ub| := by
  obtain ⟨⟨k, hk⟩, h1, h2⟩ := angleDiff_spec ya yb hub
  have habs : |angleDiff ya yb ub| ≤ ub / 2 := abs_le.mpr ⟨h1, h2.le⟩
  have hd : yb - ya + m * ub = angleDiff ya yb ub + ((m - k : ℤ) : K) * ub := by
    rw [hk]; push_cast; ring
  rw [hd]
  rcases lt_trichotomy (m - k) 0 with h | h | h
  · have h3 : ((m - k : ℤ) : K) ≤ -1 := by exact_mod_cast (by omega : m - k ≤ -1)
    have h4 : angleDiff ya yb ub + ((m - k : ℤ) : K) * ub ≤ -(ub / 2) := by nlinarith
    rw [abs_of_nonpos (a := angleDiff ya yb ub + _) (by linarith)]
    linarith
  · rw [h]; simp
  · have h3 : (1 : K) ≤ ((m - k : ℤ) : K) := by exact_mod_cast (by omega : 1 ≤ m - k)
    have h4 : ub / 2 ≤ angleDiff ya yb ub + ((m - k : ℤ) : K) * ub := by nlinarith
    rw [abs_of_nonneg (a := angleDiff ya yb ub + _) (by linarith)]
    linarith

/-- **C21.**  `linear_angle` inside a nondecreasing table returns `yl + t*d`, where `d` is the shortest
signed way from the left to the right neighbouring angle and `0 ≤ t ≤ 1` is the relative position. -/
theorem linear_angle_short_way (x y : List K) (hs : Sorted x) (hsp : Spaced x)
    (hlen : y.length = x.length) (h2 : 2 ≤ x.length) {ub : K} (hub : 0 < ub) {q x0 xn : K}
    (h0 : x[0]? = some x0) (hn : x[x.length - 1]? = some xn) (hq0 : x0 ≤ q) (hqn : q ≤ xn) :
    ∃ i xl xr yl yr t d, x[i]? = some xl ∧ x[i + 1]? = some xr ∧ y[i]? = some yl ∧
      y[i + 1]? = some yr ∧ xl ≤ q ∧ q ≤ xr ∧ 0 ≤ t ∧ t ≤ 1 ∧ t * (xr - xl) = q - xl ∧
      (∃ k : ℤ, d = yr - yl + k * ub) ∧ |d| ≤ ub / 2 ∧ (∀ m : ℤ, |d| ≤ |yr - yl + m * ub|) ∧
      linearAngle x y q ub = some (yl + t * d) := by
  obtain ⟨z0, zn, r, g0, gn, e, ilow, iup, _, _, hval⟩ := bisection_brackets x hs q h2
  rw [h0] at g0; injection g0 with g0; subst g0
  rw [hn] at gn; injection gn with gn; subst gn
  have hv : r.lim = .VALID := by
    rcases hl : r.lim
    · exact absurd (ilow.mp hl) (not_lt.mpr hq0)
    · exact absurd (iup.mp hl) (not_lt.mpr hqn)
    · rfl
  obtain ⟨⟨u, v, g1, g2, k1, k2⟩, _⟩ := hval hv
  have hl2 : r.idx + 1 < y.length := by rw [hlen]; exact (List.getElem?_eq_some_iff.mp g2).1
  have hl1 : r.idx < y.length := by omega
  have m1 := List.getElem?_eq_getElem hl1
  have m2 := List.getElem?_eq_getElem hl2
  obtain ⟨hk, l1, l2⟩ := angleDiff_spec y[r.idx] y[r.idx + 1] hub
  have hsp' := hsp _ _ _ g1 g2
  refine ⟨r.idx, u, v, y[r.idx], y[r.idx + 1], wR u v q, angleDiff y[r.idx] y[r.idx + 1] ub, g1, g2,
    m1, m2, k1, k2, wR_nonneg k1, wR_le_one k2, wR_eq hsp', hk, abs_le.mpr ⟨l1, l2.le⟩,
    angleDiff_shortest _ _ hub, ?_⟩
  unfold linearAngle
  rw [e]
  simp only [hv, reduceCtorEq, or_self, if_false, g1, g2, m1, m2]
  rw [if_pos hsp']
  unfold wR
  rw [if_pos hsp', mul_comm]

/-- **C21.**  At every node the result equals the table angle modulo the upper bound. -/
theorem linear_angle_at_node (x y : List K) (hs : StrictSorted x) (hsp : Spaced x)
    (hlen : y.length = x.length) (h2 : 2 ≤ x.length) {ub : K} (hub : 0 < ub) {k : ℕ} {q v : K}
    (hk : x[k]? = some q) (hv : y[k]? = some v) :
    ∃ m : ℤ, linearAngle x y q ub = some (v + m * ub) := by
  have hkl := (List.getElem?_eq_some_iff.mp hk).1
  have l0 : 0 < x.length := by omega
  have ln : x.length - 1 < x.length := by omega
  obtain ⟨i, xl, xr, yl, yr, t, d, g1, g2, m1, m2, k1, k2, _, _, ht, ⟨j, hj⟩, _, _, e⟩ :=
    linear_angle_short_way x y hs.sorted hsp hlen h2 hub (List.getElem?_eq_getElem l0)
      (List.getElem?_eq_getElem ln)
      (sorted_get hs.sorted (Nat.zero_le _) (List.getElem?_eq_getElem l0) hk)
      (sorted_get hs.sorted (show k ≤ x.length - 1 by omega) hk (List.getElem?_eq_getElem ln))
  have hpos : 0 < xr - xl := eps_pos.trans (hsp _ _ _ g1 g2)
  have hki : k = i ∨ k = i + 1 := by
    by_contra hcon
    push Not at hcon
    rcases Nat.lt_or_ge k i with h | h
    · exact absurd (strict_get hs h hk g1) (not_lt.mpr k1)
    · exact absurd (strict_get hs (show i + 1 < k by omega) g2 hk) (not_lt.mpr k2)
  rw [e]
  rcases hki with rfl | rfl
  · rw [hk] at g1; injection g1 with g1; subst g1
    rw [hv] at m1; injection m1 with m1; subst m1
    have : t = 0 := by
      rw [sub_self] at ht
      exact (mul_eq_zero.mp ht).resolve_right hpos.ne'
    exact ⟨0, by rw [this]; simp⟩
  · rw [hk] at g2; injection g2 with g2; subst g2
    rw [hv] at m2; injection m2 with m2; subst m2
    have : t = 1 := by
      have := mul_right_cancel₀ hpos.ne' (ht.trans (one_mul _).symm)
      exact this
    refine ⟨j, ?_⟩
    rw [this, hj]
    congr 1
    ring

end Angle

/-- Concrete case: from 350° to 10° the way is +20°, half way is 360°.  The result is not wrapped back
into `[0, 360)`. -/
example : linearAngle [(0 : ℚ), 1] [350, 10] (1 / 2) 360 = some 360 := by decide +kernel

/-! ## C22 -/

/-- What a table of values on a grid is: `z[i*ny + j]` exists for all grid indices. -/
theorem grid_get {z : List K} {nx ny i j : ℕ} (hz : nx * ny = z.length) (hi : i < nx) (hj : j < ny) :
    ∃ v, z[i * ny + j]? = some v := by
  have : i * ny + j < z.length := by
    rw [← hz]
    calc i * ny + j < i * ny + ny := by omega
      _ = (i + 1) * ny := by ring
      _ ≤ nx * ny := Nat.mul_le_mul_right _ hi
  exact ⟨_, List.getElem?_eq_getElem this⟩

/-- What `interp::bilinear` computes for a query inside the table. -/
theorem bilinear_inside (x y z : List K) (hx : Sorted x) (hy : Sorted y) (hx2 : 2 ≤ x.length)
    (hy2 : 2 ≤ y.length) (hz : x.length * y.length = z.length) {qx qy x0 xn y0 yn : K}
    (hx0 : x[0]? = some x0) (hxn : x[x.length - 1]? = some xn) (hy0 : y[0]? = some y0)
    (hyn : y[y.length - 1]? = some yn) (a0 : x0 ≤ qx) (an : qx ≤ xn) (b0 : y0 ≤ qy) (bn : qy ≤ yn) :
    ∃ i j xl xr yl yr z00 z10 z01 z11, x[i]? = some xl ∧ x[i + 1]? = some xr ∧ y[j]? = some yl ∧
      y[j + 1]? = some yr ∧ xl ≤ qx ∧ qx ≤ xr ∧ yl ≤ qy ∧ qy ≤ yr ∧
      z[i * y.length + j]? = some z00 ∧ z[(i + 1) * y.length + j]? = some z10 ∧
      z[i * y.length + (j + 1)]? = some z01 ∧ z[(i + 1) * y.length + (j + 1)]? = some z11 ∧
      bilinear x y z qx qy = some ((1 - wR yl yr qy) * ((1 - wR xl xr qx) * z00 + wR xl xr qx * z10) +
        wR yl yr qy * ((1 - wR xl xr qx) * z01 + wR xl xr qx * z11)) := by
  obtain ⟨u0, un, rx, g0, gn, ex, ilx, iux, _, _, hvx⟩ := bisection_brackets x hx qx hx2
  rw [hx0] at g0; injection g0 with g0; subst g0
  rw [hxn] at gn; injection gn with gn; subst gn
  obtain ⟨v0, vn, ry, g0, gn, ey, ily, iuy, _, _, hvy⟩ := bisection_brackets y hy qy hy2
  rw [hy0] at g0; injection g0 with g0; subst g0
  rw [hyn] at gn; injection gn with gn; subst gn
  have hv : rx.lim = .VALID := by
    rcases hl : rx.lim
    · exact absurd (ilx.mp hl) (not_lt.mpr a0)
    · exact absurd (iux.mp hl) (not_lt.mpr an)
    · rfl
  have hv' : ry.lim = .VALID := by
    rcases hl : ry.lim
    · exact absurd (ily.mp hl) (not_lt.mpr b0)
    · exact absurd (iuy.mp hl) (not_lt.mpr bn)
    · rfl
  obtain ⟨⟨xl, xr, g1, g2, k1, k2⟩, _⟩ := hvx hv
  obtain ⟨⟨yl, yr, g3, g4, k3, k4⟩, _⟩ := hvy hv'
  have li := (List.getElem?_eq_some_iff.mp g2).1
  have lj := (List.getElem?_eq_some_iff.mp g4).1
  obtain ⟨z00, h00⟩ := grid_get hz (i := rx.idx) (j := ry.idx) (by omega) (by omega)
  obtain ⟨z10, h10⟩ := grid_get hz (i := rx.idx + 1) (j := ry.idx) li (by omega)
  obtain ⟨z01, h01⟩ := grid_get hz (i := rx.idx) (j := ry.idx + 1) (by omega) lj
  obtain ⟨z11, h11⟩ := grid_get hz (i := rx.idx + 1) (j := ry.idx + 1) li lj
  refine ⟨rx.idx, ry.idx, xl, xr, yl, yr, z00, z10, z01, z11, g1, g2, g3, g4, k1, k2, k3, k4, h00, h10,
    h01, h11, ?_⟩
  unfold bilinear
  rw [if_neg (not_not.mpr hz), ex, ey]
  simp only [bilinearImpl, hv, hv', reduceCtorEq, or_self, if_false, g1, g2, g3, g4, h00, h10, h01, h11]
  congr 1
  unfold wR
  ring

/-- **C22.**  Inside the table the result lies between the smallest and largest of the four corner values
of a cell that contains the query. -/
theorem bilinear_bounded (x y z : List K) (hx : Sorted x) (hy : Sorted y) (hx2 : 2 ≤ x.length)
    (hy2 : 2 ≤ y.length) (hz : x.length * y.length = z.length) {qx qy x0 xn y0 yn : K}
    (hx0 : x[0]? = some x0) (hxn : x[x.length - 1]? = some xn) (hy0 : y[0]? = some y0)
    (hyn : y[y.length - 1]? = some yn) (a0 : x0 ≤ qx) (an : qx ≤ xn) (b0 : y0 ≤ qy) (bn : qy ≤ yn) :
    ∃ i j z00 z10 z01 z11 v, Brackets x qx i ∧ Brackets y qy j ∧
      z[i * y.length + j]? = some z00 ∧ z[(i + 1) * y.length + j]? = some z10 ∧
      z[i * y.length + (j + 1)]? = some z01 ∧ z[(i + 1) * y.length + (j + 1)]? = some z11 ∧
      bilinear x y z qx qy = some v ∧
      min (min z00 z10) (min z01 z11) ≤ v ∧ v ≤ max (max z00 z10) (max z01 z11) := by
  obtain ⟨i, j, xl, xr, yl, yr, z00, z10, z01, z11, g1, g2, g3, g4, k1, k2, k3, k4, h00, h10, h01, h11, e⟩ :=
    bilinear_inside x y z hx hy hx2 hy2 hz hx0 hxn hy0 hyn a0 an b0 bn
  refine ⟨i, j, z00, z10, z01, z11, _, ⟨xl, xr, g1, g2, k1, k2⟩, ⟨yl, yr, g3, g4, k3, k4⟩, h00, h10, h01,
    h11, e, ?_, ?_⟩
  · refine le_trans ?_ (convex_between (wR_nonneg k3) (wR_le_one k4)).1
    exact min_le_min (convex_between (wR_nonneg k1) (wR_le_one k2)).1
      (convex_between (wR_nonneg k1) (wR_le_one k2)).1
  · refine le_trans (convex_between (wR_nonneg k3) (wR_le_one k4)).2 ?_
    exact max_le_max (convex_between (wR_nonneg k1) (wR_le_one k2)).2
      (convex_between (wR_nonneg k1) (wR_le_one k2)).2

/-- **C22.**  Data of the form `a + b x + c y + d x y` are reproduced, in particular the table value at
every node. -/
theorem bilinear_exact (x y z : List K) (hx : Sorted x) (hy : Sorted y) (hsx : Spaced x) (hsy : Spaced y)
    (hx2 : 2 ≤ x.length) (hy2 : 2 ≤ y.length) (hz : x.length * y.length = z.length) (a b c d : K)
    (hdata : ∀ i j u v, x[i]? = some u → y[j]? = some v →
      z[i * y.length + j]? = some (a + b * u + c * v + d * u * v))
    {qx qy x0 xn y0 yn : K}
    (hx0 : x[0]? = some x0) (hxn : x[x.length - 1]? = some xn) (hy0 : y[0]? = some y0)
    (hyn : y[y.length - 1]? = some yn) (a0 : x0 ≤ qx) (an : qx ≤ xn) (b0 : y0 ≤ qy) (bn : qy ≤ yn) :
    bilinear x y z qx qy = some (a + b * qx + c * qy + d * qx * qy) := by
  obtain ⟨i, j, xl, xr, yl, yr, z00, z10, z01, z11, g1, g2, g3, g4, k1, k2, k3, k4, h00, h10, h01, h11, e⟩ :=
    bilinear_inside x y z hx hy hx2 hy2 hz hx0 hxn hy0 hyn a0 an b0 bn
  rw [e]
  rw [hdata _ _ _ _ g1 g3] at h00; injection h00 with h00
  rw [hdata _ _ _ _ g2 g3] at h10; injection h10 with h10
  rw [hdata _ _ _ _ g1 g4] at h01; injection h01 with h01
  rw [hdata _ _ _ _ g2 g4] at h11; injection h11 with h11
  congr 1
  have e1 := wR_eq (q := qx) (hsx _ _ _ g1 g2)
  have e2 := wR_eq (q := qy) (hsy _ _ _ g3 g4)
  rw [← h00, ← h10, ← h01, ← h11]
  linear_combination (b + d * qy) * e1 + (c + d * xl + d * (wR xl xr qx) * (xr - xl)) * e2

/-- **C22.**  At a grid node the table value is returned, for any data. -/
theorem bilinear_at_node (x y z : List K) (hx : StrictSorted x) (hy : StrictSorted y) (hsx : Spaced x)
    (hsy : Spaced y) (hx2 : 2 ≤ x.length) (hy2 : 2 ≤ y.length) (hz : x.length * y.length = z.length)
    {k l : ℕ} {qx qy v : K} (hk : x[k]? = some qx) (hl : y[l]? = some qy)
    (hv : z[k * y.length + l]? = some v) : bilinear x y z qx qy = some v := by
  have lx0 : 0 < x.length := by omega
  have ly0 : 0 < y.length := by omega
  have lxn : x.length - 1 < x.length := by omega
  have lyn : y.length - 1 < y.length := by omega
  have hkl := (List.getElem?_eq_some_iff.mp hk).1
  have hll := (List.getElem?_eq_some_iff.mp hl).1
  obtain ⟨i, j, xl, xr, yl, yr, z00, z10, z01, z11, g1, g2, g3, g4, k1, k2, k3, k4, h00, h10, h01, h11, e⟩ :=
    bilinear_inside x y z hx.sorted hy.sorted hx2 hy2 hz (List.getElem?_eq_getElem lx0)
      (List.getElem?_eq_getElem lxn) (List.getElem?_eq_getElem ly0) (List.getElem?_eq_getElem lyn)
      (sorted_get hx.sorted (Nat.zero_le _) (List.getElem?_eq_getElem lx0) hk)
      (sorted_get hx.sorted (show k ≤ x.length - 1 by omega) hk (List.getElem?_eq_getElem lxn))
      (sorted_get hy.sorted (Nat.zero_le _) (List.getElem?_eq_getElem ly0) hl)
      (sorted_get hy.sorted (show l ≤ y.length - 1 by omega) hl (List.getElem?_eq_getElem lyn))
  have hki : k = i ∨ k = i + 1 := by
    by_contra hcon
    push Not at hcon
    rcases Nat.lt_or_ge k i with h | h
    · exact absurd (strict_get hx h hk g1) (not_lt.mpr k1)
    · exact absurd (strict_get hx (show i + 1 < k by omega) g2 hk) (not_lt.mpr k2)
  have hlj : l = j ∨ l = j + 1 := by
    by_contra hcon
    push Not at hcon
    rcases Nat.lt_or_ge l j with h | h
    · exact absurd (strict_get hy h hl g3) (not_lt.mpr k3)
    · exact absurd (strict_get hy (show j + 1 < l by omega) g4 hl) (not_lt.mpr k4)
  rw [e]
  rcases hki with rfl | rfl
  · rw [hk] at g1; injection g1 with g1; subst g1
    rw [wR_left (hsx _ _ _ hk g2)]
    rcases hlj with rfl | rfl
    · rw [hl] at g3; injection g3 with g3; subst g3
      rw [hv] at h00; injection h00 with h00
      rw [wR_left (hsy _ _ _ hl g4), h00]; simp
    · rw [hl] at g4; injection g4 with g4; subst g4
      rw [hv] at h01; injection h01 with h01
      rw [wR_right, h01]; simp
  · rw [hk] at g2; injection g2 with g2; subst g2
    rw [wR_right]
    rcases hlj with rfl | rfl
    · rw [hl] at g3; injection g3 with g3; subst g3
      rw [hv] at h10; injection h10 with h10
      rw [wR_left (hsy _ _ _ hl g4), h10]; simp
    · rw [hl] at g4; injection g4 with g4; subst g4
      rw [hv] at h11; injection h11 with h11
      rw [wR_right, h11]; simp

/-- A concrete grid, and a query. -/
example : bilinear [(0 : ℚ), 2] [0, 1, 3] [0, 1, 3, 2, 5, 11] 1 2 = some 5 := by decide +kernel

/-- Outside the table in one direction only, the value is not interpolated in the other direction: the
lower neighbour is returned (query y = 2 gives the value at y = 1, where linear data would give 2). -/
theorem bilinear_outside_not_interpolated :
    bilinear [(0 : ℚ), 2] [0, 1, 3] [0, 1, 3, 0, 1, 3] 5 2 = some 1 ∧
    bilinear [(0 : ℚ), 2] [0, 1, 3] [0, 1, 3, 0, 1, 3] 2 2 = some 2 := by
  constructor <;> decide +kernel

/-- **C19.** Points closer than `2⁻²³` count as one. -/
theorem eps_value : (eps : K) * 2 ^ 23 = 1 := by unfold eps; norm_num

end AmrWind.Interp
