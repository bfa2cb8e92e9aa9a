/-
C130: the accepted time step keeps to the CFL limit in every cell.
-/
import Verif.SimTime.CflModel
import Verif.SimTime.Props
import Verif.Overset.MaskProps
import Mathlib.Order.Bounds.Basic

set_option linter.unusedSectionVars false

namespace AmrWind.Cfl

open Overset (Cell up interfaceBand Interface interface_band_iff)

variable {K : Type*} [Field K] [LinearOrder K] [IsStrictOrderedRing K]

/-! ### Maxima -/

theorem fold_le {α : Type*} (l : List α) (f : α → K) (a t : K) : l.foldl (fun a c => max a (f c)) a ≤ t ↔ a ≤ t ∧ ∀ c ∈ l, f c ≤ t := by
  induction l generalizing a with
  | nil => simp
  | cons x l ih => rw [List.foldl_cons, ih]; simp [and_assoc]

theorem fold_mem {α : Type*} (l : List α) (f : α → K) (a : K) :
    l.foldl (fun a c => max a (f c)) a = a ∨ ∃ c ∈ l, l.foldl (fun a c => max a (f c)) a = f c := by
  induction l generalizing a with
  | nil => simp
  | cons x l ih =>
    rw [List.foldl_cons]
    rcases ih (max a (f x)) with h | ⟨c, hc, h⟩
    · rw [h]
      rcases max_choice a (f x) with e | e
      · left; exact e
      · right; exact ⟨x, List.mem_cons_self, e⟩
    · right; exact ⟨c, List.mem_cons_of_mem _ hc, h⟩

theorem red_le (low : K) (bs : List (List Cell)) (f : Cell → K) (t : K) (ht : low ≤ t) : parReduce low bs f ≤ t ↔ ∀ b ∈ bs, ∀ c ∈ b, f c ≤ t := by
  unfold parReduce
  rw [fold_le bs (fun b => b.foldl (fun a c => max a (f c)) low)]
  simp only [fold_le, ht, true_and]

theorem red_mem (low : K) (bs : List (List Cell)) (f : Cell → K) : parReduce low bs f = low ∨ ∃ b ∈ bs, ∃ c ∈ b, parReduce low bs f = f c := by
  unfold parReduce
  rcases fold_mem bs (fun b => b.foldl (fun a c => max a (f c)) low) low with h | ⟨b, hb, h⟩
  · left; exact h
  · rw [h]
    rcases fold_mem b f low with e | ⟨c, hc, e⟩
    · left; exact e
    · right; exact ⟨b, hb, c, hc, e⟩

theorem all_eq (n : ℕ) (x : ℕ → K) : allReduce n x = (List.range n).foldl (fun a i => max a (x (i + 1))) (x 0) := by
  unfold allReduce; rw [List.foldl_map]

theorem all_le (n : ℕ) (x : ℕ → K) (t : K) : allReduce n x ≤ t ↔ ∀ q ≤ n, x q ≤ t := by
  rw [all_eq, fold_le (List.range n) fun i => x (i + 1)]
  constructor
  · rintro ⟨h0, h⟩ q hq
    cases q with
    | zero => exact h0
    | succ q => exact h q (by simpa using hq)
  · intro h
    exact ⟨h 0 (Nat.zero_le _), fun i hi => h (i + 1) (by simpa using hi)⟩

theorem all_mem (n : ℕ) (x : ℕ → K) : ∃ q ≤ n, allReduce n x = x q := by
  rw [all_eq]
  rcases fold_mem (List.range n) (fun i => x (i + 1)) (x 0) with h | ⟨i, hi, h⟩
  · exact ⟨0, Nat.zero_le _, h⟩
  · exact ⟨i + 1, by simpa using hi, h⟩

theorem tot_le (n : ℕ) (M : List (Lev K)) (g : ℕ → Lev K → K) (t : K) (ht : 0 ≤ t) :
    (allReduce n fun q => overLevels (g q) M) ≤ t ↔ ∀ q ≤ n, ∀ L ∈ M, g q L ≤ t := by
  rw [all_le]
  unfold overLevels
  simp only [fold_le, ht, true_and]

theorem tot_nonneg (n : ℕ) (M : List (Lev K)) (g : ℕ → Lev K → K) : 0 ≤ allReduce n fun q => overLevels (g q) M := by
  have h := (all_le n (fun q => overLevels (g q) M) _).mp le_rfl 0 (Nat.zero_le _)
  exact (((fold_le M (g 0) 0 _).mp h).1)

theorem tot_mem (n : ℕ) (M : List (Lev K)) (g : ℕ → Lev K → K) :
    (allReduce n fun q => overLevels (g q) M) = 0 ∨ ∃ q ≤ n, ∃ L ∈ M, (allReduce n fun q => overLevels (g q) M) = g q L := by
  obtain ⟨q, hq, h⟩ := all_mem n fun q => overLevels (g q) M
  rw [h]
  unfold overLevels
  rcases fold_mem M (g q) 0 with e | ⟨L, hL, e⟩
  · left; exact e
  · right; exact ⟨q, hq, L, hL, e⟩

/-- Combination: the maximum over ranks, levels and cells. -/
theorem grand (low : K) (hlow : low ≤ 0) (n : ℕ) (M : List (Lev K)) (f : Lev K → Cell → K) (g : ℕ → Lev K → K)
    (hg : ∀ q L, g q L = 0 + parReduce low (L.boxes q) (f L)) :
    (∀ t, 0 ≤ t → ((allReduce n fun q => overLevels (g q) M) ≤ t ↔ ∀ q ≤ n, ∀ L ∈ M, ∀ b ∈ L.boxes q, ∀ c ∈ b, f L c ≤ t)) ∧
    ((allReduce n fun q => overLevels (g q) M) = 0 ∨
      ∃ q ≤ n, ∃ L ∈ M, ∃ b ∈ L.boxes q, ∃ c ∈ b, (allReduce n fun q => overLevels (g q) M) = f L c) := by
  constructor
  · intro t ht
    rw [tot_le n M g t ht]
    simp only [hg, zero_add, red_le low _ _ t (hlow.trans ht)]
  · rcases tot_mem n M g with h | ⟨q, hq, L, hL, h⟩
    · left; exact h
    · rw [hg, zero_add] at h
      rcases red_mem low (L.boxes q) (f L) with e | ⟨b, hb, c, hc, e⟩
      · left
        exact le_antisymm (by rw [h, e]; exact hlow) (tot_nonneg n M g)
      · right; exact ⟨q, hq, L, hL, b, hb, c, hc, h.trans e⟩

theorem grand2 (low : K) (hlow : low ≤ 0) (n : ℕ) (M : List (Lev K)) (f1 f2 : Lev K → Cell → K) (b : Bool) (g : ℕ → Lev K → K)
    (hg : ∀ q L, g q L = max (0 + parReduce low (L.boxes q) (f1 L)) (if b then 0 + parReduce low (L.boxes q) (f2 L) else 0)) :
    (∀ t, 0 ≤ t → ((allReduce n fun q => overLevels (g q) M) ≤ t ↔
      ∀ q ≤ n, ∀ L ∈ M, ∀ x ∈ L.boxes q, ∀ c ∈ x, f1 L c ≤ t ∧ (b = true → f2 L c ≤ t))) ∧
    ((allReduce n fun q => overLevels (g q) M) = 0 ∨ ∃ q ≤ n, ∃ L ∈ M, ∃ x ∈ L.boxes q, ∃ c ∈ x,
      (allReduce n fun q => overLevels (g q) M) = f1 L c ∨ (b = true ∧ (allReduce n fun q => overLevels (g q) M) = f2 L c)) := by
  constructor
  · intro t ht
    rw [tot_le n M g t ht]
    cases b
    · simp [hg, red_le low _ _ t (hlow.trans ht), ht]
    · simp only [hg, zero_add, if_true, max_le_iff, red_le low _ _ t (hlow.trans ht), true_implies]
      constructor
      · intro h q hq L hL x hx c hc; exact ⟨(h q hq L hL).1 x hx c hc, (h q hq L hL).2 x hx c hc⟩
      · intro h q hq L hL; exact ⟨fun x hx c hc => (h q hq L hL x hx c hc).1, fun x hx c hc => (h q hq L hL x hx c hc).2⟩
  · have key : ∀ (f : Lev K → Cell → K) (q : ℕ) (L : Lev K), L ∈ M → q ≤ n → (allReduce n fun q => overLevels (g q) M) = 0 + parReduce low (L.boxes q) (f L) →
        ((allReduce n fun q => overLevels (g q) M) = 0 ∨ ∃ x ∈ L.boxes q, ∃ c ∈ x, (allReduce n fun q => overLevels (g q) M) = f L c) := by
      intro f q L _ _ h
      rw [zero_add] at h
      rcases red_mem low (L.boxes q) (f L) with e | ⟨x, hx, c, hc, e⟩
      · left; exact le_antisymm (by rw [h, e]; exact hlow) (tot_nonneg n M g)
      · right; exact ⟨x, hx, c, hc, h.trans e⟩
    rcases tot_mem n M g with h | ⟨q, hq, L, hL, h⟩
    · left; exact h
    · rw [hg] at h
      rcases max_choice (0 + parReduce low (L.boxes q) (f1 L)) (if b then 0 + parReduce low (L.boxes q) (f2 L) else 0) with e | e
      · rcases key f1 q L hL hq (h.trans e) with k | ⟨x, hx, c, hc, k⟩
        · left; exact k
        · right; exact ⟨q, hq, L, hL, x, hx, c, hc, Or.inl k⟩
      · cases b
        · left; exact h.trans (by rw [e]; simp)
        · rcases key f2 q L hL hq (h.trans (by rw [e]; simp)) with k | ⟨x, hx, c, hc, k⟩
          · left; exact k
          · right; exact ⟨q, hq, L, hL, x, hx, c, hc, Or.inr ⟨rfl, k⟩⟩

/-! ### Specification -/

/-- Width of cell `c` in direction `d`. -/
def width (mapped : Bool) (L : Lev K) (c : Cell) (d : Fin 3) : K := (if mapped then L.fac c d else 1) / L.dxinv d

/-- Cell `c` of the level belongs to one of the ranks `0 … n` and is not blanked. -/
def Solved (n : ℕ) (L : Lev K) (c : Cell) : Prop := (∃ q ≤ n, ∃ b ∈ L.boxes q, c ∈ b) ∧ L.mask c = 1

/-- Cells have positive widths, blanking is 0 or 1, volume fractions are between 0 and 1. -/
def Ok (M : List (Lev K)) : Prop :=
  ∀ L ∈ M, (∀ d, 0 < L.dxinv d) ∧ (∀ c d, 0 < L.fac c d) ∧ (∀ c, L.mask c = 0 ∨ L.mask c = 1) ∧ ∀ c, 0 ≤ L.vof c ∧ L.vof c ≤ 1

/-- Fraction of the cell that is crossed per unit time in direction `d`. -/
def rate (o : Opt K) (L : Lev K) (c : Cell) (d : Fin 3) : K := |L.vel c d| / width o.mapping L c d

/-- The free surface is within one cell, in a run that has one. -/
def AtSurface (o : Opt K) (L : Lev K) (c : Cell) : Prop := o.hasVof = true ∧ Interface 1 o.tol L.vof c

/-- Diffusion number per unit time. -/
def diffRate (o : Opt K) (L : Lev K) (c : Cell) : K :=
  2 * (L.mu c / L.rho c) * (1 / width o.mapping L c 0 ^ 2 + 1 / width o.mapping L c 1 ^ 2 + 1 / width o.mapping L c 2 ^ 2)

/-- Acceleration per width. -/
def forceRate (o : Opt K) (L : Lev K) (c : Cell) (d : Fin 3) : K := |L.force c d| / L.rho c / width o.mapping L c d

/-- The greatest speed at the two faces of the cell in direction `d`, per width. -/
def faceRate (o : Opt K) (L : Lev K) (c : Cell) (d : Fin 3) : K := max |L.mac d c| |L.mac d (up d c)| / width o.mapping L c d

theorem max4_le (a b c d t : K) : max4 a b c d ≤ t ↔ a ≤ t ∧ b ≤ t ∧ c ≤ t ∧ d ≤ t := by
  unfold max4; simp [and_assoc]

theorem max4_mem (a b c d : K) : max4 a b c d = a ∨ max4 a b c d = b ∨ max4 a b c d = c ∨ max4 a b c d = d := by
  unfold max4
  rcases max_choice (max (max a b) c) d with h | h <;> rw [h]
  · rcases max_choice (max a b) c with h | h <;> rw [h]
    · rcases max_choice a b with h | h <;> rw [h] <;> simp
    · simp
  · simp

theorem scaled (o : Opt K) (L : Lev K) (c : Cell) (d : Fin 3) (u : K) : u * L.dxinv d / facAt o L c d = u / width o.mapping L c d := by
  unfold facAt width
  rw [div_div_eq_mul_div]

theorem conv_cell_one (o : Opt K) (L : Lev K) (c : Cell) (hm : L.mask c = 1) :
    convCell o L c = max4 (rate o L c 0) (rate o L c 1) (rate o L c 2) (-1) := by
  unfold convCell rate
  simp only [hm, Int.cast_one, one_mul, scaled]

theorem conv_cell_zero (o : Opt K) (L : Lev K) (c : Cell) (hm : L.mask c = 0) : convCell o L c = 0 := by
  unfold convCell max4
  simp [hm]

theorem max4_greatest {S : Set K} {x : K} {a : Fin 3 → K} (hx : 0 ≤ x) (h : x = max4 (a 0) (a 1) (a 2) (-1)) (hS : ∀ d, a d ∈ S) : x ∈ S := by
  rcases max4_mem (a 0) (a 1) (a 2) (-1) with e | e | e | e
  · rw [h, e]; exact hS 0
  · rw [h, e]; exact hS 1
  · rw [h, e]; exact hS 2
  · rw [h, e] at hx; linarith

/-- **C130**: the convective number is the greatest crossing rate of all cells that are solved, on all levels and ranks, twice the sum
over the directions at the free surface, or zero. -/
theorem conv_greatest (o : Opt K) (n r : ℕ) (M : List (Lev K)) (hlow : o.lowest ≤ 0) (ok : Ok M) :
    IsGreatest {x | x = 0 ∨ ∃ L ∈ M, ∃ c, Solved n L c ∧ ((∃ d, x = rate o L c d) ∨
      (AtSurface o L c ∧ x = 2 * (rate o L c 0 + rate o L c 1 + rate o L c 2)))} (computeDt o n r M).1 := by
  obtain ⟨h1, h2⟩ := grand2 o.lowest hlow n M (convCell o) (mphaseCell o) o.hasVof (convLev o) (fun q L => rfl)
  set v := (computeDt o n r M).1 with hv
  change (∀ t, 0 ≤ t → (v ≤ t ↔ _)) at h1
  change v = 0 ∨ ∃ q ≤ n, ∃ L ∈ M, ∃ x ∈ L.boxes q, ∃ c ∈ x, v = convCell o L c ∨ (o.hasVof = true ∧ v = mphaseCell o L c) at h2
  have h0 : 0 ≤ v := tot_nonneg n M (convLev o)
  have hle := (h1 v h0).mp le_rfl
  constructor
  · rcases h2 with h | ⟨q, hq, L, hL, b, hb, c, hc, h⟩
    · left; exact h
    · have okL := ok L hL
      rcases okL.2.2.1 c with hm | hm
      · left
        rcases h with h | ⟨_, h⟩
        · rw [h, conv_cell_zero o L c hm]
        · rw [h]; unfold mphaseCell; simp [hm]
      · have hs : Solved n L c := ⟨⟨q, hq, b, hb, hc⟩, hm⟩
        rcases h with h | ⟨hb', h⟩
        · right
          refine ⟨L, hL, c, hs, Or.inl ?_⟩
          rw [conv_cell_one o L c hm] at h
          exact max4_greatest (S := {x | ∃ d, x = rate o L c d}) h0 h fun d => ⟨d, rfl⟩
        · unfold mphaseCell at h
          split at h
          · rename_i hi
            right
            refine ⟨L, hL, c, hs, Or.inr ⟨⟨hb', (interface_band_iff _ _ _ _ (by norm_num) okL.2.2.2).mp hi⟩, ?_⟩⟩
            rw [h, hm]
            simp only [scaled, rate]
            push_cast; ring
          · left; exact h
  · rintro x (hx | ⟨L, hL, c, ⟨⟨q, hq, b, hb, hc⟩, hm⟩, h⟩)
    · rw [hx]; exact h0
    · obtain ⟨a1, a2⟩ := hle q hq L hL b hb c hc
      rw [conv_cell_one o L c hm, max4_le] at a1
      rcases h with ⟨d, rfl⟩ | ⟨⟨hv', hi⟩, rfl⟩
      · fin_cases d
        · exact a1.1
        · exact a1.2.1
        · exact a1.2.2.1
      · have a2 := a2 hv'
        unfold mphaseCell at a2
        rw [if_pos ((interface_band_iff _ _ _ _ (by norm_num) (ok L hL).2.2.2).mpr hi), hm] at a2
        simp only [scaled] at a2
        unfold rate
        push_cast at a2
        linarith

theorem diff_cell (o : Opt K) (L : Lev K) (c : Cell) :
    diffCell o L c = max ((L.mask c : K) * diffRate o L c) (-1) := by
  unfold diffCell diffRate
  have e : ∀ d, L.dxinv d / facAt o L c d * L.dxinv d / facAt o L c d = 1 / width o.mapping L c d ^ 2 := by
    intro d
    unfold width facAt
    rw [div_pow, one_div_div, mul_div_assoc]; ring
  simp only [e]
  congr 1
  ring

/-- **C130**: with explicit diffusion the second number is the greatest diffusion number per unit time, otherwise it is zero. -/
theorem diff_greatest (o : Opt K) (n r : ℕ) (M : List (Lev K)) (hlow : o.lowest ≤ 0) (ok : Ok M) :
    IsGreatest {x | x = 0 ∨ (o.explicit = true ∧ ∃ L ∈ M, ∃ c, Solved n L c ∧ x = diffRate o L c)} (computeDt o n r M).2.1 := by
  cases he : o.explicit
  · have : (computeDt o n r M).2.1 = 0 := by
      unfold computeDt
      simp only [he]
      unfold overLevels diffLev
      rcases fold_mem M (fun L : Lev K => if o.explicit then 0 + parReduce o.lowest (L.boxes r) (diffCell o L) else 0) 0 with h | ⟨c, _, h⟩
      · exact h
      · simpa [he] using h
    rw [this]
    simp [IsGreatest, upperBounds]
  · obtain ⟨h1, h2⟩ := grand o.lowest hlow n M (diffCell o) (diffLev o) (fun q L => by simp [diffLev, he])
    have hv : (computeDt o n r M).2.1 = allReduce n fun q => overLevels (diffLev o q) M := by simp [computeDt, he]
    rw [← hv] at h2
    simp only [← hv] at h1
    have h0 : 0 ≤ (computeDt o n r M).2.1 := by rw [hv]; exact tot_nonneg n M _
    set v := (computeDt o n r M).2.1
    have hle := (h1 v h0).mp le_rfl
    constructor
    · rcases h2 with h | ⟨q, hq, L, hL, b, hb, c, hc, h⟩
      · left; exact h
      · rw [diff_cell] at h
        rcases (ok L hL).2.2.1 c with hm | hm
        · left; rw [h, hm]; simp
        · right
          refine ⟨rfl, L, hL, c, ⟨⟨q, hq, b, hb, hc⟩, hm⟩, ?_⟩
          rw [hm] at h
          rcases max_choice (((1 : ℤ) : K) * diffRate o L c) (-1) with e | e
          · rw [h, e]; simp
          · rw [h, e] at h0; linarith
    · rintro x (hx | ⟨_, L, hL, c, ⟨⟨q, hq, b, hb, hc⟩, hm⟩, rfl⟩)
      · rw [hx]; exact h0
      · have a := hle q hq L hL b hb c hc
        rw [diff_cell, hm] at a
        simpa using (max_le_iff.mp a).1

/-- **C130**: with `use_force_cfl` the third number is the greatest acceleration per width, otherwise it is zero. -/
theorem force_greatest (o : Opt K) (n r : ℕ) (M : List (Lev K)) (hlow : o.lowest ≤ 0) (ok : Ok M) :
    IsGreatest {x | x = 0 ∨ (o.useForce = true ∧ ∃ L ∈ M, ∃ c, Solved n L c ∧ ∃ d, x = forceRate o L c d)} (computeDt o n r M).2.2 := by
  have hcell : ∀ (L : Lev K) (c : Cell) (d : Fin 3), |L.force c d| * L.dxinv d / facAt o L c d / L.rho c = forceRate o L c d := by
    intro L c d; rw [scaled]; unfold forceRate; rw [div_right_comm]
  cases he : o.useForce
  · have : (computeDt o n r M).2.2 = 0 := by
      unfold computeDt
      simp only [he]
      unfold overLevels forceLev
      rcases fold_mem M (fun L : Lev K => if o.useForce then 0 + parReduce o.lowest (L.boxes r) (forceCell o L) else 0) 0 with h | ⟨c, _, h⟩
      · exact h
      · simpa [he] using h
    rw [this]
    simp [IsGreatest, upperBounds]
  · obtain ⟨h1, h2⟩ := grand o.lowest hlow n M (forceCell o) (forceLev o) (fun q L => by simp [forceLev, he])
    have hv : (computeDt o n r M).2.2 = allReduce n fun q => overLevels (forceLev o q) M := by simp [computeDt, he]
    rw [← hv] at h2
    simp only [← hv] at h1
    have h0 : 0 ≤ (computeDt o n r M).2.2 := by rw [hv]; exact tot_nonneg n M _
    set v := (computeDt o n r M).2.2
    have hle := (h1 v h0).mp le_rfl
    constructor
    · rcases h2 with h | ⟨q, hq, L, hL, b, hb, c, hc, h⟩
      · left; exact h
      · rcases (ok L hL).2.2.1 c with hm | hm
        · left; rw [h]; unfold forceCell max4; simp [hm]
        · right
          refine ⟨rfl, L, hL, c, ⟨⟨q, hq, b, hb, hc⟩, hm⟩, ?_⟩
          unfold forceCell at h
          simp only [hm, Int.cast_one, one_mul, hcell] at h
          exact max4_greatest (S := {x | ∃ d, x = forceRate o L c d}) h0 h fun d => ⟨d, rfl⟩
    · rintro x (hx | ⟨_, L, hL, c, ⟨⟨q, hq, b, hb, hc⟩, hm⟩, d, rfl⟩)
      · rw [hx]; exact h0
      · have a := hle q hq L hL b hb c hc
        unfold forceCell at a
        simp only [hm, Int.cast_one, one_mul, hcell] at a
        rw [max4_le] at a
        fin_cases d
        · exact a.1
        · exact a.2.1
        · exact a.2.2.1

/-- Two ways to spread the same cells over ranks and boxes: same fields, same cells. -/
def SameCells (n n' : ℕ) (M M' : List (Lev K)) : Prop :=
  List.Forall₂ (fun L L' => L' = { L with boxes := L'.boxes } ∧ ∀ c, (∃ q ≤ n, ∃ b ∈ L.boxes q, c ∈ b) ↔ ∃ q ≤ n', ∃ b ∈ L'.boxes q, c ∈ b) M M'

theorem SameCells.mem {n n' : ℕ} {M M' : List (Lev K)} (h : SameCells n n' M M') :
    (∀ L ∈ M, ∃ L' ∈ M', L' = { L with boxes := L'.boxes } ∧ ∀ c, Solved n L c ↔ Solved n' L' c) ∧
    (∀ L' ∈ M', ∃ L ∈ M, L' = { L with boxes := L'.boxes } ∧ ∀ c, Solved n L c ↔ Solved n' L' c) := by
  have key : ∀ (L L' : Lev K), L' = { L with boxes := L'.boxes } → (∀ c, (∃ q ≤ n, ∃ b ∈ L.boxes q, c ∈ b) ↔ ∃ q ≤ n', ∃ b ∈ L'.boxes q, c ∈ b) →
      ∀ c, Solved n L c ↔ Solved n' L' c := by
    intro L L' e h c
    unfold Solved
    rw [h c, e]
  unfold SameCells at h
  induction h with
  | nil => simp
  | cons hx _ ih =>
    obtain ⟨i1, i2⟩ := ih
    constructor
    · intro L hL
      rcases List.mem_cons.mp hL with rfl | hL
      · exact ⟨_, List.mem_cons_self, hx.1, key _ _ hx.1 hx.2⟩
      · obtain ⟨L', h1, h2⟩ := i1 L hL
        exact ⟨L', List.mem_cons_of_mem _ h1, h2⟩
    · intro L hL
      rcases List.mem_cons.mp hL with rfl | hL
      · exact ⟨_, List.mem_cons_self, hx.1, key _ _ hx.1 hx.2⟩
      · obtain ⟨L', h1, h2⟩ := i2 L hL
        exact ⟨L', List.mem_cons_of_mem _ h1, h2⟩

/-- **C130**: every rank gets the same three numbers, and they do not depend on the number of ranks nor on how cells are spread over
boxes and ranks. -/
theorem same_everywhere (o : Opt K) (n n' r r' : ℕ) (M M' : List (Lev K)) (hlow : o.lowest ≤ 0) (ok : Ok M) (h : SameCells n n' M M') :
    computeDt o n r M = computeDt o n' r' M' := by
  obtain ⟨m1, m2⟩ := h.mem
  have ok' : Ok M' := by
    intro L' hL'
    obtain ⟨L, hL, e, _⟩ := m2 L' hL'
    rw [e]; exact ok L hL
  have c1 := conv_greatest o n r M hlow ok
  have c2 := conv_greatest o n' r' M' hlow ok'
  have d1 := diff_greatest o n r M hlow ok
  have d2 := diff_greatest o n' r' M' hlow ok'
  have f1 := force_greatest o n r M hlow ok
  have f2 := force_greatest o n' r' M' hlow ok'
  have tr : ∀ (P : Lev K → Cell → Prop), (∀ L bx c, P L c ↔ P { L with boxes := bx } c) →
      ((∃ L ∈ M, ∃ c, Solved n L c ∧ P L c) ↔ ∃ L ∈ M', ∃ c, Solved n' L c ∧ P L c) := by
    intro P hP
    constructor
    · rintro ⟨L, hL, c, hs, hp⟩
      obtain ⟨L', hL', e, hh⟩ := m1 L hL
      exact ⟨L', hL', c, (hh c).mp hs, by rw [e]; exact (hP L _ c).mp hp⟩
    · rintro ⟨L', hL', c, hs, hp⟩
      obtain ⟨L, hL, e, hh⟩ := m2 L' hL'
      exact ⟨L, hL, c, (hh c).mpr hs, by rw [e] at hp; exact (hP L _ c).mpr hp⟩
  refine Prod.ext ?_ (Prod.ext ?_ ?_)
  · refine c1.unique ?_
    convert c2 using 4 with x
    exact tr (fun L c => (∃ d, x = rate o L c d) ∨ (AtSurface o L c ∧ x = 2 * (rate o L c 0 + rate o L c 1 + rate o L c 2)))
      (fun L bx c => Iff.rfl)
  · refine d1.unique ?_
    convert d2 using 5 with x
    exact tr (fun L c => x = diffRate o L c) (fun L bx c => Iff.rfl)
  · refine f1.unique ?_
    convert f2 using 5 with x
    exact tr (fun L c => ∃ d, x = forceRate o L c d) (fun L bx c => Iff.rfl)

/-- **C130**, prescribed velocity: the number is the greatest crossing rate at the faces of all cells that are solved, the sum over the
directions at the free surface, or zero; diffusion and forces do not enter. -/
theorem prescribed_greatest (o : Opt K) (n : ℕ) (M : List (Lev K)) (hlow : o.lowest ≤ 0) (ok : Ok M) :
    IsGreatest {x | x = 0 ∨ ∃ L ∈ M, ∃ c, Solved n L c ∧ ((∃ d, x = faceRate o L c d) ∨
      (AtSurface o L c ∧ x = faceRate o L c 0 + faceRate o L c 1 + faceRate o L c 2))} (prescribeDt o n M).1 ∧
    (prescribeDt o n M).2 = (0, 0) := by
  refine ⟨?_, rfl⟩
  have one : ∀ (L : Lev K) (c : Cell), L.mask c = 1 → preCell o L c = max4 (faceRate o L c 0) (faceRate o L c 1) (faceRate o L c 2) (-1) := by
    intro L c hm
    unfold preCell faceRate
    simp only [hm, Int.cast_one, mul_one, scaled]
    rfl
  obtain ⟨h1, h2⟩ := grand2 o.lowest hlow n M (preCell o) (preMphaseCell o) o.hasVof (preLev o) (fun q L => rfl)
  set v := (prescribeDt o n M).1 with hv
  change (∀ t, 0 ≤ t → (v ≤ t ↔ _)) at h1
  change v = 0 ∨ ∃ q ≤ n, ∃ L ∈ M, ∃ x ∈ L.boxes q, ∃ c ∈ x, v = preCell o L c ∨ (o.hasVof = true ∧ v = preMphaseCell o L c) at h2
  have h0 : 0 ≤ v := tot_nonneg n M (preLev o)
  have hle := (h1 v h0).mp le_rfl
  constructor
  · rcases h2 with h | ⟨q, hq, L, hL, b, hb, c, hc, h⟩
    · left; exact h
    · have okL := ok L hL
      rcases okL.2.2.1 c with hm | hm
      · left
        rcases h with h | ⟨_, h⟩
        · rw [h]; unfold preCell max4; simp [hm]
        · rw [h]; unfold preMphaseCell; simp [hm]
      · have hs : Solved n L c := ⟨⟨q, hq, b, hb, hc⟩, hm⟩
        rcases h with h | ⟨hb', h⟩
        · right
          refine ⟨L, hL, c, hs, Or.inl ?_⟩
          rw [one L c hm] at h
          exact max4_greatest (S := {x | ∃ d, x = faceRate o L c d}) h0 h fun d => ⟨d, rfl⟩
        · unfold preMphaseCell at h
          split at h
          · rename_i hi
            right
            refine ⟨L, hL, c, hs, Or.inr ⟨⟨hb', (interface_band_iff _ _ _ _ (by norm_num) okL.2.2.2).mp hi⟩, ?_⟩⟩
            rw [h, hm]
            simp only [scaled, faceRate, faceMax]
            push_cast; ring
          · left; exact h
  · rintro x (hx | ⟨L, hL, c, ⟨⟨q, hq, b, hb, hc⟩, hm⟩, h⟩)
    · rw [hx]; exact h0
    · obtain ⟨a1, a2⟩ := hle q hq L hL b hb c hc
      rw [one L c hm, max4_le] at a1
      rcases h with ⟨d, rfl⟩ | ⟨⟨hv', hi⟩, rfl⟩
      · fin_cases d
        · exact a1.1
        · exact a1.2.1
        · exact a1.2.2.1
      · have a2 := a2 hv'
        unfold preMphaseCell at a2
        rw [if_pos ((interface_band_iff _ _ _ _ (by norm_num) (ok L hL).2.2.2).mpr hi), hm] at a2
        simp only [scaled] at a2
        unfold faceRate
        simpa [faceMax] using a2

/-! ### The accepted step -/

section real

open SimTime (Num Cfg State setCurrentCfl inDelay adaptive_step_respects_cfl_real)

/-- The adaptive step outside the delay, with a flow that is not at rest or in the initial step; see C02. -/
structure Adaptive (eps : ℝ) (cfg : Cfg ℝ) (s s' : State ℝ) (x : ℝ × ℝ × ℝ) : Prop where
  eps_pos : 0 < eps
  cfl_pos : 0 < cfg.maxCfl
  shrink : s.isInit = true → cfg.initShrink ≤ 1
  on : cfg.adaptive = true
  late : ¬ inDelay cfg s.curTime
  moving : s.isInit = true ∨ eps ≤ (x.1 + x.2.1) + √((x.1 + x.2.1) * (x.1 + x.2.1) + 4 * x.2.2)
  fwd : 0 ≤ s'.dt0

theorem kang {c f dt m : ℝ} (hc : 0 ≤ c) (hf : 0 ≤ f) (hdt : 0 ≤ dt) (hm : 0 < m) (h : (1 / 2) * (c + √(c ^ 2 + 4 * f)) * dt ≤ m) :
    c * dt ≤ m ∧ c * dt * m + f * dt ^ 2 ≤ m ^ 2 := by
  set q := √(c ^ 2 + 4 * f)
  have hq : q ^ 2 = c ^ 2 + 4 * f := Real.sq_sqrt (by positivity)
  have hqc : c ≤ q := Real.le_sqrt_of_sq_le (by linarith)
  have h1 : c * dt ≤ (1 / 2) * (c + q) * dt := by
    have := mul_le_mul_of_nonneg_right hqc hdt
    linarith
  refine ⟨h1.trans h, ?_⟩
  set y := (1 / 2) * (c + q) * dt with hy
  have e : f * dt ^ 2 = y ^ 2 - c * dt * y := by
    have : f = (q ^ 2 - c ^ 2) / 4 := by rw [hq]; ring
    rw [this, hy]; ring
  have hy0 : 0 ≤ y := le_trans (mul_nonneg hc hdt) h1
  rw [e]
  nlinarith [mul_nonneg (sub_nonneg.mpr h) (sub_nonneg.mpr h1), mul_nonneg (sub_nonneg.mpr h) hm.le]

/-- **C130**: the accepted adaptive step in every cell that is solved, on every level: in each direction the flow crosses at most `cfl`
of a cell, at the free surface at most half of that over all directions together, and with explicit diffusion the diffusion number is
at most `cfl`.

Partial (C130). Missing: prescribed velocities, where it is false (`prescribed_too_long`). -/
theorem step_limits_partial (eps : ℝ) (cfg : Cfg ℝ) (o : Opt ℝ) (n r : ℕ) (M : List (Lev ℝ)) (s s' : State ℝ) (hlow : o.lowest ≤ 0) (ok : Ok M)
    (h : step ⟨eps, Real.sqrt⟩ cfg false o n r M s = .ok s') (ha : Adaptive eps cfg s s' (computeDt o n r M)) :
    ∀ L ∈ M, ∀ c, Solved n L c →
      (∀ d, |L.vel c d| * s'.dt0 ≤ cfg.maxCfl * width o.mapping L c d) ∧
      (AtSurface o L c → (rate o L c 0 + rate o L c 1 + rate o L c 2) * s'.dt0 ≤ cfg.maxCfl / 2) ∧
      (o.explicit = true → diffRate o L c * s'.dt0 ≤ cfg.maxCfl) := by
  have hcv := conv_greatest o n r M hlow ok
  have hd := diff_greatest o n r M hlow ok
  have hf := force_greatest o n r M hlow ok
  have hc0 : 0 ≤ (computeDt o n r M).1 := hcv.2 (Or.inl rfl)
  have hd0 : 0 ≤ (computeDt o n r M).2.1 := hd.2 (Or.inl rfl)
  have hf0 : 0 ≤ (computeDt o n r M).2.2 := hf.2 (Or.inl rfl)
  have key := adaptive_step_respects_cfl_real eps cfg s s' _ _ _ hc0 hd0 ha.eps_pos ha.cfl_pos.le ha.shrink ha.on ha.late ha.moving h
  have k := (kang (by positivity) hf0 ha.fwd ha.cfl_pos key).1
  intro L hL c hs
  have cdt : (computeDt o n r M).1 * s'.dt0 ≤ cfg.maxCfl := by nlinarith [mul_nonneg hd0 ha.fwd]
  have ddt : (computeDt o n r M).2.1 * s'.dt0 ≤ cfg.maxCfl := by nlinarith [mul_nonneg hc0 ha.fwd]
  have w : ∀ d, 0 < width o.mapping L c d := by
    intro d; unfold width
    have := (ok L hL).1 d
    have := (ok L hL).2.1 c d
    split <;> positivity
  refine ⟨fun d => ?_, fun hi => ?_, fun he => ?_⟩
  · have a := hcv.2 (Or.inr ⟨L, hL, c, hs, Or.inl ⟨d, rfl⟩⟩)
    have b := (mul_le_mul_of_nonneg_right a ha.fwd).trans cdt
    unfold rate at b
    rw [div_mul_eq_mul_div, div_le_iff₀ (w d)] at b
    exact b
  · have a := hcv.2 (Or.inr ⟨L, hL, c, hs, Or.inr ⟨hi, rfl⟩⟩)
    have b := (mul_le_mul_of_nonneg_right a ha.fwd).trans cdt
    linarith
  · have a := hd.2 (Or.inr ⟨he, L, hL, c, hs, rfl⟩)
    exact (mul_le_mul_of_nonneg_right a ha.fwd).trans ddt

/-- **C130**: with `use_force_cfl` and `cfl` at most 1 the flow crosses at most `cfl` of a cell also if the force of the cell accelerates
it through the whole step. -/
theorem step_limits_force (eps : ℝ) (cfg : Cfg ℝ) (o : Opt ℝ) (n r : ℕ) (M : List (Lev ℝ)) (s s' : State ℝ) (hlow : o.lowest ≤ 0) (ok : Ok M)
    (h : step ⟨eps, Real.sqrt⟩ cfg false o n r M s = .ok s') (ha : Adaptive eps cfg s s' (computeDt o n r M))
    (hu : o.useForce = true) (h1 : cfg.maxCfl ≤ 1) :
    ∀ L ∈ M, ∀ c, Solved n L c → 0 < L.rho c → ∀ d, |L.vel c d| * s'.dt0 + |L.force c d| / L.rho c * s'.dt0 ^ 2 ≤ cfg.maxCfl * width o.mapping L c d := by
  have hcv := conv_greatest o n r M hlow ok
  have hd := diff_greatest o n r M hlow ok
  have hf := force_greatest o n r M hlow ok
  have hc0 : 0 ≤ (computeDt o n r M).1 := hcv.2 (Or.inl rfl)
  have hd0 : 0 ≤ (computeDt o n r M).2.1 := hd.2 (Or.inl rfl)
  have hf0 : 0 ≤ (computeDt o n r M).2.2 := hf.2 (Or.inl rfl)
  have key := adaptive_step_respects_cfl_real eps cfg s s' _ _ _ hc0 hd0 ha.eps_pos ha.cfl_pos.le ha.shrink ha.on ha.late ha.moving h
  have k := (kang (by positivity) hf0 ha.fwd ha.cfl_pos key).2
  intro L hL c hs hr d
  have w : 0 < width o.mapping L c d := by
    unfold width
    have := (ok L hL).1 d
    have := (ok L hL).2.1 c d
    split <;> positivity
  have a := hcv.2 (Or.inr ⟨L, hL, c, hs, Or.inl ⟨d, rfl⟩⟩)
  have b := hf.2 (Or.inr ⟨hu, L, hL, c, hs, d, rfl⟩)
  have m := ha.cfl_pos
  have t := ha.fwd
  have a' : rate o L c d * s'.dt0 * cfg.maxCfl ≤ ((computeDt o n r M).1 + (computeDt o n r M).2.1) * s'.dt0 * cfg.maxCfl := by
    apply mul_le_mul_of_nonneg_right _ m.le
    apply mul_le_mul_of_nonneg_right _ t
    linarith
  have b' : forceRate o L c d * s'.dt0 ^ 2 ≤ (computeDt o n r M).2.2 * s'.dt0 ^ 2 := mul_le_mul_of_nonneg_right b (by positivity)
  have tot : rate o L c d * s'.dt0 * cfg.maxCfl + forceRate o L c d * s'.dt0 ^ 2 ≤ cfg.maxCfl ^ 2 := by linarith
  have fr0 : 0 ≤ forceRate o L c d := by unfold forceRate; positivity
  have fin : rate o L c d * s'.dt0 + forceRate o L c d * s'.dt0 ^ 2 ≤ cfg.maxCfl := by
    have : cfg.maxCfl * (rate o L c d * s'.dt0 + forceRate o L c d * s'.dt0 ^ 2) ≤ cfg.maxCfl * cfg.maxCfl := by
      have q : cfg.maxCfl * (forceRate o L c d * s'.dt0 ^ 2) ≤ 1 * (forceRate o L c d * s'.dt0 ^ 2) :=
        mul_le_mul_of_nonneg_right h1 (by positivity)
      nlinarith
    exact le_of_mul_le_mul_left this m
  have e : |L.vel c d| * s'.dt0 + |L.force c d| / L.rho c * s'.dt0 ^ 2 =
      (rate o L c d * s'.dt0 + forceRate o L c d * s'.dt0 ^ 2) * width o.mapping L c d := by
    unfold rate forceRate
    have := w.ne'
    field_simp
  rw [e]
  exact mul_le_mul_of_nonneg_right fin w.le

/-- **C130**, prescribed velocity: no face is crossed by more than `cfl` of a cell in a step, at the free surface the directions together
by no more than `cfl`. -/
theorem prescribed_limits (eps : ℝ) (cfg : Cfg ℝ) (o : Opt ℝ) (n r : ℕ) (M : List (Lev ℝ)) (s s' : State ℝ) (hlow : o.lowest ≤ 0) (ok : Ok M)
    (h : step ⟨eps, Real.sqrt⟩ cfg true o n r M s = .ok s') (ha : Adaptive eps cfg s s' (prescribeDt o n M)) :
    ∀ L ∈ M, ∀ c, Solved n L c →
      (∀ d, max |L.mac d c| |L.mac d (up d c)| * s'.dt0 ≤ cfg.maxCfl * width o.mapping L c d) ∧
      (AtSurface o L c → (faceRate o L c 0 + faceRate o L c 1 + faceRate o L c 2) * s'.dt0 ≤ cfg.maxCfl) := by
  have hcv := (prescribed_greatest o n M hlow ok).1
  have hc0 : 0 ≤ (prescribeDt o n M).1 := hcv.2 (Or.inl rfl)
  have key := adaptive_step_respects_cfl_real eps cfg s s' _ _ _ hc0 (le_refl (0 : ℝ)) ha.eps_pos ha.cfl_pos.le ha.shrink ha.on ha.late ha.moving h
  have k := (kang (by simpa using hc0) le_rfl ha.fwd ha.cfl_pos key).1
  rw [add_zero] at k
  intro L hL c hs
  have w : ∀ d, 0 < width o.mapping L c d := by
    intro d; unfold width
    have := (ok L hL).1 d
    have := (ok L hL).2.1 c d
    split <;> positivity
  refine ⟨fun d => ?_, fun hi => ?_⟩
  · have a := hcv.2 (Or.inr ⟨L, hL, c, hs, Or.inl ⟨d, rfl⟩⟩)
    have b := (mul_le_mul_of_nonneg_right a ha.fwd).trans k
    unfold faceRate at b
    rw [div_mul_eq_mul_div, div_le_iff₀ (w d)] at b
    exact b
  · have a := hcv.2 (Or.inr ⟨L, hL, c, hs, Or.inr ⟨hi, rfl⟩⟩)
    exact (mul_le_mul_of_nonneg_right a ha.fwd).trans k

/-! ### A concrete run -/

/-- Adaptive steps with `cfl = m` and nothing else. -/
def plainCfg (m : ℝ) : Cfg ℝ where
  stopTime := -1
  delayTime := -1
  maxCfl := m
  fixedDt := -1
  initialDt := -1
  maxDt := -1
  minDt := -1
  initShrink := 1
  dtGrowth := 0
  chkptTInterval := -1
  chkptTDelay := 0
  chkptTTol := 0
  forceChkptTol := 0
  pltTInterval := -1
  pltTDelay := 0
  pltTTol := 0
  forcePltTol := 0
  stopIndex := -1
  chkptInterval := -1
  chkptDelay := 0
  pltInterval := -1
  pltDelay := 0
  regridInterval := -1
  adaptive := true
  forceChkptDt := false
  forcePltDt := false
  post := []
  forceDtAbsTol := 0

/-- The first step. -/
def plainState : State ℝ where
  dt0 := -1
  dt1 := -1
  dt2 := -1
  curTime := 0
  newTime := 0
  startTime := 0
  timeIndex := 1
  startIndex := 0
  pltStartIndex := 0
  chkptStartIndex := 0
  regridStartIndex := 0
  pltStartTime := 0
  chkptStartTime := 0
  isInit := false
  currentCfl := 0
  dtCalc := 0

theorem plain_step (m x : ℝ) (hx : 1 ≤ x) :
    ∃ s', setCurrentCfl ⟨1, Real.sqrt⟩ (plainCfg m) plainState x 0 0 = .ok s' ∧ s'.dt0 = m / x := by
  have hs : √(x * x) = x := Real.sqrt_mul_self (by linarith)
  have hu : SimTime.cflUnitTime ⟨1, Real.sqrt⟩ x 0 0 = 2 * x := by
    simp [SimTime.cflUnitTime, hs]; ring
  have h1 : ¬ 2 * x < 1 := by linarith
  have h2 : max (2 * x) 1 = 2 * x := max_eq_left (by linarith)
  have h3 : 2 * m / (2 * x) = m / x := mul_div_mul_left m x two_ne_zero
  have n : ¬ (1 : ℝ) < 0 := by norm_num
  have c : SimTime.cflDt ⟨1, Real.sqrt⟩ (plainCfg m) plainState (2 * x) = .ok (m / x) := by
    simp [SimTime.cflDt, plainState, plainCfg, h1, h2, h3]
  have l : SimTime.limitDt (plainCfg m) plainState (m / x) = m / x := by
    simp [SimTime.limitDt, plainState, plainCfg, n]
  have f : SimTime.shortenAll (plainCfg m) plainState.curTime (m / x) = m / x := by
    simp [SimTime.shortenAll, SimTime.shortenFor, SimTime.shortenPost, plainState, plainCfg, n]
  have d : ¬ inDelay (plainCfg m) plainState.curTime := by norm_num [inDelay, plainCfg, plainState]
  refine ⟨{ plainState with dt0 := m / x, currentCfl := (1 / 2) * (2 * x) * (m / x), dtCalc := m / x }, ?_, rfl⟩
  unfold setCurrentCfl
  simp only [hu, c, l, f, d, if_false]
  simp [plainCfg, plainState, n]

/-- One cell at the free surface of width 1 with unit velocity along the first axis and viscosity `mu`; the cell beside it is blanked. -/
noncomputable def oneCell (mu : ℝ) : Lev ℝ where
  dxinv := fun _ => 1
  vel := fun _ d => if d = 0 then 1 else 0
  force := fun _ _ => 0
  mu := fun _ => mu
  rho := fun _ => 1
  fac := fun _ _ => 1
  mask := fun c => if c = (0, 0, 0) then 1 else 0
  vof := fun _ => 1 / 2
  mac := fun d _ => if d = 0 then 1 else 0
  boxes := fun q => if q = 0 then [[(0, 0, 0), (1, 0, 0)]] else []

noncomputable def twoPhase : Opt ℝ := ⟨true, true, false, true, 1 / 10, -1⟩

theorem oneCell_ok (mu : ℝ) : Ok [oneCell mu] := by
  intro L hL
  rw [List.mem_singleton] at hL
  subst hL
  refine ⟨fun d => by simp [oneCell], fun c d => by simp [oneCell], fun c => ?_, fun c => by norm_num [oneCell]⟩
  unfold oneCell; dsimp only; split <;> simp

theorem oneCell_solved (mu : ℝ) (n : ℕ) (c : Cell) : Solved n (oneCell mu) c ↔ c = (0, 0, 0) := by
  constructor
  · rintro ⟨_, hm⟩
    by_contra hc
    simp [oneCell, hc] at hm
  · rintro rfl
    exact ⟨⟨0, Nat.zero_le _, [(0, 0, 0), (1, 0, 0)], by simp [oneCell], by simp⟩, by simp [oneCell]⟩

theorem oneCell_surface (mu : ℝ) (c : Cell) : AtSurface twoPhase (oneCell mu) c :=
  ⟨rfl, Or.inl ⟨c, by simp [Overset.Near], by norm_num [oneCell, twoPhase], by norm_num [oneCell, twoPhase]⟩⟩

theorem oneCell_prescribed (mu : ℝ) (n : ℕ) : prescribeDt twoPhase n [oneCell mu] = (1, 0, 0) := by
  obtain ⟨h1, h2⟩ := prescribed_greatest twoPhase n [oneCell mu] (by norm_num [twoPhase]) (oneCell_ok mu)
  refine Prod.ext (h1.unique ⟨?_, ?_⟩) h2
  · right
    exact ⟨_, List.mem_singleton.mpr rfl, (0, 0, 0), (oneCell_solved mu n _).mpr rfl, Or.inl ⟨0, by simp [faceRate, oneCell, width, twoPhase]⟩⟩
  · rintro x (rfl | ⟨L, hL, c, _, ⟨d, rfl⟩ | ⟨_, rfl⟩⟩)
    · norm_num
    · rw [List.mem_singleton] at hL; subst hL
      by_cases hd : d = 0 <;> simp [faceRate, oneCell, width, twoPhase, hd]
    · rw [List.mem_singleton] at hL; subst hL
      simp [faceRate, oneCell, width, twoPhase]

/-- **C130** fails for prescribed velocities: whatever `cfl`, there is an accepted step in which the directions together cross the whole
`cfl`, twice what `step_limits_partial` grants at the free surface; and with explicit diffusion the diffusion number of the step is arbitrary. -/
theorem prescribed_too_long (m D : ℝ) (hm : 0 < m) : ∃ (M : List (Lev ℝ)) (s s' : State ℝ) (L : Lev ℝ) (c : Cell), Ok M ∧ L ∈ M ∧ Solved 0 L c ∧
    step ⟨1, Real.sqrt⟩ (plainCfg m) true twoPhase 0 0 M s = .ok s' ∧ Adaptive 1 (plainCfg m) s s' (prescribeDt twoPhase 0 M) ∧
    AtSurface twoPhase L c ∧ (faceRate twoPhase L c 0 + faceRate twoPhase L c 1 + faceRate twoPhase L c 2) * s'.dt0 = m ∧
    twoPhase.explicit = true ∧ diffRate twoPhase L c * s'.dt0 = D := by
  obtain ⟨s', h, e⟩ := plain_step m 1 le_rfl
  have hp := oneCell_prescribed (D / m / 6) 0
  refine ⟨[oneCell (D / m / 6)], plainState, s', _, (0, 0, 0), oneCell_ok _, List.mem_singleton.mpr rfl, (oneCell_solved _ 0 _).mpr rfl, ?_, ?_, oneCell_surface _ _, ?_, rfl, ?_⟩
  · unfold step; simp only [if_true, hp]; exact h
  · rw [hp]
    refine ⟨one_pos, hm, by simp [plainState], rfl, ?_, Or.inr ?_, by rw [e]; positivity⟩
    · norm_num [inDelay, plainCfg, plainState]
    · norm_num
  · rw [e]; simp [faceRate, oneCell, width, twoPhase]
  · rw [e]; simp [diffRate, oneCell, width, twoPhase]; field_simp; ring

theorem oneCell_computed (n r : ℕ) : computeDt twoPhase n r [oneCell 0] = (2, 0, 0) := by
  have ok := oneCell_ok 0
  have hl : twoPhase.lowest ≤ 0 := by norm_num [twoPhase]
  refine Prod.ext ((conv_greatest twoPhase n r _ hl ok).unique ⟨?_, ?_⟩) (Prod.ext ((diff_greatest twoPhase n r _ hl ok).unique ⟨Or.inl rfl, ?_⟩)
    ((force_greatest twoPhase n r _ hl ok).unique ⟨Or.inl rfl, ?_⟩))
  · right
    exact ⟨_, List.mem_singleton.mpr rfl, (0, 0, 0), (oneCell_solved 0 n _).mpr rfl, Or.inr ⟨oneCell_surface _ _, by simp [rate, oneCell, width, twoPhase]⟩⟩
  · rintro x (rfl | ⟨L, hL, c, _, ⟨d, rfl⟩ | ⟨_, rfl⟩⟩)
    · norm_num
    · rw [List.mem_singleton] at hL; subst hL
      by_cases hd : d = 0 <;> simp [rate, oneCell, width, twoPhase, hd]
    · rw [List.mem_singleton] at hL; subst hL
      simp [rate, oneCell, width, twoPhase]
  · rintro x (rfl | ⟨_, L, hL, c, _, rfl⟩)
    · exact le_rfl
    · rw [List.mem_singleton] at hL; subst hL
      simp [diffRate, oneCell]
  · rintro x (rfl | ⟨_, L, hL, c, _, d, rfl⟩)
    · exact le_rfl
    · rw [List.mem_singleton] at hL; subst hL
      simp [forceRate, oneCell]

/-- The hypotheses of the theorems are met: with `cfl = 1` the step of the run above is half a unit, since its cell is at the surface. -/
example : ∃ s', step ⟨1, Real.sqrt⟩ (plainCfg 1) false twoPhase 3 0 [oneCell 0] plainState = .ok s' ∧ s'.dt0 = 1 / 2 ∧
    Adaptive 1 (plainCfg 1) plainState s' (computeDt twoPhase 3 0 [oneCell 0]) ∧ Ok [oneCell 0] ∧ Solved 3 (oneCell 0) (0, 0, 0) := by
  obtain ⟨s', h, e⟩ := plain_step 1 2 (by norm_num)
  have hp := oneCell_computed 3 0
  refine ⟨s', ?_, e, ?_, oneCell_ok _, (oneCell_solved _ _ _).mpr rfl⟩
  · unfold step; simp only [Bool.false_eq_true, if_false, hp]; exact h
  · rw [hp]
    refine ⟨one_pos, by norm_num [plainCfg], by simp [plainState], rfl, ?_, Or.inr ?_, by rw [e]; norm_num⟩
    · norm_num [inDelay, plainCfg, plainState]
    · have := Real.sqrt_nonneg (((2 : ℝ) + 0) * (2 + 0) + 4 * 0)
      dsimp only; linarith

/-- The same cell in one box of the third rank, or in two boxes. -/
example : SameCells 0 2 [oneCell 0] [{ oneCell 0 with boxes := fun q => if q = 2 then [[(1, 0, 0)], [(0, 0, 0)]] else [] }] := by
  refine List.Forall₂.cons ⟨rfl, fun c => ?_⟩ .nil
  constructor
  · rintro ⟨q, hq, b, hb, hc⟩
    simp only [Nat.le_zero] at hq
    subst hq
    simp [oneCell] at hb
    subst hb
    refine ⟨2, le_rfl, ?_⟩
    simp at hc ⊢
    tauto
  · rintro ⟨q, hq, b, hb, hc⟩
    refine ⟨0, le_rfl, [(0, 0, 0), (1, 0, 0)], by simp [oneCell], ?_⟩
    by_cases h : q = 2
    · simp [h] at hb
      rcases hb with rfl | rfl <;> simp at hc <;> simp [hc]
    · simp [h] at hb

end real

end AmrWind.Cfl
