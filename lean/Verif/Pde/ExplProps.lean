import Mathlib.Analysis.SpecificLimits.Basic
import Mathlib.Algebra.Order.BigOperators.Group.Finset
import Verif.Pde.ExplModel
import Verif.Pde.StepProps
import Verif.SimTime.CflProps

/-!
# C135: explicit diffusion with the time step that the code chooses
-/

set_option linter.unusedSectionVars false

namespace AmrWind.Expl

open Step (lap predictorRhs improved diffTerm Data)
open Overset (Cell)
open Cfl (Lev Opt Ok Solved computeDt step diffRate Adaptive)

variable {K : Type*} [Field K] [LinearOrder K] [IsStrictOrderedRing K]
variable {ι : Type*} [Fintype ι] [DecidableEq ι]

/-! ### Specification -/

/-- No value of `g` is outside the range of the values of `f`. -/
def NoNewExtremes (f g : ι → K) : Prop := ∀ a b : K, (∀ i, a ≤ f i ∧ f i ≤ b) → ∀ i, a ≤ g i ∧ g i ≤ b

/-! ### Lemmas -/

theorem lap_weight (nb : ι → Fin 3 → Bool → Option ι) (dxinv : Fin 3 → K) (b f : ι → K) (c : ι) :
    lap (weight nb dxinv b) f c =
      ∑ d, ∑ s, match nb c d s with
        | none => 0
        | some j => (b c + b j) / 2 * dxinv d ^ 2 * (f j - f c) := by
  unfold lap weight
  simp only [Finset.sum_mul]
  rw [Finset.sum_comm]
  refine Finset.sum_congr rfl fun d _ => ?_
  rw [Finset.sum_comm]
  refine Finset.sum_congr rfl fun s _ => ?_
  cases h : nb c d s with
  | none => simp
  | some j =>
    simp only [Option.some.injEq, ite_mul, zero_mul]
    rw [Finset.sum_ite_eq]
    simp

theorem weight_nonneg (nb : ι → Fin 3 → Bool → Option ι) (dxinv : Fin 3 → K) {b : ι → K} (hb : ∀ i, 0 ≤ b i) (c j : ι) :
    0 ≤ weight nb dxinv b c j := by
  unfold weight
  refine Finset.sum_nonneg fun d _ => Finset.sum_nonneg fun s _ => ?_
  have := hb c
  have := hb j
  split_ifs <;> positivity

theorem weight_sum_le (nb : ι → Fin 3 → Bool → Option ι) (dxinv : Fin 3 → K) {b : ι → K} {B : K} (h0 : ∀ i, 0 ≤ b i) (hb : ∀ i, b i ≤ B) (c : ι) :
    ∑ j, weight nb dxinv b c j ≤ 2 * B * (dxinv 0 ^ 2 + dxinv 1 ^ 2 + dxinv 2 ^ 2) := by
  unfold weight
  rw [Finset.sum_comm]
  have hB : 0 ≤ B := (h0 c).trans (hb c)
  have one : ∀ d s, (∑ j, if nb c d s = some j then (b c + b j) / 2 * dxinv d ^ 2 else 0) ≤ B * dxinv d ^ 2 := by
    intro d s
    cases h : nb c d s with
    | none => simp only [reduceCtorEq, if_false, Finset.sum_const_zero]; positivity
    | some j =>
      simp only [Option.some.injEq]
      rw [Finset.sum_ite_eq]
      simp only [Finset.mem_univ, if_true]
      refine mul_le_mul_of_nonneg_right ?_ (sq_nonneg _)
      have := hb c
      have := hb j
      linarith
  calc _ ≤ ∑ d : Fin 3, 2 * (B * dxinv d ^ 2) := by
        refine Finset.sum_le_sum fun d _ => ?_
        rw [Finset.sum_comm, Fintype.sum_bool]
        have := one d true
        have := one d false
        linarith
    _ = _ := by rw [Fin.sum_univ_three]; ring

theorem euler_eq {w : ι → ι → K} {dt : K} {rho f : ι → K} (hr : ∀ i, 0 < rho i) (i : ι) :
    euler w dt rho f i = f i + dt / rho i * lap w f i := by
  have h := (hr i).ne'
  simp only [euler, predictorRhs, onlyDiffusion, Data.cell, diffTerm, Step.factor, if_true]
  field_simp
  ring

theorem godunov_eq {w : ι → ι → K} {dt : K} {rho f : ι → K} (hr : ∀ i, 0 < rho i) (i : ι) :
    godunov w dt rho f i = (f i + euler w dt rho (euler w dt rho f) i) / 2 := by
  have h := (hr i).ne'
  rw [euler_eq hr (f := euler w dt rho f)]
  have e := euler_eq (w := w) (dt := dt) (f := f) hr i
  unfold godunov improved Step.rk2
  simp only [onlyDiffusion, diffTerm, if_true]
  rw [e]
  field_simp
  ring

/-- The two schemes do the same to diffusion. -/
theorem mol_eq {w : ι → ι → K} {dt : K} {rho f : ι → K} (hr : ∀ i, 0 < rho i) : methodOfLines w dt rho f = godunov w dt rho f := by
  funext i
  have h := (hr i).ne'
  rw [godunov_eq hr, euler_eq hr (f := euler w dt rho f)]
  have e := euler_eq (w := w) (dt := dt) (f := f) hr i
  simp only [methodOfLines, Step.correctorRhs, onlyDiffusion, Data.cell, diffTerm, Step.factors, if_true]
  rw [e]
  field_simp
  ring

theorem euler_bounded {w : ι → ι → K} (h0 : ∀ i j, 0 ≤ w i j) {dt : K} (hdt : 0 ≤ dt) {rho : ι → K} (hr : ∀ i, 0 < rho i)
    (hs : ∀ i, dt * ∑ j, w i j ≤ rho i) (f : ι → K) : NoNewExtremes f (euler w dt rho f) := by
  intro a b hab i
  rw [euler_eq hr]
  have lo : (∑ j, w i j) * (a - f i) ≤ lap w f i := by
    unfold lap
    rw [Finset.sum_mul]
    refine Finset.sum_le_sum fun j _ => mul_le_mul_of_nonneg_left ?_ (h0 i j)
    have := (hab j).1; linarith
  have hi : lap w f i ≤ (∑ j, w i j) * (b - f i) := by
    unfold lap
    rw [Finset.sum_mul]
    refine Finset.sum_le_sum fun j _ => mul_le_mul_of_nonneg_left ?_ (h0 i j)
    have := (hab j).2; linarith
  have hq : 0 ≤ dt / rho i := div_nonneg hdt (hr i).le
  have hq1 : dt / rho i * ∑ j, w i j ≤ 1 := by
    rw [div_mul_eq_mul_div, div_le_one (hr i)]; exact hs i
  have l1 := mul_le_mul_of_nonneg_left lo hq
  have l2 := mul_le_mul_of_nonneg_left hi hq
  have a1 : 0 ≤ f i - a := sub_nonneg.mpr (hab i).1
  have b1 : 0 ≤ b - f i := sub_nonneg.mpr (hab i).2
  have m1 := mul_le_mul_of_nonneg_right hq1 a1
  have m2 := mul_le_mul_of_nonneg_right hq1 b1
  constructor <;> nlinarith

/-- **C135**: a step of either scheme makes no new extremes if the time step times what leaves a cell is no more than what is in it. -/
theorem explicit_bounded {w : ι → ι → K} (h0 : ∀ i j, 0 ≤ w i j) {dt : K} (hdt : 0 ≤ dt) {rho : ι → K} (hr : ∀ i, 0 < rho i)
    (hs : ∀ i, dt * ∑ j, w i j ≤ rho i) (f : ι → K) :
    NoNewExtremes f (euler w dt rho f) ∧ NoNewExtremes f (godunov w dt rho f) ∧ NoNewExtremes f (methodOfLines w dt rho f) := by
  have g : NoNewExtremes f (godunov w dt rho f) := by
    intro a b hab i
    rw [godunov_eq hr]
    have e1 := euler_bounded h0 hdt hr hs f a b hab
    have e2 := euler_bounded h0 hdt hr hs (euler w dt rho f) a b e1 i
    have := hab i
    constructor <;> linarith
  exact ⟨euler_bounded h0 hdt hr hs f, g, by rw [mol_eq hr]; exact g⟩

/-! ### Sides with given values -/

section given

variable {σ : Type*} [Fintype σ] [DecidableEq σ]

/-- The diffusion of a cell: through faces to other cells with the mean coefficient, and through sides with given values over half a cell. -/
theorem lap_given (nb : ι → Fin 3 → Bool → Option (ι ⊕ σ)) (dxinv : Fin 3 → K) (b : ι → K) (f : ι ⊕ σ → K) (c : ι) :
    lap (weightGiven nb dxinv b) f (.inl c) =
      ∑ d, ∑ s, match nb c d s with
        | none => 0
        | some (.inl j) => (b c + b j) / 2 * dxinv d ^ 2 * (f (.inl j) - f (.inl c))
        | some (.inr t) => 2 * b c * dxinv d ^ 2 * (f (.inr t) - f (.inl c)) := by
  unfold lap
  rw [Fintype.sum_sum_type]
  simp only [weightGiven, Finset.sum_mul]
  rw [Finset.sum_comm, Finset.sum_comm (s := (Finset.univ : Finset σ)), ← Finset.sum_add_distrib]
  refine Finset.sum_congr rfl fun d _ => ?_
  rw [Finset.sum_comm, Finset.sum_comm (s := (Finset.univ : Finset σ)), ← Finset.sum_add_distrib]
  refine Finset.sum_congr rfl fun s _ => ?_
  rcases h : nb c d s with _ | j | t
  · simp
  · simp only [Option.some.injEq, Sum.inl.injEq, reduceCtorEq, if_false, zero_mul, Finset.sum_const_zero, add_zero, ite_mul]
    rw [Finset.sum_ite_eq]; simp
  · simp only [Option.some.injEq, Sum.inr.injEq, reduceCtorEq, if_false, zero_mul, Finset.sum_const_zero, zero_add, ite_mul]
    rw [Finset.sum_ite_eq]
    simp only [Finset.mem_univ, if_true]
    ring

theorem given_nonneg (nb : ι → Fin 3 → Bool → Option (ι ⊕ σ)) (dxinv : Fin 3 → K) {b : ι → K} (hb : ∀ i, 0 ≤ b i) (c j : ι ⊕ σ) :
    0 ≤ weightGiven nb dxinv b c j := by
  rcases c with c | c <;> rcases j with j | j <;> unfold weightGiven <;> try exact le_rfl
  all_goals
    refine Finset.sum_nonneg fun d _ => Finset.sum_nonneg fun s _ => ?_
    have := hb c
  · have := hb j
    split_ifs <;> positivity
  · split_ifs <;> positivity

/-- At most one of the two sides of a cell in a direction has a given value: the domain is at least two cells wide. -/
def OneSided (nb : ι → Fin 3 → Bool → Option (ι ⊕ σ)) : Prop := ∀ c d t t', ¬ (nb c d false = some (.inr t) ∧ nb c d true = some (.inr t'))

theorem given_sum_le (nb : ι → Fin 3 → Bool → Option (ι ⊕ σ)) (h1 : OneSided nb) (dxinv : Fin 3 → K) {b : ι → K} {B : K} (h0 : ∀ i, 0 ≤ b i) (hb : ∀ i, b i ≤ B) (c : ι) :
    ∑ j, weightGiven nb dxinv b (.inl c) j ≤ 3 * B * (dxinv 0 ^ 2 + dxinv 1 ^ 2 + dxinv 2 ^ 2) := by
  have hB : 0 ≤ B := (h0 c).trans (hb c)
  rw [Fintype.sum_sum_type]
  simp only [weightGiven]
  rw [Finset.sum_comm, Finset.sum_comm (s := (Finset.univ : Finset σ)), ← Finset.sum_add_distrib]
  have val : ∀ d s, ((∑ j : ι, if nb c d s = some (.inl j) then (b c + b j) / 2 * dxinv d ^ 2 else 0) +
      ∑ t : σ, if nb c d s = some (.inr t) then b c / (1 / 2) * dxinv d ^ 2 else 0) ≤ (if ∃ t, nb c d s = some (.inr t) then 2 else 1) * (B * dxinv d ^ 2) := by
    intro d s
    have hq : 0 ≤ dxinv d ^ 2 := sq_nonneg _
    rcases h : nb c d s with _ | j | t
    · simp; positivity
    · simp only [Option.some.injEq, Sum.inl.injEq, reduceCtorEq, if_false, Finset.sum_const_zero, add_zero, exists_false]
      rw [Finset.sum_ite_eq]
      simp only [Finset.mem_univ, if_true, one_mul]
      refine mul_le_mul_of_nonneg_right ?_ hq
      have := hb c
      have := hb j
      linarith
    · simp only [Option.some.injEq, Sum.inr.injEq, reduceCtorEq, if_false, Finset.sum_const_zero, zero_add, exists_eq']
      rw [Finset.sum_ite_eq]
      simp only [Finset.mem_univ, if_true]
      have := mul_le_mul_of_nonneg_right (hb c) hq
      have e : b c / (1 / 2) * dxinv d ^ 2 = 2 * (b c * dxinv d ^ 2) := by ring
      rw [e]
      linarith
  calc _ ≤ ∑ d : Fin 3, 3 * (B * dxinv d ^ 2) := by
        refine Finset.sum_le_sum fun d _ => ?_
        rw [Finset.sum_comm, Finset.sum_comm (s := (Finset.univ : Finset σ)), Fintype.sum_bool, Fintype.sum_bool]
        have a := val d true
        have z := val d false
        have hq : 0 ≤ B * dxinv d ^ 2 := mul_nonneg hB (sq_nonneg _)
        by_cases x : ∃ t, nb c d true = some (.inr t)
        · by_cases y : ∃ t, nb c d false = some (.inr t)
          · obtain ⟨t, ht⟩ := x
            obtain ⟨t', ht'⟩ := y
            exact absurd ⟨ht', ht⟩ (h1 c d t' t)
          · rw [if_pos x] at a; rw [if_neg y] at z; linarith
        · rw [if_neg x] at a
          by_cases y : ∃ t, nb c d false = some (.inr t)
          · rw [if_pos y] at z; linarith
          · rw [if_neg y] at z; linarith
    _ = _ := by rw [Fin.sum_univ_three]; ring

end given

section real

open SimTime (Cfg State setCurrentCfl)

/-- **C135**: with sides on which values are given (walls, inflow) the values stay in the range of the field and of the given values as long as `cfl` is at most two thirds over
`ratio`; the given values themselves are left alone.

Partial (C135). Missing: as above, and a larger `cfl`, with which it is false (`given_side_undershoots`). -/
theorem given_step_bounded_partial {σ : Type*} [Fintype σ] [DecidableEq σ] (eps : ℝ) (cfg : Cfg ℝ) (o : Opt ℝ) (n r : ℕ) (M : List (Lev ℝ)) (s s' : State ℝ) (hlow : o.lowest ≤ 0)
    (ok : Ok M) (hx : o.explicit = true) (hmap : o.mapping = false)
    (h : step ⟨eps, Real.sqrt⟩ cfg false o n r M s = .ok s') (ha : Adaptive eps cfg s s' (computeDt o n r M))
    {L : Lev ℝ} (hL : L ∈ M) (at' : ι → Cell) (hs : ∀ i, Solved n L (at' i)) (nb : ι → Fin 3 → Bool → Option (ι ⊕ σ)) (h1 : OneSided nb)
    {rho : ℝ} (hrho : 0 < rho) (hr : ∀ i, L.rho (at' i) = rho) {b : ι → ℝ} {ratio : ℝ} (hratio : 0 ≤ ratio)
    (hb : ∀ i, 0 ≤ b i ∧ b i ≤ ratio * L.mu (at' i)) (hcfl : cfg.maxCfl * ratio ≤ 2 / 3) (f : ι ⊕ σ → ℝ) :
    let w := weightGiven nb L.dxinv b
    let dens : ι ⊕ σ → ℝ := Sum.elim (fun i => L.rho (at' i)) fun _ => 1
    (NoNewExtremes f (euler w s'.dt0 dens f) ∧ NoNewExtremes f (godunov w s'.dt0 dens f) ∧ NoNewExtremes f (methodOfLines w s'.dt0 dens f)) ∧
      ∀ t, godunov w s'.dt0 dens f (.inr t) = f (.inr t) := by
  intro w dens
  have hd : ∀ i, 0 < dens i := by
    rintro (i | t)
    · show 0 < L.rho (at' i); rw [hr]; exact hrho
    · exact one_pos
  have hstay : ∀ (g : ι ⊕ σ → ℝ) t, euler w s'.dt0 dens g (.inr t) = g (.inr t) := by
    intro g t
    rw [euler_eq hd]
    have : lap w g (.inr t) = 0 := by
      unfold lap
      exact Finset.sum_eq_zero fun j _ => by simp [w, weightGiven]
    rw [this]; ring
  refine ⟨explicit_bounded (fun i j => given_nonneg nb L.dxinv (fun i => (hb i).1) i j) ha.fwd hd ?_ f, fun t => ?_⟩
  · rintro (i | t)
    · obtain ⟨m, _, hm⟩ := Finset.exists_max_image Finset.univ b ⟨i, Finset.mem_univ i⟩
      have h1 := given_sum_le nb h1 L.dxinv (fun i => (hb i).1) (fun j => hm j (Finset.mem_univ j)) i
      have h2 := (Cfl.step_limits_partial eps cfg o n r M s s' hlow ok h ha L hL (at' m) (hs m)).2.2 hx
      unfold diffRate Cfl.width at h2
      rw [hr, hmap] at h2
      simp only [Bool.false_eq_true, if_false, one_div, inv_inv, inv_pow] at h2
      set S := L.dxinv 0 ^ 2 + L.dxinv 1 ^ 2 + L.dxinv 2 ^ 2 with hS
      have hS0 : 0 ≤ S := by positivity
      show s'.dt0 * ∑ j, w (.inl i) j ≤ L.rho (at' i)
      rw [hr]
      have h3 : 2 * L.mu (at' m) * S * s'.dt0 ≤ cfg.maxCfl * rho := by
        have := mul_le_mul_of_nonneg_right h2 hrho.le
        have e : 2 * (L.mu (at' m) / rho) * S * s'.dt0 * rho = 2 * L.mu (at' m) * S * s'.dt0 := by field_simp
        rw [e] at this
        exact this
      calc s'.dt0 * ∑ j, w (.inl i) j ≤ s'.dt0 * (3 * b m * S) := mul_le_mul_of_nonneg_left h1 ha.fwd
        _ ≤ s'.dt0 * (3 * (ratio * L.mu (at' m)) * S) := by
            refine mul_le_mul_of_nonneg_left ?_ ha.fwd
            refine mul_le_mul_of_nonneg_right ?_ hS0
            have := (hb m).2; linarith
        _ = 3 / 2 * ratio * (2 * L.mu (at' m) * S * s'.dt0) := by ring
        _ ≤ 3 / 2 * ratio * (cfg.maxCfl * rho) := mul_le_mul_of_nonneg_left h3 (by positivity)
        _ = 3 / 2 * (cfg.maxCfl * ratio) * rho := by ring
        _ ≤ 1 * rho := mul_le_mul_of_nonneg_right (by linarith) hrho.le
        _ = rho := one_mul _
    · have : ∑ j, w (.inr t) j = 0 := Finset.sum_eq_zero fun j _ => by simp [w, weightGiven]
      rw [this, mul_zero]; exact (hd _).le
  · rw [godunov_eq hd, hstay, hstay]; ring

end real

section real

open SimTime (Cfg State setCurrentCfl)

/-- **C135**: with uniform density and a diffusivity of at most `ratio` times the viscosity, the adaptive time step that the code chooses
with explicit diffusion makes no new extremes as long as `cfl` is at most one over `ratio`: on any level, for any field, any viscosities and
any walls without flux or periodic directions.  For the momentum itself `ratio` is one and every `cfl` up to one will do.

Partial (C135). Missing: variable density and fast diffusion of scalars, where it is false. -/
theorem chosen_step_bounded_partial (eps : ℝ) (cfg : Cfg ℝ) (o : Opt ℝ) (n r : ℕ) (M : List (Lev ℝ)) (s s' : State ℝ) (hlow : o.lowest ≤ 0) (ok : Ok M)
    (hx : o.explicit = true) (hmap : o.mapping = false)
    (h : step ⟨eps, Real.sqrt⟩ cfg false o n r M s = .ok s') (ha : Adaptive eps cfg s s' (computeDt o n r M))
    {L : Lev ℝ} (hL : L ∈ M) (at' : ι → Cell) (hs : ∀ i, Solved n L (at' i)) (nb : ι → Fin 3 → Bool → Option ι)
    {rho : ℝ} (hrho : 0 < rho) (hr : ∀ i, L.rho (at' i) = rho) {b : ι → ℝ} {ratio : ℝ} (hratio : 0 ≤ ratio)
    (hb : ∀ i, 0 ≤ b i ∧ b i ≤ ratio * L.mu (at' i)) (hcfl : cfg.maxCfl * ratio ≤ 1) (f : ι → ℝ) :
    let w := weight nb L.dxinv b
    NoNewExtremes f (euler w s'.dt0 (fun i => L.rho (at' i)) f) ∧ NoNewExtremes f (godunov w s'.dt0 (fun i => L.rho (at' i)) f) ∧
      NoNewExtremes f (methodOfLines w s'.dt0 (fun i => L.rho (at' i)) f) := by
  intro w
  refine explicit_bounded (fun i j => weight_nonneg nb L.dxinv (fun i => (hb i).1) i j) ha.fwd (fun i => by rw [hr]; exact hrho) (fun i => ?_) f
  obtain ⟨m, _, hm⟩ := Finset.exists_max_image Finset.univ b ⟨i, Finset.mem_univ i⟩
  have h1 := weight_sum_le nb L.dxinv (fun i => (hb i).1) (fun j => hm j (Finset.mem_univ j)) i
  have h2 := (Cfl.step_limits_partial eps cfg o n r M s s' hlow ok h ha L hL (at' m) (hs m)).2.2 hx
  unfold diffRate Cfl.width at h2
  rw [hr, hmap] at h2
  simp only [Bool.false_eq_true, if_false, one_div, inv_inv, inv_pow] at h2
  set S := L.dxinv 0 ^ 2 + L.dxinv 1 ^ 2 + L.dxinv 2 ^ 2 with hS
  have hS0 : 0 ≤ S := by positivity
  rw [hr]
  have h3 : 2 * L.mu (at' m) * S * s'.dt0 ≤ cfg.maxCfl * rho := by
    have := mul_le_mul_of_nonneg_right h2 hrho.le
    have e : 2 * (L.mu (at' m) / rho) * S * s'.dt0 * rho = 2 * L.mu (at' m) * S * s'.dt0 := by field_simp
    rw [e] at this
    exact this
  calc s'.dt0 * ∑ j, w i j ≤ s'.dt0 * (2 * b m * S) := mul_le_mul_of_nonneg_left h1 ha.fwd
    _ ≤ s'.dt0 * (2 * (ratio * L.mu (at' m)) * S) := by
        refine mul_le_mul_of_nonneg_left ?_ ha.fwd
        refine mul_le_mul_of_nonneg_right ?_ hS0
        have := (hb m).2; linarith
    _ = ratio * (2 * L.mu (at' m) * S * s'.dt0) := by ring
    _ ≤ ratio * (cfg.maxCfl * rho) := mul_le_mul_of_nonneg_left h3 hratio
    _ = cfg.maxCfl * ratio * rho := by ring
    _ ≤ 1 * rho := mul_le_mul_of_nonneg_right hcfl hrho.le
    _ = rho := one_mul _

/-! ### Where the step is too long -/

/-- A fluid at rest in cells of width 1/1000, with viscosity and density as given. -/
noncomputable def rest (cells : List Cell) (mu rho : Cell → ℝ) : Lev ℝ where
  dxinv := fun _ => 1000
  vel := fun _ _ => 0
  force := fun _ _ => 0
  mu := mu
  rho := rho
  fac := fun _ _ => 1
  mask := fun _ => 1
  vof := fun _ => 1
  mac := fun _ _ => 0
  boxes := fun q => if q = 0 then [cells] else []

/-- Explicit diffusion, no mesh map, one phase as far as advection goes. -/
noncomputable def plain : Opt ℝ := ⟨true, true, false, false, 1 / 10, -1⟩

theorem rest_ok (cells : List Cell) (mu rho : Cell → ℝ) : Ok [rest cells mu rho] := by
  intro L hL
  rw [List.mem_singleton] at hL
  subst hL
  refine ⟨fun d => by norm_num [rest], fun c d => by norm_num [rest], fun c => Or.inr rfl, fun c => by norm_num [rest]⟩

theorem rest_solved (cells : List Cell) (mu rho : Cell → ℝ) (c : Cell) : Solved 0 (rest cells mu rho) c ↔ c ∈ cells := by
  simp [Solved, rest]

theorem rest_rate (cells : List Cell) (mu rho : Cell → ℝ) (c : Cell) :
    diffRate plain (rest cells mu rho) c = 6000000 * (mu c / rho c) := by
  simp only [diffRate, Cfl.width, plain, rest, Bool.false_eq_true, if_false]
  norm_num
  ring

theorem rest_computed (cells : List Cell) (mu rho : Cell → ℝ) {k : ℝ} {c₀ : Cell} (h₀ : c₀ ∈ cells) (hk : mu c₀ / rho c₀ = k)
    (hle : ∀ c ∈ cells, mu c / rho c ≤ k) (hk0 : 0 ≤ k) : computeDt plain 0 0 [rest cells mu rho] = (0, 6000000 * k, 0) := by
  have ok := rest_ok cells mu rho
  have hl : plain.lowest ≤ 0 := by norm_num [plain]
  have h1 := Cfl.conv_greatest plain 0 0 _ hl ok
  have h2 := Cfl.diff_greatest plain 0 0 _ hl ok
  have h3 := Cfl.force_greatest plain 0 0 _ hl ok
  refine Prod.ext ?_ (Prod.ext ?_ ?_)
  · refine h1.unique ⟨Or.inl rfl, ?_⟩
    rintro x (rfl | ⟨L, hL, c, _, ⟨d, rfl⟩ | ⟨⟨hv, _⟩, _⟩⟩)
    · exact le_rfl
    · rw [List.mem_singleton] at hL; subst hL
      simp [Cfl.rate, rest]
    · simp [plain] at hv
  · refine h2.unique ⟨Or.inr ⟨rfl, _, List.mem_singleton_self _, c₀, (rest_solved _ _ _ _).mpr h₀, by rw [rest_rate, hk]⟩, ?_⟩
    rintro x (rfl | ⟨_, L, hL, c, hc, rfl⟩)
    · positivity
    · rw [List.mem_singleton] at hL; subst hL
      rw [rest_rate]
      have := hle c ((rest_solved _ _ _ _).mp hc)
      linarith
  · refine h3.unique ⟨Or.inl rfl, ?_⟩
    rintro x (rfl | ⟨_, L, hL, c, _, d, rfl⟩)
    · exact le_rfl
    · rw [List.mem_singleton] at hL; subst hL
      simp [Cfl.forceRate, rest]

/-- The step that the code chooses for a fluid at rest. -/
theorem rest_step (m : ℝ) (cells : List Cell) (mu rho : Cell → ℝ) {k : ℝ} {c₀ : Cell} (h₀ : c₀ ∈ cells) (hk : mu c₀ / rho c₀ = k)
    (hle : ∀ c ∈ cells, mu c / rho c ≤ k) (hk0 : 1 ≤ 6000000 * k) :
    ∃ s', step ⟨1, Real.sqrt⟩ (Cfl.plainCfg m) false plain 0 0 [rest cells mu rho] Cfl.plainState = .ok s' ∧ s'.dt0 = m / (6000000 * k) := by
  obtain ⟨s', h, e⟩ := Cfl.plain_step m (6000000 * k) hk0
  refine ⟨s', ?_, e⟩
  unfold step
  simp only [Bool.false_eq_true, if_false]
  rw [rest_computed cells mu rho h₀ hk hle (by linarith), ← h]
  unfold setCurrentCfl SimTime.cflUnitTime
  simp only [zero_add, add_zero]

theorem unbounded_pow {q : ℝ} (hq : 1 < |q|) (B : ℝ) : ∃ n : ℕ, B < |q ^ n| := by
  obtain ⟨n, hn⟩ := pow_unbounded_of_one_lt B hq
  exact ⟨n, by rw [abs_pow]; exact hn⟩

/-- One cell of air beside one of water. -/
def pair : Bool → Fin 3 → Bool → Option Bool
  | false, 0, true => some true
  | true, 0, false => some false
  | _, _, _ => none

def pairCell : Bool → Cell
  | false => (0, 0, 0)
  | true => (1, 0, 0)

noncomputable def airWaterMu (c : Cell) : ℝ := if c = (0, 0, 0) then 1 / 100000 else 1 / 1000
noncomputable def airWaterRho (c : Cell) : ℝ := if c = (0, 0, 0) then 1 else 1000

theorem pair_lap (dxinv : Fin 3 → ℝ) (b f : Bool → ℝ) :
    lap (weight pair dxinv b) f false = (b false + b true) / 2 * dxinv 0 ^ 2 * (f true - f false) ∧
    lap (weight pair dxinv b) f true = (b true + b false) / 2 * dxinv 0 ^ 2 * (f false - f true) := by
  constructor <;> rw [lap_weight] <;> simp [pair, Fin.sum_univ_three]

/-- **C135** fails with variable density: beside water, air takes the mean viscosity of the two, fifty times its own, which the time step
does not account for.  With air, water and `cfl = 0.5` (the default is 1) the step that the code chooses brings air at zero
beside water at one below minus four, and every further step of that length multiplies the difference again: it grows without bound. -/
theorem air_water_diverges : ∃ s',
    step ⟨1, Real.sqrt⟩ (Cfl.plainCfg (1 / 2)) false plain 0 0 [rest [(0, 0, 0), (1, 0, 0)] airWaterMu airWaterRho] Cfl.plainState = .ok s' ∧
    0 < s'.dt0 ∧
    let w := weight pair (fun _ => 1000) fun i => airWaterMu (pairCell i)
    let next := godunov w s'.dt0 fun i => airWaterRho (pairCell i)
    let f : Bool → ℝ := fun i => if i then 1 else 0
    next f false < -4 ∧ ∀ B : ℝ, ∃ n : ℕ, B < |next^[n] f true - next^[n] f false| := by
  obtain ⟨s', h, e⟩ := rest_step (1 / 2) [(0, 0, 0), (1, 0, 0)] airWaterMu airWaterRho (k := 1 / 100000) (c₀ := (0, 0, 0)) (by simp)
    (by norm_num [airWaterMu, airWaterRho]) (by intro c hc; simp only [List.mem_cons, List.not_mem_nil, or_false] at hc
                                                rcases hc with rfl | rfl <;> norm_num [airWaterMu, airWaterRho]) (by norm_num)
  refine ⟨s', h, by rw [e]; norm_num, ?_⟩
  intro w next f
  have hr : ∀ i, 0 < airWaterRho (pairCell i) := by
    intro i; cases i <;> norm_num [airWaterRho, pairCell]
  have hm : ∀ i, airWaterMu (pairCell i) = if i then 1 / 1000 else 1 / 100000 := by
    intro i; cases i <;> norm_num [airWaterMu, pairCell]
  have hd : ∀ i, airWaterRho (pairCell i) = if i then 1000 else 1 := by
    intro i; cases i <;> norm_num [airWaterRho, pairCell]
  have l := fun g => pair_lap (fun _ => 1000) (fun i => airWaterMu (pairCell i)) g
  set eu := euler w s'.dt0 fun i => airWaterRho (pairCell i) with heu
  have nf : ∀ g : Bool → ℝ, eu g false = g false + s'.dt0 / 1 * (505 * (g true - g false)) := by
    intro g
    have := euler_eq (w := w) (dt := s'.dt0) (f := g) hr false
    rw [(l g).1, hd, hm, hm] at this
    rw [heu, this]; norm_num
  have nt : ∀ g : Bool → ℝ, eu g true = g true + s'.dt0 / 1000 * (505 * (g false - g true)) := by
    intro g
    have := euler_eq (w := w) (dt := s'.dt0) (f := g) hr true
    rw [(l g).2, hd, hm, hm] at this
    rw [heu, this]; norm_num
  have ng : ∀ (g : Bool → ℝ) i, next g i = (g i + eu (eu g) i) / 2 := fun g i => godunov_eq hr i
  have step0 : ∀ g : Bool → ℝ, eu g true - eu g false = (1 - s'.dt0 * 505 * (1 + 1 / 1000)) * (g true - g false) := by
    intro g; rw [nf, nt]; ring
  have step1 : ∀ g : Bool → ℝ, next g true - next g false = (1 + (1 - s'.dt0 * 505 * (1 + 1 / 1000)) ^ 2) / 2 * (g true - g false) := by
    intro g
    have a := step0 g
    have b := step0 (eu g)
    rw [a] at b
    rw [ng, ng]
    linear_combination b / 2
  have stepn : ∀ n, next^[n] f true - next^[n] f false = ((1 + (1 - s'.dt0 * 505 * (1 + 1 / 1000)) ^ 2) / 2) ^ n := by
    intro n
    induction n with
    | zero => simp [f]
    | succ n ih => rw [Function.iterate_succ_apply', step1, ih, pow_succ]; ring
  refine ⟨?_, fun B => ?_⟩
  · rw [ng, nf, nf, nt, e]; norm_num [f]
  · obtain ⟨n, hn⟩ := unbounded_pow (q := (1 + (1 - s'.dt0 * 505 * (1 + 1 / 1000)) ^ 2) / 2) (by rw [e]; norm_num) B
    exact ⟨n, by rw [stepn]; exact hn⟩

/-- Eight cells, periodic in the three directions. -/
def cube (c : Fin 3 → Bool) (d : Fin 3) (_ : Bool) : Option (Fin 3 → Bool) := some (Function.update c d (!c d))

def cubeCell (c : Fin 3 → Bool) : Cell := (if c 0 then 1 else 0, if c 1 then 1 else 0, if c 2 then 1 else 0)

def cubeCells : List Cell :=
  [(0, 0, 0), (1, 0, 0), (0, 1, 0), (1, 1, 0), (0, 0, 1), (1, 0, 1), (0, 1, 1), (1, 1, 1)]

/-- One in a cell, minus one in its neighbours. -/
def board (c : Fin 3 → Bool) : ℝ := (if c 0 then -1 else 1) * (if c 1 then -1 else 1) * (if c 2 then -1 else 1)

theorem board_flip (c : Fin 3 → Bool) (d : Fin 3) : board (Function.update c d (!c d)) = - board c := by
  unfold board
  fin_cases d <;> simp [Function.update] <;> cases c 0 <;> cases c 1 <;> cases c 2 <;> norm_num

theorem cube_lap (b x : ℝ) (f : (Fin 3 → Bool) → ℝ) (a : ℝ) (hf : ∀ c, f c = a * board c) (c : Fin 3 → Bool) :
    lap (weight cube (fun _ => x) fun _ => b) f c = -(12 * b * x ^ 2) * f c := by
  rw [lap_weight]
  simp only [cube, hf, board_flip, Fin.sum_univ_three, Fintype.sum_bool]
  ring

theorem cube_euler {b x dt rho : ℝ} (hr : 0 < rho) {f : (Fin 3 → Bool) → ℝ} {a : ℝ} (hf : ∀ c, f c = a * board c) (c : Fin 3 → Bool) :
    euler (weight cube (fun _ => x) fun _ => b) dt (fun _ => rho) f c = (1 - 12 * b * x ^ 2 * dt / rho) * a * board c := by
  rw [euler_eq fun _ => hr, cube_lap b x f a hf, hf]
  ring

/-- **C135** fails for the scalars: the time step accounts for the viscosity of the momentum only.  With a diffusivity of `1 / Pr` times the
viscosity (the temperature, with a Prandtl number) the step that the code chooses lets the temperature of a fluid at rest grow without bound
whenever `cfl` is more than `Pr`, with the Godunov scheme and with the method of lines, also if nothing else is wrong. -/
theorem temperature_diverges {Pr m : ℝ} (hPr : 0 < Pr) (hm : Pr < m) : ∃ s',
    step ⟨1, Real.sqrt⟩ (Cfl.plainCfg m) false plain 0 0 [rest cubeCells (fun _ => 1) fun _ => 1] Cfl.plainState = .ok s' ∧
    0 < s'.dt0 ∧ (∀ c, Solved 0 (rest cubeCells (fun _ => 1) fun _ => 1) (cubeCell c)) ∧
    let w := weight cube (fun _ => 1000) fun _ => 1 / Pr
    (∀ B : ℝ, ∃ n : ℕ, ∀ c, B < |(godunov w s'.dt0 fun _ => 1)^[n] board c|) ∧
    (∀ B : ℝ, ∃ n : ℕ, ∀ c, B < |(methodOfLines w s'.dt0 fun _ => 1)^[n] board c|) := by
  obtain ⟨s', h, e⟩ := rest_step m cubeCells (fun _ => 1) (fun _ => 1) (k := 1) (c₀ := (0, 0, 0)) (by simp [cubeCells])
    (by norm_num) (by intro c _; norm_num) (by norm_num)
  refine ⟨s', h, by rw [e]; have := hPr.trans hm; positivity, fun c => (rest_solved _ _ _ _).mpr ?_, ?_⟩
  · unfold cubeCell cubeCells
    cases c 0 <;> cases c 1 <;> cases c 2 <;> simp
  intro w
  set z := 2 * m / Pr with hz
  have hz2 : 2 < z := by rw [hz, lt_div_iff₀ hPr]; linarith
  have one : ∀ (a : ℝ) (f : (Fin 3 → Bool) → ℝ), (∀ c, f c = a * board c) → ∀ c, godunov w s'.dt0 (fun _ => 1) f c = (1 - z + z ^ 2 / 2) * a * board c := by
    intro a f hf c
    rw [godunov_eq fun _ => one_pos]
    have e1 := fun c => cube_euler (b := 1 / Pr) (x := 1000) (dt := s'.dt0) one_pos hf c
    have e2 := cube_euler (b := 1 / Pr) (x := 1000) (dt := s'.dt0) one_pos e1 c
    have ez : 12 * (1 / Pr) * (1000 : ℝ) ^ 2 * s'.dt0 / 1 = z := by
      rw [e, hz]; ring
    rw [ez] at e2
    rw [e2, hf]
    ring
  have iter : ∀ n c, (godunov w s'.dt0 fun _ => 1)^[n] board c = (1 - z + z ^ 2 / 2) ^ n * board c := by
    intro n
    induction n with
    | zero => intro c; simp
    | succ n ih => intro c; rw [Function.iterate_succ_apply', one _ _ ih, pow_succ]; ring
  have ab : ∀ c, |board c| = 1 := by
    intro c; unfold board
    cases c 0 <;> cases c 1 <;> cases c 2 <;> norm_num
  have key : ∀ B : ℝ, ∃ n : ℕ, ∀ c, B < |(godunov w s'.dt0 fun _ => 1)^[n] board c| := by
    intro B
    obtain ⟨n, hn⟩ := unbounded_pow (q := 1 - z + z ^ 2 / 2) (by
      have : 1 < 1 - z + z ^ 2 / 2 := by nlinarith
      exact this.trans_le (le_abs_self _)) B
    exact ⟨n, fun c => by rw [iter, abs_mul, ab, mul_one]; exact hn⟩
  refine ⟨key, ?_⟩
  have : (methodOfLines w s'.dt0 fun _ => 1) = godunov w s'.dt0 fun _ => 1 := by
    funext f; exact mol_eq fun _ => one_pos
  rw [this]; exact key

/-- The hypotheses of `chosen_step_bounded_partial` are met by the eight cells with `cfl = 9/10`, for the momentum. -/
example : ∃ s', step ⟨1, Real.sqrt⟩ (Cfl.plainCfg (9 / 10)) false plain 0 0 [rest cubeCells (fun _ => 1) fun _ => 1] Cfl.plainState = .ok s' ∧
    NoNewExtremes board (godunov (weight cube (rest cubeCells (fun _ => 1) fun _ => 1).dxinv fun _ => 1) s'.dt0
      (fun i => (rest cubeCells (fun _ => 1) fun _ => 1).rho (cubeCell i)) board) := by
  obtain ⟨s', h, e⟩ := rest_step (9 / 10) cubeCells (fun _ => 1) (fun _ => 1) (k := 1) (c₀ := (0, 0, 0)) (by simp [cubeCells])
    (by norm_num) (by intro c _; norm_num) (by norm_num)
  have hc := rest_computed cubeCells (fun _ => 1) (fun _ => 1) (k := 1) (c₀ := (0, 0, 0)) (by simp [cubeCells]) (by norm_num)
    (by intro c _; norm_num) zero_le_one
  refine ⟨s', h, (chosen_step_bounded_partial 1 (Cfl.plainCfg (9 / 10)) plain 0 0 _ Cfl.plainState s' (by norm_num [plain]) (rest_ok _ _ _) rfl rfl h
    ⟨one_pos, by norm_num [Cfl.plainCfg], by simp [Cfl.plainState], rfl, by norm_num [SimTime.inDelay, Cfl.plainCfg, Cfl.plainState], Or.inr ?_,
      by rw [e]; norm_num⟩ (List.mem_singleton_self _) cubeCell (fun c => (rest_solved _ _ _ _).mpr ?_) cube one_pos (fun _ => rfl) (ratio := 1) zero_le_one
      (b := fun _ => 1) (fun _ => ⟨zero_le_one, by norm_num [rest]⟩) (by norm_num [Cfl.plainCfg]) board).2.1⟩
  · rw [hc]
    have := Real.sqrt_nonneg ((0 + 6000000 * 1) * (0 + 6000000 * 1) + 4 * (0 : ℝ))
    simp only
    linarith
  · unfold cubeCell cubeCells
    cases c 0 <;> cases c 1 <;> cases c 2 <;> simp

/-- Two cells between two walls across, periodic in the other directions. -/
def walls (c : Fin 3 → Bool) (d : Fin 3) (s : Bool) : Option ((Fin 3 → Bool) ⊕ Unit) :=
  if d = 0 then (if c 0 = s then some (.inr ()) else some (.inl (Function.update c 0 (!c 0)))) else some (.inl (Function.update c d (!c d)))

theorem walls_one : OneSided walls := by
  intro c d t t'
  unfold walls
  by_cases hd : d = 0
  · simp only [hd, if_true]
    cases c 0 <;> simp
  · simp [hd]

/-- One in one cell, zero in the others and on the walls. -/
def spot : (Fin 3 → Bool) ⊕ Unit → ℝ := Sum.elim (fun c => if c = fun _ => false then 1 else 0) fun _ => 0

/-- **C135** fails beside a wall when `cfl` is more than 6/7: the step accounts for the faces between cells, half as steep as a side with a given value.  A field of zeros and a
single one, with walls at zero, becomes negative in one step. -/
theorem given_side_undershoots {m : ℝ} (hm : 6 / 7 < m) : ∃ s',
    step ⟨1, Real.sqrt⟩ (Cfl.plainCfg m) false plain 0 0 [rest cubeCells (fun _ => 1) fun _ => 1] Cfl.plainState = .ok s' ∧
    (∀ c, Solved 0 (rest cubeCells (fun _ => 1) fun _ => 1) (cubeCell c)) ∧
    (∀ i, 0 ≤ spot i) ∧
    godunov (weightGiven walls (fun _ => 1000) fun _ => 1) s'.dt0 (fun _ => 1) spot (.inl ![false, true, false]) < 0 := by
  obtain ⟨s', h, e⟩ := rest_step m cubeCells (fun _ => 1) (fun _ => 1) (k := 1) (c₀ := (0, 0, 0)) (by simp [cubeCells])
    (by norm_num) (by intro c _; norm_num) (by norm_num)
  refine ⟨s', h, fun c => (rest_solved _ _ _ _).mpr ?_, ?_, ?_⟩
  · unfold cubeCell cubeCells
    cases c 0 <;> cases c 1 <;> cases c 2 <;> simp
  · rintro (c | t)
    · unfold spot; simp only [Sum.elim_inl]; split_ifs <;> norm_num
    · exact le_rfl
  set w := weightGiven walls (fun _ => (1000 : ℝ)) fun _ => 1 with hw
  set E := euler w s'.dt0 fun _ => 1 with hE
  set q := m / 6 with hq
  have stay : ∀ g : (Fin 3 → Bool) ⊕ Unit → ℝ, E g (.inr ()) = g (.inr ()) := by
    intro g
    rw [hE, euler_eq fun _ => one_pos]
    have : lap w g (.inr ()) = 0 := by
      unfold lap
      exact Finset.sum_eq_zero fun j _ => by simp [w, weightGiven]
    rw [this]; ring
  have cell : ∀ (g : (Fin 3 → Bool) ⊕ Unit → ℝ) (c : Fin 3 → Bool), E g (.inl c) = (1 - 7 * q) * g (.inl c) + q * g (.inl (Function.update c 0 (!c 0))) +
      2 * q * g (.inr ()) + 2 * q * g (.inl (Function.update c 1 (!c 1))) + 2 * q * g (.inl (Function.update c 2 (!c 2))) := by
    intro g c
    rw [hE, euler_eq fun _ => one_pos, hw, lap_given, e]
    simp only [Fin.sum_univ_three, Fintype.sum_bool, walls, one_ne_zero, if_false, if_true, show ¬ ((2 : Fin 3) = 0) by decide]
    rw [hq]
    cases hc : c 0
    · simp only [Bool.false_eq_true, if_false, if_true]; ring
    · simp only [Bool.true_eq_false, if_false, if_true]; ring
  have u0 : ∀ a b c : Bool, Function.update ![a, b, c] 0 (!(![a, b, c] 0)) = ![!a, b, c] := by decide
  have u1 : ∀ a b c : Bool, Function.update ![a, b, c] 1 (!(![a, b, c] 1)) = ![a, !b, c] := by decide
  have u2 : ∀ a b c : Bool, Function.update ![a, b, c] 2 (!(![a, b, c] 2)) = ![a, b, !c] := by decide
  have z : (fun _ => false : Fin 3 → Bool) = ![false, false, false] := by decide
  have sp : ∀ a b c : Bool, spot (.inl ![a, b, c]) = if a = false ∧ b = false ∧ c = false then 1 else 0 := by
    intro a b c
    unfold spot
    rw [Sum.elim_inl, z]
    cases a <;> cases b <;> cases c <;> simp
  rw [godunov_eq fun _ => one_pos]
  show (spot (.inl ![false, true, false]) + E (E spot) (.inl ![false, true, false])) / 2 < 0
  have s0 : spot (.inr ()) = 0 := rfl
  simp only [cell, stay, u0, u1, u2, sp, s0, Bool.not_false, Bool.not_true]
  norm_num
  have : 1 / 7 < q := by rw [hq]; linarith
  nlinarith

/-- With `cfl = 6/10` the hypotheses of `given_step_bounded_partial` are met between the two walls. -/
example : ∃ s', step ⟨1, Real.sqrt⟩ (Cfl.plainCfg (6 / 10)) false plain 0 0 [rest cubeCells (fun _ => 1) fun _ => 1] Cfl.plainState = .ok s' ∧
    NoNewExtremes spot (godunov (weightGiven walls (rest cubeCells (fun _ => 1) fun _ => 1).dxinv fun _ => 1) s'.dt0
      (Sum.elim (fun i => (rest cubeCells (fun _ => 1) fun _ => 1).rho (cubeCell i)) fun _ => 1) spot) := by
  obtain ⟨s', h, e⟩ := rest_step (6 / 10) cubeCells (fun _ => 1) (fun _ => 1) (k := 1) (c₀ := (0, 0, 0)) (by simp [cubeCells])
    (by norm_num) (by intro c _; norm_num) (by norm_num)
  have hc := rest_computed cubeCells (fun _ => 1) (fun _ => 1) (k := 1) (c₀ := (0, 0, 0)) (by simp [cubeCells]) (by norm_num)
    (by intro c _; norm_num) zero_le_one
  refine ⟨s', h, (given_step_bounded_partial 1 (Cfl.plainCfg (6 / 10)) plain 0 0 _ Cfl.plainState s' (by norm_num [plain]) (rest_ok _ _ _) rfl rfl h
    ⟨one_pos, by norm_num [Cfl.plainCfg], by simp [Cfl.plainState], rfl, by norm_num [SimTime.inDelay, Cfl.plainCfg, Cfl.plainState], Or.inr ?_,
      by rw [e]; norm_num⟩ (List.mem_singleton_self _) cubeCell (fun c => (rest_solved _ _ _ _).mpr ?_) walls walls_one one_pos (fun _ => rfl) (ratio := 1) zero_le_one
      (b := fun _ => 1) (fun _ => ⟨zero_le_one, by norm_num [rest]⟩) (by norm_num [Cfl.plainCfg]) spot).1.2.1⟩
  · rw [hc]
    have := Real.sqrt_nonneg ((0 + 6000000 * 1) * (0 + 6000000 * 1) + 4 * (0 : ℝ))
    simp only
    linarith
  · unfold cubeCell cubeCells
    cases c 0 <;> cases c 1 <;> cases c 2 <;> simp

end real

end AmrWind.Expl
