import Mathlib.LinearAlgebra.FiniteDimensional.Lemmas
import Verif.Pde.StepProps

/-!
# C89: the linear system of implicit diffusion has a solution
-/

set_option linter.unusedSectionVars false

namespace AmrWind.Step

variable {K : Type*} [Field K] [LinearOrder K] [IsStrictOrderedRing K]
variable {ι : Type*} [Fintype ι]

theorem lap_smul (w : ι → ι → K) (r : K) (f : ι → K) (i : ι) : lap w (fun j => r * f j) i = r * lap w f i := by
  unfold lap
  rw [Finset.mul_sum]
  exact Finset.sum_congr rfl fun j _ => by ring

theorem lap_add (w : ι → ι → K) (f g : ι → K) (i : ι) : lap w (fun j => f j + g j) i = lap w f i + lap w g i := by
  unfold lap
  rw [← Finset.sum_add_distrib]
  exact Finset.sum_congr rfl fun j _ => by ring

/-- C89: the system that the solver is asked to solve has exactly one solution, for every right-hand side, every time step and all densities,
viscosities and maps. -/
theorem solution_exists_unique {w : ι → ι → K} (hw : ∀ i j, w i j = w j i) (h0 : ∀ i j, 0 ≤ w i j) {rho detJ : ι → K} (hr : ∀ i, 0 < rho i)
    (hj : ∀ i, 0 < detJ i) {dtd : K} (hdt : 0 ≤ dtd) (f : ι → K) : ∃! g, Solves (lap w) rho detJ dtd f g := by
  let A : (ι → K) →ₗ[K] (ι → K) :=
    { toFun := fun g i => 1 * (rho i * detJ i) * g i - dtd * lap w g i
      map_add' := by
        intro g h; funext i
        have := lap_add w g h i
        simp only [Pi.add_apply]
        rw [show lap w (g + h) i = lap w (fun j => g j + h j) i from rfl, this]; ring
      map_smul' := by
        intro r g; funext i
        have := lap_smul w r g i
        simp only [Pi.smul_apply, smul_eq_mul, RingHom.id_apply]
        rw [show lap w (r • g) i = lap w (fun j => r * g j) i from rfl, this]; ring }
  have inj : Function.Injective A := by
    intro g h e
    have hg : Solves (lap w) rho detJ dtd (fun i => A g i / rho i) g := by
      intro i
      show A g i = rho i * (A g i / rho i)
      rw [mul_div_cancel₀ _ (hr i).ne']
    have hh : Solves (lap w) rho detJ dtd (fun i => A g i / rho i) h := by
      intro i
      show A h i = rho i * (A g i / rho i)
      rw [mul_div_cancel₀ _ (hr i).ne', e]
    exact solution_unique hw h0 hr hj hdt hg hh
  obtain ⟨g, hg⟩ := (LinearMap.injective_iff_surjective.mp inj) fun i => rho i * f i
  refine ⟨g, fun i => congrFun hg i, fun h hh => solution_unique hw h0 hr hj hdt hh fun i => congrFun hg i⟩

example : ∃! g, Solves (lap three) (fun _ => 2) (fun _ => 3) 4 ![1, 5, -2] g :=
  solution_exists_unique (by decide +kernel) (by decide +kernel) (fun _ => by norm_num) (fun _ => by norm_num) (by norm_num) _

end AmrWind.Step
