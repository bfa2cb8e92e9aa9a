import Verif.Abl.Model

/-!
# C49: the similarity iteration
-/

namespace AmrWind.Abl

open Real

/-! ## The stability functions -/

/-- C49: the stability functions vanish in neutral conditions. -/
theorem psi_zero (beta gamma : ℝ) : psiM beta gamma 0 = 0 ∧ psiH beta gamma 0 = 0 := by
  constructor
  · unfold psiM
    simp only [lt_irrefl, if_false, mul_zero, sub_zero, Real.sqrt_one, mul_one]
    rw [show (1 / 2 * (1 + 1) : ℝ) = 1 by norm_num, Real.log_one, Real.arctan_one]
    ring
  · unfold psiH
    simp only [lt_irrefl, if_false, mul_zero, sub_zero, Real.sqrt_one]
    rw [show (1 / 2 * (1 + 1) : ℝ) = 1 by norm_num, Real.log_one]
    ring

/-- The function of `x` in the unstable branch of `psi_m`. -/
noncomputable def psiX (x : ℝ) : ℝ :=
  2 * Real.log (1 / 2 * (1 + x)) + Real.log (1 / 2 * (1 + x * x)) - 2 * Real.arctan x + Real.pi / 2

theorem psiM_unstable {beta gamma zeta : ℝ} (h : zeta ≤ 0) : psiM beta gamma zeta = psiX (√(√(1 - beta * zeta))) := by
  unfold psiM psiX
  rw [if_neg (not_lt.mpr h)]

theorem psiX_continuousOn : ContinuousOn psiX (Set.Ici 0) := by
  intro x hx
  have hx : (0 : ℝ) ≤ x := hx
  apply ContinuousAt.continuousWithinAt
  unfold psiX
  refine ((((continuousAt_const.mul (ContinuousAt.log ?_ (by positivity))).add (ContinuousAt.log ?_ (by positivity))).sub
    (continuousAt_const.mul Real.continuous_arctan.continuousAt)).add continuousAt_const)
  · fun_prop
  · fun_prop

/-- C49: the stability functions are continuous, in particular at zero. -/
theorem psi_continuous (beta gamma : ℝ) : Continuous (psiM beta gamma) ∧ Continuous (psiH beta gamma) := by
  constructor
  · have e : psiM beta gamma = fun z => if z ≤ 0 then psiX (√(√(1 - beta * z))) else -gamma * z := by
      funext z
      by_cases h : z ≤ 0
      · rw [if_pos h, psiM_unstable h]
      · rw [if_neg h]; unfold psiM; rw [if_pos (not_le.mp h)]
    rw [e]
    refine Continuous.if_le ?_ (by fun_prop) continuous_id continuous_const ?_
    · have h1 : Continuous fun z : ℝ => √(√(1 - beta * z)) := by fun_prop
      exact psiX_continuousOn.comp_continuous h1 fun z => Real.sqrt_nonneg _
    · intro z hz
      have hz' : z = 0 := hz
      have := (psi_zero beta gamma).1
      rw [psiM_unstable (le_refl _)] at this
      rw [hz', this]; ring
  · have e : psiH beta gamma = fun z => if z ≤ 0 then 2 * Real.log (1 / 2 * (1 + √(1 - beta * z))) else -gamma * z := by
      funext z
      unfold psiH
      by_cases h : z ≤ 0
      · rw [if_pos h, if_neg (not_lt.mpr h)]
      · rw [if_neg h, if_pos (not_le.mp h)]
    rw [e]
    refine Continuous.if_le ?_ (by fun_prop) continuous_id continuous_const ?_
    · refine continuous_const.mul (Continuous.log (by fun_prop) fun z => ?_)
      positivity
    · intro z hz
      have hz' : z = 0 := hz
      rw [hz', mul_zero, sub_zero, Real.sqrt_one, show (1 / 2 * (1 + 1) : ℝ) = 1 by norm_num, Real.log_one]
      ring

theorem psiX_hasDeriv {x : ℝ} (hx : 0 ≤ x) :
    HasDerivAt psiX (2 / (1 + x) + 2 * (x - 1) / (1 + x * x)) x := by
  have h1 : HasDerivAt (fun x : ℝ => 1 / 2 * (1 + x)) (1 / 2) x := by
    have := ((hasDerivAt_id x).const_add 1).const_mul (1 / 2 : ℝ)
    simpa using this
  have h2 : HasDerivAt (fun x : ℝ => 1 / 2 * (1 + x * x)) x x := by
    have := (((hasDerivAt_id x).mul (hasDerivAt_id x)).const_add 1).const_mul (1 / 2 : ℝ)
    refine this.congr_deriv ?_
    simp only [id]
    ring
  have p1 : (1 / 2 * (1 + x) : ℝ) ≠ 0 := by positivity
  have p2 : (1 / 2 * (1 + x * x) : ℝ) ≠ 0 := by positivity
  have h := ((((h1.log p1).const_mul 2).add (h2.log p2)).sub ((Real.hasDerivAt_arctan x).const_mul 2)).add_const (Real.pi / 2)
  refine h.congr_deriv ?_
  have q1 : (1 + x : ℝ) ≠ 0 := by positivity
  have q2 : (1 + x * x : ℝ) ≠ 0 := by positivity
  have q3 : (1 + x ^ 2 : ℝ) ≠ 0 := by positivity
  field_simp
  ring

theorem psiX_mono : MonotoneOn psiX (Set.Ici 1) := by
  apply monotoneOn_of_deriv_nonneg (convex_Ici 1)
  · exact psiX_continuousOn.mono (Set.Ici_subset_Ici.mpr zero_le_one)
  · intro x hx
    rw [interior_Ici] at hx
    have hx : (1 : ℝ) < x := hx
    exact (psiX_hasDeriv (by linarith)).differentiableAt.differentiableWithinAt
  · intro x hx
    rw [interior_Ici] at hx
    have hx : (1 : ℝ) < x := hx
    rw [(psiX_hasDeriv (by linarith)).deriv]
    have h1 : 0 ≤ 2 / (1 + x) := div_nonneg (by norm_num) (by linarith)
    have h2 : 0 ≤ 2 * (x - 1) / (1 + x * x) := div_nonneg (by linarith) (by nlinarith)
    linarith

theorem psiX_one : psiX 1 = 0 := by
  have := (psi_zero 0 0).1
  rw [psiM_unstable (le_refl _)] at this
  simpa using this

/-- C49: the stability functions decrease with `zeta`: positive (less drag) when unstable, negative when stable. -/
theorem psi_antitone {beta gamma : ℝ} (hb : 0 ≤ beta) (hg : 0 ≤ gamma) :
    Antitone (psiM beta gamma) ∧ Antitone (psiH beta gamma) := by
  have hone : ∀ z : ℝ, z ≤ 0 → (1 : ℝ) ≤ 1 - beta * z := fun z hz => by nlinarith
  have hmono : ∀ a b : ℝ, a ≤ b → (1 : ℝ) - beta * b ≤ 1 - beta * a := fun a b h => by nlinarith
  constructor
  · intro a b hab
    by_cases hb0 : b ≤ 0
    · rw [psiM_unstable hb0, psiM_unstable (le_trans hab hb0)]
      apply psiX_mono
      · exact Real.one_le_sqrt.mpr (Real.one_le_sqrt.mpr (hone b hb0))
      · exact Real.one_le_sqrt.mpr (Real.one_le_sqrt.mpr (hone a (le_trans hab hb0)))
      · exact Real.sqrt_le_sqrt (Real.sqrt_le_sqrt (hmono a b hab))
    · have hb1 : 0 < b := not_le.mp hb0
      have hbv : psiM beta gamma b = -gamma * b := by unfold psiM; rw [if_pos hb1]
      rw [hbv]
      by_cases ha0 : a ≤ 0
      · rw [psiM_unstable ha0]
        have : psiX 1 ≤ psiX (√(√(1 - beta * a))) := psiX_mono (Set.mem_Ici.mpr (le_refl _))
          (Real.one_le_sqrt.mpr (Real.one_le_sqrt.mpr (hone a ha0))) (Real.one_le_sqrt.mpr (Real.one_le_sqrt.mpr (hone a ha0)))
        rw [psiX_one] at this
        nlinarith
      · unfold psiM; rw [if_pos (not_le.mp ha0)]; nlinarith
  · intro a b hab
    have hun : ∀ z : ℝ, z ≤ 0 → psiH beta gamma z = 2 * Real.log (1 / 2 * (1 + √(1 - beta * z))) := by
      intro z hz; unfold psiH; rw [if_neg (not_lt.mpr hz)]
    by_cases hb0 : b ≤ 0
    · rw [hun b hb0, hun a (le_trans hab hb0)]
      have := Real.sqrt_le_sqrt (hmono a b hab)
      have h1 : Real.log (1 / 2 * (1 + √(1 - beta * b))) ≤ Real.log (1 / 2 * (1 + √(1 - beta * a))) :=
        Real.log_le_log (by positivity) (by linarith)
      linarith
    · have hb1 : 0 < b := not_le.mp hb0
      have hbv : psiH beta gamma b = -gamma * b := by unfold psiH; rw [if_pos hb1]
      rw [hbv]
      by_cases ha0 : a ≤ 0
      · rw [hun a ha0]
        have h1 : 1 ≤ √(1 - beta * a) := Real.one_le_sqrt.mpr (hone a ha0)
        have := Real.log_nonneg (by linarith : (1 : ℝ) ≤ 1 / 2 * (1 + √(1 - beta * a)))
        nlinarith
      · unfold psiH; rw [if_pos (not_le.mp ha0)]; nlinarith

/-! ## The iteration -/

theorem div?_some {a b c : ℝ} : div? a b = some c ↔ b ≠ 0 ∧ c = a / b := by
  unfold div?
  by_cases h : b = 0
  · rw [if_pos h]; simp [h]
  · rw [if_neg h, Option.some.injEq]
    constructor
    · rintro rfl; exact ⟨h, rfl⟩
    · rintro ⟨-, rfl⟩; rfl

/-- The members that the iteration does not change. -/
def SameInputs (m m' : MO) : Prop :=
  m'.zref = m.zref ∧ m'.z0 = m.z0 ∧ m'.z0t = m.z0t ∧ m'.kappa = m.kappa ∧ m'.gravity = m.gravity ∧ m'.uMean = m.uMean ∧
  m'.vMean = m.vMean ∧ m'.vmagMean = m.vmagMean ∧ m'.thetaMean = m.thetaMean ∧ m'.gammaM = m.gammaM ∧
  m'.gammaH = m.gammaH ∧ m'.betaM = m.betaM ∧ m'.betaH = m.betaH ∧ m'.alg = m.alg ∧
  (m.alg = .heatFlux → m'.surfTempFlux = m.surfTempFlux) ∧ (m.alg = .surfaceTemperature → m'.surfTemp = m.surfTemp)

theorem SameInputs.trans {a b c : MO} (h1 : SameInputs a b) (h2 : SameInputs b c) : SameInputs a c := by
  obtain ⟨a1, a2, a3, a4, a5, a6, a7, a8, a9, a10, a11, a12, a13, a14, a15, a16⟩ := h1
  obtain ⟨b1, b2, b3, b4, b5, b6, b7, b8, b9, b10, b11, b12, b13, b14, b15, b16⟩ := h2
  exact ⟨b1.trans a1, b2.trans a2, b3.trans a3, b4.trans a4, b5.trans a5, b6.trans a6, b7.trans a7, b8.trans a8,
    b9.trans a9, b10.trans a10, b11.trans a11, b12.trans a12, b13.trans a13, b14.trans a14,
    fun h => (b15 (a14.trans h)).trans (a15 h), fun h => (b16 (a14.trans h)).trans (a16 h)⟩

/-- The drag law of a state whose previous friction velocity was `u0`: the wind at the reference height is the
similarity profile with the Obukhov length of `u0`. -/
def DragLaw (eps : ℝ) (u0 : ℝ) (m : MO) : Prop :=
  (eps < |m.surfTempFlux| →
    m.obukhovLen = -u0 * u0 * u0 * m.thetaMean / (m.kappa * m.gravity * m.surfTempFlux) ∧
    m.utau * (Real.log (m.zref / m.z0) - psiM m.betaM m.gammaM (m.zref / m.obukhovLen)) = m.kappa * m.vmagMean) ∧
  (|m.surfTempFlux| ≤ eps → m.utau * Real.log (m.zref / m.z0) = m.kappa * m.vmagMean)

theorem iterate_spec {eps big : ℝ} {m : MO} {ph : ℝ} {r : MO × ℝ × ℝ} (h : iterate eps big m ph = some r) :
    SameInputs m r.1 ∧ r.2.2 = m.utau ∧ DragLaw eps m.utau r.1 ∧
      (m.alg = .heatFlux → (r.1.surfTemp - m.thetaMean) * (m.utau * m.kappa) =
        m.surfTempFlux * (Real.log (m.zref / m.z0t) - ph) ∧ m.utau * m.kappa ≠ 0) ∧
      (m.alg = .surfaceTemperature → r.1.surfTempFlux * (Real.log (m.zref / m.z0t) - ph) =
        (m.surfTemp - m.thetaMean) * (m.utau * m.kappa) ∧ Real.log (m.zref / m.z0t) - ph ≠ 0) ∧
      (eps < |r.1.surfTempFlux| → r.2.1 = psiH m.betaH m.gammaH (m.zref / r.1.obukhovLen)) ∧
      (|r.1.surfTempFlux| ≤ eps → r.2.1 = 0 ∧ r.1.obukhovLen = big) := by
  unfold iterate at h
  obtain ⟨m1, hm1, h⟩ := Option.bind_eq_some_iff.mp h
  obtain ⟨lz, hlz, h⟩ := Option.bind_eq_some_iff.mp h
  obtain ⟨u, hu, rfl⟩ := Option.map_eq_some_iff.mp h
  obtain ⟨hu0, hu⟩ := div?_some.mp hu
  have key : ∀ m1 : MO, SameInputs m m1 → m1.utau = m.utau →
      (m.alg = .heatFlux → (m1.surfTemp - m.thetaMean) * (m.utau * m.kappa) =
        m.surfTempFlux * (Real.log (m.zref / m.z0t) - ph) ∧ m.utau * m.kappa ≠ 0) →
      (m.alg = .surfaceTemperature → m1.surfTempFlux * (Real.log (m.zref / m.z0t) - ph) =
        (m.surfTemp - m.thetaMean) * (m.utau * m.kappa) ∧ Real.log (m.zref / m.z0t) - ph ≠ 0) →
      obukhov eps big m1 = some lz → Real.log (m1.zref / m1.z0) - psiM m1.betaM m1.gammaM lz.2 ≠ 0 →
      u = m1.kappa * m1.vmagMean / (Real.log (m1.zref / m1.z0) - psiM m1.betaM m1.gammaM lz.2) →
      SameInputs m { m1 with obukhovLen := lz.1, utau := u } ∧ m.utau = m.utau ∧
      DragLaw eps m.utau { m1 with obukhovLen := lz.1, utau := u } ∧
      (m.alg = .heatFlux → (m1.surfTemp - m.thetaMean) * (m.utau * m.kappa) =
        m.surfTempFlux * (Real.log (m.zref / m.z0t) - ph) ∧ m.utau * m.kappa ≠ 0) ∧
      (m.alg = .surfaceTemperature → m1.surfTempFlux * (Real.log (m.zref / m.z0t) - ph) =
        (m.surfTemp - m.thetaMean) * (m.utau * m.kappa) ∧ Real.log (m.zref / m.z0t) - ph ≠ 0) ∧
      (eps < |m1.surfTempFlux| → psiH m1.betaH m1.gammaH lz.2 = psiH m.betaH m.gammaH (m.zref / lz.1)) ∧
      (|m1.surfTempFlux| ≤ eps → psiH m1.betaH m1.gammaH lz.2 = 0 ∧ lz.1 = big) := by
    intro m1 hs hut h1 h2 hob hne hu
    refine ⟨hs, rfl, ⟨fun hq => ?_, fun hq => ?_⟩, h1, h2, fun hq => ?_, fun hq => ?_⟩
    · unfold obukhov at hob
      simp only at hq
      rw [if_pos hq] at hob
      obtain ⟨l, hl, hob⟩ := Option.bind_eq_some_iff.mp hob
      obtain ⟨z, hz, rfl⟩ := Option.map_eq_some_iff.mp hob
      obtain ⟨-, hl⟩ := div?_some.mp hl
      obtain ⟨-, hz⟩ := div?_some.mp hz
      simp only at hu hne ⊢
      refine ⟨by rw [hl, hut], ?_⟩
      rw [← hz, hu, div_mul_cancel₀ _ hne]
    · unfold obukhov at hob
      simp only at hq
      rw [if_neg (not_lt.mpr hq)] at hob
      have : lz = (big, 0) := (Option.some.inj hob).symm
      subst this
      simp only [(psi_zero m1.betaM m1.gammaM).1, sub_zero] at hu hne ⊢
      rw [hu, div_mul_cancel₀ _ hne]
    · unfold obukhov at hob
      rw [if_pos hq] at hob
      obtain ⟨l, hl, hob⟩ := Option.bind_eq_some_iff.mp hob
      obtain ⟨z, hz, rfl⟩ := Option.map_eq_some_iff.mp hob
      obtain ⟨-, hz⟩ := div?_some.mp hz
      obtain ⟨a1, a2, a3, a4, a5, a6, a7, a8, a9, a10, a11, a12, a13, a14, a15, a16⟩ := hs
      simp only
      rw [hz, a1, a11, a13]
    · unfold obukhov at hob
      rw [if_neg (not_lt.mpr hq)] at hob
      have : lz = (big, 0) := (Option.some.inj hob).symm
      subst this
      exact ⟨(psi_zero _ _).2, rfl⟩
  unfold surface at hm1
  cases halg : m.alg with
  | heatFlux =>
    rw [halg] at hm1
    obtain ⟨t, ht, rfl⟩ := Option.map_eq_some_iff.mp hm1
    obtain ⟨hne, ht⟩ := div?_some.mp ht
    have := key { m with surfTemp := t + m.thetaMean }
      ⟨rfl, rfl, rfl, rfl, rfl, rfl, rfl, rfl, rfl, rfl, rfl, rfl, rfl, rfl, fun _ => rfl, fun h => by simp [halg] at h⟩ rfl
      (fun _ => ⟨by simp only; rw [ht, add_sub_cancel_right, div_mul_cancel₀ _ hne], hne⟩) (fun h => by simp [halg] at h) hlz hu0 hu
    rw [halg] at this
    exact this
  | surfaceTemperature =>
    rw [halg] at hm1
    obtain ⟨q, hq, rfl⟩ := Option.map_eq_some_iff.mp hm1
    obtain ⟨hne, hq⟩ := div?_some.mp hq
    have := key { m with surfTempFlux := q }
      ⟨rfl, rfl, rfl, rfl, rfl, rfl, rfl, rfl, rfl, rfl, rfl, rfl, rfl, rfl, fun h => by simp [halg] at h, fun _ => rfl⟩ rfl
      (fun h => by simp [halg] at h) (fun _ => ⟨by simp only; rw [hq]; field_simp; ring, hne⟩) hlz hu0 hu
    rw [halg] at this
    exact this

theorem fluxLoop_spec {eps big : ℝ} {N : ℕ} : ∀ (k iter : ℕ), N - iter = k → iter ≤ N → ∀ {m : MO} {ph : ℝ} {r : Result},
    fluxLoop eps big N iter m ph = some r →
    SameInputs m r.mo ∧ DragLaw eps r.utauIter r.mo ∧ iter + 1 ≤ r.iters ∧ r.iters ≤ N + 1 ∧
      (r.iters ≤ N → |r.utauIter - r.mo.utau| ≤ 1 / 10 ^ 5) := by
  intro k
  induction k with
  | zero =>
    intro iter hk hle m ph r h
    rw [fluxLoop] at h
    obtain ⟨q, hq, h⟩ := Option.bind_eq_some_iff.mp h
    rw [if_neg (by omega)] at h
    have := (Option.some.inj h).symm
    subst this
    obtain ⟨h1, h2, h3, -⟩ := iterate_spec hq
    refine ⟨h1, by simpa only [h2] using h3, le_refl _, by simp only; omega, fun hh => ?_⟩
    simp only at hh
    omega
  | succ k ih =>
    intro iter hk hle m ph r h
    rw [fluxLoop] at h
    obtain ⟨q, hq, h⟩ := Option.bind_eq_some_iff.mp h
    obtain ⟨h1, h2, h3, -⟩ := iterate_spec hq
    by_cases hc : |q.2.2 - q.1.utau| > 1 / 10 ^ 5 ∧ iter + 1 ≤ N
    · rw [if_pos hc] at h
      obtain ⟨g1, g2, g3, g4, g5⟩ := ih (iter + 1) (by omega) hc.2 h
      exact ⟨h1.trans g1, g2, by omega, g4, g5⟩
    · rw [if_neg hc] at h
      have := (Option.some.inj h).symm
      subst this
      refine ⟨h1, by simpa only [h2] using h3, le_refl _, by simp only; omega, fun hh => ?_⟩
      simp only at hh ⊢
      by_contra hcc
      exact hc ⟨not_le.mp hcc, hh⟩

/-- C49: `update_fluxes` ends after at least one and at most `max_iters + 1` iterations; it changes no input; the
friction velocity it leaves satisfies the drag law with the Obukhov length of the last friction velocity but one, and
unless the limit was reached the two differ by at most 1e-5. -/
theorem update_fluxes_spec {eps big : ℝ} {N : ℕ} {m : MO} {r : Result} (h : updateFluxes eps big N m = some r) :
    SameInputs m r.mo ∧ DragLaw eps r.utauIter r.mo ∧ (1 ≤ r.iters ∧ r.iters ≤ N + 1) ∧
      (r.iters ≤ N → |r.utauIter - r.mo.utau| ≤ 1 / 10 ^ 5) := by
  unfold updateFluxes at h
  obtain ⟨u, -, h⟩ := Option.bind_eq_some_iff.mp h
  obtain ⟨h1, h2, h3, h4, h5⟩ := fluxLoop_spec N 0 (by omega) (Nat.zero_le _) h
  exact ⟨h1, h2, ⟨by omega, h4⟩, h5⟩

/-- What a physical state satisfies: the reference height is above both roughness lengths and the wind blows. -/
structure Physical (m : MO) : Prop where
  z0 : 0 < m.z0 ∧ m.z0 < m.zref
  z0t : 0 < m.z0t ∧ m.z0t < m.zref
  kappa : 0 < m.kappa
  wind : 0 < m.vmagMean
  gravity : 0 < m.gravity
  theta : 0 < m.thetaMean

theorem Physical.log_pos {m : MO} (h : Physical m) : 0 < Real.log (m.zref / m.z0) ∧ 0 < Real.log (m.zref / m.z0t) := by
  constructor
  · exact Real.log_pos ((one_lt_div h.z0.1).mpr h.z0.2)
  · exact Real.log_pos ((one_lt_div h.z0t.1).mpr h.z0t.2)

/-- C49: without surface heat flux the result is the logarithmic law, exactly and after one iteration, and the surface has
the temperature of the air. -/
theorem neutral_log_law {eps big : ℝ} (he : 0 ≤ eps) (N : ℕ) {m : MO} (hp : Physical m)
    (hq : (m.alg = .heatFlux ∧ m.surfTempFlux = 0) ∨ (m.alg = .surfaceTemperature ∧ m.surfTemp = m.thetaMean)) :
    ∃ r, updateFluxes eps big N m = some r ∧ r.mo.utau = m.kappa * m.vmagMean / Real.log (m.zref / m.z0) ∧
      r.mo.surfTemp = m.thetaMean ∧ r.mo.surfTempFlux = 0 ∧ r.mo.obukhovLen = big ∧ r.iters = 1 := by
  obtain ⟨hl, hlt⟩ := hp.log_pos
  set u := m.kappa * m.vmagMean / Real.log (m.zref / m.z0) with hu
  have hu0 : 0 < u := div_pos (mul_pos hp.kappa hp.wind) hl
  have hdiv : div? (m.kappa * m.vmagMean) (Real.log (m.zref / m.z0)) = some u := div?_some.mpr ⟨hl.ne', rfl⟩
  obtain ⟨m1, hm1, e1, e2, e3, e4, e5, e6, e7, e8, e9, e10⟩ : ∃ m1, surface { m with utau := u } 0 = some m1 ∧
      m1.surfTemp = m.thetaMean ∧ m1.surfTempFlux = 0 ∧ m1.kappa = m.kappa ∧ m1.vmagMean = m.vmagMean ∧ m1.zref = m.zref ∧
      m1.z0 = m.z0 ∧ m1.betaM = m.betaM ∧ m1.gammaM = m.gammaM ∧ m1.betaH = m.betaH ∧ m1.gammaH = m.gammaH := by
    unfold surface
    rcases hq with ⟨ha, hq⟩ | ⟨ha, hq⟩
    · simp only [ha, hq, zero_mul]
      rw [div?_some.mpr ⟨(mul_pos hu0 hp.kappa).ne', rfl⟩]
      exact ⟨_, rfl, by simp, rfl, rfl, rfl, rfl, rfl, rfl, rfl, rfl, rfl⟩
    · simp only [ha, hq, sub_self, neg_zero, zero_mul, sub_zero]
      rw [div?_some.mpr ⟨hlt.ne', rfl⟩]
      exact ⟨_, rfl, rfl, by simp, rfl, rfl, rfl, rfl, rfl, rfl, rfl, rfl⟩
  have hob : obukhov eps big m1 = some (big, 0) := by
    unfold obukhov
    rw [if_neg]
    rw [e2, abs_zero]
    exact not_lt.mpr he
  have hit : iterate eps big { m with utau := u } 0 = some ({ m1 with obukhovLen := big, utau := u }, 0, u) := by
    unfold iterate
    rw [hm1, Option.bind_some, hob, Option.bind_some]
    simp only [e3, e4, e5, e6, (psi_zero _ _).1, (psi_zero _ _).2, sub_zero, hdiv, Option.map_some]
  have hdone : fluxLoop eps big N 0 { m with utau := u } 0 = some ⟨{ m1 with obukhovLen := big, utau := u }, u, 1⟩ := by
    rw [fluxLoop, hit, Option.bind_some, if_neg]
    simp only [sub_self, abs_zero, not_and]
    intro h
    norm_num at h
  refine ⟨⟨{ m1 with obukhovLen := big, utau := u }, u, 1⟩, ?_, rfl, e1, e2, rfl, rfl⟩
  unfold updateFluxes
  rw [hdiv, Option.bind_some]
  exact hdone

/-- A disagreement: the message that the iteration did not converge is printed for `max_iters = 1` although it did. -/
theorem false_warning {eps big : ℝ} (he : 0 ≤ eps) {m : MO} (hp : Physical m)
    (hq : m.alg = .heatFlux ∧ m.surfTempFlux = 0) :
    ∃ r, updateFluxes eps big 1 m = some r ∧ warns 1 r = true ∧ r.utauIter = r.mo.utau := by
  obtain ⟨r, h1, h2, h3, h4, h5, h6⟩ := neutral_log_law (big := big) he 1 hp (Or.inl hq)
  refine ⟨r, h1, by unfold warns; rw [h6]; rfl, ?_⟩
  obtain ⟨-, -, -, h7⟩ := update_fluxes_spec h1
  -- the loop ended after one iteration, in which the value before is the logarithmic law
  unfold updateFluxes at h1
  obtain ⟨u, hu, h⟩ := Option.bind_eq_some_iff.mp h1
  obtain ⟨-, hu⟩ := div?_some.mp hu
  rw [fluxLoop] at h
  obtain ⟨q, hq', h⟩ := Option.bind_eq_some_iff.mp h
  obtain ⟨-, g2, -⟩ := iterate_spec hq'
  by_cases hc : |q.2.2 - q.1.utau| > 1 / 10 ^ 5 ∧ 0 + 1 ≤ 1
  · rw [if_pos hc] at h
    obtain ⟨-, -, h8, -⟩ := fluxLoop_spec 0 1 rfl (le_refl _) h
    omega
  · rw [if_neg hc] at h
    have := (Option.some.inj h).symm
    rw [this] at h2 ⊢
    simp only at h2 ⊢
    rw [g2, h2]
    exact hu

theorem iterate_heat {eps big : ℝ} {m : MO} {ph l : ℝ} (ha : m.alg = .heatFlux) (hq : eps < |m.surfTempFlux|)
    (hu : m.utau * m.kappa ≠ 0) (hden : m.kappa * m.gravity * m.surfTempFlux ≠ 0)
    (hl : -m.utau * m.utau * m.utau * m.thetaMean / (m.kappa * m.gravity * m.surfTempFlux) = l) (hl0 : l ≠ 0)
    (hd : Real.log (m.zref / m.z0) - psiM m.betaM m.gammaM (m.zref / l) ≠ 0) :
    ∃ r, iterate eps big m ph = some r ∧
      r.1.utau = m.kappa * m.vmagMean / (Real.log (m.zref / m.z0) - psiM m.betaM m.gammaM (m.zref / l)) ∧
      r.1.obukhovLen = l := by
  unfold iterate surface
  simp only [ha]
  rw [div?_some.mpr ⟨hu, rfl⟩, Option.map_some, Option.bind_some]
  unfold obukhov
  simp only
  rw [if_pos hq, div?_some.mpr ⟨hden, rfl⟩, Option.bind_some, hl, div?_some.mpr ⟨hl0, rfl⟩, Option.map_some,
    Option.bind_some, div?_some.mpr ⟨hd, rfl⟩, Option.map_some]
  exact ⟨_, rfl, rfl, rfl⟩

/-- C49: with a cooled surface the friction velocity is positive and not above the neutral one in every iteration. -/
theorem stable_iterate {eps big : ℝ} {m : MO} {ph : ℝ} (hp : Physical m) (hg : 0 ≤ m.gammaM) (ha : m.alg = .heatFlux)
    (hq : m.surfTempFlux < -eps) (he : 0 ≤ eps) (hu : 0 < m.utau) :
    ∃ r, iterate eps big m ph = some r ∧ 0 < r.1.utau ∧ r.1.utau ≤ m.kappa * m.vmagMean / Real.log (m.zref / m.z0) ∧
      0 < r.1.obukhovLen := by
  obtain ⟨hl, hlt⟩ := hp.log_pos
  have hden : m.kappa * m.gravity * m.surfTempFlux < 0 :=
    mul_neg_of_pos_of_neg (mul_pos hp.kappa hp.gravity) (by linarith)
  have hnum : -m.utau * m.utau * m.utau * m.thetaMean < 0 := by
    have : 0 < m.utau * m.utau * m.utau * m.thetaMean := by have := hp.theta; positivity
    linarith
  set l := -m.utau * m.utau * m.utau * m.thetaMean / (m.kappa * m.gravity * m.surfTempFlux) with hlen
  have hlpos : 0 < l := div_pos_of_neg_of_neg hnum hden
  have hz : 0 < m.zref / l := div_pos (lt_trans hp.z0.1 hp.z0.2) hlpos
  have hpsi : psiM m.betaM m.gammaM (m.zref / l) ≤ 0 := by
    unfold psiM; rw [if_pos hz]; nlinarith
  have hden2 : 0 < Real.log (m.zref / m.z0) - psiM m.betaM m.gammaM (m.zref / l) := by linarith
  have habs : eps < |m.surfTempFlux| := by
    rw [abs_of_neg (by linarith)]; linarith
  obtain ⟨r, hr, h1, h2⟩ := iterate_heat (big := big) (ph := ph) ha habs (mul_pos hu hp.kappa).ne' hden.ne hlen.symm
    hlpos.ne' hden2.ne'
  refine ⟨r, hr, ?_, ?_, ?_⟩
  · rw [h1]; exact div_pos (mul_pos hp.kappa hp.wind) hden2
  · rw [h1]; exact div_le_div_of_nonneg_left (mul_pos hp.kappa hp.wind).le hl (by linarith)
  · rw [h2]; exact hlpos

theorem stable_loop {eps big : ℝ} {N : ℕ} (he : 0 ≤ eps) : ∀ (k iter : ℕ), N - iter = k → iter ≤ N → ∀ {m : MO} {ph : ℝ},
    Physical m → 0 ≤ m.gammaM → m.alg = .heatFlux → m.surfTempFlux < -eps → 0 < m.utau →
    ∃ r, fluxLoop eps big N iter m ph = some r ∧ 0 < r.mo.utau ∧
      r.mo.utau ≤ m.kappa * m.vmagMean / Real.log (m.zref / m.z0) ∧ 0 < r.mo.obukhovLen := by
  intro k
  induction k with
  | zero =>
    intro iter hk hle m ph hp hg ha hq hu
    obtain ⟨r, hr, h1, h2, h3⟩ := stable_iterate (big := big) (ph := ph) hp hg ha hq he hu
    rw [fluxLoop, hr, Option.bind_some, if_neg (by omega)]
    exact ⟨_, rfl, h1, h2, h3⟩
  | succ k ih =>
    intro iter hk hle m ph hp hg ha hq hu
    obtain ⟨r, hr, h1, h2, h3⟩ := stable_iterate (big := big) (ph := ph) hp hg ha hq he hu
    rw [fluxLoop, hr, Option.bind_some]
    by_cases hc : |r.2.2 - r.1.utau| > 1 / 10 ^ 5 ∧ iter + 1 ≤ N
    · rw [if_pos hc]
      obtain ⟨⟨a1, a2, a3, a4, a5, a6, a7, a8, a9, a10, a11, a12, a13, a14, a15, a16⟩, -⟩ := iterate_spec hr
      have hp' : Physical r.1 := ⟨by rw [a1, a2]; exact hp.z0, by rw [a1, a3]; exact hp.z0t, by rw [a4]; exact hp.kappa,
        by rw [a8]; exact hp.wind, by rw [a5]; exact hp.gravity, by rw [a9]; exact hp.theta⟩
      obtain ⟨q, hq', g1, g2, g3⟩ := ih (iter + 1) (by omega) hc.2 (ph := r.2.1) hp' (by rw [a10]; exact hg)
        (a14.trans ha) (by rw [a15 ha]; exact hq) h1
      rw [a4, a8, a1, a2] at g2
      exact ⟨q, hq', g1, g2, g3⟩
    · rw [if_neg hc]
      exact ⟨_, rfl, h1, h2, h3⟩

/-- C49: with a cooled surface `update_fluxes` is defined, and its friction velocity is positive and at most the neutral
one. -/
theorem stable_result {eps big : ℝ} (he : 0 ≤ eps) (N : ℕ) {m : MO} (hp : Physical m) (hg : 0 ≤ m.gammaM)
    (ha : m.alg = .heatFlux) (hq : m.surfTempFlux < -eps) :
    ∃ r, updateFluxes eps big N m = some r ∧ 0 < r.mo.utau ∧
      r.mo.utau ≤ m.kappa * m.vmagMean / Real.log (m.zref / m.z0) ∧ 0 < r.mo.obukhovLen := by
  obtain ⟨hl, -⟩ := hp.log_pos
  unfold updateFluxes
  rw [div?_some.mpr ⟨hl.ne', rfl⟩, Option.bind_some]
  exact stable_loop he N 0 (by omega) (Nat.zero_le _)
    (m := { m with utau := m.kappa * m.vmagMean / Real.log (m.zref / m.z0) })
    ⟨hp.z0, hp.z0t, hp.kappa, hp.wind, hp.gravity, hp.theta⟩ hg ha hq (div_pos (mul_pos hp.kappa hp.wind) hl)

theorem psiM_unbounded {beta : ℝ} (hb : 0 < beta) (gamma B : ℝ) : ∃ zeta < 0, B < psiM beta gamma zeta := by
  -- x = 2 exp ((|B| + π)) gives psi ≥ 2 log (x/2) - π/2
  set x := 2 * Real.exp (|B| + Real.pi) with hx
  have hpi := Real.pi_pos
  have hx1 : 2 < x := by
    have : 1 < Real.exp (|B| + Real.pi) := Real.one_lt_exp_iff.mpr (by have := abs_nonneg B; linarith)
    linarith
  refine ⟨(1 - x ^ 4) / beta, div_neg_of_neg_of_pos ?_ hb, ?_⟩
  · have : 1 < x ^ 4 := one_lt_pow₀ (by linarith) (by norm_num)
    linarith
  · rw [psiM_unstable (div_nonpos_of_nonpos_of_nonneg (by
      have : 1 ≤ x ^ 4 := one_le_pow₀ (by linarith)
      linarith) hb.le)]
    have e : 1 - beta * ((1 - x ^ 4) / beta) = (x ^ 2) ^ 2 := by field_simp; ring
    rw [e, Real.sqrt_sq (by positivity), Real.sqrt_sq (by linarith)]
    unfold psiX
    have h1 : |B| + Real.pi ≤ Real.log (1 / 2 * (1 + x)) := by
      rw [Real.le_log_iff_exp_le (by linarith)]
      have : Real.exp (|B| + Real.pi) = x / 2 := by rw [hx]; ring
      rw [this]; linarith
    have h2 : 0 ≤ Real.log (1 / 2 * (1 + x * x)) := Real.log_nonneg (by nlinarith)
    have h3 := Real.arctan_lt_pi_div_two x
    have h4 := le_abs_self B
    have h5 := abs_nonneg B
    linarith

/-- A disagreement: for a heated surface and light wind an iteration can give a negative friction velocity, for every
reference height, roughness and wind speed. -/
theorem unstable_iteration_negative {eps big : ℝ} {m : MO} (hp : Physical m) (hb : 0 < m.betaM) (ha : m.alg = .heatFlux)
    (hu : 0 < m.utau) (ph : ℝ) : ∃ q > 0, ∃ r, iterate eps big { m with surfTempFlux := q } ph = some r ∧ r.1.utau < 0 := by
  obtain ⟨hl, hlt⟩ := hp.log_pos
  have hk := hp.kappa
  have hgr := hp.gravity
  have hth := hp.theta
  have hzr : 0 < m.zref := lt_trans hp.z0.1 hp.z0.2
  -- a flux above eps and so large that psi exceeds the logarithm
  obtain ⟨ζ, hζ, hψ⟩ := psiM_unbounded hb m.gammaM (Real.log (m.zref / m.z0))
  set c := m.utau * m.utau * m.utau * m.thetaMean / (m.kappa * m.gravity) with hc
  have hcpos : 0 < c := by rw [hc]; positivity
  -- flux q gives zeta = - zref q / c
  set q := max (-(ζ * c) / m.zref) (|eps| + 1) with hqd
  have hq1 : |eps| + 1 ≤ q := le_max_right _ _
  have hq0 : 0 < q := by have := abs_nonneg eps; linarith
  have hlen : -m.utau * m.utau * m.utau * m.thetaMean / (m.kappa * m.gravity * q) = -c / q := by
    rw [hc]; field_simp
  have hlneg : -c / q < 0 := div_neg_of_neg_of_pos (by linarith) hq0
  have hz : m.zref / (-c / q) ≤ ζ := by
    have e : m.zref / (-c / q) = -(m.zref * q / c) := by field_simp
    rw [e]
    have : -(ζ * c) / m.zref ≤ q := le_max_left _ _
    rw [div_le_iff₀ hzr] at this
    have h2 : -ζ ≤ m.zref * q / c := by rw [le_div_iff₀ hcpos]; linarith
    linarith
  have hzneg : m.zref / (-c / q) < 0 := by linarith
  have hpsi : Real.log (m.zref / m.z0) < psiM m.betaM m.gammaM (m.zref / (-c / q)) := by
    have h1 : psiM m.betaM m.gammaM ζ ≤ psiM m.betaM m.gammaM (m.zref / (-c / q)) := by
      rw [psiM_unstable hζ.le, psiM_unstable hzneg.le]
      have o1 : ∀ z : ℝ, z ≤ 0 → (1 : ℝ) ≤ √(√(1 - m.betaM * z)) := fun z hz =>
        Real.one_le_sqrt.mpr (Real.one_le_sqrt.mpr (by nlinarith))
      exact psiX_mono (o1 _ hζ.le) (o1 _ hzneg.le) (Real.sqrt_le_sqrt (Real.sqrt_le_sqrt (by nlinarith)))
    linarith
  have hden2 : Real.log (m.zref / m.z0) - psiM m.betaM m.gammaM (m.zref / (-c / q)) < 0 := by linarith
  obtain ⟨r, hr, h1, h2⟩ := iterate_heat (eps := eps) (big := big) (m := { m with surfTempFlux := q }) (ph := ph) ha
    (by simp only; rw [abs_of_pos hq0]; have := le_abs_self eps; linarith) (mul_pos hu hp.kappa).ne'
    (mul_pos (mul_pos hk hgr) hq0).ne' hlen hlneg.ne hden2.ne
  refine ⟨q, hq0, r, hr, ?_⟩
  rw [h1]
  exact div_neg_of_pos_of_neg (mul_pos hp.kappa hp.wind) hden2

/-- A neutral boundary layer. -/
noncomputable def exMO : MO := ⟨10, 1 / 10, 1 / 10, 0, 2 / 5, 10, 1, 8, 0, 8, 300, 0, 300, 5, 5, 16, 16, .heatFlux⟩

theorem exMO_physical : Physical exMO := by
  constructor <;> norm_num [exMO]

/-- Neutral, stable (cooled by 1/10) and heated surfaces meet the hypotheses. -/
example : ∃ r, updateFluxes (1 / 10 ^ 15) (10 ^ 300) 25 exMO = some r ∧ r.mo.utau = 2 / 5 * 8 / Real.log (10 / (1 / 10)) := by
  obtain ⟨r, h1, h2, -⟩ := neutral_log_law (eps := 1 / 10 ^ 15) (big := 10 ^ 300) (by norm_num) 25 exMO_physical
    (Or.inl ⟨rfl, rfl⟩)
  exact ⟨r, h1, h2⟩

example : ∃ r, updateFluxes (1 / 10 ^ 15) (10 ^ 300) 25 { exMO with surfTempFlux := -1 / 10 } = some r ∧ 0 < r.mo.utau := by
  obtain ⟨r, h1, h2, -⟩ := stable_result (eps := 1 / 10 ^ 15) (big := 10 ^ 300) (m := { exMO with surfTempFlux := -1 / 10 })
    (by norm_num) 25 ⟨by norm_num [exMO], by norm_num [exMO], by norm_num [exMO], by norm_num [exMO], by norm_num [exMO],
      by norm_num [exMO]⟩ (by norm_num [exMO]) rfl (by norm_num)
  exact ⟨r, h1, h2⟩

end AmrWind.Abl
