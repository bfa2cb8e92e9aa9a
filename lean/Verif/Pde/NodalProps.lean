import Verif.Pde.NodalModel

/-! # The nodal projection (property C107) -/

set_option linter.unusedSectionVars false

namespace AmrWind.Nodal

variable {K : Type*} [Field K] [LinearOrder K] [IsStrictOrderedRing K] {C N B : Type*}

/-- What the data of a call satisfy: no zero denominators, and with the anelastic equations the density counts as variable (`PDEMgr`). -/
structure Setup.Ok (s : Setup C K) : Prop where
  rho : ∀ c, s.rho c ≠ 0
  fac : ∀ c n, s.f c n ≠ 0
  det : ∀ c, s.j c ≠ 0
  ref : ∀ c, s.rho0 c ≠ 0
  anel : s.anelastic = true → s.varying = true

/-- Specification: the density that weighs the pressure gradient in a cell. -/
def dens (s : Setup C K) (c : C) : K := if s.varying || s.mapped then s.rho c else s.rhoInput

/-- Specification: the factor between the velocity and the flux whose divergence is to vanish: reference density (anelastic), times `J / fac` (mapped mesh). -/
def flux (s : Setup C K) (c : C) (n : Fin 3) : K := (if s.anelastic then s.rho0 c else 1) * (s.j c / s.f c n)

theorem toProject_flux (s : Setup C K) (w : Flow C N K) : toProject s w = fun c n => flux s c n * change s w c n := by
  funext c n
  unfold toProject flux Setup.f Setup.j
  dsimp only
  cases s.anelastic <;> cases s.mapped <;> simp <;> ring

theorem sigma_flux {s : Setup C K} (h : s.Ok) (c : C) (n : Fin 3) : sigma s c n = flux s c n * (s.scale / (dens s c * s.f c n)) := by
  have h1 := h.rho c
  have h2 := h.fac c n
  have h4 := h.anel
  unfold sigma flux dens
  dsimp only
  by_cases hv : (s.varying || s.mapped) = true
  · rw [if_pos hv, if_pos hv]
    cases s.anelastic
    · simp only [Bool.false_eq_true, if_false]
      field_simp
    · simp only [if_true]
      field_simp
  · rw [if_neg hv, if_neg hv]
    simp only [Bool.or_eq_true, not_or, Bool.not_eq_true] at hv
    have ha : s.anelastic = false := by
      cases hb : s.anelastic
      · rfl
      · rw [h4 hb] at hv; simp at hv
    simp [ha, Setup.f, Setup.j, hv.2]

theorem flux_ne {s : Setup C K} (h : s.Ok) (c : C) (n : Fin 3) : flux s c n ≠ 0 := by
  unfold flux
  apply mul_ne_zero
  · split_ifs
    · exact h.ref c
    · exact one_ne_zero
  · exact div_ne_zero (h.det c) (h.fac c n)

theorem velocity_eq {s : Setup C K} (h : s.Ok) (P : Projector C N B K) (inflow zero : B) (w : Flow C N K) (c : C) (n : Fin 3) :
    velocity P s inflow zero w c n =
      addBack s w c n - s.scale / (dens s c * s.f c n) * P.grad (phi P s inflow zero w) c n := by
  have e1 := sigma_flux h c n
  have e2 := congrFun (congrFun (toProject_flux s w) c) n
  have hf := flux_ne h c n
  unfold velocity
  dsimp only
  rw [e1, e2]
  set g := P.grad (phi P s inflow zero w) c n
  set a := s.scale / (dens s c * s.f c n)
  have k1 : ∀ d : K, (if s.mapped then (if s.anelastic then (flux s c n * d - flux s c n * a * g) / s.rho0 c else flux s c n * d - flux s c n * a * g) * (s.fac c n / s.detJ c)
      else (if s.anelastic then (flux s c n * d - flux s c n * a * g) / s.rho0 c else flux s c n * d - flux s c n * a * g)) = d - a * g := by
    intro d
    have hr := h.ref c
    have hF := h.fac c n
    have hJ := h.det c
    unfold Setup.f at hF
    unfold Setup.j at hJ
    unfold flux Setup.f Setup.j
    cases hm : s.mapped <;> cases ha : s.anelastic <;> simp only [hm, ha, Bool.false_eq_true, if_false, if_true] at hF hJ ⊢ <;> field_simp
  rw [k1]
  unfold change
  by_cases hd : (s.small || s.incremental) = true
  · rw [if_pos hd, if_pos hd]; ring
  · rw [if_neg hd, if_neg hd]

/-- **C107**: in every mode (incremental, small step, mapped mesh, anelastic, variable density) the velocity changes by the change of the pressure gradient, over the density, and nothing else:
`u_new + dt/ρ ∇p_new = u* + dt/ρ ∇p_old`. For constant density this needs the density of the field to be the one of the input. -/
theorem balance {s : Setup C K} (h : s.Ok) (hc : ∀ c, dens s c = s.rho c) (P : Projector C N B K) (inflow zero : B) (w : Flow C N K) (c : C) (n : Fin 3) :
    (project P s inflow zero w).u c n + s.scale / s.rho c * (1 / s.f c n) * (project P s inflow zero w).gp c n =
      w.u c n + s.scale / s.rho c * (1 / s.f c n) * w.gp c n := by
  have h1 := h.rho c
  have h2 := h.fac c n
  show velocity P s inflow zero w c n + _ * (if _ then _ else _) = _
  rw [velocity_eq h, hc c]
  unfold addBack
  cases s.incremental
  · simp only [Bool.false_eq_true, if_false]
    field_simp
    ring
  · simp only [if_true]
    field_simp
    ring

/-- **C107**, disagreement: with constant density the old gradient is put back with the density of the field and the new one taken off with the density of the input. -/
theorem constant_density {s : Setup C K} (h : s.Ok) (hv : s.varying = false) (hm : s.mapped = false) (hi : s.incremental = false) (P : Projector C N B K)
    (inflow zero : B) (w : Flow C N K) (c : C) (n : Fin 3) :
    (project P s inflow zero w).u c n =
      w.u c n + s.scale / s.rho c * w.gp c n - s.scale / s.rhoInput * (project P s inflow zero w).gp c n := by
  show velocity P s inflow zero w c n = _ - _ * (if _ then _ else _)
  rw [velocity_eq h]
  unfold addBack dens Setup.f
  simp [hv, hm, hi]
  ring

/-- A projector whose solution has the divergence that it should have, discretely: the divergence is linear in the velocity and the boundary data, and `∇·(σ∇φ)` is the right hand side. The
solver of the code satisfies this up to the tolerance, and up to the difference between the two discretisations of the operator. -/
structure Projector.Exact (P : Projector C N B K) (zero : B) (σ : VF C K) : Prop where
  sub : ∀ b u v x, P.div b (fun c n => u c n - v c n) x = P.div b u x - P.div zero v x
  solves : ∀ b v x, P.div zero (fun c n => σ c n * P.grad (P.solve σ (P.div b v)) c n) x = P.div b v x

theorem project_flux {s : Setup C K} (h : s.Ok) (P : Projector C N B K) (inflow zero : B) (w : Flow C N K) :
    (fun c n => flux s c n * ((project P s inflow zero w).u c n - (if s.small || s.incremental then w.old c n else 0))) =
      fun c n => toProject s w c n - sigma s c n * P.grad (phi P s inflow zero w) c n := by
  funext c n
  rw [sigma_flux h, congrFun (congrFun (toProject_flux s w) c) n]
  show flux s c n * (velocity P s inflow zero w c n - _) = _
  rw [velocity_eq h]
  unfold change
  by_cases hd : (s.small || s.incremental) = true
  · rw [if_pos hd, if_pos hd]; ring
  · rw [if_neg hd, if_neg hd]; ring

/-- **C107**: the flux of the projected velocity has no divergence, in the usual mode, with the inflow that is given.

Partial (C107). Missing: the error of the solver, and small steps, which keep a divergence (`divergence_kept`). -/
theorem divergence_free_partial {s : Setup C K} (h : s.Ok) (hs : (s.small || s.incremental) = false) {P : Projector C N B K} {zero : B} (hP : P.Exact zero (sigma s)) (inflow : B)
    (w : Flow C N K) (x : N) : P.div inflow (fun c n => flux s c n * (project P s inflow zero w).u c n) x = 0 := by
  have e := project_flux h P inflow zero w
  simp only [hs, Bool.false_eq_true, if_false, sub_zero] at e
  rw [e, hP.sub]
  unfold phi
  rw [hP.solves]
  unfold boundary
  rw [hs]
  simp

/-- **C107**: for small steps and increments the divergence stays what it was for the old velocity, whatever boundary data it is measured with. -/
theorem divergence_kept {s : Setup C K} (h : s.Ok) (hs : (s.small || s.incremental) = true) {P : Projector C N B K} {zero : B} (hP : P.Exact zero (sigma s)) (inflow b : B)
    (w : Flow C N K) (x : N) :
    P.div b (fun c n => flux s c n * (project P s inflow zero w).u c n) x = P.div b (fun c n => flux s c n * w.old c n) x := by
  have e := project_flux h P inflow zero w
  simp only [hs, if_true] at e
  have z : P.div zero (fun c n => flux s c n * ((project P s inflow zero w).u c n - w.old c n)) x = 0 := by
    rw [e, hP.sub]
    unfold phi
    rw [hP.solves]
    unfold boundary
    rw [hs]
    simp
  have := hP.sub b (fun c n => flux s c n * (project P s inflow zero w).u c n) (fun c n => flux s c n * ((project P s inflow zero w).u c n - w.old c n)) x
  rw [z, sub_zero] at this
  rw [← this]
  congr 1
  funext c n
  ring

/-- **C107**, disagreement: so with a small step a change of the inflow is not seen: the new velocity has no divergence with the new inflow just if the old velocity had none with it. -/
theorem small_inflow {s : Setup C K} (h : s.Ok) (hs : s.small = true) {P : Projector C N B K} {zero : B} (hP : P.Exact zero (sigma s)) (inflow : B) (w : Flow C N K) (x : N) :
    P.div inflow (fun c n => flux s c n * (project P s inflow zero w).u c n) x = 0 ↔ P.div inflow (fun c n => flux s c n * w.old c n) x = 0 := by
  rw [divergence_kept h (by simp [hs]) hP]

/-- **C107**: if the old velocity has no divergence with the inflow, the form for small steps gives exactly what the usual form gives. -/
theorem small_same (s : Setup C K) (hi : s.incremental = false) {P : Projector C N B K} {zero : B} (hP : P.Exact zero (sigma s)) (inflow : B) (w : Flow C N K)
    (hold : ∀ x, P.div inflow (fun c n => flux s c n * w.old c n) x = 0) (h : s.Ok) :
    project P { s with small := true } inflow zero w = project P { s with small := false } inflow zero w := by
  have h1 : ({ s with small := true } : Setup C K).Ok := ⟨h.rho, h.fac, h.det, h.ref, h.anel⟩
  have h2 : ({ s with small := false } : Setup C K).Ok := ⟨h.rho, h.fac, h.det, h.ref, h.anel⟩
  have ep : phi P { s with small := true } inflow zero w = phi P { s with small := false } inflow zero w := by
    unfold phi
    congr 1
    funext x
    rw [toProject_flux, toProject_flux]
    unfold boundary change
    simp only [hi, Bool.or_false, if_true, Bool.false_eq_true, if_false]
    obtain ⟨sc, inc, sm, ma, an, va, rh, fa, de, r0, ri⟩ := s
    dsimp only at hi
    subst hi
    set s : Setup C K := ⟨sc, false, sm, ma, an, va, rh, fa, de, r0, ri⟩ with hs
    change P.div zero (fun c n => flux s c n * (addBack s w c n - w.old c n)) x = P.div inflow (fun c n => flux s c n * addBack s w c n) x
    set v := addBack s w
    have g : (fun c n => flux s c n * (v c n - w.old c n)) = fun c n => (fun c n => flux s c n * v c n) c n - (fun c n => flux s c n * w.old c n) c n := by
      funext c n
      ring
    have r1 := hP.sub inflow (fun c n => flux s c n * w.old c n) (fun c n => flux s c n * w.old c n) x
    have r2 := hP.sub inflow (fun c n => flux s c n * w.old c n) (fun c n => flux s c n * w.old c n - flux s c n * v c n) x
    have r3 := hP.sub zero (fun c n => flux s c n * w.old c n) (fun c n => flux s c n * v c n) x
    have r4 := hP.sub zero (fun c n => flux s c n * v c n) (fun c n => flux s c n * w.old c n) x
    have e2 : (fun c n => flux s c n * w.old c n - (flux s c n * w.old c n - flux s c n * v c n)) = fun c n => flux s c n * v c n := by
      funext c n
      ring
    rw [e2, hold x] at r2
    have e3 : (fun c n => flux s c n * (v c n - w.old c n)) = fun c n => flux s c n * v c n - flux s c n * w.old c n := by
      funext c n
      ring
    rw [e3, r4]
    linarith
  have eu : ∀ c n, velocity P { s with small := true } inflow zero w c n = velocity P { s with small := false } inflow zero w c n := by
    intro c n
    rw [velocity_eq h1, velocity_eq h2, ep]
    rfl
  unfold project
  congr 1
  · funext c n
    exact eu c n
  · funext c n
    rw [ep]
  · funext x
    rw [ep]

/-- **C107**: projecting again changes nothing: neither velocity nor pressure nor its gradient. -/
theorem project_again {s : Setup C K} (h : s.Ok) (hc : ∀ c, dens s c = s.rho c) (hi : s.incremental = false) (P : Projector C N B K) (inflow zero : B) (w : Flow C N K) :
    project P s inflow zero (project P s inflow zero w) = project P s inflow zero w := by
  have ea : addBack s (project P s inflow zero w) = addBack s w := by
    funext c n
    have := balance h hc P inflow zero w c n
    unfold addBack
    simp only [hi, Bool.false_eq_true, if_false]
    linarith
  have ec : change s (project P s inflow zero w) = change s w := by
    funext c n
    unfold change
    rw [ea]
    rfl
  have et : toProject s (project P s inflow zero w) = toProject s w := by
    rw [toProject_flux, toProject_flux, ec]
  have ep : phi P s inflow zero (project P s inflow zero w) = phi P s inflow zero w := by
    unfold phi
    rw [et]
  have eu : velocity P s inflow zero (project P s inflow zero w) = velocity P s inflow zero w := by
    funext c n
    rw [velocity_eq h, velocity_eq h, ea, ep]
  set q := project P s inflow zero w with hq
  have b1 : (project P s inflow zero q).u = q.u := eu
  have b2 : (project P s inflow zero q).gp = q.gp := by
    funext c n
    show (if _ then _ else _) = _
    rw [hi, hq]
    show _ = (if s.incremental then _ else _)
    rw [hi, ← hq, ep]
    rfl
  have b3 : (project P s inflow zero q).p = q.p := by
    funext x
    show (if _ then _ else _) = _
    rw [hi, hq]
    show _ = (if s.incremental then _ else _)
    rw [hi, ← hq, ep]
    rfl
  have b4 : (project P s inflow zero q).old = q.old := rfl
  calc project P s inflow zero q = ⟨(project P s inflow zero q).u, (project P s inflow zero q).old, (project P s inflow zero q).gp, (project P s inflow zero q).p⟩ := rfl
    _ = ⟨q.u, q.old, q.gp, q.p⟩ := by rw [b1, b2, b3, b4]

/-- **C107**: which boundary gets which condition for the pressure: fixed at outflows, given normal velocity at inflows, none through all others. -/
theorem bc_table (k : Kind) : projectionBc true k = .periodic ∧
    (projectionBc false k = .dirichlet ↔ k = .pressureOutflow) ∧
    (projectionBc false k = .inflow ↔ k = .massInflow ∨ k = .massInflowOutflow ∨ k = .waveGeneration) ∧ projectionBc false k ≠ .periodic := by
  cases k <;> simp [projectionBc]

/-- **C107**: the form for small steps is used when the step falls below a tenth, and not at time zero. -/
theorem small_step (time dt dtOld : K) : smallStep time dt dtOld = true ↔ 0 < time ∧ dt < dtOld / 10 := by
  unfold smallStep
  simp only [Bool.and_eq_true, decide_eq_true_eq]
  rw [one_div, inv_mul_eq_div]

/-- **C107**: the pressure gradient stays the gradient of the pressure. -/
theorem gradient_of_pressure (P : Projector C N B K) (hg : ∀ p q : N → K, ∀ c n, P.grad (fun x => p x + q x) c n = P.grad p c n + P.grad q c n) (s : Setup C K) (inflow zero : B)
    (w : Flow C N K) (h0 : s.incremental = true → ∀ c n, w.gp c n = P.grad w.p c n) (c : C) (n : Fin 3) :
    (project P s inflow zero w).gp c n = P.grad (project P s inflow zero w).p c n := by
  unfold project
  dsimp only
  cases hi : s.incremental
  · simp
  · simp only [if_true]
    rw [hg, h0 hi]

/-- **C107**: the pressure that is written is the reference pressure more than the dynamic one where this is asked for, except at time zero. -/
theorem true_pressure (reconstruct : Bool) (time : K) (p p0 : N → K) (x : N) :
    (reconstruct = true ∧ time ≠ 0 → truePressure reconstruct time p p0 x = p0 x + p x) ∧ (reconstruct = false ∨ time = 0 → truePressure reconstruct time p p0 x = p x) := by
  unfold truePressure
  constructor
  · rintro ⟨h1, h2⟩
    simp [h1, h2, add_comm]
  · rintro (h | h) <;> simp [h]

/-! ## A case -/

/-- Two cells beside one inner node, boundary data are a number. -/
def exP : Projector (Fin 2) Unit ℚ ℚ where
  div b v _ := v 1 0 - v 0 0 + b
  solve σ r _ := -(r () / (σ 0 0 + σ 1 0))
  grad p c n := if n = 0 then (if c = 0 then p () else -p ()) else 0

def exS : Setup (Fin 2) ℚ := ⟨1 / 2, false, false, false, false, true, fun c => if c = 0 then 1 else 2, fun _ _ => 1, fun _ => 1, fun _ => 1, 1⟩

theorem exSOk : exS.Ok := by
  refine ⟨fun c => ?_, fun c n => ?_, fun c => ?_, fun c => ?_, fun h => ?_⟩
  · show (if c = 0 then (1 : ℚ) else 2) ≠ 0
    split_ifs <;> norm_num
  · simp [Setup.f, exS]
  · simp [Setup.j, exS]
  · simp [exS]
  · simp [exS] at h

def exW : Flow (Fin 2) Unit ℚ := ⟨fun c _ => if c = 0 then 3 else 1, fun _ _ => 0, fun _ _ => 4, fun _ => 0⟩

example : (project exP exS 1 0 exW).u 0 0 = 11 / 3 ∧ (project exP exS 1 0 exW).u 1 0 = 8 / 3 := by
  norm_num [project, velocity, toProject, change, addBack, sigma, phi, boundary, exP, exS, exW, Setup.f, Setup.j]

example : exP.div 1 (fun c n => flux exS c n * (project exP exS 1 0 exW).u c n) () = 0 := by
  norm_num [project, velocity, toProject, change, addBack, sigma, phi, boundary, exP, exS, exW, Setup.f, Setup.j, flux]

theorem exExact : exP.Exact 0 (sigma exS) := by
  refine ⟨fun b u v x => ?_, fun b v x => ?_⟩
  · simp only [exP]; ring
  · norm_num [exP, sigma, exS, Setup.f, Setup.j]
    ring

example : exP.div 1 (fun c n => flux exS c n * (project exP exS 1 0 exW).u c n) () = 0 := divergence_free_partial exSOk rfl exExact 1 exW ()

end AmrWind.Nodal
