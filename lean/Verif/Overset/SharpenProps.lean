/-
C96: the sharpening of the free surface in the region received from the other solver.
-/
import Mathlib.Tactic.Linarith
import Mathlib.Tactic.Ring
import Mathlib.Tactic.NormNum
import Mathlib.Tactic.FieldSimp
import Mathlib.Algebra.BigOperators.Group.Finset.Basic
import Mathlib.Algebra.BigOperators.Field
import Verif.Overset.MaskProps

namespace AmrWind.Overset

set_option linter.unusedSectionVars false

theorem dn_up (d : Fin 3) (c : Cell) : dn d (up d c) = c := by
  obtain ⟨i, j, k⟩ := c
  fin_cases d <;> simp [dn, up]

theorem up_dn (d : Fin 3) (c : Cell) : up d (dn d c) = c := by
  obtain ⟨i, j, k⟩ := c
  fin_cases d <;> simp [dn, up]

section field
variable {K : Type*} [Field K] [LinearOrder K] [IsStrictOrderedRing K]

theorem gate_eq (ib : Cell → ℤ) (h : Blank ib) (d : Fin 3) (c : Cell) : (gate ib d c : K) = if ib c = -1 ∧ ib (dn d c) = -1 then 1 else 0 := by
  unfold gate
  rcases h c with h1 | h1 | h1 <;> rcases h (dn d c) with h2 | h2 | h2 <;> rw [h1, h2] <;> simp

/-- The flux of one iteration, before it is limited: what `apply_fluxes` receives for each axis. -/
def fluxes (Gamma margin rho1 rho2 : K) (ib : Cell → ℤ) (s : St K) (tg : Cell → K) (nrm : Fin 3 → Cell → K) (d : Fin 3) : Flux K :=
  processFlux ib d (sharpenFlux Gamma margin rho1 rho2 s tg nrm d)

/-- Fluxes that vanish at every face with a cell outside the received region. -/
def Confined (ib : Cell → ℤ) (f : Fin 3 → Flux K) : Prop := ∀ d c, ib c ≠ -1 ∨ ib (dn d c) ≠ -1 →
  (f d).vof c = 0 ∧ (f d).dens c = 0 ∧ (∀ n, (f d).mom n c = 0) ∧ (∀ n, (f d).gp n c = 0) ∧ (f d).flag c = 0

/-- C96: nothing is exchanged across the edge of the received region. -/
theorem fluxes_confined (Gamma margin rho1 rho2 : K) (ib : Cell → ℤ) (hb : Blank ib) (s : St K) (tg : Cell → K) (nrm : Fin 3 → Cell → K) :
    Confined ib (fluxes Gamma margin rho1 rho2 ib s tg nrm) := by
  intro d c h
  have g : (gate ib d c : K) = 0 := by
    rw [gate_eq ib hb, if_neg]; tauto
  simp [fluxes, processFlux, g]

/-- and faces inside it are not switched off -/
theorem fluxes_inside (Gamma margin rho1 rho2 : K) (ib : Cell → ℤ) (hb : Blank ib) (s : St K) (tg : Cell → K) (nrm : Fin 3 → Cell → K) (d : Fin 3) (c : Cell)
    (h : ib c = -1) (h' : ib (dn d c) = -1) : (fluxes Gamma margin rho1 rho2 ib s tg nrm d).vof c = Gamma * alphaFlux margin s.vof tg nrm d c ∧
    (fluxes Gamma margin rho1 rho2 ib s tg nrm d).dens c = (rho1 - rho2) * (fluxes Gamma margin rho1 rho2 ib s tg nrm d).vof c ∧
    (∀ n, (fluxes Gamma margin rho1 rho2 ib s tg nrm d).mom n c =
      (fluxes Gamma margin rho1 rho2 ib s tg nrm d).dens c * faceValue s.vof (s.vel n) d c) ∧
    (∀ n, (fluxes Gamma margin rho1 rho2 ib s tg nrm d).gp n c =
      (fluxes Gamma margin rho1 rho2 ib s tg nrm d).dens c * faceValue s.vof (fun e => s.gp n e / s.dens e) d c) ∧
    (fluxes Gamma margin rho1 rho2 ib s tg nrm d).flag c = 1 := by
  have g : (gate ib d c : K) = 1 := by
    rw [gate_eq ib hb, if_pos ⟨h, h'⟩]
  simp only [fluxes, processFlux, sharpenFlux, g, mul_one]
  refine ⟨trivial, by ring, fun n => trivial, fun n => trivial, trivial⟩

theorem div_zero_of (dx : Fin 3 → K) (f : Fin 3 → Cell → K) (c : Cell) (h : ∀ d, f d c = 0 ∧ f d (up d c) = 0) : divergence dx f c = 0 := by
  unfold divergence
  rw [(h 0).1, (h 0).2, (h 1).1, (h 1).2, (h 2).1, (h 2).2]; simp

/-- C96: in a cell that is not received from the other solver only the bound on the volume fraction acts. -/
theorem outside_unchanged (dx : Fin 3 → K) (pt tol : K) (ib : Cell → ℤ) (f : Fin 3 → Flux K) (hf : Confined ib f) (sp : Cell → K) (s : St K) (c : Cell)
    (hc : ib c ≠ -1) (hr : s.dens c ≠ 0) : (applyFluxes dx pt tol f sp s).vof c = clip tol (s.vof c) ∧
    (applyFluxes dx pt tol f sp s).dens c = s.dens c ∧ (∀ n, (applyFluxes dx pt tol f sp s).vel n c = s.vel n c) ∧
    ∀ n, (applyFluxes dx pt tol f sp s).gp n c = s.gp n c := by
  have lo := fun d => hf d c (Or.inl hc)
  have hi := fun d => hf d (up d c) (Or.inr (by rw [dn_up]; exact hc))
  have z1 : divergence dx (fun d => (f d).vof) c = 0 := div_zero_of _ _ _ fun d => ⟨(lo d).1, (hi d).1⟩
  have z2 : divergence dx (fun d => (f d).dens) c = 0 := div_zero_of _ _ _ fun d => ⟨(lo d).2.1, (hi d).2.1⟩
  have z3 : ∀ n, divergence dx (fun d => (f d).mom n) c = 0 := fun n => div_zero_of _ _ _ fun d => ⟨(lo d).2.2.1 n, (hi d).2.2.1 n⟩
  have z4 : ∀ n, divergence dx (fun d => (f d).gp n) c = 0 := fun n => div_zero_of _ _ _ fun d => ⟨(lo d).2.2.2.1 n, (hi d).2.2.2.1 n⟩
  unfold applyFluxes applyRaw
  dsimp only
  refine ⟨by rw [z1]; simp, by rw [z2]; simp, fun n => ?_, fun n => by rw [z4]; simp⟩
  rw [z2, z3, mul_zero, add_zero, add_zero, ← mul_assoc, one_div_mul_cancel hr, one_mul]

/-- C96: a volume fraction from 0 to 1 and not closer to either than the tolerance, or equal to it, is kept by the bound. -/
theorem clip_spec (tol v : K) (ht : 0 ≤ tol) (h1 : 2 * tol ≤ 1) : 0 ≤ clip tol v ∧ clip tol v ≤ 1 ∧ clip tol (clip tol v) = clip tol v ∧
    (clip tol v = v ∨ clip tol v = 0 ∧ v < tol ∨ clip tol v = 1 ∧ 1 - tol < v) ∧ (tol ≤ v ∧ v ≤ 1 - tol → clip tol v = v) ∧
    (v = 0 ∨ v = 1 → clip tol v = v) := by
  unfold clip
  by_cases a : v < tol
  · rw [if_pos a]
    refine ⟨le_refl _, by norm_num, ?_, Or.inr (Or.inl ⟨rfl, a⟩), fun h => absurd a (not_lt.2 h.1), ?_⟩
    · split_ifs with b c
      · rfl
      · exfalso; linarith
      · rfl
    · rintro (e | e)
      · exact e.symm
      · exfalso; rw [e] at a; linarith
  · rw [if_neg a]
    by_cases b : v > 1 - tol
    · rw [if_pos b]
      refine ⟨by norm_num, le_refl _, ?_, Or.inr (Or.inr ⟨rfl, b⟩), fun h => absurd b (not_lt.2 h.2), ?_⟩
      · split_ifs with e g
        · exfalso; linarith
        · rfl
        · rfl
      · rintro (e | e)
        · exfalso; rw [e] at a b; linarith
        · exact e.symm
    · rw [if_neg b]
      push Not at a b
      refine ⟨by linarith, by linarith, ?_, Or.inl rfl, fun _ => rfl, fun _ => rfl⟩
      rw [if_neg (not_lt.2 a), if_neg (not_lt.2 b)]

/-- With no tolerance the target is only cut to the range from 0 to 1. -/
theorem clip_zero (v : K) : (0 ≤ v → v ≤ 1 → clip 0 v = v) := by
  intro h h'
  unfold clip
  rw [if_neg (not_lt.2 h), if_neg (by rw [sub_zero]; exact not_lt.2 h')]

/-- Sums over a set of cells telescope when nothing crosses its edge. -/
theorem sum_shift (d : Fin 3) (f : Cell → K) (S : Finset Cell) (h : ∀ c, (c ∈ S ∧ dn d c ∉ S) ∨ (c ∉ S ∧ dn d c ∈ S) → f c = 0) :
    ∑ c ∈ S, (f (up d c) - f c) = 0 := by
  classical
  rw [Finset.sum_sub_distrib, sub_eq_zero]
  have e1 : ∑ c ∈ S, f (up d c) = ∑ c ∈ S.image (up d), f c := by
    rw [Finset.sum_image]
    intro x _ y _ e
    rw [← dn_up d x, ← dn_up d y]
    exact congrArg _ e
  have mem : ∀ c, c ∈ S.image (up d) ↔ dn d c ∈ S := by
    intro c
    rw [Finset.mem_image]
    constructor
    · rintro ⟨a, ha, rfl⟩; rw [dn_up]; exact ha
    · intro hc; exact ⟨dn d c, hc, up_dn d c⟩
  rw [e1]
  have a1 : ∑ c ∈ S.image (up d), f c = ∑ c ∈ S ∩ S.image (up d), f c := by
    symm
    apply Finset.sum_subset Finset.inter_subset_right
    intro c hc hn
    apply h; right
    refine ⟨fun hs => hn (Finset.mem_inter.2 ⟨hs, hc⟩), (mem c).1 hc⟩
  have a2 : ∑ c ∈ S, f c = ∑ c ∈ S ∩ S.image (up d), f c := by
    symm
    apply Finset.sum_subset Finset.inter_subset_left
    intro c hc hn
    apply h; left
    refine ⟨hc, fun hs => hn (Finset.mem_inter.2 ⟨hc, (mem c).2 hs⟩)⟩
  rw [a1, a2]

theorem sum_divergence (dx : Fin 3 → K) (f : Fin 3 → Cell → K) (S : Finset Cell)
    (h : ∀ d c, (c ∈ S ∧ dn d c ∉ S) ∨ (c ∉ S ∧ dn d c ∈ S) → f d c = 0) : ∑ c ∈ S, divergence dx f c = 0 := by
  unfold divergence
  rw [Finset.sum_add_distrib, Finset.sum_add_distrib, ← Finset.sum_div, ← Finset.sum_div, ← Finset.sum_div, sum_shift 0 _ S (h 0),
    sum_shift 1 _ S (h 1), sum_shift 2 _ S (h 2)]
  simp

/-- C96: over any finite set of cells that holds the whole received region, an iteration keeps the total volume fraction, mass, momentum
and pressure gradient, before the volume fraction is cut to its range. -/
theorem sharpen_conserves (dx : Fin 3 → K) (pt : K) (ib : Cell → ℤ) (f : Fin 3 → Flux K) (hf : Confined ib f) (sp : Cell → K) (s : St K)
    (S : Finset Cell) (hS : ∀ c, ib c = -1 → c ∈ S) (hr : ∀ c ∈ S, (applyRaw dx pt f sp s).dens c ≠ 0) :
    ∑ c ∈ S, (applyRaw dx pt f sp s).vof c = ∑ c ∈ S, s.vof c ∧
    ∑ c ∈ S, (applyRaw dx pt f sp s).dens c = ∑ c ∈ S, s.dens c ∧
    (∀ n, ∑ c ∈ S, (applyRaw dx pt f sp s).dens c * (applyRaw dx pt f sp s).vel n c = ∑ c ∈ S, s.dens c * s.vel n c) ∧
    ∀ n, ∑ c ∈ S, (applyRaw dx pt f sp s).gp n c = ∑ c ∈ S, s.gp n c := by
  have edge : ∀ d c, (c ∈ S ∧ dn d c ∉ S) ∨ (c ∉ S ∧ dn d c ∈ S) → ib c ≠ -1 ∨ ib (dn d c) ≠ -1 := by
    rintro d c (⟨_, h⟩ | ⟨h, _⟩)
    · right; exact fun e => h (hS _ e)
    · left; exact fun e => h (hS _ e)
  have t1 : ∑ c ∈ S, divergence dx (fun d => (f d).vof) c = 0 := sum_divergence dx _ S fun d c h => (hf d c (edge d c h)).1
  have t2 : ∑ c ∈ S, divergence dx (fun d => (f d).dens) c = 0 := sum_divergence dx _ S fun d c h => (hf d c (edge d c h)).2.1
  have t3 : ∀ n, ∑ c ∈ S, divergence dx (fun d => (f d).mom n) c = 0 := fun n => sum_divergence dx _ S fun d c h => (hf d c (edge d c h)).2.2.1 n
  have t4 : ∀ n, ∑ c ∈ S, divergence dx (fun d => (f d).gp n) c = 0 := fun n => sum_divergence dx _ S fun d c h => (hf d c (edge d c h)).2.2.2.1 n
  refine ⟨?_, ?_, ?_, ?_⟩
  · show ∑ c ∈ S, (s.vof c + pt * divergence dx (fun d => (f d).vof) c) = _
    rw [Finset.sum_add_distrib, ← Finset.mul_sum, t1]; simp
  · show ∑ c ∈ S, (s.dens c + pt * divergence dx (fun d => (f d).dens) c) = _
    rw [Finset.sum_add_distrib, ← Finset.mul_sum, t2]; simp
  · intro n
    have e : ∀ c ∈ S, (applyRaw dx pt f sp s).dens c * (applyRaw dx pt f sp s).vel n c =
        s.dens c * s.vel n c + pt * divergence dx (fun d => (f d).mom n) c := by
      intro c hc
      have := hr c hc
      show (applyRaw dx pt f sp s).dens c * (1 / (applyRaw dx pt f sp s).dens c * _) = _
      rw [← mul_assoc, mul_one_div_cancel this, one_mul]
    rw [Finset.sum_congr rfl e, Finset.sum_add_distrib, ← Finset.mul_sum, t3]; simp
  · intro n
    show ∑ c ∈ S, (s.gp n c + pt * divergence dx (fun d => (f d).gp n) c) = _
    rw [Finset.sum_add_distrib, ← Finset.mul_sum, t4]; simp

/-- C96: where the density is the mixture of the two fluids it stays the mixture given by the new volume fraction. -/
theorem sharpen_mixture (Gamma margin rho1 rho2 : K) (dx : Fin 3 → K) (pt : K) (ib : Cell → ℤ) (s : St K) (tg : Cell → K) (nrm : Fin 3 → Cell → K) (sp : Cell → K) (c : Cell)
    (h : s.dens c = rho1 * s.vof c + rho2 * (1 - s.vof c)) :
    (applyRaw dx pt (fluxes Gamma margin rho1 rho2 ib s tg nrm) sp s).dens c =
      rho1 * (applyRaw dx pt (fluxes Gamma margin rho1 rho2 ib s tg nrm) sp s).vof c +
      rho2 * (1 - (applyRaw dx pt (fluxes Gamma margin rho1 rho2 ib s tg nrm) sp s).vof c) := by
  have e : ∀ d c, (fluxes Gamma margin rho1 rho2 ib s tg nrm d).dens c = (rho1 - rho2) * (fluxes Gamma margin rho1 rho2 ib s tg nrm d).vof c := by
    intro d c; simp only [fluxes, processFlux, sharpenFlux]; ring
  have e2 : divergence dx (fun d => (fluxes Gamma margin rho1 rho2 ib s tg nrm d).dens) c =
      (rho1 - rho2) * divergence dx (fun d => (fluxes Gamma margin rho1 rho2 ib s tg nrm d).vof) c := by
    unfold divergence; simp only [e]; ring
  show s.dens c + pt * divergence dx (fun d => (fluxes Gamma margin rho1 rho2 ib s tg nrm d).dens) c =
    rho1 * (s.vof c + pt * divergence dx (fun d => (fluxes Gamma margin rho1 rho2 ib s tg nrm d).vof) c) +
    rho2 * (1 - (s.vof c + pt * divergence dx (fun d => (fluxes Gamma margin rho1 rho2 ib s tg nrm d).vof) c))
  rw [e2, h]; ring

/-- C96: after an iteration the density is the mixture of the stored volume fraction. -/
theorem set_density_spec (rho1 rho2 : K) (s : St K) (c : Cell) : (setDensity rho1 rho2 s).dens c = rho1 * s.vof c + rho2 * (1 - s.vof c) ∧
    (setDensity rho1 rho2 s).vof = s.vof ∧ (setDensity rho1 rho2 s).vel = s.vel := ⟨rfl, rfl, rfl⟩

/-- C96: after an iteration the density lies between those of both fluids where the volume fraction lies between zero and one, and tells the
volume fraction when they differ. -/
theorem density_between {rho1 rho2 : K} (h : rho2 < rho1) (s : St K) (c : Cell) (h0 : 0 ≤ s.vof c) (h1 : s.vof c ≤ 1) :
    rho2 ≤ (setDensity rho1 rho2 s).dens c ∧ (setDensity rho1 rho2 s).dens c ≤ rho1 ∧
    s.vof c = ((setDensity rho1 rho2 s).dens c - rho2) / (rho1 - rho2) := by
  rw [(set_density_spec rho1 rho2 s c).1]
  have hd : 0 < rho1 - rho2 := by linarith
  refine ⟨by nlinarith, by nlinarith, ?_⟩
  rw [eq_div_iff hd.ne']
  ring

/-- C96: a volume fraction that already equals its target is left alone, with the velocity and the density. -/
theorem target_fixed (Gamma margin rho1 rho2 : K) (dx : Fin 3 → K) (pt : K) (ib : Cell → ℤ) (hb : Blank ib) (s : St K) (tg : Cell → K) (nrm : Fin 3 → Cell → K) (sp : Cell → K)
    (h : ∀ c, ib c = -1 → tg c = s.vof c) (c : Cell) (hr : s.dens c ≠ 0) :
    (∀ d e, (fluxes Gamma margin rho1 rho2 ib s tg nrm d).vof e = 0) ∧
    (applyRaw dx pt (fluxes Gamma margin rho1 rho2 ib s tg nrm) sp s).vof c = s.vof c ∧
    (applyRaw dx pt (fluxes Gamma margin rho1 rho2 ib s tg nrm) sp s).dens c = s.dens c ∧
    (∀ n, (applyRaw dx pt (fluxes Gamma margin rho1 rho2 ib s tg nrm) sp s).vel n c = s.vel n c) ∧
    ∀ n, (applyRaw dx pt (fluxes Gamma margin rho1 rho2 ib s tg nrm) sp s).gp n c = s.gp n c := by
  have z : ∀ d e, (fluxes Gamma margin rho1 rho2 ib s tg nrm d).vof e = 0 := by
    intro d e
    by_cases h1 : ib e = -1 ∧ ib (dn d e) = -1
    · rw [(fluxes_inside Gamma margin rho1 rho2 ib hb s tg nrm d e h1.1 h1.2).1]
      unfold alphaFlux
      rw [h _ h1.1, h _ h1.2, sub_self, sub_self]
      unfold pick
      simp
    · exact (fluxes_confined Gamma margin rho1 rho2 ib hb s tg nrm d e (by tauto)).1
  have zd : ∀ d e, (fluxes Gamma margin rho1 rho2 ib s tg nrm d).dens e = 0 ∧ (∀ n, (fluxes Gamma margin rho1 rho2 ib s tg nrm d).mom n e = 0) ∧
      ∀ n, (fluxes Gamma margin rho1 rho2 ib s tg nrm d).gp n e = 0 := by
    intro d e
    by_cases h1 : ib e = -1 ∧ ib (dn d e) = -1
    · obtain ⟨_, a, b, g, _⟩ := fluxes_inside Gamma margin rho1 rho2 ib hb s tg nrm d e h1.1 h1.2
      rw [z] at a
      rw [mul_zero] at a
      exact ⟨a, fun n => by rw [b n, a, zero_mul], fun n => by rw [g n, a, zero_mul]⟩
    · obtain ⟨_, a, b, g, _⟩ := fluxes_confined Gamma margin rho1 rho2 ib hb s tg nrm d e (by tauto)
      exact ⟨a, b, g⟩
  refine ⟨z, ?_, ?_, fun n => ?_, fun n => ?_⟩
  · show s.vof c + pt * divergence dx _ c = _
    rw [div_zero_of dx _ c fun d => ⟨z d c, z d _⟩]; simp
  · show s.dens c + pt * divergence dx _ c = _
    rw [div_zero_of dx _ c fun d => ⟨(zd d c).1, (zd d _).1⟩]; simp
  · show 1 / (s.dens c + pt * divergence dx _ c) * (s.dens c * s.vel n c + pt * divergence dx _ c) = _
    rw [div_zero_of dx (fun d => (fluxes Gamma margin rho1 rho2 ib s tg nrm d).dens) c fun d => ⟨(zd d c).1, (zd d _).1⟩,
      div_zero_of dx _ c fun d => ⟨(zd d c).2.1 n, (zd d _).2.1 n⟩,
      mul_zero, add_zero, add_zero, ← mul_assoc, one_div_mul_cancel hr, one_mul]
  · show s.gp n c + pt * divergence dx _ c = _
    rw [div_zero_of dx _ c fun d => ⟨(zd d c).2.2 n, (zd d _).2.2 n⟩]; simp

/-- C96: cells not received from the other solver are their own target. -/
theorem harmonize_spec (ib : Cell → ℤ) (og tg : Cell → K) (c : Cell) : (ib c ≠ -1 → harmonize ib og tg c = og c) ∧ (ib c = -1 → harmonize ib og tg c = tg c) := by
  unfold harmonize
  exact ⟨fun h => by rw [if_pos h], fun h => by rw [if_neg (not_not.2 h)]⟩

theorem pick_cases (margin v vm a b : K) : pick margin v vm a b = a ∨ pick margin v vm a b = b ∨ pick margin v vm a b = (a + b) / 2 := by
  unfold pick
  dsimp only
  have e : 1 / 2 * (a + b) = (a + b) / 2 := by ring
  rw [e]
  split_ifs <;> simp

/-- C96: the flux does not favour a direction: seen in a mirror the same amount goes the other way. -/
theorem pick_mirror (margin v vm a b : K) : pick margin vm v (-b) (-a) = -pick margin v vm a b := by
  unfold pick
  dsimp only
  have c1 : (|vm - 1 / 2| > margin ∨ |v - 1 / 2| > margin) ↔ (|v - 1 / 2| > margin ∨ |vm - 1 / 2| > margin) := or_comm
  have e : 1 / 2 * (-b + -a) = -(1 / 2 * (a + b)) := by ring
  rw [e]
  simp only [c1]
  by_cases h0 : |v - 1 / 2| > margin ∨ |vm - 1 / 2| > margin
  · rw [if_pos h0, if_pos h0]
    rcases lt_trichotomy v vm with h | h | h
    · have s1 : vm - v > 0 := by linarith
      have s2 : ¬ vm - v < 0 := by linarith
      have s3 : v - vm < 0 := by linarith
      have s4 : ¬ v - vm > 0 := by linarith
      rw [if_pos s1, if_neg s2, if_pos s3, if_neg s4]
      split_ifs <;> rfl
    · subst h
      simp
    · have s1 : ¬ vm - v > 0 := by linarith
      have s2 : vm - v < 0 := by linarith
      have s3 : ¬ v - vm < 0 := by linarith
      have s4 : v - vm > 0 := by linarith
      rw [if_neg s1, if_pos s2, if_neg s3, if_pos s4]
      split_ifs <;> rfl
  · rw [if_neg h0, if_neg h0]

/-- C96: on the gas side of the surface the flux is set by the cell with less liquid, on the liquid side by the one with more, and
across it by both. -/
theorem pick_sides (margin lo hi a b : K) (hm : 0 ≤ margin) (h : lo < hi) :
    (hi < 1 / 2 - margin → pick margin hi lo a b = b) ∧ (1 / 2 + margin < lo → pick margin hi lo a b = a) ∧
    (lo < 1 / 2 - margin ∧ 1 / 2 + margin < hi → pick margin hi lo a b = (a + b) / 2) ∧
    (|lo - 1 / 2| ≤ margin ∧ |hi - 1 / 2| ≤ margin → pick margin hi lo a b = (a + b) / 2) := by
  have s1 : hi - lo > 0 := by linarith
  have s2 : ¬ hi - lo < 0 := by linarith
  have e : 1 / 2 * (a + b) = (a + b) / 2 := by ring
  unfold pick
  dsimp only
  rw [if_pos s1, if_neg s2, e]
  refine ⟨fun g => ?_, fun g => ?_, fun g => ?_, fun g => ?_⟩
  · have t : |hi - 1 / 2| > margin := by rw [abs_of_neg (by linarith)]; linarith
    rw [if_pos (Or.inl t), if_neg (by intro q; linarith [q.2]), if_pos ⟨by linarith, by linarith⟩]
  · have t : |hi - 1 / 2| > margin := by rw [abs_of_pos (by linarith)]; linarith
    rw [if_pos (Or.inl t), if_pos ⟨by linarith, by linarith⟩]
  · have t : |hi - 1 / 2| > margin := by rw [abs_of_pos (by linarith)]; linarith
    rw [if_pos (Or.inl t), if_neg (by intro q; linarith [q.1, g.1]), if_neg (by intro q; linarith [q.2, g.2])]
  · rw [if_neg]
    rintro (q | q)
    · linarith [g.2]
    · linarith [g.1]

/-- C96: the size of a flux is at most the larger distance from the target of the two cells. -/
theorem alpha_flux_bound (margin : K) (vof tg : Cell → K) (nrm : Fin 3 → Cell → K) (d : Fin 3) (c : Cell) (h : |nrm d c| ≤ 1) (h' : |nrm d (dn d c)| ≤ 1) :
    |alphaFlux margin vof tg nrm d c| ≤ max |vof c - tg c| |vof (dn d c) - tg (dn d c)| := by
  have a1 : |(vof c - tg c) * abs (nrm d c)| ≤ |vof c - tg c| := by
    rw [abs_mul, abs_abs]; exact mul_le_of_le_one_right (abs_nonneg _) h
  have a2 : |(tg (dn d c) - vof (dn d c)) * abs (nrm d (dn d c))| ≤ |vof (dn d c) - tg (dn d c)| := by
    rw [abs_mul, abs_abs, abs_sub_comm]; exact mul_le_of_le_one_right (abs_nonneg _) h'
  unfold alphaFlux
  rcases pick_cases margin (vof c) (vof (dn d c)) ((vof c - tg c) * |nrm d c|) ((tg (dn d c) - vof (dn d c)) * |nrm d (dn d c)|) with e | e | e
  · rw [e]; exact le_trans a1 (le_max_left _ _)
  · rw [e]; exact le_trans a2 (le_max_right _ _)
  · rw [e, abs_div, abs_of_pos (show (0 : K) < 2 by norm_num), div_le_iff₀ (by norm_num)]
    have := abs_add_le ((vof c - tg c) * |nrm d c|) ((tg (dn d c) - vof (dn d c)) * |nrm d (dn d c)|)
    linarith [le_max_left |vof c - tg c| |vof (dn d c) - tg (dn d c)|, le_max_right |vof c - tg c| |vof (dn d c) - tg (dn d c)|]

/-- C96: the momentum and pressure gradient carried by a flux are those of the cell with less liquid, or the mean. -/
theorem face_value_spec (vof q : Cell → K) (d : Fin 3) (c : Cell) : (vof c < vof (dn d c) → faceValue vof q d c = q c) ∧
    (vof (dn d c) < vof c → faceValue vof q d c = q (dn d c)) ∧ (vof c = vof (dn d c) → faceValue vof q d c = (q c + q (dn d c)) / 2) ∧
    min (q c) (q (dn d c)) ≤ faceValue vof q d c ∧ faceValue vof q d c ≤ max (q c) (q (dn d c)) := by
  unfold faceValue
  dsimp only
  have l1 := min_le_left (q c) (q (dn d c)); have l2 := min_le_right (q c) (q (dn d c))
  have r1 := le_max_left (q c) (q (dn d c)); have r2 := le_max_right (q c) (q (dn d c))
  refine ⟨fun h => ?_, fun h => ?_, fun h => ?_, ?_, ?_⟩
  · rw [if_pos (by linarith)]
  · rw [if_neg (by linarith), if_pos (by linarith)]
  · rw [h]; simp; ring
  · split_ifs <;> linarith
  · split_ifs <;> linarith

/-! ### The pseudo time step -/

theorem face_limit_pos (tol h f v vm : K) (ht : 0 ≤ tol) (hh : 0 < h) : 0 < faceLimit tol h f v vm := by
  unfold faceLimit
  split_ifs with a b
  · exact div_pos (mul_pos (lt_of_le_of_lt ht a.2) hh) (lt_of_le_of_lt ht a.1)
  · exact div_pos (mul_pos (lt_of_le_of_lt ht b.2) hh) (by linarith [b.1])
  · exact one_pos

theorem pseudo_dt_le (tol : K) (dx : Fin 3 → K) (f : Fin 3 → Cell → K) (vof : Cell → K) (faces : Fin 3 → List Cell) (d : Fin 3) (c : Cell) (hc : c ∈ faces d) :
    pseudoDt tol dx f vof faces ≤ faceLimit tol (dx d) (f d c) (vof c) (vof (dn d c)) := by
  have key := (foldl_min_spec ((faces d).map fun c => faceLimit tol (dx d) (f d c) (vof c) (vof (dn d c))) 1).1 _ (List.mem_map_of_mem (f := fun c => faceLimit tol (dx d) (f d c) (vof c) (vof (dn d c))) hc)
  refine le_trans ?_ key
  unfold pseudoDt
  dsimp only
  fin_cases d
  · exact min_le_left _ _
  · exact le_trans (min_le_right _ _) (min_le_left _ _)
  · exact le_trans (min_le_right _ _) (min_le_right _ _)

/-- C96: the pseudo time step is positive and at most one half. -/
theorem ptfac_range (tol : K) (dx : Fin 3 → K) (f : Fin 3 → Cell → K) (vof : Cell → K) (faces : Fin 3 → List Cell) (ht : 0 ≤ tol) (hx : ∀ d, 0 < dx d) :
    0 < ptfac tol dx f vof faces ∧ ptfac tol dx f vof faces ≤ 1 / 2 := by
  have one : ∀ d, 0 < ((faces d).map fun c => faceLimit tol (dx d) (f d c) (vof c) (vof (dn d c))).foldl min 1 ∧
      ((faces d).map fun c => faceLimit tol (dx d) (f d c) (vof c) (vof (dn d c))).foldl min 1 ≤ 1 := by
    intro d
    obtain ⟨_, h2, h3⟩ := foldl_min_spec ((faces d).map fun c => faceLimit tol (dx d) (f d c) (vof c) (vof (dn d c))) 1
    refine ⟨?_, h2⟩
    rcases h3 with h3 | h3
    · rw [h3]; exact one_pos
    · obtain ⟨c, _, e⟩ := List.mem_map.1 h3
      rw [← e]; exact face_limit_pos _ _ _ _ _ ht (hx d)
  unfold ptfac pseudoDt
  dsimp only
  constructor
  · exact mul_pos (by norm_num) (lt_min (one 0).1 (lt_min (one 1).1 (one 2).1))
  · have : min (((faces 0).map fun c => faceLimit tol (dx 0) (f 0 c) (vof c) (vof (dn 0 c))).foldl min 1)
        (min (((faces 1).map fun c => faceLimit tol (dx 1) (f 1 c) (vof c) (vof (dn 1 c))).foldl min 1)
          (((faces 2).map fun c => faceLimit tol (dx 2) (f 2 c) (vof c) (vof (dn 2 c))).foldl min 1)) ≤ 1 := le_trans (min_le_left _ _) (one 0).2
    linarith

/-- C96: through one face at most half of the liquid of a cell leaves in one iteration (for a flux and a volume fraction above the
tolerance): through its low face -/
theorem drain_low (tol : K) (dx : Fin 3 → K) (f : Fin 3 → Cell → K) (vof : Cell → K) (faces : Fin 3 → List Cell) (ht : 0 ≤ tol) (hx : ∀ d, 0 < dx d)
    (d : Fin 3) (c : Cell) (hc : c ∈ faces d) (hf : tol < f d c) (hv : tol < vof c) : ptfac tol dx f vof faces * (f d c / dx d) ≤ vof c / 2 := by
  have h := pseudo_dt_le tol dx f vof faces d c hc
  unfold faceLimit at h
  rw [if_pos ⟨hf, hv⟩] at h
  have fp : 0 < f d c := lt_of_le_of_lt ht hf
  rw [le_div_iff₀ fp] at h
  unfold ptfac
  rw [mul_div_assoc', div_le_iff₀ (hx d)]
  linarith

/-- and through its high face. -/
theorem drain_high (tol : K) (dx : Fin 3 → K) (f : Fin 3 → Cell → K) (vof : Cell → K) (faces : Fin 3 → List Cell) (ht : 0 ≤ tol) (hx : ∀ d, 0 < dx d)
    (d : Fin 3) (c : Cell) (hc : up d c ∈ faces d) (hf : f d (up d c) < -tol) (hv : tol < vof c) : ptfac tol dx f vof faces * (-f d (up d c) / dx d) ≤ vof c / 2 := by
  have h := pseudo_dt_le tol dx f vof faces d (up d c) hc
  unfold faceLimit at h
  rw [dn_up, if_neg (by intro q; linarith [q.1]), if_pos ⟨hf, hv⟩] at h
  have fp : 0 < -f d (up d c) := by linarith
  rw [le_div_iff₀ fp] at h
  unfold ptfac
  rw [mul_div_assoc', div_le_iff₀ (hx d)]
  linarith

/-- C96 (part: fluxes along one axis only, none of them below the tolerance but zero): the volume fraction stays non-negative without
being cut. -/
theorem drain_one_axis_partial (tol : K) (dx : Fin 3 → K) (f : Fin 3 → Cell → K) (vof : Cell → K) (faces : Fin 3 → List Cell) (ht : 0 ≤ tol) (hx : ∀ d, 0 < dx d)
    (d : Fin 3) (c : Cell) (h1 : c ∈ faces d) (h2 : up d c ∈ faces d) (hv : tol < vof c) (g1 : f d c ≤ 0 ∨ tol < f d c) (g2 : 0 ≤ f d (up d c) ∨ f d (up d c) < -tol)
    (ho : ∀ e, e ≠ d → f e c = 0 ∧ f e (up e c) = 0) : 0 ≤ vof c + ptfac tol dx f vof faces * divergence dx f c := by
  have pp := (ptfac_range tol dx f vof faces ht hx).1
  have e : divergence dx f c = (f d (up d c) - f d c) / dx d := by
    unfold divergence
    fin_cases d
    · rw [(ho 1 (by decide)).1, (ho 1 (by decide)).2, (ho 2 (by decide)).1, (ho 2 (by decide)).2]; simp
    · rw [(ho 0 (by decide)).1, (ho 0 (by decide)).2, (ho 2 (by decide)).1, (ho 2 (by decide)).2]; simp
    · rw [(ho 0 (by decide)).1, (ho 0 (by decide)).2, (ho 1 (by decide)).1, (ho 1 (by decide)).2]; simp
  rw [e, sub_div, mul_sub]
  have a : ptfac tol dx f vof faces * (f d c / dx d) ≤ vof c / 2 := by
    rcases g1 with g1 | g1
    · have : ptfac tol dx f vof faces * (f d c / dx d) ≤ 0 := mul_nonpos_of_nonneg_of_nonpos pp.le (div_nonpos_of_nonpos_of_nonneg g1 (hx d).le)
      linarith [lt_of_le_of_lt ht hv]
    · exact drain_low tol dx f vof faces ht hx d c h1 g1 hv
  have b : -(vof c / 2) ≤ ptfac tol dx f vof faces * (f d (up d c) / dx d) := by
    rcases g2 with g2 | g2
    · have : 0 ≤ ptfac tol dx f vof faces * (f d (up d c) / dx d) := mul_nonneg pp.le (div_nonneg g2 (hx d).le)
      linarith [lt_of_le_of_lt ht hv]
    · have := drain_high tol dx f vof faces ht hx d c h2 g2 hv
      rw [neg_div, mul_neg] at this
      linarith
  linarith

/-! ### Levels -/

/-- A coarse face made of four fine ones (`average_down_faces`, OversetOps.cpp:322-327): index `c` refined by two. -/
def averaged (d : Fin 3) (f : Cell → K) (c : Cell) : K :=
  let o : Cell := (2 * c.1, 2 * c.2.1, 2 * c.2.2)
  match d with
  | 0 => (f o + f (up 1 o) + f (up 2 o) + f (up 1 (up 2 o))) / 4
  | 1 => (f o + f (up 0 o) + f (up 2 o) + f (up 0 (up 2 o))) / 4
  | 2 => (f o + f (up 0 o) + f (up 1 o) + f (up 0 (up 1 o))) / 4

/-- The mean of the eight fine cells of a coarse cell. -/
def average8 (v : Cell → K) (c : Cell) : K :=
  let o : Cell := (2 * c.1, 2 * c.2.1, 2 * c.2.2)
  (v o + v (up 0 o) + v (up 1 o) + v (up 2 o) + v (up 0 (up 1 o)) + v (up 0 (up 2 o)) + v (up 1 (up 2 o)) + v (up 0 (up 1 (up 2 o)))) / 8

/-- C96: a coarse cell under a finer level that holds the mean of its fine cells still does after an iteration with averaged fluxes
(before the cut), so the levels agree. -/
theorem levels_agree (dx : Fin 3 → K) (pt : K) (f F : Fin 3 → Cell → K) (v V : Cell → K) (c : Cell) (hF : ∀ d e, F d e = averaged d (f d) e)
    (h : V c = average8 v c) :
    V c + pt * divergence (fun d => 2 * dx d) F c = average8 (fun e => v e + pt * divergence dx f e) c := by
  have k : divergence (fun d => 2 * dx d) F c = average8 (divergence dx f) c := by
    obtain ⟨i, j, k⟩ := c
    unfold divergence average8
    simp only [hF, averaged, up, mul_add, mul_one]
    have e : ∀ x : ℤ, x + 2 = x + 1 + 1 := fun x => by ring
    simp only [e]
    rw [show ∀ a b : K, a / (2 * b) = a / 2 / b from fun a b => by rw [div_div], show ∀ a b : K, a / (2 * b) = a / 2 / b from fun a b => by rw [div_div],
      show ∀ a b : K, a / (2 * b) = a / 2 / b from fun a b => by rw [div_div]]
    ring
  rw [k, h]
  unfold average8
  ring

/-! ### The loop -/

/-- C96: what the loop returns. It stops after the first iteration whose measured error is within the tolerance, or when the iterations
are used up; errors are measured at every `interval`-th iteration, on the fields before it. -/
theorem loop_aux_spec {S : Type*} (step : S → S) (err : S → K) (interval : ℤ) (hi : interval ≠ 0) (tol : K) (left n : ℕ) (e : K) (s : S) :
    ∃ m ≤ left, ∃ e', loopAux step err interval tol left n e s = some (n + m, e', step^[m] s) ∧ (m = left ∨ e' ≤ tol) ∧
      (m = 0 → e' = e) ∧
      (∀ k, 1 ≤ k → k < m → interval ∣ ((n + k : ℕ) : ℤ) → tol < max 0 (err (step^[k - 1] s))) ∧
      (0 < m → e > tol) ∧
      (∀ k, 1 ≤ k → k ≤ m → interval ∣ ((n + k : ℕ) : ℤ) → (∀ l, k < l → l ≤ m → ¬ interval ∣ ((n + l : ℕ) : ℤ)) → e' = max 0 (err (step^[k - 1] s))) ∧
      ((∀ l, 1 ≤ l → l ≤ m → ¬ interval ∣ ((n + l : ℕ) : ℤ)) → e' = e) := by
  induction left generalizing n e s with
  | zero =>
    refine ⟨0, le_refl _, e, rfl, Or.inl rfl, fun _ => rfl, ?_, ?_, ?_, fun _ => rfl⟩
    · intro k h1 h2; omega
    · intro h; omega
    · intro k h1 h2; omega
  | succ left ih =>
    have un : loopAux step err interval tol (left + 1) n e s = if e > tol then
      if interval = 0 then none else loopAux step err interval tol left (n + 1) (if Int.tmod ((n + 1 : ℕ) : ℤ) interval = 0 then max 0 (err s) else e) (step s)
      else some (n, e, s) := rfl
    rw [un]
    by_cases he : e > tol
    · rw [if_pos he, if_neg hi]
      generalize hE : (if Int.tmod ((n + 1 : ℕ) : ℤ) interval = 0 then max 0 (err s) else e) = E
      obtain ⟨m, hm, e', q, q1, q2, q3, q4, q5, q6⟩ := ih (n + 1) E (step s)
      have dv : Int.tmod ((n + 1 : ℕ) : ℤ) interval = 0 ↔ interval ∣ ((n + 1 : ℕ) : ℤ) := Int.dvd_iff_tmod_eq_zero.symm
      refine ⟨m + 1, by omega, e', ?_, ?_, ?_, ?_, fun _ => he, ?_, ?_⟩
      · rw [q]
        have : n + 1 + m = n + (m + 1) := by omega
        rw [this, Function.iterate_succ_apply]
      · rcases q1 with q1 | q1
        · left; omega
        · right; exact q1
      · intro h; omega
      · intro k h1 h2 hd
        rcases Nat.lt_or_ge 1 k with h3 | h3
        · have := q3 (k - 1) (by omega) (by omega) (by rw [show n + 1 + (k - 1) = n + k by omega]; exact hd)
          rw [show k - 1 - 1 = k - 2 by omega] at this
          have e2 : step^[k - 1] s = step^[k - 2] (step s) := by
            rw [← Function.iterate_succ_apply]; congr 2; omega
          rw [e2]; exact this
        · have : k = 1 := by omega
          subst this
          have w := q4 (by omega)
          rw [← hE, if_pos (dv.2 hd)] at w
          exact w
      · intro k h1 h2 hd hl
        rcases Nat.lt_or_ge 1 k with h3 | h3
        · have := q5 (k - 1) (by omega) (by omega) (by rw [show n + 1 + (k - 1) = n + k by omega]; exact hd)
            (fun l a b => by rw [show n + 1 + l = n + (l + 1) by omega]; exact hl (l + 1) (by omega) (by omega))
          rw [this]
          have e2 : step^[k - 1] s = step^[k - 1 - 1] (step s) := by
            rw [← Function.iterate_succ_apply]; congr 2; omega
          rw [e2]
        · have : k = 1 := by omega
          subst this
          rw [q6 (fun l a b => by rw [show n + 1 + l = n + (l + 1) by omega]; exact hl (l + 1) (by omega) (by omega)), ← hE, if_pos (dv.2 hd)]
          rfl
      · intro hl
        rw [q6 (fun l a b => by rw [show n + 1 + l = n + (l + 1) by omega]; exact hl (l + 1) (by omega) (by omega)), ← hE]
        rw [if_neg (fun w => hl 1 (le_refl _) (by omega) (dv.1 w))]
    · rw [if_neg he]
      refine ⟨0, by omega, e, rfl, Or.inr (not_lt.1 he), fun _ => rfl, ?_, ?_, ?_, fun _ => rfl⟩
      · intro k h1 h2; omega
      · intro h; omega
      · intro k h1 h2; omega

/-- C96: with a positive tolerance the fields are those after `m` iterations, where `m` is the first multiple of the interval whose
measured error is within the tolerance, or the number of iterations allowed if there is none. -/
theorem loop_spec {S : Type*} (step : S → S) (err : S → K) (iterations : ℕ) (interval : ℤ) (hi : interval ≠ 0) (tol : K) (ht : 0 < tol) (s : S) :
    ∃ m ≤ iterations, ∃ e, loop step err iterations interval tol s = some (m, e, step^[m] s) ∧
      (∀ k, 1 ≤ k → k < m → interval ∣ (k : ℤ) → tol < err (step^[k - 1] s)) ∧
      (m < iterations → 1 ≤ m ∧ interval ∣ (m : ℤ) ∧ err (step^[m - 1] s) ≤ tol) := by
  obtain ⟨m, hm, e', q, q1, q2, q3, q4, q5, q6⟩ := loop_aux_spec step err interval hi tol iterations 0 (100 * tol) s
  simp only [Nat.zero_add] at *
  have big : tol < 100 * tol := by linarith
  refine ⟨m, hm, e', q, ?_, ?_⟩
  · intro k h1 h2 hd
    rcases lt_max_iff.1 (q3 k h1 h2 hd) with w | w
    · exact absurd ht (not_lt.2 w.le)
    · exact w
  · intro hlt
    have he : e' ≤ tol := by
      rcases q1 with q1 | q1
      · omega
      · exact q1
    have hpos : 1 ≤ m := by
      by_contra hcon
      have : m = 0 := by omega
      rw [q2 this] at he
      linarith
    -- the last measured iteration
    by_cases hd : interval ∣ (m : ℤ)
    · refine ⟨hpos, hd, ?_⟩
      have := q5 m hpos (le_refl _) hd (fun l a b => by omega)
      rw [this] at he
      exact le_trans (le_max_right _ _) he
    · exfalso
      by_cases hex : ∃ k, (1 ≤ k ∧ k ≤ m ∧ interval ∣ (k : ℤ))
      · classical
        obtain ⟨k, hk⟩ := hex
        have hb : ∃ k, (1 ≤ k ∧ k ≤ m ∧ interval ∣ (k : ℤ)) ∧ ∀ l, k < l → l ≤ m → ¬ interval ∣ (l : ℤ) := by
          let P := fun k : ℕ => 1 ≤ k ∧ k ≤ m ∧ interval ∣ (k : ℤ)
          refine ⟨Nat.findGreatest P m, Nat.findGreatest_spec (P := P) hk.2.1 hk, ?_⟩
          intro l a b hl
          exact Nat.findGreatest_is_greatest (P := P) a b ⟨by omega, b, hl⟩
        obtain ⟨k, ⟨k1, k2, k3⟩, k4⟩ := hb
        have e1 := q5 k k1 k2 k3 k4
        have hkm : k < m := by
          rcases Nat.lt_or_ge k m with w | w
          · exact w
          · exfalso; apply hd; rw [show m = k by omega]; exact k3
        have := q3 k k1 hkm k3
        rw [e1] at he
        linarith
      · have := q6 (fun l a b hl => hex ⟨l, a, b, hl⟩)
        rw [this] at he; linarith

/-- C96 does not hold in full: with a tolerance of zero, which asks for all the iterations, none is made. -/
theorem loop_zero_tol {S : Type*} (step : S → S) (err : S → K) (iterations : ℕ) (interval : ℤ) (tol : K) (h : tol ≤ 0) (s : S) :
    loop step err iterations interval tol s = some (0, 100 * tol, s) := by
  unfold loop
  cases iterations with
  | zero => rfl
  | succ n =>
    show (if 100 * tol > tol then _ else _) = _
    rw [if_neg (by linarith)]

/-- An interval of zero is a remainder by zero. -/
theorem loop_zero_interval {S : Type*} (step : S → S) (err : S → K) (iterations : ℕ) (h : 0 < iterations) (tol : K) (ht : 0 < tol) (s : S) :
    loop step err iterations 0 tol s = none := by
  obtain ⟨n, rfl⟩ := Nat.exists_eq_succ_of_ne_zero (by omega : iterations ≠ 0)
  unfold loop
  show (if 100 * tol > tol then _ else _) = _
  rw [if_pos (by linarith)]
  rfl

/-- C96: the error is the largest flux. -/
theorem measure_spec (f : Fin 3 → Cell → K) (faces : Fin 3 → List Cell) (e : K) (he : 0 ≤ e) : measure f faces ≤ e ↔ ∀ d, ∀ c ∈ faces d, |f d c| ≤ e := by
  have one : ∀ d, ((faces d).map fun c => |f d c|).foldl max (-1) ≤ e ↔ ∀ c ∈ faces d, |f d c| ≤ e := by
    intro d
    obtain ⟨h1, h2, h3⟩ := foldl_max_spec ((faces d).map fun c => |f d c|) (-1)
    constructor
    · intro h c hc
      exact le_trans (h1 _ (List.mem_map_of_mem (f := fun c => |f d c|) hc)) h
    · intro h
      rcases h3 with h3 | h3
      · rw [h3]; linarith
      · obtain ⟨c, hc, q⟩ := List.mem_map.1 h3
        rw [← q]; exact h c hc
  unfold measure
  dsimp only
  rw [max_le_iff, max_le_iff, one, one, one]
  constructor
  · rintro ⟨a, b, c⟩ d; fin_cases d
    · exact a
    · exact b
    · exact c
  · intro h; exact ⟨h 0, h 1, h 2⟩

/-- C96: the velocity scale is positive and at most the mesh size of any level that has received cells. -/
theorem pv_scale_spec (dx0 : Fin 3 → K) (levels : List (ℤ × (Fin 3 → K))) (h0 : ∀ d, 0 < dx0 d) (hl : ∀ l ∈ levels, ∀ d, 0 < l.2 d) :
    0 < pvScale dx0 levels ∧ ∀ l ∈ levels, l.1 = -1 → ∀ d, pvScale dx0 levels ≤ l.2 d := by
  unfold pvScale
  dsimp only
  generalize hM : min (min (dx0 0) (dx0 1)) (dx0 2) = M
  have hMp : 0 < M := by rw [← hM]; exact lt_min (lt_min (h0 0) (h0 1)) (h0 2)
  have gen : ∀ (ls : List (ℤ × (Fin 3 → K))) (a : K), 0 < a → (∀ l ∈ ls, ∀ d, 0 < l.2 d) →
      0 < ls.foldl (fun a l => min a (pvLevel l.1 l.2 M)) a ∧ ls.foldl (fun a l => min a (pvLevel l.1 l.2 M)) a ≤ a ∧
      ∀ l ∈ ls, l.1 = -1 → ∀ d, ls.foldl (fun a l => min a (pvLevel l.1 l.2 M)) a ≤ l.2 d := by
    intro ls
    induction ls with
    | nil => intro a ha _; exact ⟨ha, le_refl _, by simp⟩
    | cons x xs ih =>
      intro a ha hx
      rw [List.foldl_cons]
      have px : 0 < pvLevel x.1 x.2 M := by
        unfold pvLevel
        have := hx x List.mem_cons_self
        split_ifs
        · exact lt_min (lt_min (this 0) (this 1)) (this 2)
        · exact hMp
      obtain ⟨i1, i2, i3⟩ := ih (min a (pvLevel x.1 x.2 M)) (lt_min ha px) (fun l h => hx l (List.mem_cons_of_mem _ h))
      refine ⟨i1, le_trans i2 (min_le_left _ _), ?_⟩
      intro l hm he d
      rcases List.mem_cons.1 hm with rfl | hm
      · refine le_trans i2 (le_trans (min_le_right _ _) ?_)
        unfold pvLevel
        rw [if_pos he]
        fin_cases d
        · exact le_trans (min_le_left _ _) (min_le_left _ _)
        · exact le_trans (min_le_left _ _) (min_le_right _ _)
        · exact min_le_right _ _
      · exact i3 l hm he d
  obtain ⟨g1, _, g3⟩ := gen levels M hMp hl
  exact ⟨g1, g3⟩

end field

/-! ### Where the claim fails -/

/-- A cell at the origin that should be empty, in a received region of half-full cells that are at their target. -/
def badVof : Cell → ℚ := fun c => if c = (0, 0, 0) then 3 / 5 else 1 / 2
@[inherit_doc badVof]
def badTarget : Cell → ℚ := fun c => if c = (0, 0, 0) then 0 else 1 / 2
@[inherit_doc badVof]
def badNormal : Fin 3 → Cell → ℚ := fun d _ => if d = 2 then 1 / 3 else 2 / 3
@[inherit_doc badVof]
def badState : St ℚ := ⟨badVof, fun c => 1 + badVof c, fun _ _ => 0, fun _ _ => 0, fun _ => 0⟩
@[inherit_doc badVof]
def badFaces : Fin 3 → List Cell := fun d => [(0, 0, 0), up d (0, 0, 0)]
@[inherit_doc badVof]
def badFlux : Fin 3 → Flux ℚ := fluxes 1 (1 / 20) 2 1 (fun _ => -1) badState badTarget badNormal

/-- C96 does not hold in full: the time step is limited face by face, so a cell drained through several faces is emptied more than once;
the volume fraction becomes negative and cutting it to zero makes liquid out of nothing. -/
theorem drain_several_faces : (∀ c, badNormal 0 c ^ 2 + badNormal 1 c ^ 2 + badNormal 2 c ^ 2 = 1) ∧
    ptfac (1 / 10 ^ 12) (fun _ => 1) (fun d => (badFlux d).vof) badVof badFaces = 1 / 2 ∧
    (applyRaw (fun _ => 1) (1 / 2) badFlux (fun _ => 0) badState).vof (0, 0, 0) = -2 / 5 ∧
    (applyFluxes (fun _ => 1) (1 / 2) (1 / 10 ^ 12) badFlux (fun _ => 0) badState).vof (0, 0, 0) = 0 := by
  refine ⟨fun c => by (have e0 : badNormal 0 c = 2 / 3 := rfl); (have e1 : badNormal 1 c = 2 / 3 := rfl); (have e2 : badNormal 2 c = 1 / 3 := rfl); rw [e0, e1, e2]; norm_num, by decide +kernel, by decide +kernel, by decide +kernel⟩

/-- C96 does not hold in full: the bound also acts in cells that belong to this solver. -/
theorem own_cell_cut : ∃ (ib : Cell → ℤ) (s : St ℚ) (c : Cell), ib c = 1 ∧ 0 < s.vof c ∧
    (applyFluxes (fun _ => 1) (1 / 2) (1 / 10 ^ 12) (fluxes 1 (1 / 10) 2 1 ib s s.vof (fun _ _ => 0)) (fun _ => 0) s).vof c = 0 := by
  refine ⟨fun _ => 1, ⟨fun _ => 1 / 10 ^ 13, fun _ => 1, fun _ _ => 0, fun _ _ => 0, fun _ => 0⟩, (0, 0, 0), rfl, by norm_num, by decide +kernel⟩

/-- A received region of two cells between cells solved here; the hypotheses of the theorems above are met. -/
example : Blank (fun c : Cell => if c = (0, 0, 0) ∨ c = (1, 0, 0) then -1 else 1) ∧ ∀ c, (fun c : Cell => if c = (0, 0, 0) ∨ c = (1, 0, 0) then (-1 : ℤ) else 1) c = -1 →
    c ∈ ({(0, 0, 0), (1, 0, 0)} : Finset Cell) := by
  constructor
  · intro c; dsimp only; split_ifs <;> simp
  · intro c h
    dsimp only at h
    split_ifs at h with g
    simpa using g

/-- Two cells at 0.2 and 0.6 with targets 0.1 and 0.7 between them: liquid goes from the first to the second. -/
def twoIb : Cell → ℤ := fun c => if c = (0, 0, 0) ∨ c = (1, 0, 0) then -1 else 1
@[inherit_doc twoIb]
def twoState : St ℚ := ⟨fun c => if c = (0, 0, 0) then 1 / 5 else 3 / 5, fun c => if c = (0, 0, 0) then 6 / 5 else 8 / 5, fun _ _ => 1, fun _ _ => 0, fun _ => 0⟩
@[inherit_doc twoIb]
def twoFlux : Fin 3 → Flux ℚ := fluxes 1 (1 / 20) 2 1 twoIb twoState (fun c => if c = (0, 0, 0) then 1 / 10 else 7 / 10) (fun d _ => if d = 0 then 1 else 0)

example : (applyFluxes (fun _ => 1) (1 / 2) (1 / 10 ^ 12) twoFlux (fun _ => 0) twoState).vof (0, 0, 0) = 3 / 20 ∧
    (applyFluxes (fun _ => 1) (1 / 2) (1 / 10 ^ 12) twoFlux (fun _ => 0) twoState).vof (1, 0, 0) = 13 / 20 ∧
    (applyFluxes (fun _ => 1) (1 / 2) (1 / 10 ^ 12) twoFlux (fun _ => 0) twoState).vel 0 (1, 0, 0) = 1 ∧
    (applyFluxes (fun _ => 1) (1 / 2) (1 / 10 ^ 12) twoFlux (fun _ => 0) twoState).vof (2, 0, 0) = 3 / 5 := by decide +kernel

example : loop (S := ℚ) (fun x => x / 2) (fun x => x) 10 1 (1 / 10) 1 = some (5, 1 / 16, 1 / 32) ∧
    loop (S := ℚ) (fun x => x / 2) (fun x => x) 10 2 (1 / 10) 1 = some (6, 1 / 32, 1 / 64) ∧
    loop (S := ℚ) (fun x => x / 2) (fun x => x) 3 1 (1 / 10) 1 = some (3, 1 / 4, 1 / 8) := by decide +kernel

end AmrWind.Overset
