import Verif.Phys.TwoPhaseModel
import Mathlib.Tactic.Ring
import Mathlib.Tactic.NormNum

/-! # The density of a two-phase run (property C127) -/

set_option linter.unusedSectionVars false

namespace AmrWind.Mph

variable {ι K : Type*} [Field K] [LinearOrder K] [IsStrictOrderedRing K]

/-- The density is that of the mixture in every place, and the one at the middle of the step is the mean of start and end. -/
def Mixed (c : Cfg K) (f : Flow ι K) : Prop :=
  (∀ i, f.rho i = f.vof i * c.rho1 + (1 - f.vof i) * c.rho2) ∧ ∀ i, f.rhoNph i = (f.rhoOld i + f.rho i) / 2

/-- The reference density is there just when asked for, and is that of still water of the given level. -/
def RefOk (c : Cfg K) (o : Ops ι K) (f : Flow ι K) : Prop := ∀ w, c.water = some w → c.perturb = true → f.ref = some (o.rho0 w)

theorem mixed_postSolve (c : Cfg K) (o : Ops ι K) {m : Mp K} (hm : m.method = .vof) (f : Flow ι K) :
    Mixed c (postSolve c o m f) ∧ (postSolve c o m f).vof = f.vof ∧ (postSolve c o m f).ref = f.ref ∧ (postSolve c o m f).p = f.p ∧
    (postSolve c o m f).vel = f.vel := by
  unfold postSolve
  rw [hm]
  refine ⟨⟨fun i => ?_, fun i => ?_⟩, rfl, rfl, rfl, rfl⟩
  · simp only [viaVof, Mix.mixDensity]; ring
  · simp only [viaVof, Mix.nphDensity]; ring

/-- The object with a volume fraction, as constructed. -/
def fresh : Mp K := ⟨.vof, true, fun _ => 0, 0, 0⟩

theorem postInit_cases (c : Cfg K) (o : Ops ι K) (restart : Bool) (f : Flow ι K) :
    ((c.perturb = true ∨ c.initP = true) ∧ c.water = none → postInit c o restart fresh f = .abort) ∧
    (¬ ((c.perturb = true ∨ c.initP = true) ∧ c.water = none) → ∃ m r, postInit c o restart fresh f = .ok (m, r) ∧ m.method = .vof ∧
      (∀ w, c.water = some w → m.water0 = w) ∧ m.sum0 = o.volume r.vof ∧ m.q = o.momentum r.vel r.rho ∧ (restart = true → r.rho = f.rho) ∧
      (restart = false → ∀ i, r.rho i = r.vof i * c.rho1 + (1 - r.vof i) * c.rho2) ∧ r.vof = (if restart then f.vof else o.toVof f.ls) ∧
      r.vel = f.vel ∧ (∀ w, c.water = some w → c.perturb = true → r.ref = some (o.rho0 w)) ∧
      (∀ w, c.water = some w → c.initP = true → r.p = o.p0 w) ∧ (c.initP = false → r.p = f.p)) := by
  unfold postInit fresh
  cases hp : c.perturb <;> cases hi : c.initP <;> cases hw : c.water <;> cases restart <;>
    simp [viaVof, Mix.mixDensity, mul_comm]

/-- How a start ends: with the level set as the interface the pointer to the volume fraction is null and is dereferenced; otherwise the run
starts unless a water level is needed that is not given. -/
theorem start_cases (c : Cfg K) (o : Ops ι K) (restart : Bool) (others : Flow ι K → Flow ι K) (f : Flow ι K) :
    (methodOf c.name = .ls → start c o restart others f = .null) ∧
    (methodOf c.name = .vof → (c.perturb || c.initP) = true → c.water = none → start c o restart others f = .abort) ∧
    (methodOf c.name = .vof → ((c.perturb || c.initP) = true → c.water ≠ none) → ∃ m g, start c o restart others f = .ok (m, g) ∧
      m.method = .vof ∧ (∀ w, c.water = some w → m.water0 = w)) := by
  refine ⟨fun h => ?_, fun h hp hw => ?_, fun h hw => ?_⟩
  · unfold start construct postInit
    rw [h]
    cases c.perturb <;> cases c.reconstruct <;> simp [Res.bind]
  · unfold start construct postInit
    rw [h, hw]
    rcases Bool.or_eq_true _ _ |>.mp hp with e | e
    · simp [Res.bind, e]
    · cases c.perturb <;> simp [Res.bind, e]
  · have hc : construct c = .ok fresh := by unfold construct fresh; rw [h]; simp
    obtain ⟨m, r, e, h1, h2, -⟩ := (postInit_cases c o restart f).2 (fun ⟨a, b⟩ => hw (by rcases a with a | a <;> simp [a]) b)
    refine ⟨m, postSolve c o m (others r), ?_, h1, h2⟩
    unfold start
    rw [hc]
    simp only [Res.bind]
    rw [e]

/-- **C127**: no run that takes the level set for its interface starts, fresh or continued, whatever the other inputs and fields are: the
sum of the volume fractions at the start is taken of a field that is not there. -/
theorem levelset_never_starts (c : Cfg K) (o : Ops ι K) (restart : Bool) (others : Flow ι K → Flow ι K) (f : Flow ι K)
    (h : lower c.name = ['l', 'e', 'v', 'e', 'l', 's', 'e', 't']) : start c o restart others f = .null := by
  refine (start_cases c o restart others f).1 ?_
  unfold methodOf
  rw [h]
  decide

/-- C127: every name but this one means the volume of fluid method; the run starts just when a water level is given or not needed. -/
theorem starts_iff (c : Cfg K) (o : Ops ι K) (restart : Bool) (others : Flow ι K → Flow ι K) (f : Flow ι K)
    (h : lower c.name ≠ ['l', 'e', 'v', 'e', 'l', 's', 'e', 't']) : (∃ r, start c o restart others f = .ok r) ↔ (c.perturb = true ∨ c.initP = true → ∃ w, c.water = some w) := by
  have hv : methodOf c.name = .vof := by unfold methodOf; simp [h]
  obtain ⟨-, h2, h3⟩ := start_cases c o restart others f
  constructor
  · rintro ⟨r, hr⟩ hp
    cases hc : c.water with
    | some w => exact ⟨w, rfl⟩
    | none =>
      rw [h2 hv (by rcases hp with e | e <;> simp [e]) hc] at hr
      cases hr
  · intro hp
    obtain ⟨m, g, e, -⟩ := h3 hv (fun e hn => by
      obtain ⟨w, hw⟩ := hp (by simpa using e)
      rw [hn] at hw; cases hw)
    exact ⟨_, e⟩

theorem start_spec {c : Cfg K} {o : Ops ι K} {restart : Bool} {others : Flow ι K → Flow ι K} {f g : Flow ι K} {m : Mp K}
    (h : start c o restart others f = .ok (m, g)) : m.method = .vof ∧ (∀ w, c.water = some w → m.water0 = w) ∧
    ∃ r, g = postSolve c o m (others r) ∧ m.sum0 = o.volume r.vof ∧ m.q = o.momentum r.vel r.rho ∧ (restart = true → r.rho = f.rho) ∧
      (restart = false → ∀ i, r.rho i = r.vof i * c.rho1 + (1 - r.vof i) * c.rho2) ∧ r.vof = (if restart then f.vof else o.toVof f.ls) ∧
      r.vel = f.vel ∧ (∀ w, c.water = some w → c.perturb = true → r.ref = some (o.rho0 w)) ∧
      (∀ w, c.water = some w → c.initP = true → r.p = o.p0 w) ∧ (c.initP = false → r.p = f.p) := by
  have hv : methodOf c.name = .vof := by
    cases hm : methodOf c.name with
    | vof => rfl
    | ls => rw [(start_cases c o restart others f).1 hm] at h; cases h
  have hc : construct c = .ok fresh := by unfold construct fresh; rw [hv]; simp
  unfold start at h
  rw [hc] at h
  simp only [Res.bind] at h
  by_cases hn : (c.perturb = true ∨ c.initP = true) ∧ c.water = none
  · rw [(postInit_cases c o restart f).1 hn] at h
    cases h
  · obtain ⟨m', r, e, h1, h2, h3⟩ := (postInit_cases c o restart f).2 hn
    rw [e] at h
    simp only [Res.ok.injEq, Prod.mk.injEq] at h
    obtain ⟨rfl, rfl⟩ := h
    exact ⟨h1, h2, r, rfl, h3⟩

/-- **C127**: from the start of a run on, after every sequence of steps and changes of the mesh, the density everywhere is that of the
mixture there, whatever an equation for the density or interpolation to the new mesh gives; the density at the middle of a step is
the mean of start and end.

Partial (C127). Missing: the level set as interface, with which no run starts (`levelset_never_starts`). -/
theorem density_follows_partial {c : Cfg K} {o : Ops ι K} {restart : Bool} {others : Flow ι K → Flow ι K} {f g : Flow ι K} {m : Mp K}
    (h : start c o restart others f = .ok (m, g)) (es : List (Ev ι K)) : Mixed c (run c o m g es) := by
  obtain ⟨hm, -, r, rfl, -⟩ := start_spec h
  have key : ∀ (es : List (Ev ι K)) (f : Flow ι K), Mixed c f → Mixed c (run c o m f es) := by
    intro es
    induction es with
    | nil => intro f hf; exact hf
    | cons e t ih =>
      intro f hf
      refine ih _ ?_
      cases e with
      | step v l r u =>
        unfold ev
        simp only [hm]
        obtain ⟨⟨a, b⟩, -⟩ := mixed_postSolve c o hm { f with vof := v, ls := l, rhoOld := f.rho, rho := r.getD f.rho }
        exact ⟨a, b⟩
      | regrid q =>
        unfold ev postRegrid
        obtain ⟨⟨a, b⟩, -⟩ := mixed_postSolve c o hm { q with ref := none }
        dsimp only
        split_ifs
        · exact ⟨a, b⟩
        · exact ⟨a, b⟩
  exact key es _ (mixed_postSolve c o hm _).1

/-- C127: between the densities of the two fluids, if the volume fractions are between zero and one. -/
theorem density_between {c : Cfg K} {o : Ops ι K} {restart : Bool} {others : Flow ι K → Flow ι K} {f g : Flow ι K} {m : Mp K}
    (h : start c o restart others f = .ok (m, g)) (es : List (Ev ι K)) (i : ι) (h0 : 0 ≤ (run c o m g es).vof i) (h1 : (run c o m g es).vof i ≤ 1) :
    min c.rho1 c.rho2 ≤ (run c o m g es).rho i ∧ (run c o m g es).rho i ≤ max c.rho1 c.rho2 := by
  rw [(density_follows_partial h es).1 i]
  generalize (run c o m g es).vof i = a at h0 h1
  have l1 := min_le_left c.rho1 c.rho2
  have l2 := min_le_right c.rho1 c.rho2
  have u1 := le_max_left c.rho1 c.rho2
  have u2 := le_max_right c.rho1 c.rho2
  have e1 : (0 : K) ≤ 1 - a := sub_nonneg.mpr h1
  constructor
  · calc min c.rho1 c.rho2 = a * min c.rho1 c.rho2 + (1 - a) * min c.rho1 c.rho2 := by ring
      _ ≤ _ := add_le_add (mul_le_mul_of_nonneg_left l1 h0) (mul_le_mul_of_nonneg_left l2 e1)
  · calc a * c.rho1 + (1 - a) * c.rho2 ≤ a * max c.rho1 c.rho2 + (1 - a) * max c.rho1 c.rho2 :=
        add_le_add (mul_le_mul_of_nonneg_left u1 h0) (mul_le_mul_of_nonneg_left u2 e1)
      _ = _ := by ring

/-- C127: the reference density is that of still water of the given level at all times, as long as the other physics leave it alone. -/
theorem reference_kept {c : Cfg K} {o : Ops ι K} {restart : Bool} {others : Flow ι K → Flow ι K} {f g : Flow ι K} {m : Mp K}
    (h : start c o restart others f = .ok (m, g)) (ho : ∀ q, (others q).ref = q.ref) (es : List (Ev ι K)) : RefOk c o (run c o m g es) := by
  intro w hw hp
  obtain ⟨hm, hwl, r, rfl, -, -, -, -, -, -, h6, -⟩ := start_spec h
  have h0 : (postSolve c o m (others r)).ref = some (o.rho0 w) := by
    rw [(mixed_postSolve c o hm _).2.2.1, ho]
    exact h6 w hw hp
  have key : ∀ (es : List (Ev ι K)) (f : Flow ι K), f.ref = some (o.rho0 w) → (run c o m f es).ref = some (o.rho0 w) := by
    intro es
    induction es with
    | nil => intro f hf; exact hf
    | cons e t ih =>
      intro f hf
      refine ih _ ?_
      cases e with
      | step v l r u =>
        unfold ev
        simp only [hm]
        exact (mixed_postSolve c o hm { f with vof := v, ls := l, rhoOld := f.rho, rho := r.getD f.rho }).2.2.1.trans hf
      | regrid q =>
        unfold ev postRegrid
        simp only [hp, if_true, hwl w hw]
  exact key es _ h0

/-- C127: a fresh run takes its volume fractions from the level set of the case, a continued one from the file, if the other physics leave
them alone. -/
theorem start_interface {c : Cfg K} {o : Ops ι K} {restart : Bool} {others : Flow ι K → Flow ι K} {f g : Flow ι K} {m : Mp K}
    (h : start c o restart others f = .ok (m, g)) (ho : ∀ q, (others q).vof = q.vof) : g.vof = if restart then f.vof else o.toVof f.ls := by
  obtain ⟨hm, -, r, rfl, -, -, -, -, h4, -⟩ := start_spec h
  rw [(mixed_postSolve c o hm _).2.1, ho, h4]

/-- C127: what is printed after a step is the liquid, its change since the start of this run, the rest of the domain, and the change of
momentum; nothing is printed unless asked for. -/
theorem report_spec {c : Cfg K} {o : Ops ι K} {restart : Bool} {f g : Flow ι K} {m : Mp K}
    (h : start c o restart id f = .ok (m, g)) (es : List (Ev ι K)) :
    (0 < c.verbose → report c o m (run c o m g es) = some (o.volume (run c o m g es).vof,
      o.volume (run c o m g es).vof - o.volume g.vof, o.domVol - o.volume (run c o m g es).vof,
      fun n => o.momentum (run c o m g es).vel (run c o m g es).rho n - o.momentum f.vel (if restart then f.rho else g.rho) n)) ∧
    (c.verbose ≤ 0 → report c o m (run c o m g es) = none) := by
  obtain ⟨hm, -, r, hg, h3, h4, h5, h6, -, h8, -⟩ := start_spec h
  have hs : m.sum0 = o.volume g.vof := by
    rw [hg, (mixed_postSolve c o hm _).2.1]
    exact h3
  have hq : m.q = o.momentum f.vel (if restart then f.rho else g.rho) := by
    rw [h4, h8]
    congr 1
    cases restart
    · funext i
      rw [h6 rfl i]
      have k := mixed_postSolve c o hm (id r)
      rw [← hg] at k
      rw [if_neg (by decide), k.1.1 i, k.2.1]
      rfl
    · exact h5 rfl
  refine ⟨fun hv => ?_, fun hv => ?_⟩
  · unfold report
    rw [if_pos ⟨hm, hv⟩, hs, hq]
  · unfold report
    rw [if_neg (fun e => absurd e.2 (not_lt.mpr hv))]

/-- A disagreement: the change that is printed begins anew with every restart: a run that lost liquid before it is continued reports no change
right after. -/
theorem change_forgotten {c : Cfg K} {o : Ops ι K} {f g : Flow ι K} {m : Mp K} (h : start c o true id f = .ok (m, g)) (hv : 0 < c.verbose) :
    ∃ d, report c o m g = some (o.volume f.vof, 0, o.domVol - o.volume f.vof, d) := by
  have hd := (report_spec h []).1 hv
  have e : g.vof = f.vof := by rw [start_interface h (fun _ => rfl)]; rfl
  have : run c o m g [] = g := rfl
  rw [this, e, sub_self] at hd
  exact ⟨_, hd⟩

/-- A disagreement: with `initialize_pressure` a continued run begins with the pressure of still water, not with the one of its file. -/
theorem restart_resets_pressure {c : Cfg K} {o : Ops ι K} {f g : Flow ι K} {m : Mp K} {w : K} (h : start c o true id f = .ok (m, g))
    (hp : c.initP = true) (hw : c.water = some w) : g.p = o.p0 w := by
  obtain ⟨hm, -, r, hg, -, -, -, -, -, -, -, h7, -⟩ := start_spec h
  rw [hg, (mixed_postSolve c o hm _).2.2.2.1]
  exact h7 w hw hp

/-- C127: without the pressure being set, a continued run keeps velocity and pressure of its file. -/
theorem restart_keeps {c : Cfg K} {o : Ops ι K} {f g : Flow ι K} {m : Mp K} (h : start c o true id f = .ok (m, g)) :
    g.vel = f.vel ∧ (c.initP = false → g.p = f.p) := by
  obtain ⟨hm, -, r, hg, -, -, -, -, -, h5, -, -, h8⟩ := start_spec h
  have k := mixed_postSolve c o hm r
  rw [hg]
  exact ⟨k.2.2.2.2.trans h5, fun hp => k.2.2.2.1.trans (h8 hp)⟩

/-! ## Transport of density and level set -/

/-- C127: the update of density and level set is that of the general equation without source, diffusion and blanking. -/
theorem own_update (dt : K) (c : Step.Cel K) (hd : c.detJ = 1) (hs : c.src = 0) (hm : c.mask = 1) (hf : c.diffO = 0) (hg : c.diff = 0)
    (k : Step.Diff) : ownPredictor dt c.fO c.convO = Step.predictorRhs false k dt c ∧
    ownCorrector dt c.fO c.convO c.conv = Step.correctorRhs false k dt c := by
  unfold ownPredictor ownCorrector Step.predictorRhs Step.correctorRhs
  simp only [hd, hs, hm, hf, hg]
  constructor <;> split_ifs <;> simp_all <;> ring

/-- A disagreement: in the cells that overset blanks (mask zero) every other equation keeps its value, density and level set go on. -/
theorem holes_not_kept (dt : K) (k : Step.Diff) (c : Step.Cel K) (hd : c.detJ = 1) (hm : c.mask = 0) :
    Step.predictorRhs false k dt c = c.fO ∧ (dt * c.convO ≠ 0 → ownPredictor dt c.fO c.convO ≠ c.fO) := by
  unfold ownPredictor Step.predictorRhs
  refine ⟨by simp [hd, hm], fun h e => h (by simpa using e)⟩

/-! ## A run -/

/-- Two cells, the level set is cut at zero and one. -/
def exOps : Ops (Fin 2) ℚ :=
  { toVof := fun l i => max 0 (min 1 (l i))
    lsDensity := fun l i => l i
    volume := fun v => v 0 + v 1
    momentum := fun u r n => u 0 n * r 0 + u 1 n * r 1
    rho0 := fun w i => if (i : ℚ) < w then 1000 else 1
    p0 := fun w i => max 0 (w - i) * 9810
    domVol := 2 }

def exCfg (name : List Char) : Cfg ℚ := ⟨name, 1000, 1, true, false, true, some 1, 1⟩

def exFlow : Flow (Fin 2) ℚ := ⟨fun _ => 0, ![3, -2], fun _ => 7, fun _ => 7, fun _ => 7, fun _ _ => 0, fun _ => 5, none⟩

example : ∃ m g, start (exCfg ['V', 'O', 'F']) exOps false id exFlow = .ok (m, g) ∧ g.rho 0 = 1000 ∧ g.rho 1 = 1 := by
  obtain ⟨⟨m, g⟩, e⟩ := (starts_iff (exCfg ['V', 'O', 'F']) exOps false id exFlow (by decide)).mpr fun _ => ⟨1, rfl⟩
  have hv := start_interface e fun _ => rfl
  have hr := (density_follows_partial e []).1
  refine ⟨m, g, e, ?_, ?_⟩
  · refine (hr 0).trans ?_
    rw [show run (exCfg ['V', 'O', 'F']) exOps m g [] = g from rfl, hv]
    norm_num [exOps, exFlow, exCfg]
  · refine (hr 1).trans ?_
    rw [show run (exCfg ['V', 'O', 'F']) exOps m g [] = g from rfl, hv]
    norm_num [exOps, exFlow, exCfg]

example : start (exCfg ['L', 'e', 'v', 'e', 'l', 'S', 'e', 't']) exOps true id exFlow = .null := levelset_never_starts _ _ _ _ _ (by decide)

end AmrWind.Mph
