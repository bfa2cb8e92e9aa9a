import Verif.Pde.IterModel
import Mathlib.Tactic.FieldSimp
import Mathlib.Tactic.Linarith
import Mathlib.Tactic.NormNum
import Mathlib.Tactic.Ring
import Mathlib.Algebra.Order.BigOperators.Group.List

/-!
# Properties of the iterations of a time step (C122)
-/

set_option linter.unusedSectionVars false

namespace AmrWind.Iter

open Step (Diff predictorRhs rk2 dtDiff)

variable {ι K A : Type*} [Field K] [LinearOrder K] [IsStrictOrderedRing K]

/-! ## Specification -/

/-- Two memories that agree in the fields at the start of the step. -/
def SameStart (m r : Mem ι K A) : Prop :=
  r.vel.fld.old = m.vel.fld.old ∧ r.rho.old = m.rho.old ∧ r.scal.map (fun e => e.fld.old) = m.scal.map (fun e => e.fld.old)

/-- What a step starts from: the fields at the end of the previous one. -/
def StartsFrom (m r : Mem ι K A) : Prop :=
  r.vel.fld.old = m.vel.fld.new ∧ r.rho.old = m.rho.new ∧ r.scal.map (fun e => e.fld.old) = m.scal.map (fun e => e.fld.new)

/-- The velocity that an iteration advects with: in the first that of the start, later the mean of the start and the result so far. -/
def advecting (it : ℕ) (m : Mem ι K A) : Ve ι K := fun e => if it = 0 then m.vel.fld.nph e else (m.vel.fld.old e + m.vel.fld.new e) / 2

/-! ## Helpers -/

theorem sameStart_refl (m : Mem ι K A) : SameStart m m := ⟨rfl, rfl, rfl⟩

theorem SameStart.trans {a b c : Mem ι K A} (h : SameStart a b) (g : SameStart b c) : SameStart a c :=
  ⟨g.1.trans h.1, g.2.1.trans h.2.1, g.2.2.trans h.2.2⟩

theorem map_modify {α β : Type*} (g : α → β) (f : α → α) (h : ∀ e, g (f e) = g e) (l : List α) (i : ℕ) : (l.modify i f).map g = l.map g := by
  induction l generalizing i with
  | nil => simp
  | cons a t ih =>
    cases i with
    | zero => simp [h]
    | succ n => simp [ih]

theorem each_inv (P : Mem ι K A → Prop) (f : ℕ → Mem ι K A → Mem ι K A) (h : ∀ i m, P m → P (f i m)) (m : Mem ι K A) (hm : P m) :
    P (each f m) := by
  unfold each
  generalize List.range m.scal.length = l
  induction l generalizing m with
  | nil => exact hm
  | cons a t ih => exact ih _ (h a m hm)

/-- What the part of a step before the momentum equation may change of the velocity and what not. -/
def Keeps (m r : Mem ι K A) : Prop := SameStart m r ∧ r.vel.fld.nph = m.vel.fld.nph ∧ r.scal.length = m.scal.length

theorem keeps_refl (m : Mem ι K A) : Keeps m m := ⟨sameStart_refl m, rfl, rfl⟩

theorem Keeps.trans {a b c : Mem ι K A} (h : Keeps a b) (g : Keeps b c) : Keeps a c :=
  ⟨h.1.trans g.1, g.2.1.trans h.2.1, g.2.2.trans h.2.2⟩

theorem keeps_atScal (i : ℕ) (f : Eqn (Sc ι K) → Eqn (Sc ι K)) (h : ∀ e, (f e).fld.old = e.fld.old) (m : Mem ι K A) : Keeps m (atScal i f m) :=
  ⟨⟨rfl, rfl, map_modify _ f h _ _⟩, rfl, by simp [atScal]⟩

theorem keeps_each (f : ℕ → Mem ι K A → Mem ι K A) (h : ∀ i m, Keeps m (f i m)) (m : Mem ι K A) : Keeps m (each f m) :=
  each_inv (Keeps m) f (fun i s hs => hs.trans (h i s)) m (keeps_refl m)

theorem keeps_setNew (i : ℕ) (v : Sc ι K) (m : Mem ι K A) : Keeps m (setNew i v m) := keeps_atScal _ _ (fun _ => by rfl) _

theorem keeps_setSrc (i : ℕ) (v : Sc ι K) (m : Mem ι K A) : Keeps m (setSrc i v m) := keeps_atScal _ _ (fun _ => by rfl) _

theorem keeps_setDiff (i : ℕ) (v : Sc ι K) (m : Mem ι K A) : Keeps m (setDiff i v m) := keeps_atScal _ _ (fun _ => by rfl) _

theorem keeps_setConv (i : ℕ) (v : Sc ι K) (m : Mem ι K A) : Keeps m (setConv i v m) := keeps_atScal _ _ (fun _ => by rfl) _

theorem keeps_buffer (i : ℕ) (m : Mem ι K A) : Keeps m (buffer i m) := keeps_atScal _ _ (fun _ => by rfl) _

theorem keeps_addDiff (i : ℕ) (m : Mem ι K A) : Keeps m (addDiff i m) := keeps_atScal _ _ (fun _ => by rfl) _

theorem keeps_halfScal (i : ℕ) (m : Mem ι K A) : Keeps m (halfScal i m) := keeps_atScal _ _ (fun _ => by rfl) _

theorem keeps_source (o : Ops ι K A) (st : St) (i : ℕ) (m : Mem ι K A) : Keeps m (sourceScal o st i m) := keeps_setSrc i _ m

theorem keeps_divtau (c : Cfg) (o : Ops ι K A) (i : ℕ) (m : Mem ι K A) : Keeps m (divtauScal c o i m) := by
  unfold divtauScal
  dsimp only
  refine ((keeps_buffer i m).trans (keeps_setDiff i (o.diff i (buffer i m)) _)).trans ?_
  by_cases hg : c.godunov = true
  · rw [if_pos hg]
    exact keeps_addDiff i _
  · rw [if_neg hg]
    exact keeps_refl _

theorem keeps_divtauVel (c : Cfg) (o : Ops ι K A) (m : Mem ι K A) : Keeps m (divtauVel c o m) := by
  unfold divtauVel
  by_cases hg : c.godunov = true
  · simp only [if_pos hg]
    exact ⟨⟨rfl, rfl, rfl⟩, rfl, rfl⟩
  · simp only [if_neg hg]
    exact ⟨⟨rfl, rfl, rfl⟩, rfl, rfl⟩

theorem keeps_post (o : Ops ι K A) (i : ℕ) (m : Mem ι K A) : Keeps m (postSolve o i m) := by
  have h := keeps_setNew i (o.post i m).1 m
  exact ⟨⟨rfl, rfl, h.1.2.2⟩, rfl, h.2.2⟩

theorem keeps_scalar (c : Cfg) (o : Ops ι K A) (dt : K) (i : ℕ) (m : Mem ι K A) : Keeps m (scalar c o dt i m) := by
  unfold scalar
  dsimp only
  refine ((keeps_setConv i (o.adv i m) m).trans (keeps_source o .nph i _)).trans ?_
  generalize sourceScal o .nph i (setConv i (o.adv i m) m) = s
  refine (keeps_setNew i (o.rhs i s) s).trans ?_
  generalize setNew i (o.rhs i s) s = s
  have h : Keeps s (if c.kind ≠ .explicit then setNew i (o.solve i (dtDiff c.kind dt) s) s
      else if c.godunov = true then setNew i (o.improve i s) s else s) := by
    by_cases hk : c.kind ≠ .explicit
    · rw [if_pos hk]
      exact keeps_setNew i _ s
    · rw [if_neg hk]
      by_cases hg : c.godunov = true
      · rw [if_pos hg]
        exact keeps_setNew i _ s
      · rw [if_neg hg]
        exact keeps_refl s
  exact h.trans ((keeps_post o i _).trans (keeps_halfScal i _))

theorem keeps_scalarP (c : Cfg) (o : Ops ι K A) (dt : K) (i : ℕ) (m : Mem ι K A) : Keeps m (scalarP c o dt i m) := by
  unfold scalarP
  dsimp only
  refine (keeps_source o .nph i _).trans ?_
  generalize sourceScal o .nph i m = s
  refine (keeps_setNew i (o.rhs i s) s).trans ?_
  generalize setNew i (o.rhs i s) s = s
  have h : Keeps s (if c.kind ≠ .explicit then setNew i (o.solve i (dtDiff c.kind dt) s) s else s) := by
    by_cases hk : c.kind ≠ .explicit
    · rw [if_pos hk]
      exact keeps_setNew i _ s
    · rw [if_neg hk]
      exact keeps_refl s
  exact h.trans ((keeps_post o i _).trans (keeps_halfScal i _))

theorem keeps_hold (c : Cfg) (m : Mem ι K A) : Keeps m (holdDensity c m) := by
  unfold holdDensity
  by_cases h : c.densPde = true
  · rw [if_pos h]
    exact keeps_refl m
  · rw [if_neg h]
    exact ⟨⟨rfl, rfl, rfl⟩, rfl, rfl⟩

theorem keeps_forces (c : Cfg) (o : Ops ι K A) (m : Mem ι K A) : Keeps m (forces c o m) := by
  unfold forces
  dsimp only
  have h1 : Keeps m (if c.godunov = true then each (sourceScal o .old) (sourceVel o .old m) else m) := by
    by_cases hg : c.godunov = true
    · rw [if_pos hg]
      exact Keeps.trans (b := sourceVel o .old m) ⟨⟨rfl, rfl, rfl⟩, rfl, rfl⟩ (keeps_each _ (fun i s => keeps_source o .old i s) _)
    · rw [if_neg hg]
      exact keeps_refl m
  refine h1.trans ?_
  generalize (if c.godunov = true then each (sourceScal o .old) (sourceVel o .old m) else m) = s
  have h2 : Keeps s (if needDivtau c = true then each (divtauScal c o) (divtauVel c o s) else s) := by
    by_cases hg : needDivtau c = true
    · rw [if_pos hg]
      exact (keeps_divtauVel c o s).trans (keeps_each _ (fun i s => keeps_divtau c o i s) _)
    · rw [if_neg hg]
      exact keeps_refl s
  refine h2.trans ?_
  by_cases hg : c.godunov = true
  · rw [if_pos hg]
    exact ⟨⟨rfl, rfl, rfl⟩, rfl, rfl⟩
  · rw [if_neg hg]
    exact keeps_refl _

theorem midpoint_vel (it : ℕ) (m : Mem ι K A) :
    SameStart m (midpoint it m) ∧ (midpoint it m).vel.fld.nph = advecting it m ∧ (midpoint it m).scal.length = m.scal.length := by
  unfold midpoint advecting
  by_cases h : it > 0
  · rw [if_pos h]
    refine ⟨⟨rfl, rfl, rfl⟩, ?_, rfl⟩
    funext e
    rw [if_neg (by omega)]
    simp only [half, Pi.add_apply, Pi.smul_apply, smul_eq_mul]
    ring
  · rw [if_neg h]
    refine ⟨⟨rfl, rfl, rfl⟩, ?_, rfl⟩
    funext e
    rw [if_pos (by omega)]

theorem keeps_before (c : Cfg) (o : Ops ι K A) (dt : K) (it : ℕ) (m : Mem ι K A) : Keeps (midpoint it m) (before c o dt it m) := by
  unfold before
  refine Keeps.trans (b := viscosity o (midpoint it m)) ⟨⟨rfl, rfl, rfl⟩, rfl, rfl⟩ ?_
  refine (keeps_forces c o _).trans ?_
  refine Keeps.trans (b := macVel o (advState it) _) ⟨⟨rfl, rfl, rfl⟩, rfl, rfl⟩ ?_
  exact (keeps_hold c _).trans (keeps_each _ (fun i s => keeps_scalar c o dt i s) _)

theorem keeps_momentum (c : Cfg) (o : Ops ι K A) (dt : K) (it : ℕ) (m : Mem ι K A) : Keeps m (momentum c o dt it m) :=
  ⟨⟨rfl, rfl, rfl⟩, rfl, rfl⟩

theorem keeps_solveVel (c : Cfg) (o : Ops ι K A) (dt : K) (m : Mem ι K A) : Keeps m (solveVel c o dt m) := by
  unfold solveVel
  by_cases hk : c.kind ≠ .explicit
  · rw [if_pos hk]
    exact ⟨⟨rfl, rfl, rfl⟩, rfl, rfl⟩
  · rw [if_neg hk]
    by_cases hg : c.godunov = true
    · rw [if_pos hg]
      exact ⟨⟨rfl, rfl, rfl⟩, rfl, rfl⟩
    · rw [if_neg hg]
      exact keeps_refl m

theorem keeps_predict (c : Cfg) (o : Ops ι K A) (dt : K) (inc : Bool) (it : ℕ) (m : Mem ι K A) :
    SameStart m (predict c o dt inc it m) ∧ (predict c o dt inc it m).vel.fld.nph = advecting it m ∧
      (predict c o dt inc it m).scal.length = m.scal.length := by
  have h := ((keeps_before c o dt it m).trans (keeps_momentum c o dt it _)).trans (keeps_solveVel c o dt _)
  have g := midpoint_vel it m
  exact ⟨g.1.trans (h.1.trans ⟨rfl, rfl, rfl⟩), h.2.1.trans g.2.1, h.2.2.trans g.2.2⟩

/-- The velocity equation of the memory is touched by the loops over the scalars in no way. -/
theorem vel_atScal (i : ℕ) (f : Eqn (Sc ι K) → Eqn (Sc ι K)) (m : Mem ι K A) : (atScal i f m).vel = m.vel := rfl

theorem vel_each (f : ℕ → Mem ι K A → Mem ι K A) (h : ∀ i m, (f i m).vel = m.vel) (m : Mem ι K A) : (each f m).vel = m.vel :=
  each_inv (fun s => s.vel = m.vel) f (fun i s hs => (h i s).trans hs) m rfl

theorem vel_source (o : Ops ι K A) (st : St) (i : ℕ) (m : Mem ι K A) : (sourceScal o st i m).vel = m.vel := rfl

theorem vel_conv (o : Ops ι K A) (i : ℕ) (m : Mem ι K A) : (setConv i (o.adv i m) m).vel = m.vel := rfl

theorem vel_divtau (c : Cfg) (o : Ops ι K A) (i : ℕ) (m : Mem ι K A) : (divtauScal c o i m).vel = m.vel := by
  unfold divtauScal
  by_cases hg : c.godunov = true
  · simp only [if_pos hg]; rfl
  · simp only [if_neg hg]; rfl

theorem vel_scalarP (c : Cfg) (o : Ops ι K A) (dt : K) (i : ℕ) (m : Mem ι K A) : (scalarP c o dt i m).vel = m.vel := by
  unfold scalarP
  by_cases hk : c.kind ≠ .explicit
  · simp only [if_pos hk]; rfl
  · simp only [if_neg hk]; rfl

theorem vel_scalar (c : Cfg) (o : Ops ι K A) (dt : K) (i : ℕ) (m : Mem ι K A) : (scalar c o dt i m).vel = m.vel := by
  unfold scalar
  by_cases hk : c.kind ≠ .explicit
  · simp only [if_pos hk]; rfl
  · by_cases hg : c.godunov = true
    · simp only [if_neg hk, if_pos hg]; rfl
    · simp only [if_neg hk, if_neg hg]; rfl

theorem vel_hold (c : Cfg) (m : Mem ι K A) : (holdDensity c m).vel = m.vel := by
  unfold holdDensity
  by_cases h : c.densPde = true
  · rw [if_pos h]
  · rw [if_neg h]

/-- With the Godunov scheme the new state holds the old velocity until the momentum equation is solved. -/
theorem new_before (c : Cfg) (o : Ops ι K A) (dt : K) (it : ℕ) (m : Mem ι K A) (hg : needDivtau c = true) :
    (before c o dt it m).vel.fld.new = m.vel.fld.old := by
  unfold before
  rw [vel_each _ (vel_scalar c o dt), vel_hold]
  have hf : ∀ s : Mem ι K A, (forces c o s).vel.fld.new = s.vel.fld.old := by
    intro s
    unfold forces
    simp only [if_pos hg]
    have h1 : (if c.godunov = true then each (sourceScal o .old) (sourceVel o .old s) else s).vel.fld.old = s.vel.fld.old := by
      by_cases h : c.godunov = true
      · rw [if_pos h, vel_each _ (vel_source o .old)]
        rfl
      · rw [if_neg h]
    generalize (if c.godunov = true then each (sourceScal o .old) (sourceVel o .old s) else s) = t at h1 ⊢
    have h2 : (each (divtauScal c o) (divtauVel c o t)).vel.fld.new = t.vel.fld.old := by
      rw [vel_each _ (vel_divtau c o)]
      unfold divtauVel
      by_cases h : c.godunov = true
      · simp only [if_pos h]
      · simp only [if_neg h]
    by_cases h : c.godunov = true
    · rw [if_pos h]
      exact h2.trans h1
    · rw [if_neg h]
      exact h2.trans h1
  exact (hf _).trans (midpoint_vel it m).1.1

/-! ## The property -/

/-- **C122**: no iteration of a step, ordinary or with prescribed velocity, changes what the step started from. -/
theorem start_kept (c : Cfg) (o : Ops ι K A) (dt : K) (inc : Bool) (it : ℕ) (m : Mem ι K A) :
    SameStart m (predict c o dt inc it m) ∧ SameStart m (prescribe c o dt m) := by
  refine ⟨(keeps_predict c o dt inc it m).1, ?_⟩
  unfold prescribe
  dsimp only
  have h1 : Keeps m (if c.godunov = true then each (sourceScal o .old) (viscosity o m) else viscosity o m) := by
    by_cases hg : c.godunov = true
    · rw [if_pos hg]
      exact Keeps.trans (b := viscosity o m) ⟨⟨rfl, rfl, rfl⟩, rfl, rfl⟩ (keeps_each _ (fun i s => keeps_source o .old i s) _)
    · rw [if_neg hg]
      exact ⟨⟨rfl, rfl, rfl⟩, rfl, rfl⟩
  generalize (if c.godunov = true then each (sourceScal o .old) (viscosity o m) else viscosity o m) = s at h1 ⊢
  have h2 : Keeps s (if needDivtau c = true then each (divtauScal c o) s else s) := by
    by_cases hg : needDivtau c = true
    · rw [if_pos hg]
      exact keeps_each _ (fun i s => keeps_divtau c o i s) _
    · rw [if_neg hg]
      exact keeps_refl s
  have h3 := (h1.trans h2).trans (keeps_each (fun i m => setConv i (o.adv i m) m)
    (fun i s => keeps_setConv i _ s) _)
  have h4 := (h3.trans (keeps_hold c _)).trans (keeps_each _ (fun i s => keeps_scalarP c o dt i s) _)
  exact h4.1.trans ⟨rfl, rfl, rfl⟩

theorem prepare_starts (c : Cfg) (o : Ops ι K A) (m : Mem ι K A) (hd : c.densPde = false) : StartsFrom m (prepare c o m) := by
  unfold prepare StartsFrom
  simp [hd]

/-- The iterations after the first. -/
theorem later_iterations (c : Cfg) (o : Ops ι K A) (correct : Mem ι K A → Mem ι K A) (p : Bool) (dt : K) (hg : c.godunov = true) (l : List ℕ)
    (hl : ∀ it ∈ l, it ≠ 0) (m r : Mem ι K A) (h : l.foldlM (fun s it => doAdvance c o correct p dt it s) m = some r) :
    r = l.foldl (fun s it => predict c o dt false it s) m := by
  induction l generalizing m with
  | nil => exact (Option.some.inj h).symm
  | cons a t ih =>
    have ha : a ≠ 0 := hl a (by simp)
    have e : doAdvance c o correct p dt a m = some (predict c o dt false a m) := by
      unfold doAdvance advance
      simp [ha, hg]
    rw [List.foldlM_cons, e] at h
    exact ih (fun it hi => hl it (by simp [hi])) _ h

/-- The result of the first iteration. -/
def firstIteration (c : Cfg) (o : Ops ι K A) (p : Bool) (dt : K) (m : Mem ι K A) : Mem ι K A :=
  if p then prescribe c o dt (prepare c o m) else predict c o dt false 0 (prepare c o m)

theorem step_split (c : Cfg) (o : Ops ι K A) (correct : Mem ι K A → Mem ι K A) (p : Bool) (dt : K) (hg : c.godunov = true) (n : ℕ)
    (m r : Mem ι K A) (h : step c o correct p dt (n + 1) m = some r) :
    r = ((List.range n).map (· + 1)).foldl (fun s it => predict c o dt false it s) (firstIteration c o p dt m) := by
  unfold step at h
  rw [List.range_succ_eq_map] at h
  have e : doAdvance c o correct p dt 0 m = some (firstIteration c o p dt m) := by
    unfold doAdvance advance firstIteration
    cases p <;> simp [hg]
  rw [List.foldlM_cons, e] at h
  exact later_iterations c o correct p dt hg _ (by simp) _ _ h

/-- **C122**: however many iterations a step makes, it starts from the fields at the end of the previous step (density with its own equation is
one of the scalars). -/
theorem step_start (c : Cfg) (o : Ops ι K A) (correct : Mem ι K A → Mem ι K A) (p : Bool) (dt : K) (hg : c.godunov = true)
    (hd : c.densPde = false) (n : ℕ) (m r : Mem ι K A) (h : step c o correct p dt (n + 1) m = some r) : StartsFrom m r := by
  rw [step_split c o correct p dt hg n m r h]
  have hs : ∀ (l : List ℕ) (s : Mem ι K A), SameStart s (l.foldl (fun s it => predict c o dt false it s) s) := by
    intro l
    induction l with
    | nil => exact sameStart_refl
    | cons a t ih => exact fun s => (start_kept c o dt false a s).1.trans (ih _)
  have h0 := prepare_starts c o m hd
  have h1 : SameStart (prepare c o m) (firstIteration c o p dt m) := by
    unfold firstIteration
    cases p
    · exact (start_kept c o dt false 0 _).1
    · exact (start_kept c o dt false 0 _).2
  have h2 := h1.trans (hs ((List.range n).map (· + 1)) _)
  exact ⟨h2.1.trans h0.1, h2.2.1.trans h0.2.1, h2.2.2.trans h0.2.2⟩

/-- **C122**: the momentum equation of an iteration: from the velocity at the start, with the advection operator applied in the first iteration to
that velocity and later to the mean of it and the result so far; sources at half time; then the diffusion solve and the projection. -/
theorem momentum_step (c : Cfg) (o : Ops ι K A) (dt : K) (inc : Bool) (it : ℕ) (m : Mem ι K A) (hg : needDivtau c = true) :
    ∃ s t : Mem ι K A, SameStart m s ∧ s.vel.fld.nph = advecting it m ∧ s.vel.fld.new = m.vel.fld.old ∧
      t.vel.conv = o.advV (if it = 0 then .old else .nph) s ∧ t.vel.src = o.srcV .nph { s with vel := { s.vel with conv := t.vel.conv } } ∧
      (∀ e, t.vel.fld.new e = ((density c s).old e.1 * m.vel.fld.old e +
        o.mask e.1 * dt * (t.vel.conv e + t.vel.src e + Step.factor c.kind * t.vel.diff e)) / (density c s).new e.1) ∧
      (predict c o dt inc it m).vel.fld.new = (o.project inc (solveVel c o dt t)).1 := by
  have hk := keeps_before c o dt it m
  have g := midpoint_vel it m
  refine ⟨before c o dt it m, momentum c o dt it (before c o dt it m), g.1.trans hk.1, hk.2.1.trans g.2.1, new_before c o dt it m hg, rfl, rfl, ?_, rfl⟩
  intro e
  have ho : (before c o dt it m).vel.fld.old = m.vel.fld.old := hk.1.1.trans g.1.1
  rw [← ho]
  have hd : ∀ s : Mem ι K A, ∀ v, density c { s with vel := v } = density c s := fun s v => rfl
  unfold momentum rhsVel
  simp only [predictorRhs, if_true]
  by_cases hk : c.kind = .explicit
  · rw [if_pos hk]
    simp only [mul_one, one_mul, div_one]
    rfl
  · rw [if_neg hk]
    simp only [mul_one, one_mul]
    rfl

/-- **C122**: with explicit diffusion the velocity that is handed to the projection has the mean of the viscous terms before and after the
iteration's own advance. -/
theorem explicit_step (c : Cfg) (o : Ops ι K A) (dt : K) (inc : Bool) (it : ℕ) (m : Mem ι K A) (hk : c.kind = .explicit) (hg : c.godunov = true) :
    ∃ s t r : Mem ι K A, SameStart m s ∧ (predict c o dt inc it m).vel.fld.new = (o.project inc r).1 ∧
      ∀ e, (density c s).new e.1 ≠ 0 → (density c s).new e.1 * t.vel.fld.new e =
          (density c s).old e.1 * m.vel.fld.old e + o.mask e.1 * dt * (t.vel.conv e + t.vel.src e + t.vel.diff e) ∧
        (density c s).new e.1 * r.vel.fld.new e = (density c s).old e.1 * m.vel.fld.old e +
          o.mask e.1 * dt * (t.vel.conv e + t.vel.src e + (t.vel.diff e + o.diffV t e) / 2) := by
  have hkk := keeps_before c o dt it m
  have g := midpoint_vel it m
  refine ⟨before c o dt it m, momentum c o dt it (before c o dt it m), solveVel c o dt (momentum c o dt it (before c o dt it m)),
    g.1.trans hkk.1, rfl, ?_⟩
  intro e he
  have ho : (before c o dt it m).vel.fld.old = m.vel.fld.old := hkk.1.1.trans g.1.1
  have h1 : (momentum c o dt it (before c o dt it m)).vel.fld.new e = ((density c (before c o dt it m)).old e.1 * m.vel.fld.old e +
      o.mask e.1 * dt * ((momentum c o dt it (before c o dt it m)).vel.conv e + (momentum c o dt it (before c o dt it m)).vel.src e +
        (momentum c o dt it (before c o dt it m)).vel.diff e)) / (density c (before c o dt it m)).new e.1 := by
    rw [← ho]
    unfold momentum rhsVel
    simp only [predictorRhs, if_true, hk, Step.factor, mul_one, one_mul, div_one]
    rfl
  have hd : (density c (momentum c o dt it (before c o dt it m))).new e.1 = (density c (before c o dt it m)).new e.1 := rfl
  constructor
  · rw [h1]
    field_simp
  · have h2 : (solveVel c o dt (momentum c o dt it (before c o dt it m))).vel.fld.new e =
        (momentum c o dt it (before c o dt it m)).vel.fld.new e + 1 / 2 * dt * o.mask e.1 / (density c (before c o dt it m)).new e.1 *
          (o.diffV (momentum c o dt it (before c o dt it m)) e - (momentum c o dt it (before c o dt it m)).vel.diff e) := by
      rw [← hd]
      generalize momentum c o dt it (before c o dt it m) = t
      unfold solveVel
      simp only [hk, ne_eq, not_true_eq_false, if_false, hg, if_true, rk2]
    rw [h2, h1]
    field_simp
    ring

/-- **C122**: the face velocities of an iteration are found from the same mean. -/
theorem faces_from_mean (c : Cfg) (o : Ops ι K A) (dt : K) (it : ℕ) (m : Mem ι K A) :
    ∃ s : Mem ι K A, SameStart m s ∧ s.vel.fld.nph = advecting it m ∧
      before c o dt it m = each (scalar c o dt) (holdDensity c { s with aux := o.mac (if it = 0 then .old else .nph) s }) := by
  have g := midpoint_vel it m
  have h := Keeps.trans (a := midpoint it m) (b := viscosity o (midpoint it m)) ⟨⟨rfl, rfl, rfl⟩, rfl, rfl⟩ (keeps_forces c o _)
  exact ⟨forces c o (viscosity o (midpoint it m)), g.1.trans h.1, h.2.1.trans g.2.1, rfl⟩

/-- **C122**: when an iteration no longer changes the velocity, the advection operator has been applied to the mean of the velocities at the start and
the end of the step: the implicit midpoint rule. -/
theorem converged_midpoint (c : Cfg) (o : Ops ι K A) (dt : K) (it : ℕ) (hi : it ≠ 0) (m : Mem ι K A) (hg : needDivtau c = true)
    (h : (predict c o dt false it m).vel.fld.new = m.vel.fld.new) :
    ∃ s : Mem ι K A, SameStart m s ∧ (∀ e, s.vel.fld.nph e = (m.vel.fld.old e + (predict c o dt false it m).vel.fld.new e) / 2) ∧
      ∃ t : Mem ι K A, t.vel.conv = o.advV .nph s ∧
        (∀ e, t.vel.fld.new e = ((density c s).old e.1 * m.vel.fld.old e +
          o.mask e.1 * dt * (t.vel.conv e + t.vel.src e + Step.factor c.kind * t.vel.diff e)) / (density c s).new e.1) ∧
        (predict c o dt false it m).vel.fld.new = (o.project false (solveVel c o dt t)).1 := by
  obtain ⟨s, t, h1, h2, _, h4, _, h6, h7⟩ := momentum_step c o dt false it m hg
  refine ⟨s, h1, ?_, t, ?_, h6, h7⟩
  · intro e
    rw [h2, h]
    simp [advecting, hi]
  · rw [h4, if_neg hi]

/-- **C122**: an iteration that changes nothing is followed only by such iterations. -/
theorem fixed_forever (c : Cfg) (o : Ops ι K A) (dt : K) (it : ℕ) (hi : it ≠ 0) (m : Mem ι K A) (h : predict c o dt false it m = m) (n : ℕ) :
    ((List.range n).map (· + (it + 1))).foldl (fun s j => predict c o dt false j s) m = m := by
  have e : ∀ j, j ≠ 0 → predict c o dt false j m = predict c o dt false it m := by
    intro j hj
    unfold predict before momentum midpoint advState
    simp [hi, hj, Nat.pos_of_ne_zero hi, Nat.pos_of_ne_zero hj]
  generalize hl : (List.range n).map (· + (it + 1)) = l
  have hl' : ∀ j ∈ l, j ≠ 0 := by
    intro j hj
    rw [← hl] at hj
    obtain ⟨a, _, rfl⟩ := List.mem_map.mp hj
    omega
  clear hl
  induction l with
  | nil => rfl
  | cons a t ih =>
    rw [List.foldl_cons, e a (hl' a (by simp)), h]
    exact ih fun j hj => hl' j (by simp [hj])

/-- **C122**: with the method of lines a second iteration ends the run. -/
theorem mol_one_iteration (c : Cfg) (o : Ops ι K A) (correct : Mem ι K A → Mem ι K A) (p : Bool) (dt : K) (hg : c.godunov = false) (n : ℕ)
    (m : Mem ι K A) : step c o correct p dt (n + 2) m = none := by
  unfold step
  rw [List.range_succ_eq_map, List.foldlM_cons]
  have e0 : ∃ s, doAdvance c o correct p dt 0 m = some s := by
    unfold doAdvance advance
    cases p <;> simp [hg]
  obtain ⟨s, hs⟩ := e0
  rw [hs, List.range_succ_eq_map]
  have e1 : doAdvance c o correct p dt 1 s = none := by
    unfold doAdvance advance
    simp [hg]
  simp [e1]

theorem other_atScal (i j : ℕ) (h : j ≠ i) (f : Eqn (Sc ι K) → Eqn (Sc ι K)) (m : Mem ι K A) : (atScal i f m).scal[j]? = m.scal[j]? := by
  simp [atScal, List.getElem?_modify, Ne.symm h]

theorem other_scalar (c : Cfg) (o : Ops ι K A) (dt : K) (i j : ℕ) (h : j ≠ i) (m : Mem ι K A) : (scalar c o dt i m).scal[j]? = m.scal[j]? := by
  have hp : ∀ s : Mem ι K A, (halfScal i (postSolve o i s)).scal[j]? = s.scal[j]? := by
    intro s
    refine (other_atScal i j h _ _).trans ?_
    show (setNew i (o.post i s).1 s).scal[j]? = _
    exact other_atScal i j h _ _
  unfold scalar
  dsimp only
  rw [hp]
  by_cases hk : c.kind ≠ .explicit
  · rw [if_pos hk]
    exact (other_atScal i j h _ _).trans ((other_atScal i j h _ _).trans ((other_atScal i j h _ _).trans (other_atScal i j h _ _)))
  · rw [if_neg hk]
    by_cases hg : c.godunov = true
    · rw [if_pos hg]
      exact (other_atScal i j h _ _).trans ((other_atScal i j h _ _).trans ((other_atScal i j h _ _).trans (other_atScal i j h _ _)))
    · rw [if_neg hg]
      exact (other_atScal i j h _ _).trans ((other_atScal i j h _ _).trans (other_atScal i j h _ _))

theorem own_scalar (c : Cfg) (o : Ops ι K A) (dt : K) (i : ℕ) (m : Mem ι K A) (e : Eqn (Sc ι K)) (h : (scalar c o dt i m).scal[i]? = some e) :
    ∀ x, e.fld.nph x = (e.fld.old x + e.fld.new x) / 2 := by
  have hp : ∀ s : Mem ι K A, (halfScal i s).scal[i]? = some e → ∀ x, e.fld.nph x = (e.fld.old x + e.fld.new x) / 2 := by
    intro s hs x
    have e1 : (s.scal.modify i fun e => { e with fld := half (K := K) e.fld })[i]? = some e := hs
    rw [List.getElem?_modify] at e1
    cases h0 : s.scal[i]? with
    | none => simp [h0] at e1
    | some a =>
      simp only [h0, if_true, Option.map_some] at e1
      have e2 := Option.some.inj e1
      rw [← e2]
      simp only [half, Pi.add_apply, Pi.smul_apply, smul_eq_mul]
      ring
  exact hp _ h

/-- **C122**: after every iteration the half-time state of every scalar is the mean of its states at the start and the end of the step. -/
theorem scalars_half (c : Cfg) (o : Ops ι K A) (dt : K) (inc : Bool) (it : ℕ) (m : Mem ι K A) :
    ∀ e ∈ (predict c o dt inc it m).scal, ∀ x, e.fld.nph x = (e.fld.old x + e.fld.new x) / 2 := by
  have hsv : ∀ s : Mem ι K A, (solveVel c o dt s).scal = s.scal := by
    intro s
    unfold solveVel
    by_cases hk : c.kind ≠ .explicit
    · rw [if_pos hk]
    · rw [if_neg hk]
      by_cases hg : c.godunov = true
      · rw [if_pos hg]
      · rw [if_neg hg]
  have e0 : (predict c o dt inc it m).scal = (before c o dt it m).scal := by
    show (solveVel c o dt (momentum c o dt it (before c o dt it m))).scal = _
    rw [hsv]
    rfl
  rw [e0]
  unfold before each
  generalize holdDensity c (macVel o (advState it) (forces c o (viscosity o (midpoint it m)))) = s
  have inv : ∀ n, ∀ j < n, ∀ e, ((List.range n).foldl (fun s i => scalar c o dt i s) s).scal[j]? = some e →
      ∀ x, e.fld.nph x = (e.fld.old x + e.fld.new x) / 2 := by
    intro n
    induction n with
    | zero => intro j hj; omega
    | succ n ih =>
      intro j hj e he
      rw [List.range_succ, List.foldl_append, List.foldl_cons, List.foldl_nil] at he
      by_cases hn : j = n
      · rw [hn] at he
        exact own_scalar c o dt n _ e he
      · rw [other_scalar c o dt n j hn] at he
        exact ih j (by omega) e he
  intro e he
  obtain ⟨j, hj⟩ := List.mem_iff_getElem?.mp he
  have hlen : ((List.range s.scal.length).foldl (fun s i => scalar c o dt i s) s).scal.length = s.scal.length :=
    (keeps_each (scalar c o dt) (fun i s => keeps_scalar c o dt i s) s).2.2
  have hlt : j < s.scal.length := by
    rw [← hlen]
    exact (List.getElem?_eq_some_iff.mp hj).1
  exact inv _ j hlt e hj

/-! ## The reported change -/

/-- **C122**: the number reported after an iteration is, for each component, the sum over the levels of the norms of the change in the cells that count;
it is zero exactly if the velocity did not change in any of them.

Partial (C122). Missing: scalars and pressure, which are not looked at (`zero_change_not_converged`). -/
theorem reported_change_partial {A : Type*} (c : Cfg) (o : Ops ι ℝ A) (dt : ℝ) (it : ℕ) (hi : it ≠ 0) (m : Mem ι ℝ A) (fine : ι → ℝ)
    (levels : List (List ι)) (d : Fin 3) (hf : ∀ i, fine i = 0 ∨ fine i = 1) :
    let r := predict c o dt false it m
    reported o fine levels r d =
        (levels.map fun l => Real.sqrt (l.map fun i =>
          (if o.mask i ≠ 0 ∧ fine i = 1 then (r.vel.fld.new (i, d) - m.vel.fld.new (i, d)) ^ 2 else 0)).sum).sum ∧
      (reported o fine levels r d = 0 ↔
        ∀ l ∈ levels, ∀ i ∈ l, o.mask i ≠ 0 → fine i = 1 → r.vel.fld.new (i, d) = m.vel.fld.new (i, d)) := by
  intro r
  obtain ⟨hs, hn, _⟩ := keeps_predict c o dt false it m
  have hp : ∀ e, previous r e = m.vel.fld.new e := by
    intro e
    have h1 : r.vel.fld.old = m.vel.fld.old := hs.1
    have h2 : r.vel.fld.nph = advecting it m := hn
    simp only [previous, h1, h2, Pi.add_apply, Pi.smul_apply, smul_eq_mul, advecting, if_neg hi]
    ring
  have hc : ∀ i, change o fine r (i, d) ^ 2 =
      if o.mask i ≠ 0 ∧ fine i = 1 then (r.vel.fld.new (i, d) - m.vel.fld.new (i, d)) ^ 2 else 0 := by
    intro i
    unfold change
    by_cases hm : o.mask i = 0
    · simp [hm]
    · rcases hf i with h0 | h1
      · simp [hm, h0]
      · simp [hm, h1, hp]
  have e1 : reported o fine levels r d = (levels.map fun l => Real.sqrt (l.map fun i =>
      (if o.mask i ≠ 0 ∧ fine i = 1 then (r.vel.fld.new (i, d) - m.vel.fld.new (i, d)) ^ 2 else 0)).sum).sum := by
    unfold reported
    simp only [hc]
  refine ⟨e1, ?_⟩
  have zero_iff : ∀ (β : Type _) (l : List β) (f : β → ℝ), (∀ b ∈ l, 0 ≤ f b) → ((l.map f).sum = 0 ↔ ∀ b ∈ l, f b = 0) := by
    intro β l f hp
    induction l with
    | nil => simp
    | cons a t ih =>
      have h1 := hp a (by simp)
      have ht : ∀ b ∈ t, 0 ≤ f b := fun b hb => hp b (by simp [hb])
      have h2 : 0 ≤ (t.map f).sum := List.sum_nonneg (by
        intro x hx
        obtain ⟨b, hb, rfl⟩ := List.mem_map.mp hx
        exact ht b hb)
      rw [List.map_cons, List.sum_cons]
      constructor
      · intro h b hb
        rcases List.mem_cons.mp hb with rfl | hb
        · linarith
        · exact (ih ht).mp (by linarith) b hb
      · intro h
        rw [h a (by simp), (ih ht).mpr fun b hb => h b (by simp [hb])]
        ring
  rw [e1, zero_iff _ _ _ (fun l _ => Real.sqrt_nonneg _)]
  refine forall₂_congr fun l hl => ?_
  have hnn : ∀ i ∈ l, (0 : ℝ) ≤ if o.mask i ≠ 0 ∧ fine i = 1 then (r.vel.fld.new (i, d) - m.vel.fld.new (i, d)) ^ 2 else 0 := by
    intro i _
    by_cases h : o.mask i ≠ 0 ∧ fine i = 1
    · rw [if_pos h]; exact sq_nonneg _
    · rw [if_neg h]
  rw [Real.sqrt_eq_zero (List.sum_nonneg (by
    intro x hx
    obtain ⟨i, hi, rfl⟩ := List.mem_map.mp hx
    exact hnn i hi)), zero_iff _ _ _ hnn]
  refine forall₂_congr fun i hi => ?_
  constructor
  · intro h hm h1
    rw [if_pos ⟨hm, h1⟩] at h
    linarith [pow_eq_zero_iff (two_ne_zero) |>.mp h]
  · intro h
    by_cases hm : o.mask i ≠ 0 ∧ fine i = 1
    · rw [if_pos hm, h hm.1 hm.2]; ring
    · rw [if_neg hm]

/-! ## Initial iterations -/

/-- **C122**: the initial iterations change neither the velocity nor a scalar nor (if it has no equation) the density. -/
theorem initial_restores (c : Cfg) (o : Ops ι K A) (dt : K) (n : ℕ) (m : Mem ι K A) :
    let r := initialIterations c o dt n m
    r.vel.fld.new = m.vel.fld.new ∧ r.vel.fld.old = m.vel.fld.new ∧
      r.scal.map (fun e => e.fld.new) = m.scal.map (fun e => e.fld.new) ∧ r.scal.map (fun e => e.fld.old) = m.scal.map (fun e => e.fld.new) ∧
      (c.densPde = false → r.rho.new = m.rho.new ∧ r.rho.old = m.rho.new) := by
  intro r
  let P : Mem ι K A → Prop := fun r => r.vel.fld.new = m.vel.fld.new ∧ r.vel.fld.old = m.vel.fld.new ∧
      r.scal.map (fun e => e.fld.new) = m.scal.map (fun e => e.fld.new) ∧ r.scal.map (fun e => e.fld.old) = m.scal.map (fun e => e.fld.new) ∧
      (c.densPde = false → r.rho.new = m.rho.new ∧ r.rho.old = m.rho.new)
  have h0 : P (beginInit c m) := by
    refine ⟨rfl, rfl, ?_, ?_, ?_⟩
    · simp [beginInit]
    · simp [beginInit]
    · intro hd
      simp [beginInit, hd]
  have hstep : ∀ s, P s → P (restoreInit c (predict c o dt true 0 s)) := by
    intro s ⟨_, h2, _, h4, h5⟩
    obtain ⟨hs, _, _⟩ := keeps_predict c o dt true 0 s
    refine ⟨hs.1.trans h2, hs.1.trans h2, ?_, ?_, ?_⟩
    · have e : (restoreInit c (predict c o dt true 0 s)).scal.map (fun e => e.fld.new) =
          (predict c o dt true 0 s).scal.map (fun e => e.fld.old) := by simp [restoreInit]
      rw [e, hs.2.2, h4]
    · have e : (restoreInit c (predict c o dt true 0 s)).scal.map (fun e => e.fld.old) =
          (predict c o dt true 0 s).scal.map (fun e => e.fld.old) := by simp [restoreInit]
      rw [e, hs.2.2, h4]
    · intro hd
      have e : (restoreInit c (predict c o dt true 0 s)).rho.new = (predict c o dt true 0 s).rho.old ∧
          (restoreInit c (predict c o dt true 0 s)).rho.old = (predict c o dt true 0 s).rho.old := by simp [restoreInit, hd]
      exact ⟨e.1.trans (hs.2.1.trans (h5 hd).2), e.2.trans (hs.2.1.trans (h5 hd).2)⟩
  have : ∀ (l : List ℕ) s, P s → P (l.foldl (fun s _ => restoreInit c (predict c o dt true 0 s)) s) := by
    intro l
    induction l with
    | nil => exact fun s h => h
    | cons a t ih => exact fun s h => ih _ (hstep s h)
  exact this (List.range n) _ h0

/-! ## Prescribed velocity -/

/-- **C122**: a step with prescribed velocity: the new velocity is the old one with the advection term and whatever is stored as source and viscous
term, neither of which the step computes; there is no projection. -/
theorem prescribed_step (c : Cfg) (o : Ops ι K A) (dt : K) (m : Mem ι K A) :
    ∃ s : Mem ι K A, SameStart m s ∧ (prescribe c o dt m).vel.conv = o.advV .old s ∧
      (prescribe c o dt m).vel.src = m.vel.src ∧ (prescribe c o dt m).vel.diff = m.vel.diff ∧
      ∀ e, (prescribe c o dt m).vel.fld.new e = ((density c s).old e.1 * m.vel.fld.old e +
        o.mask e.1 * dt * (o.advV .old s e + m.vel.src e + m.vel.diff e)) / (density c s).new e.1 := by
  have hk := (start_kept c o dt false 0 m).2
  let m1 := viscosity o m
  let m2 := if c.godunov = true then each (sourceScal o .old) m1 else m1
  let m3 := if needDivtau c = true then each (divtauScal c o) m2 else m2
  let m4 := each (fun i m => setConv i (o.adv i m) m) m3
  let m5 := holdDensity c m4
  let s := each (scalarP c o dt) m5
  have h2 : m2.vel = m.vel := by
    show (if c.godunov = true then each (sourceScal o .old) m1 else m1).vel = m.vel
    by_cases hg : c.godunov = true
    · rw [if_pos hg, vel_each _ (vel_source o .old)]; rfl
    · rw [if_neg hg]; rfl
  have h3 : m3.vel = m.vel := by
    show (if needDivtau c = true then each (divtauScal c o) m2 else m2).vel = m.vel
    by_cases hg : needDivtau c = true
    · rw [if_pos hg, vel_each _ (vel_divtau c o), h2]
    · rw [if_neg hg, h2]
  have h4 : m4.vel = m.vel := by
    show (each _ m3).vel = m.vel
    rw [vel_each _ (vel_conv o), h3]
  have h5 : m5.vel = m.vel := by
    show (holdDensity c m4).vel = m.vel
    rw [vel_hold, h4]
  have hv : s.vel = m.vel := by
    show (each _ m5).vel = m.vel
    rw [vel_each _ (vel_scalarP c o dt), h5]
  have hp : prescribe c o dt m = rhsVel c o .explicit dt (advectVel o .old s) := rfl
  refine ⟨s, hk, rfl, ?_, ?_, ?_⟩
  · rw [hp]
    show s.vel.src = m.vel.src
    rw [hv]
  · rw [hp]
    show s.vel.diff = m.vel.diff
    rw [hv]
  · intro e
    rw [hp]
    simp only [rhsVel, predictorRhs, if_true, advectVel, Step.factor, mul_one, one_mul, div_one, hv]
    rfl

/-- The memory at the start of each of a series of steps with prescribed velocity, one iteration each. -/
def prescribedRun (c : Cfg) (o : Ops ι K A) (dts : List K) (m : Mem ι K A) : Mem ι K A :=
  dts.foldl (fun s dt => prescribe c o dt (prepare c o s)) m

/-- **C122, disagreement**: the sources and viscous terms that are "ignored" are those stored by the last step that computed them (the initial
iterations): every step of the run adds them. -/
theorem prescribed_stale (c : Cfg) (o : Ops ι K A) (dts : List K) (m : Mem ι K A) :
    (prescribedRun c o dts m).vel.src = m.vel.src ∧ (prescribedRun c o dts m).vel.diff = m.vel.diff := by
  unfold prescribedRun
  induction dts generalizing m with
  | nil => exact ⟨rfl, rfl⟩
  | cons a t ih =>
    rw [List.foldl_cons]
    obtain ⟨_, _, _, h1, h2, _⟩ := prescribed_step c o a (prepare c o m)
    exact ⟨(ih _).1.trans h1, (ih _).2.trans h2⟩

/-- **C122**: with no stored terms every step of the run is advection alone. -/
theorem prescribed_pure (c : Cfg) (o : Ops ι K A) (dts : List K) (dt : K) (m : Mem ι K A) (hs : ∀ e, m.vel.src e = 0) (hd : ∀ e, m.vel.diff e = 0) :
    let b := prescribedRun c o dts m
    ∃ s : Mem ι K A, SameStart (prepare c o b) s ∧ ∀ e, (prescribedRun c o (dts ++ [dt]) m).vel.fld.new e =
      ((density c s).old e.1 * b.vel.fld.new e + o.mask e.1 * dt * o.advV .old s e) / (density c s).new e.1 := by
  intro b
  have h := prescribed_stale c o dts m
  obtain ⟨s, h1, _, _, _, h5⟩ := prescribed_step c o dt (prepare c o b)
  refine ⟨s, h1, fun e => ?_⟩
  have e0 : prescribedRun c o (dts ++ [dt]) m = prescribe c o dt (prepare c o b) := by
    unfold prescribedRun b
    rw [List.foldl_append]
    rfl
  rw [e0, h5 e]
  have es : (prepare c o b).vel.src e = 0 := by
    show b.vel.src e = 0
    rw [h.1, hs]
  have ed : (prepare c o b).vel.diff e = 0 := by
    show b.vel.diff e = 0
    rw [h.2, hd]
  rw [es, ed, add_zero, add_zero]
  rfl

/-- **C122, disagreement**: with more than one iteration the velocity of a run with prescribed velocity is, after the first, that of an ordinary step:
the result of a projection. -/
theorem prescribed_lost (c : Cfg) (o : Ops ι K A) (correct : Mem ι K A → Mem ι K A) (dt : K) (hg : c.godunov = true) (n : ℕ) (m r : Mem ι K A)
    (h : step c o correct true dt (n + 2) m = some r) :
    ∃ s : Mem ι K A, r = predict c o dt false (n + 1) s ∧ ∃ t, r.vel.fld.new = (o.project false t).1 ∧ r.aux = (o.project false t).2 := by
  have e := step_split c o correct true dt hg (n + 1) m r h
  rw [List.range_succ, List.map_append, List.foldl_append] at e
  simp only [List.map_cons, List.map_nil, List.foldl_cons, List.foldl_nil] at e
  exact ⟨_, e, _, by rw [e]; rfl, by rw [e]; rfl⟩

/-! ## Concrete runs -/

/-- One cell; advection is decay with the velocity of the state that is advected, source `src` of the scalar at half time, the scalar one more than its
value at half time; no diffusion; the projection changes nothing but counts. -/
def exOps (src : ℚ → ℚ) : Ops Unit ℚ ℕ where
  visc := fun m => m.aux
  srcV := fun _ m _ => src ((m.scal.map fun e => e.fld.nph ()).sum)
  src := fun i _ m _ => ((m.scal.map fun e => e.fld.nph ())[i]?).getD 0
  diffV := fun _ _ => 0
  diff := fun _ _ _ => 0
  mac := fun _ m => m.aux
  advV := fun st m e => match st with
    | .old => -m.vel.fld.old e
    | .nph => -m.vel.fld.nph e
    | .new => -m.vel.fld.new e
  adv := fun _ _ _ => 0
  rhs := fun i m _ => ((m.scal.map fun e => e.src ())[i]?).getD 0 + 1
  solveV := fun _ m => m.vel.fld.new
  solve := fun i _ m _ => ((m.scal.map fun e => e.fld.new ())[i]?).getD 0
  improve := fun i m _ => ((m.scal.map fun e => e.fld.new ())[i]?).getD 0
  post := fun i m => (fun _ => ((m.scal.map fun e => e.fld.new ())[i]?).getD 0, (m.rho.new, m.rho.nph), m.aux)
  project := fun _ m => (m.vel.fld.new, m.aux + 1)
  predictor := fun m => m.aux
  mask := fun _ => 1

def exCfg : Cfg := ⟨true, .explicit, false⟩

def tri (V : Type) (v : V) : Tri V := ⟨v, v, v⟩

/-- Velocity `u`, scalars zero. -/
def exMem (u : ℚ) (n : ℕ) : Mem Unit ℚ ℕ :=
  ⟨⟨tri _ fun _ => u, fun _ => 0, fun _ => 0, fun _ => 0⟩, tri _ fun _ => 1, List.replicate n ⟨tri _ fun _ => 0, fun _ => 0, fun _ => 0, fun _ => 0⟩, 0⟩

/-- **C122, disagreement**: the reported change may be zero although the iterations have not converged: it does not look at the scalars. -/
theorem zero_change_not_converged : ∃ (c : Cfg) (o : Ops Unit ℚ ℕ) (dt : ℚ) (m : Mem Unit ℚ ℕ), 
    let r0 := predict c o dt false 0 (prepare c o m)
    let r1 := predict c o dt false 1 r0
    let r2 := predict c o dt false 2 r1
    (∀ e, r1.vel.fld.new e = r0.vel.fld.new e) ∧ ∀ e, r2.vel.fld.new e ≠ r1.vel.fld.new e :=
  ⟨exCfg, exOps (fun s => if s > 4 / 5 then 1 else 0), 1, exMem 0 1, by decide +kernel⟩

-- the midpoint rule: from 3 with decay over a step of one, 3 - (3 + 1) / 2 = 1
example : ∀ e, (predict exCfg (exOps fun _ => 0) 1 false 1 ({ exMem 3 0 with vel := ⟨⟨fun _ => 3, fun _ => 3, fun _ => 1⟩, fun _ => 0, fun _ => 0, fun _ => 0⟩ })).vel.fld.new e
    = 1 := by decide +kernel
-- the first iteration is explicit: 3 - 3 = 0, the second takes the mean of 3 and 0
example : ∀ e, (predict exCfg (exOps fun _ => 0) 1 false 0 (prepare exCfg (exOps fun _ => 0) (exMem 3 0))).vel.fld.new e = 0 := by decide +kernel
example : (step exCfg (exOps fun _ => 0) id false 1 2 (exMem 3 0)).map (fun r => (r.vel.fld.new ((), 0), r.vel.fld.old ((), 0), r.aux)) =
    some (3 / 2, 3, 2) := by decide +kernel
example : needDivtau exCfg = true ∧ (step ⟨false, .implicit, false⟩ (exOps fun _ => 0) id false (1 : ℚ) 2 (exMem 3 0)).isNone := by decide +kernel
-- initial iterations with a source: velocity and scalar are back, the terms stay
example : let r := initialIterations exCfg (exOps fun _ => 5) 1 3 (exMem 3 1)
    (r.vel.fld.new ((), 0), r.vel.src ((), 0), r.scal.map (fun e => e.fld.new ()), r.aux) = (3, 5, [0], 3) := by decide +kernel
-- a prescribed run after it: the velocity should be carried along (here: decay), and the source is added in every step
example : let r := prescribedRun exCfg (exOps fun _ => 5) [1 / 2, 1 / 2] (initialIterations exCfg (exOps fun _ => 5) 1 3 (exMem 4 0))
    (r.vel.fld.new ((), 0), r.vel.src ((), 0)) = (19 / 4, 5) := by decide +kernel
example : ((prescribedRun exCfg (exOps fun _ => 5) [1 / 2, 1 / 2] (exMem 4 0)).vel.fld.new ((), 0)) = 1 := by decide +kernel
-- one and two iterations of a prescribed step
example : ((step exCfg (exOps fun _ => 5) id true 1 1 (exMem 4 0)).map fun r => (r.vel.fld.new ((), 0), r.aux)) = some (0, 0) ∧
    ((step exCfg (exOps fun _ => 5) id true 1 2 (exMem 4 0)).map fun r => (r.vel.fld.new ((), 0), r.aux)) = some (7, 1) := by decide +kernel
example : ((predict exCfg (exOps fun _ => 0) 1 false 1 (exMem 3 2)).scal.map fun e => (e.fld.old (), e.fld.nph (), e.fld.new ())) = [(0, 1 / 2, 1), (0, 1 / 2, 1)] := by
  decide +kernel
-- two levels of two cells, the first cell of the coarse one covered
example : (∀ i : Fin 4, (fun i : Fin 4 => if i = 0 then (0 : ℝ) else 1) i = 0 ∨ (fun i : Fin 4 => if i = 0 then (0 : ℝ) else 1) i = 1) := by
  intro i
  by_cases h : i = 0
  · left; simp [h]
  · right; simp [h]

/-- C122: the divergence of the stress is left out just by the MOL scheme with implicit diffusion. -/
theorem divtau_left_out (c : Cfg) : needDivtau c = false ↔ c.godunov = false ∧ c.kind = .implicit := by
  unfold needDivtau
  cases c.godunov <;> cases c.kind <;> decide

/-- C122: with an equation for the density the operators see the new values of that equation (the first of the scalars); without one the
density stays what it was. -/
theorem density_seen (c : Cfg) (m : Mem ι K A) : (c.densPde = true → ∀ s t, m.scal = s :: t → (density c m).new = s.fld.new ∧ (density c m).old = s.fld.old) ∧
    (c.densPde = false → density c m = m.rho) := by
  refine ⟨fun h s t e => ?_, fun h => ?_⟩ <;> unfold density <;> simp_all

theorem density_old_of_sameStart (c : Cfg) {m r : Mem ι K A} (h : SameStart m r) : (density c r).old = (density c m).old := by
  obtain ⟨_, h2, h3⟩ := h
  unfold density
  cases c.densPde
  · exact h2
  · cases hm : m.scal with
    | nil => rw [hm] at h3; simp at h3; rw [h3]; exact h2
    | cons a t =>
      rw [hm] at h3
      cases hr : r.scal with
      | nil => rw [hr] at h3; simp at h3
      | cons b u => rw [hr] at h3; simp at h3; exact h3.1

/-- C122: the force that the face velocities of the Godunov scheme are predicted with: the source at the start plus the viscous force
of the start, both per unit of mass with the density of the start; the viscous force is computed with the start as its new state. -/
theorem predictor_force (c : Cfg) (o : Ops ι K A) (m : Mem ι K A) (hg : c.godunov = true) : ∃ s : Mem ι K A,
    s.vel.fld.new = m.vel.fld.old ∧ SameStart m s ∧ (forces c o m).vel.diff = o.diffV s ∧
    ∀ e, (forces c o m).vel.src e = (o.srcV .old m e + o.diffV s e) / (density c m).old e.1 := by
  have hn : needDivtau c = true := by unfold needDivtau; rw [hg]; rfl
  let t := each (sourceScal o .old) (sourceVel o .old m)
  have ht : t.vel = (sourceVel o .old m).vel := vel_each _ (vel_source o .old) _
  have k1 : Keeps m t := Keeps.trans (b := sourceVel o .old m) ⟨⟨rfl, rfl, rfl⟩, rfl, rfl⟩ (keeps_each _ (fun i s => keeps_source o .old i s) _)
  let s : Mem ι K A := { t with vel := { t.vel with fld := { t.vel.fld with new := t.vel.fld.old } } }
  have k2 : Keeps t (each (divtauScal c o) (divtauVel c o t)) := (keeps_divtauVel c o t).trans (keeps_each _ (fun i s => keeps_divtau c o i s) _)
  have hv : (each (divtauScal c o) (divtauVel c o t)).vel = (divtauVel c o t).vel := vel_each _ (vel_divtau c o) _
  have hd : (divtauVel c o t).vel.src = t.vel.src + o.diffV s ∧ (divtauVel c o t).vel.diff = o.diffV s := by
    unfold divtauVel
    simp only [if_pos hg]
    exact ⟨rfl, rfl⟩
  have ho : t.vel.fld.old = m.vel.fld.old := k1.1.1
  have e0 : forces c o m = perMass c (each (divtauScal c o) (divtauVel c o t)) := by
    unfold forces
    simp only [if_pos hg, if_pos hn]
    rfl
  refine ⟨s, ho, k1.1, ?_, fun e => ?_⟩
  · rw [e0]
    show (each (divtauScal c o) (divtauVel c o t)).vel.diff = _
    rw [hv, hd.2]
  · rw [e0]
    show (each (divtauScal c o) (divtauVel c o t)).vel.src e / (density c (each (divtauScal c o) (divtauVel c o t))).old e.1 = _
    rw [hv, hd.1, density_old_of_sameStart c (k1.trans k2).1, Pi.add_apply, ht]
    rfl

/-- C122: what the actions after the solve of a scalar hand back: its new values, the density at the end and in the middle of the step, and
the rest; the velocity and the start of the step stay. -/
theorem post_solve_states (o : Ops ι K A) (i : ℕ) (m : Mem ι K A) : (postSolve o i m).rho.new = (o.post i m).2.1.1 ∧
    (postSolve o i m).rho.nph = (o.post i m).2.1.2 ∧ (postSolve o i m).rho.old = m.rho.old ∧ (postSolve o i m).aux = (o.post i m).2.2 ∧
    (postSolve o i m).vel = m.vel ∧ (∀ e, m.scal[i]? = some e → ((postSolve o i m).scal[i]?.map fun e => e.fld.new) = some (o.post i m).1) ∧
    ∀ j, j ≠ i → (postSolve o i m).scal[j]? = m.scal[j]? := by
  refine ⟨rfl, rfl, rfl, rfl, rfl, fun e he => ?_, fun j hj => ?_⟩
  · simp [postSolve, setNew, atScal, he]
  · simp [postSolve, setNew, atScal, List.getElem?_modify, Ne.symm hj]

/-- C122: for a scalar the diffusion of the start of the step is taken from the start values and, with Godunov advection, added to its source. -/
theorem scalar_force (c : Cfg) (o : Ops ι K A) (i : ℕ) (m : Mem ι K A) (e : Eqn (Sc ι K)) (h : m.scal[i]? = some e) :
    ∃ s : Mem ι K A, (s.scal[i]?.map fun e => e.fld.new) = some e.fld.old ∧ (∀ j, j ≠ i → s.scal[j]? = m.scal[j]?) ∧
    ∃ e', (divtauScal c o i m).scal[i]? = some e' ∧ e'.diff = o.diff i s ∧ e'.fld.new = e.fld.old ∧
      ∀ x, e'.src x = if c.godunov then e.src x + o.diff i s x else e.src x := by
  refine ⟨buffer i m, by simp [buffer, atScal, h], fun j hj => other_atScal i j hj _ _, ?_⟩
  have hb : (setDiff i (o.diff i (buffer i m)) (buffer i m)).scal[i]? =
      some { e with fld := { e.fld with new := e.fld.old }, diff := o.diff i (buffer i m) } := by simp [setDiff, buffer, atScal, h]
  cases hg : c.godunov
  · refine ⟨{ e with fld := { e.fld with new := e.fld.old }, diff := o.diff i (buffer i m) }, ?_, rfl, rfl, fun x => rfl⟩
    unfold divtauScal
    simp only [hg, Bool.false_eq_true, if_false]
    exact hb
  · refine ⟨{ e with fld := { e.fld with new := e.fld.old }, diff := o.diff i (buffer i m), src := e.src + o.diff i (buffer i m) }, ?_, rfl, rfl, fun x => rfl⟩
    unfold divtauScal addDiff
    simp only [hg, if_true]
    show (List.modify _ i _)[i]? = _
    rw [List.getElem?_modify, hb]
    simp

end AmrWind.Iter
