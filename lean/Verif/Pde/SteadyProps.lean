import Mathlib.Tactic.Ring
import Mathlib.Tactic.FieldSimp
import Mathlib.Tactic.Linarith
import Mathlib.Tactic.NormNum
import Mathlib.Tactic.FinCases
import Mathlib.Algebra.BigOperators.Fin
import Mathlib.Algebra.BigOperators.Ring.Finset
import Mathlib.Data.Fin.VecNotation
import Verif.Pde.SteadyModel

/-!
# C136: states in balance are kept by whole time steps
-/

set_option linter.unusedSectionVars false

namespace AmrWind.Steady

open Step (Diff Cel predictorRhs correctorRhs rk2 dtDiff)
open Iter

variable {ι F K : Type*} [Fintype F] [Field K] [LinearOrder K] [IsStrictOrderedRing K]

/-! ### Specification -/

/-- The same velocity in every cell. -/
def uniform (V : Fin 3 → K) : Ve ι K := fun e => V e.2

/-- Volume per time through a face with normal `n` (times area one) of a uniform flow. -/
def through (n : F → Fin 3 → K) (V : Fin 3 → K) (f : F) : K := ∑ d, n f d * V d

/-- What is asked of the operators of the libraries: they treat uniform fields exactly, cells are closed, the projections leave a velocity
without divergence (and, the one at the nodes, a pressure gradient) as it is, and the linear solves return the solution. -/
structure Consistent (S : Scheme ι F K) (n : F → Fin 3 → K) (IsGradient : Ve ι K → Prop) : Prop where
  face : ∀ u c, S.face u 0 (fun _ => c) = fun _ => c
  extrap : ∀ V, S.extrap (uniform V) 0 = through n V
  closed : ∀ i d, ∑ f, S.s i f * n f d = 0
  mac : ∀ r u, (∀ i, ∑ f, S.s i f * u f = 0) → S.mac r u = u
  viscous : ∀ mu V, S.viscous mu (uniform V) = 0
  solveV : ∀ r mu τ f g, (∀ x, 0 < r x) → 0 ≤ τ → (∀ e, r e.1 * g e - τ * S.viscous mu g e = r e.1 * f e) → S.solveV r mu τ f = g
  solve : ∀ i r a τ f g, (∀ x, 0 < r x) → 0 ≤ τ → (∀ x, r x * g x - τ * S.conduct i a g x = r x * f x) → S.solve i r a τ f = g
  project : ∀ r dt V G, IsGradient G → S.project false r dt (uniform V) G = (uniform V, G)

/-- A state in balance: uniform velocity `V`, density `r`, scalars `q`, pressure gradient `G`: the force is balanced by the pressure, nothing is
gained by advection, conduction or sources. -/
structure Balanced (S : Scheme ι F K) (n : F → Fin 3 → K) (IsGradient : Ve ι K → Prop) (V : Fin 3 → K) (r : Sc ι K) (q : ℕ → Sc ι K) (G : Ve ι K) :
    Prop where
  pos : ∀ x, 0 < r x
  forces : ∀ e, r e.1 * S.accel (uniform V) e = G e
  grad : IsGradient G
  momentum : ∀ d i, ∑ f, S.s i f * (through n V f * S.face (through n V) 0 (fun x => r x * V d) f) = 0
  carried : ∀ k i, ∑ f, S.s i f * (through n V f * S.face (through n V) 0 (fun x => r x * q k x) f) = 0
  conduct : ∀ k a, S.conduct k a (q k) = 0
  heat : ∀ k, S.heat k (q k) = 0

/-- The memory holds that state. -/
structure Holds (V : Fin 3 → K) (r : Sc ι K) (q : ℕ → Sc ι K) (G : Ve ι K) (m : M ι F K) : Prop where
  vel : m.vel.fld.new = uniform V
  rho : m.rho.new = r
  scal : ∀ i < m.scal.length, (theScal i m).fld.new = q i
  gp : m.aux.gp = G

/-! ### Lemmas on memories -/

theorem scal_at {i : ℕ} {f : Eqn (Sc ι K) → Eqn (Sc ι K)} {m : M ι F K} (hi : i < m.scal.length) : theScal i (atScal i f m) = f (theScal i m) := by
  unfold theScal atScal
  simp [List.getElem?_modify, List.getElem?_eq_getElem hi]

theorem scal_ne {i j : ℕ} (h : i ≠ j) (f : Eqn (Sc ι K) → Eqn (Sc ι K)) (m : M ι F K) : theScal j (atScal i f m) = theScal j m := by
  unfold theScal atScal
  simp [List.getElem?_modify, h]

theorem at_len (i : ℕ) (f : Eqn (Sc ι K) → Eqn (Sc ι K)) (m : M ι F K) : (atScal i f m).scal.length = m.scal.length := by
  simp [atScal]

theorem each_all (P : M ι F K → Prop) (Q : ℕ → M ι F K → Prop) (f : ℕ → M ι F K → M ι F K)
    (h : ∀ i m, P m → P (f i m) ∧ Q i (f i m) ∧ ∀ j, Q j m → Q j (f i m)) (hl : ∀ i m, (f i m).scal.length = m.scal.length)
    (m : M ι F K) (hm : P m) : P (each f m) ∧ (each f m).scal.length = m.scal.length ∧ ∀ i < (each f m).scal.length, Q i (each f m) := by
  have key : ∀ (l : List ℕ) (s : M ι F K), P s → P (l.foldl (fun s i => f i s) s) ∧ (l.foldl (fun s i => f i s) s).scal.length = s.scal.length ∧
      (∀ j, Q j s → Q j (l.foldl (fun s i => f i s) s)) ∧ ∀ i ∈ l, Q i (l.foldl (fun s i => f i s) s) := by
    intro l
    induction l with
    | nil => intro s hs; exact ⟨hs, rfl, fun j h => h, by simp⟩
    | cons a l ih =>
      intro s hs
      obtain ⟨a1, a2, a3⟩ := h a s hs
      obtain ⟨b1, b2, b3, b4⟩ := ih (f a s) a1
      refine ⟨b1, b2.trans (hl a s), fun j hj => b3 j (a3 j hj), fun i hi => ?_⟩
      rcases List.mem_cons.mp hi with rfl | hi
      · exact b3 _ a2
      · exact b4 i hi
  obtain ⟨k1, k2, -, k4⟩ := key (List.range m.scal.length) m hm
  refine ⟨k1, k2, fun i hi => k4 i ?_⟩
  unfold each at hi
  rw [k2] at hi
  exact List.mem_range.mpr hi

/-! ### One step -/

section step

variable {S : Scheme ι F K} {n : F → Fin 3 → K} {IsG : Ve ι K → Prop} {V : Fin 3 → K} {r : Sc ι K} {q : ℕ → Sc ι K} {G : Ve ι K}

/-- All states of all fields are in balance. -/
structure Full (V : Fin 3 → K) (r : Sc ι K) (q : ℕ → Sc ι K) (G : Ve ι K) (m : M ι F K) : Prop where
  vel : m.vel.fld = ⟨uniform V, uniform V, uniform V⟩
  rho : m.rho = ⟨r, r, r⟩
  scal : ∀ i < m.scal.length, (theScal i m).fld = ⟨q i, q i, q i⟩
  gp : m.aux.gp = G

theorem half_same {X : Type*} (v : X → K) : half (K := K) (⟨v, v, v⟩ : Tri (X → K)) = ⟨v, v, v⟩ := by
  unfold half
  congr 1
  funext x
  simp only [Pi.add_apply, Pi.smul_apply, smul_eq_mul]
  ring

theorem at_same {X : Type*} (st : St) (v : X) : at' st (⟨v, v, v⟩ : Tri X) = v := by cases st <;> rfl

theorem Full.midpoint {m : M ι F K} (h : Full V r q G m) (it : ℕ) : Full V r q G (midpoint it m) := by
  unfold Iter.midpoint
  split
  · exact ⟨by simp only [h.vel, half_same], h.rho, h.scal, h.gp⟩
  · exact h

theorem src_zero (hb : Balanced S n IsG V r q G) {m : M ι F K} (h : Full V r q G m) (st : St) : srcV S st m = 0 := by
  funext e
  unfold srcV
  rw [h.rho, h.vel, h.gp, at_same, at_same, ← hb.forces]
  have := (hb.pos e.1).ne'
  simp only [Pi.zero_apply]
  field_simp
  ring

/-- After the forces: with the Godunov scheme all sources vanish, and diffusion wherever it is used later. -/
structure Quiet (c : Cfg) (V : Fin 3 → K) (r : Sc ι K) (q : ℕ → Sc ι K) (G : Ve ι K) (m : M ι F K) : Prop where
  full : Full V r q G m
  vsrc : c.godunov = true → m.vel.src = 0
  src : c.godunov = true → ∀ i < m.scal.length, (theScal i m).src = 0
  diff : needDivtau c = true → ∀ i < m.scal.length, (theScal i m).diff = 0

theorem quiet_forces (hc : Consistent S n IsG) (hb : Balanced S n IsG V r q G) {c : Cfg} (hd : c.densPde = false) {dt : K} {m : M ι F K}
    (h : Full V r q G m) : Quiet c V r q G (forces c (ops S c dt) m) ∧ (forces c (ops S c dt) m).scal.length = m.scal.length := by
  -- the sources of the old state
  have s1 : ∀ m : M ι F K, Full V r q G m → m.vel.src = 0 → (Full V r q G (each (sourceScal (ops S c dt) .old) m) ∧
      (each (sourceScal (ops S c dt) .old) m).vel.src = 0) ∧ (each (sourceScal (ops S c dt) .old) m).scal.length = m.scal.length ∧
      ∀ i < (each (sourceScal (ops S c dt) .old) m).scal.length, (i < (each (sourceScal (ops S c dt) .old) m).scal.length →
        (theScal i (each (sourceScal (ops S c dt) .old) m)).src = 0) := by
    intro m hm hv
    refine each_all (fun m => Full V r q G m ∧ m.vel.src = 0) (fun i m => i < m.scal.length → (theScal i m).src = 0)
      (sourceScal (ops S c dt) .old) ?_ (fun i m => at_len _ _ _) m ⟨hm, hv⟩
    rintro i m ⟨hm, hv⟩
    refine ⟨⟨⟨hm.vel, hm.rho, fun j hj => ?_, hm.gp⟩, hv⟩, fun hi => ?_, fun j hj hl => ?_⟩
    · have hj' : j < m.scal.length := by rw [sourceScal, setSrc, at_len] at hj; exact hj
      by_cases e : i = j
      · subst e
        rw [sourceScal, setSrc, scal_at hj']
        exact hm.scal i hj'
      · rw [sourceScal, setSrc, scal_ne e]; exact hm.scal j hj'
    · have hi' : i < m.scal.length := by rw [sourceScal, setSrc, at_len] at hi; exact hi
      rw [sourceScal, setSrc, scal_at hi']
      show S.heat i (at' .old (theScal i m).fld) = 0
      rw [hm.scal i hi', at_same, hb.heat]
    · have hl' : j < m.scal.length := by rw [sourceScal, setSrc, at_len] at hl; exact hl
      by_cases e : i = j
      · subst e
        rw [sourceScal, setSrc, scal_at hl']
        show S.heat i (at' .old (theScal i m).fld) = 0
        rw [hm.scal i hl', at_same, hb.heat]
      · rw [sourceScal, setSrc, scal_ne e]; exact hj hl'
  -- diffusion terms
  have s2 : ∀ m : M ι F K, Full V r q G m → (c.godunov = true → m.vel.src = 0) → (c.godunov = true → ∀ i < m.scal.length, (theScal i m).src = 0) →
      ((Full V r q G (each (divtauScal c (ops S c dt)) m) ∧ (c.godunov = true → (each (divtauScal c (ops S c dt)) m).vel.src = 0) ∧
        (c.godunov = true → ∀ i < (each (divtauScal c (ops S c dt)) m).scal.length, (theScal i (each (divtauScal c (ops S c dt)) m)).src = 0)) ∧
      (each (divtauScal c (ops S c dt)) m).scal.length = m.scal.length ∧
      ∀ i < (each (divtauScal c (ops S c dt)) m).scal.length, (i < (each (divtauScal c (ops S c dt)) m).scal.length →
        (theScal i (each (divtauScal c (ops S c dt)) m)).diff = 0)) := by
    intro m hm hv hs
    have len : ∀ (i : ℕ) (m : M ι F K), (divtauScal c (ops S c dt) i m).scal.length = m.scal.length := by
      intro i m
      unfold divtauScal
      dsimp only
      split_ifs <;> simp only [addDiff, setDiff, buffer, at_len]
    have one : ∀ (i : ℕ) (m : M ι F K), i < m.scal.length → (theScal i m).fld = ⟨q i, q i, q i⟩ →
        (theScal i (divtauScal c (ops S c dt) i m)).fld = ⟨q i, q i, q i⟩ ∧ (theScal i (divtauScal c (ops S c dt) i m)).diff = 0 ∧
        (theScal i (divtauScal c (ops S c dt) i m)).src = (theScal i m).src := by
      intro i m hi hf
      have hi1 : i < (buffer i m).scal.length := by rw [buffer, at_len]; exact hi
      have b : (theScal i (buffer i m)).fld = ⟨q i, q i, q i⟩ := by rw [buffer, scal_at hi, hf]
      have bs : (theScal i (buffer i m)).src = (theScal i m).src := by rw [buffer, scal_at hi]
      have dz : (ops S c dt).diff i (buffer i m) = 0 := by
        show S.conduct i _ (theScal i (buffer i m)).fld.new = 0
        rw [b]; exact hb.conduct i _
      unfold divtauScal
      dsimp only
      rw [dz]
      have hi2 : i < (setDiff i (0 : Sc ι K) (buffer i m)).scal.length := by rw [setDiff, at_len]; exact hi1
      have e1 : theScal i (setDiff i (0 : Sc ι K) (buffer i m)) = { theScal i (buffer i m) with diff := 0 } := by rw [setDiff, scal_at hi1]
      split_ifs
      · rw [addDiff, scal_at hi2, e1]
        exact ⟨b, rfl, by simp only [add_zero]; exact bs⟩
      · rw [e1]; exact ⟨b, rfl, bs⟩
    have other : ∀ (i j : ℕ) (m : M ι F K), i ≠ j → theScal j (divtauScal c (ops S c dt) i m) = theScal j m := by
      intro i j m e
      unfold divtauScal
      dsimp only
      split_ifs <;> simp only [addDiff, setDiff, buffer, scal_ne e]
    have rest : ∀ (i : ℕ) (m : M ι F K), (divtauScal c (ops S c dt) i m).vel = m.vel ∧ (divtauScal c (ops S c dt) i m).rho = m.rho ∧
        (divtauScal c (ops S c dt) i m).aux = m.aux := by
      intro i m
      unfold divtauScal
      dsimp only
      split_ifs <;> exact ⟨rfl, rfl, rfl⟩
    refine each_all (fun m => Full V r q G m ∧ (c.godunov = true → m.vel.src = 0) ∧ (c.godunov = true → ∀ i < m.scal.length, (theScal i m).src = 0))
      (fun i m => i < m.scal.length → (theScal i m).diff = 0) _ ?_ len m ⟨hm, hv, hs⟩
    rintro i m ⟨hm, hv, hs⟩
    obtain ⟨r1, r2, r3⟩ := rest i m
    refine ⟨⟨⟨by rw [r1]; exact hm.vel, by rw [r2]; exact hm.rho, fun j hj => ?_, by rw [r3]; exact hm.gp⟩, fun hg => by rw [r1]; exact hv hg, fun hg j hj => ?_⟩,
      fun hi => ?_, fun j hj hl => ?_⟩
    · rw [len] at hj
      by_cases e : i = j
      · subst e; exact (one i m hj (hm.scal i hj)).1
      · rw [other i j m e]; exact hm.scal j hj
    · rw [len] at hj
      by_cases e : i = j
      · subst e; rw [(one i m hj (hm.scal i hj)).2.2]; exact hs hg i hj
      · rw [other i j m e]; exact hs hg j hj
    · rw [len] at hi; exact (one i m hi (hm.scal i hi)).2.1
    · rw [len] at hl
      by_cases e : i = j
      · subst e; exact (one i m hl (hm.scal i hl)).2.1
      · rw [other i j m e]; exact hj hl
  unfold forces
  dsimp only
  -- after the sources
  have a : ∃ m1 : M ι F K, (if c.godunov then each (sourceScal (ops S c dt) .old) (sourceVel (ops S c dt) .old m) else m) = m1 ∧ Full V r q G m1 ∧
      (c.godunov = true → m1.vel.src = 0) ∧ (c.godunov = true → ∀ i < m1.scal.length, (theScal i m1).src = 0) ∧ m1.scal.length = m.scal.length := by
    by_cases hg : c.godunov = true
    · have hf : Full V r q G (sourceVel (ops S c dt) .old m) := ⟨h.vel, h.rho, h.scal, h.gp⟩
      have hv : (sourceVel (ops S c dt) .old m).vel.src = 0 := src_zero hb h .old
      obtain ⟨⟨b1, b2⟩, b3, b4⟩ := s1 _ hf hv
      exact ⟨_, by rw [if_pos hg], b1, fun _ => b2, fun _ i hi => b4 i hi hi, b3⟩
    · exact ⟨m, by rw [if_neg hg], h, fun x => absurd x hg, fun x => absurd x hg, rfl⟩
  obtain ⟨m1, e1, f1, v1, q1, l1⟩ := a
  rw [e1]
  -- after the diffusion terms
  have b : ∃ m2 : M ι F K, (if needDivtau c then each (divtauScal c (ops S c dt)) (divtauVel c (ops S c dt) m1) else m1) = m2 ∧ Full V r q G m2 ∧
      (c.godunov = true → m2.vel.src = 0) ∧ (c.godunov = true → ∀ i < m2.scal.length, (theScal i m2).src = 0) ∧
      (needDivtau c = true → ∀ i < m2.scal.length, (theScal i m2).diff = 0) ∧ m2.scal.length = m1.scal.length := by
    by_cases hn : needDivtau c = true
    · have dz : S.viscous m1.aux.mu (uniform V) = 0 := hc.viscous _ _
      have hf : Full V r q G (divtauVel c (ops S c dt) m1) := by
        unfold divtauVel
        dsimp only
        split_ifs <;> exact ⟨by simp only [f1.vel], f1.rho, f1.scal, f1.gp⟩
      have hv : c.godunov = true → (divtauVel c (ops S c dt) m1).vel.src = 0 := by
        intro hg
        unfold divtauVel
        dsimp only
        rw [if_pos hg]
        show m1.vel.src + S.viscous m1.aux.mu m1.vel.fld.old = 0
        rw [v1 hg, f1.vel, dz, add_zero]
      have hs : (divtauVel c (ops S c dt) m1).scal = m1.scal := by
        unfold divtauVel
        dsimp only
        split_ifs <;> rfl
      have ht : ∀ i, theScal i (divtauVel c (ops S c dt) m1) = theScal i m1 := by intro i; unfold theScal; rw [hs]
      obtain ⟨⟨b1, b2, b3⟩, b4, b5⟩ := s2 _ hf hv (by intro hg i hi; rw [hs] at hi; rw [ht]; exact q1 hg i hi)
      exact ⟨_, by rw [if_pos hn], b1, b2, b3, fun _ i hi => b5 i hi hi, by rw [b4, hs]⟩
    · refine ⟨m1, by rw [if_neg hn], f1, v1, q1, fun x => absurd x hn, rfl⟩
  obtain ⟨m2, e2, f2, v2, q2, d2, l2⟩ := b
  rw [e2]
  split_ifs with hg
  · refine ⟨⟨⟨f2.vel, f2.rho, f2.scal, f2.gp⟩, fun _ => ?_, q2, d2⟩, l2.trans l1⟩
    funext e
    show m2.vel.src e / (density c m2).old e.1 = 0
    rw [v2 hg]; simp
  · exact ⟨⟨f2, v2, q2, d2⟩, l2.trans l1⟩

/-- The face velocities are those of the uniform flow. -/
theorem mac_uniform (hc : Consistent S n IsG) {c : Cfg} {m : M ι F K} (h : Quiet c V r q G m) (st : St) :
    macOp S c st m = { m.aux with u := through n V } := by
  unfold macOp
  have hf : force c m.vel.src = 0 := by
    unfold force
    split_ifs with hg
    · exact h.vsrc hg
    · rfl
  rw [hf, h.full.vel, at_same, hc.extrap, hc.mac]
  intro i
  unfold through
  calc ∑ f, S.s i f * ∑ d, n f d * V d = ∑ d, (∑ f, S.s i f * n f d) * V d := by
        simp only [Finset.mul_sum, Finset.sum_mul]
        rw [Finset.sum_comm]
        exact Finset.sum_congr rfl fun d _ => Finset.sum_congr rfl fun f _ => by ring
    _ = 0 := by simp [hc.closed]

theorem adv_zero (hb : Balanced S n IsG V r q G) {c : Cfg} {m : M ι F K} (h : Full V r q G m) (hu : m.aux.u = through n V) (st : St) {i : ℕ}
    (hi : i < m.scal.length) (hs : c.godunov = true → (theScal i m).src = 0) : advS S c st i m = 0 := by
  funext x
  have hf : force c (theScal i m).src = 0 := by
    unfold force
    split_ifs with hg
    · exact hs hg
    · rfl
  unfold advS
  rw [hf, h.scal i hi, h.rho, at_same, at_same, hu, hb.carried]
  exact neg_zero

theorem advV_zero (hc : Consistent S n IsG) (hb : Balanced S n IsG V r q G) {c : Cfg} {m : M ι F K} (h : Full V r q G m) (hu : m.aux.u = through n V) (st : St)
    (hs : c.godunov = true → m.vel.src = 0) : advV S c st m = 0 := by
  funext e
  have hf : force c (fun x => m.vel.src (x, e.2) * m.rho.old x) = (0 : Sc ι K) := by
    unfold force
    split_ifs with hg
    · rw [hs hg]; funext x; simp
    · rfl
  unfold advV
  rw [hf, h.vel, h.rho, at_same, at_same, hu]
  have : (fun x : ι => uniform V (x, e.2) * r x) = fun x => r x * V e.2 := funext fun x => mul_comm _ _
  rw [this, hb.momentum]
  exact neg_zero

theorem rhs_same {k : Diff} {dt ρ v a d dn w : K} (hρ : 0 < ρ) (ha : a = 0) (hd : k ≠ .implicit → d = 0) :
    predictorRhs true k dt ⟨ρ, ρ, 1, v, a, w, 0, d, dn, m⟩ = v := by
  have h := hρ.ne'
  subst ha
  cases k
  · simp only [predictorRhs, Step.factor, hd (by decide), if_true]; field_simp; ring
  · simp only [predictorRhs, Step.factor, hd (by decide), if_true, reduceCtorEq, if_false]; field_simp; ring
  · simp only [predictorRhs, Step.factor, if_true, reduceCtorEq, if_false]; field_simp; ring

theorem crhs_same {k : Diff} {dt ρ v a b d dn : K} (hρ : 0 < ρ) (ha : a = 0) (hb : b = 0) (hd : k ≠ .implicit → d = 0) (hn : k = .explicit → dn = 0) :
    correctorRhs true k dt ⟨ρ, ρ, 1, v, a, b, 0, d, dn, m⟩ = v := by
  have h := hρ.ne'
  subst ha hb
  cases k
  · simp only [correctorRhs, Step.factors, hd (by decide), hn rfl, if_true]; field_simp; ring
  · simp only [correctorRhs, Step.factors, hd (by decide), if_true, reduceCtorEq, if_false]; field_simp; ring
  · simp only [correctorRhs, Step.factors, if_true, reduceCtorEq, if_false]; field_simp; ring

theorem dtDiff_nonneg {k : Diff} {dt : K} (h : 0 ≤ dt) : 0 ≤ dtDiff k dt := by
  cases k <;> simp only [dtDiff] <;> linarith

theorem need_of {c : Cfg} (h : c.kind ≠ .implicit) : needDivtau c = true := by
  unfold needDivtau
  cases hk : c.kind <;> simp [hk] at h ⊢

/-- During the loop over the scalars. -/
structure Calm (c : Cfg) (n : F → Fin 3 → K) (V : Fin 3 → K) (r : Sc ι K) (q : ℕ → Sc ι K) (G : Ve ι K) (m : M ι F K) : Prop where
  quiet : Quiet c V r q G m
  u : m.aux.u = through n V

theorem setNew_same {i : ℕ} {m : M ι F K} (hi : i < m.scal.length) {v w z : Sc ι K} (h : (theScal i m).fld = ⟨v, w, z⟩) :
    theScal i (setNew i z m) = theScal i m := by
  rw [setNew, scal_at hi, h]
  cases hq : theScal i m with
  | mk fld src diff conv =>
    rw [hq] at h
    simp only at h
    subst h
    rfl

/-- What an operation on scalar `i` changes. -/
structure Only (i : ℕ) (m m' : M ι F K) : Prop where
  vel : m'.vel = m.vel
  rho : m'.rho = m.rho
  aux : m'.aux = m.aux
  len : m'.scal.length = m.scal.length
  other : ∀ j, i ≠ j → theScal j m' = theScal j m

theorem only_at (i : ℕ) (f : Eqn (Sc ι K) → Eqn (Sc ι K)) (m : M ι F K) : Only i m (atScal i f m) :=
  ⟨rfl, rfl, rfl, at_len i f m, fun _ hj => scal_ne hj f m⟩

theorem Only.trans {i : ℕ} {a b c : M ι F K} (h : Only i a b) (g : Only i b c) : Only i a c :=
  ⟨g.vel.trans h.vel, g.rho.trans h.rho, g.aux.trans h.aux, g.len.trans h.len, fun j hj => (g.other j hj).trans (h.other j hj)⟩

theorem only_post (c : Cfg) (dt : K) (i : ℕ) (m : M ι F K) : Only i m (postSolve (ops S c dt) i m) :=
  let h := only_at i (fun e => { e with fld := { e.fld with new := ((ops S c dt).post i m).1 } }) m
  ⟨rfl, rfl, rfl, h.len, fun j hj => h.other j hj⟩

theorem post_scal (c : Cfg) (dt : K) {i : ℕ} {m : M ι F K} (hi : i < m.scal.length) : theScal i (postSolve (ops S c dt) i m) = theScal i m := by
  show theScal i (setNew i (theScal i m).fld.new m) = theScal i m
  exact setNew_same hi (v := (theScal i m).fld.old) (w := (theScal i m).fld.nph) rfl

theorem Only.calm {i : ℕ} {c : Cfg} {m m' : M ι F K} (o : Only i m m') (h : Calm c n V r q G m)
    (hf : i < m.scal.length → (theScal i m').fld = ⟨q i, q i, q i⟩ ∧ (c.godunov = true → (theScal i m').src = 0) ∧ (needDivtau c = true → (theScal i m').diff = 0)) :
    Calm c n V r q G m' := by
  refine ⟨⟨⟨by rw [o.vel]; exact h.quiet.full.vel, by rw [o.rho]; exact h.quiet.full.rho, fun j hj => ?_, by rw [o.aux]; exact h.quiet.full.gp⟩,
    fun hg => by rw [o.vel]; exact h.quiet.vsrc hg, fun hg j hj => ?_, fun hn j hj => ?_⟩, by rw [o.aux]; exact h.u⟩ <;> rw [o.len] at hj
  · by_cases e : i = j
    · subst e; exact (hf hj).1
    · rw [o.other j e]; exact h.quiet.full.scal j hj
  · by_cases e : i = j
    · subst e; exact (hf hj).2.1 hg
    · rw [o.other j e]; exact h.quiet.src hg j hj
  · by_cases e : i = j
    · subst e; exact (hf hj).2.2 hn
    · rw [o.other j e]; exact h.quiet.diff hn j hj

theorem cond_solve (hc : Consistent S n IsG) (hb : Balanced S n IsG V r q G) {dt : K} (hdt : 0 ≤ dt) (k : Diff) (i : ℕ) (a : ι → K) :
    S.solve i r a (dtDiff k dt) (q i) = q i :=
  hc.solve i r a _ _ _ hb.pos (dtDiff_nonneg hdt) fun x => by rw [hb.conduct]; simp

/-- One scalar of the predictor. -/
theorem scalar_calm (hc : Consistent S n IsG) (hb : Balanced S n IsG V r q G) {c : Cfg} {dt : K} (hdt : 0 ≤ dt) (i : ℕ) {m : M ι F K} (h : Calm c n V r q G m) :
    Only i m (scalar c (ops S c dt) dt i m) ∧ Calm c n V r q G (scalar c (ops S c dt) dt i m) ∧
      (i < m.scal.length → (theScal i (scalar c (ops S c dt) dt i m)).conv = 0) := by
  set o := ops S c dt with ho
  set m1 := setConv i (o.adv i m) m with hm1
  set m2 := sourceScal o .nph i m1 with hm2
  set m3 := setNew i (o.rhs i m2) m2 with hm3
  have o1 : Only i m m1 := only_at _ _ _
  have o2 : Only i m m2 := o1.trans (only_at _ _ _)
  have o3 : Only i m m3 := o2.trans (only_at _ _ _)
  set m4 : M ι F K := if c.kind ≠ .explicit then setNew i (o.solve i (dtDiff c.kind dt) m3) m3
    else if c.godunov then setNew i (o.improve i m3) m3 else m3 with hm4
  have o4 : Only i m m4 := by
    refine o3.trans ?_
    rw [hm4]
    split_ifs
    · exact only_at _ _ _
    · exact only_at _ _ _
    · exact ⟨rfl, rfl, rfl, rfl, fun _ _ => rfl⟩
  have o5 : Only i m (halfScal i (postSolve o i m4)) := (o4.trans (only_post c dt i m4)).trans (only_at _ _ _)
  have key : i < m.scal.length → theScal i m4 = ⟨⟨q i, q i, q i⟩, 0, (theScal i m).diff, 0⟩ := by
    intro hi
    have e1 : theScal i m1 = { theScal i m with conv := 0 } := by
      rw [hm1, setConv, scal_at hi]
      have : o.adv i m = 0 := adv_zero hb h.quiet.full h.u .old hi fun hg => h.quiet.src hg i hi
      rw [this]
    have f1 : (theScal i m1).fld = ⟨q i, q i, q i⟩ := by rw [e1]; exact h.quiet.full.scal i hi
    have hi1 : i < m1.scal.length := by rw [o1.len]; exact hi
    have e2 : theScal i m2 = ⟨⟨q i, q i, q i⟩, 0, (theScal i m).diff, 0⟩ := by
      rw [hm2, sourceScal, setSrc, scal_at hi1]
      have : o.src i .nph m1 = 0 := by
        show S.heat i (at' .nph (theScal i m1).fld) = 0
        rw [f1, at_same, hb.heat]
      rw [this, e1, h.quiet.full.scal i hi]
    have hi2 : i < m2.scal.length := by rw [o2.len]; exact hi
    have rz : o.rhs i m2 = q i := by
      funext x
      show predictorRhs true c.kind dt (cel S m2 i (theScal i m2).conv (theScal i m2).diff x) = q i x
      unfold cel
      rw [e2, o2.rho, h.quiet.full.rho]
      exact rhs_same (hb.pos x) rfl fun hk => by
        simp only
        rw [h.quiet.diff (need_of hk) i hi]; rfl
    have e3 : theScal i m3 = theScal i m2 := by
      rw [hm3, rz]
      exact setNew_same hi2 (v := q i) (w := q i) (by rw [e2])
    have hi3 : i < m3.scal.length := by rw [o3.len]; exact hi
    have f3 : (theScal i m3).fld = ⟨q i, q i, q i⟩ := by rw [e3, e2]
    have r3 : m3.rho.new = r := by rw [o3.rho, h.quiet.full.rho]
    rw [hm4]
    split_ifs with k1 k2
    · have : o.solve i (dtDiff c.kind dt) m3 = q i := by
        show S.solve i m3.rho.new (m3.aux.alpha i) _ (theScal i m3).fld.new = q i
        rw [r3, f3]; exact cond_solve hc hb hdt c.kind i _
      rw [this, setNew_same hi3 (v := q i) (w := q i) f3, e3, e2]
    · have : o.improve i m3 = q i := by
        funext x
        show rk2 true dt (S.mask x) (m3.rho.new x) ((theScal i m3).fld.new x) (S.conduct i (m3.aux.alpha i) (theScal i m3).fld.new x - (theScal i m3).diff x) = q i x
        have dz : (theScal i m3).diff x = 0 := by
          rw [e3, e2]; simp only
          rw [h.quiet.diff (need_of (by intro hk; rw [hk] at k1; exact k1 (by decide))) i hi]; rfl
        rw [dz, f3]
        simp only
        rw [hb.conduct]
        simp [rk2]
      rw [this, setNew_same hi3 (v := q i) (w := q i) f3, e3, e2]
    · rw [e3, e2]
  have fin : i < m.scal.length → theScal i (halfScal i (postSolve o i m4)) = ⟨⟨q i, q i, q i⟩, 0, (theScal i m).diff, 0⟩ := by
    intro hi
    have hi4 : i < m4.scal.length := by rw [o4.len]; exact hi
    have hi5 : i < (postSolve o i m4).scal.length := by rw [(only_post c dt i m4).len]; exact hi4
    rw [halfScal, scal_at hi5, post_scal c dt hi4, key hi]
    simp only [half_same]
  have final : scalar c o dt i m = halfScal i (postSolve o i m4) := rfl
  rw [final]
  refine ⟨o5, o5.calm h fun hi => ?_, fun hi => by rw [fin hi]⟩
  rw [fin hi]
  exact ⟨rfl, fun _ => rfl, fun hn => h.quiet.diff hn i hi⟩

/-- One scalar of the corrector. -/
theorem correct_calm (hc : Consistent S n IsG) (hb : Balanced S n IsG V r q G) {c : Cfg} {dt : K} (hdt : 0 ≤ dt) {conv diff : ℕ → Sc ι K}
    (i : ℕ) {m : M ι F K} (h : Calm c n V r q G m) (hcv : i < m.scal.length → (theScal i m).conv = 0) (h1 : i < m.scal.length → conv i = 0)
    (h2 : i < m.scal.length → c.kind = .explicit → diff i = 0) :
    Only i m (correctScal S c dt conv diff i m) ∧ Calm c n V r q G (correctScal S c dt conv diff i m) ∧
      (i < m.scal.length → (theScal i (correctScal S c dt conv diff i m)).conv = 0) := by
  set o := ops S c dt with ho
  set m2 := sourceScal o .new i m with hm2
  set m3 := setNew i (fun x => correctorRhs true c.kind dt (cel S m2 i (conv i) (diff i) x)) m2 with hm3
  have o2 : Only i m m2 := only_at _ _ _
  have o3 : Only i m m3 := o2.trans (only_at _ _ _)
  set m4 : M ι F K := if c.kind ≠ .explicit then setNew i (o.solve i (dtDiff c.kind dt) m3) m3 else m3 with hm4
  have o4 : Only i m m4 := by
    refine o3.trans ?_
    rw [hm4]
    split_ifs
    · exact only_at _ _ _
    · exact ⟨rfl, rfl, rfl, rfl, fun _ _ => rfl⟩
  have o5 : Only i m (halfScal i (postSolve o i m4)) := (o4.trans (only_post c dt i m4)).trans (only_at _ _ _)
  have key : i < m.scal.length → theScal i m4 = ⟨⟨q i, q i, q i⟩, 0, (theScal i m).diff, 0⟩ := by
    intro hi
    have e2 : theScal i m2 = ⟨⟨q i, q i, q i⟩, 0, (theScal i m).diff, 0⟩ := by
      rw [hm2, sourceScal, setSrc, scal_at hi]
      have : o.src i .new m = 0 := by
        show S.heat i (at' .new (theScal i m).fld) = 0
        rw [h.quiet.full.scal i hi, at_same, hb.heat]
      rw [this, h.quiet.full.scal i hi, hcv hi]
    have hi2 : i < m2.scal.length := by rw [o2.len]; exact hi
    have rz : (fun x => correctorRhs true c.kind dt (cel S m2 i (conv i) (diff i) x)) = q i := by
      funext x
      unfold cel
      rw [e2, o2.rho, h.quiet.full.rho, h1 hi]
      exact crhs_same (hb.pos x) rfl rfl (fun hk => by
        simp only
        rw [h.quiet.diff (need_of hk) i hi]; rfl) fun hk => by rw [h2 hi hk]; rfl
    have e3 : theScal i m3 = theScal i m2 := by
      rw [hm3, rz]
      exact setNew_same hi2 (v := q i) (w := q i) (by rw [e2])
    have hi3 : i < m3.scal.length := by rw [o3.len]; exact hi
    have f3 : (theScal i m3).fld = ⟨q i, q i, q i⟩ := by rw [e3, e2]
    have r3 : m3.rho.new = r := by rw [o3.rho, h.quiet.full.rho]
    rw [hm4]
    split_ifs with k1
    · have : o.solve i (dtDiff c.kind dt) m3 = q i := by
        show S.solve i m3.rho.new (m3.aux.alpha i) _ (theScal i m3).fld.new = q i
        rw [r3, f3]; exact cond_solve hc hb hdt c.kind i _
      rw [this, setNew_same hi3 (v := q i) (w := q i) f3, e3, e2]
    · rw [e3, e2]
  have fin : i < m.scal.length → theScal i (halfScal i (postSolve o i m4)) = ⟨⟨q i, q i, q i⟩, 0, (theScal i m).diff, 0⟩ := by
    intro hi
    have hi4 : i < m4.scal.length := by rw [o4.len]; exact hi
    have hi5 : i < (postSolve o i m4).scal.length := by rw [(only_post c dt i m4).len]; exact hi4
    rw [halfScal, scal_at hi5, post_scal c dt hi4, key hi]
    simp only [half_same]
  have final : correctScal S c dt conv diff i m = halfScal i (postSolve o i m4) := rfl
  rw [final]
  refine ⟨o5, o5.calm h fun hi => ?_, fun hi => by rw [fin hi]⟩
  rw [fin hi]
  exact ⟨rfl, fun _ => rfl, fun hn => h.quiet.diff hn i hi⟩

/-- After a predictor: ready for the corrector. -/
structure Done (c : Cfg) (V : Fin 3 → K) (r : Sc ι K) (q : ℕ → Sc ι K) (G : Ve ι K) (m : M ι F K) : Prop where
  full : Full V r q G m
  vconv : m.vel.conv = 0
  vdiff : m.vel.diff = 0
  conv : ∀ i < m.scal.length, (theScal i m).conv = 0
  diff : needDivtau c = true → ∀ i < m.scal.length, (theScal i m).diff = 0

theorem predict_done (hc : Consistent S n IsG) (hb : Balanced S n IsG V r q G) {c : Cfg} (hd : c.densPde = false) {dt : K} (hdt : 0 ≤ dt) (it : ℕ) {m : M ι F K}
    (h : Full V r q G m) : Done c V r q G (predict c (ops S c dt) dt false it m) ∧ (predict c (ops S c dt) dt false it m).scal.length = m.scal.length := by
  set o := ops S c dt with ho
  have hm := h.midpoint it
  have lm : (midpoint (K := K) it m).scal.length = m.scal.length := by unfold midpoint; split <;> rfl
  have hv : Full V r q G (viscosity o (midpoint (K := K) it m)) := ⟨hm.vel, hm.rho, hm.scal, hm.gp⟩
  obtain ⟨hq, lq⟩ := quiet_forces (dt := dt) hc hb hd hv
  rw [← ho] at hq lq
  set m1 := forces c o (viscosity o (midpoint (K := K) it m)) with hm1
  have mu : o.mac (advState it) m1 = { m1.aux with u := through n V } := mac_uniform hc hq _
  have hcalm : Calm c n V r q G (holdDensity c (macVel o (advState it) m1)) := by
    unfold holdDensity macVel
    rw [hd, mu]
    exact ⟨⟨⟨hq.full.vel, by simp only [Bool.false_eq_true, if_false, hq.full.rho], hq.full.scal, hq.full.gp⟩, hq.vsrc, hq.src, hq.diff⟩, rfl⟩
  have lc : (holdDensity c (macVel o (advState it) m1)).scal.length = m.scal.length := by
    unfold holdDensity macVel; rw [hd]; exact lq.trans lm
  set m2 := holdDensity c (macVel o (advState it) m1) with hm2
  have all := each_all (Calm c n V r q G) (fun i m => i < m.scal.length → (theScal i m).conv = 0) (scalar c o dt) (fun i m hm => by
    obtain ⟨a1, a2, a3⟩ := scalar_calm (dt := dt) hc hb hdt i hm
    refine ⟨a2, fun hi => a3 (by rw [a1.len] at hi; exact hi), fun j hj hl => ?_⟩
    rw [a1.len] at hl
    by_cases e : i = j
    · subst e; exact a3 hl
    · rw [a1.other j e]; exact hj hl) (fun i m => by
      unfold scalar
      dsimp only
      have a : ∀ m : M ι F K, (halfScal i (postSolve o i m)).scal.length = m.scal.length := fun m => by
        rw [halfScal, at_len]; exact (only_post c dt i m).len
      rw [a]
      split_ifs <;> simp only [setNew, sourceScal, setSrc, setConv, at_len]) m2 hcalm
  obtain ⟨g1, g2, g3⟩ := all
  set m3 := each (scalar c o dt) m2 with hm3
  have f3 := g1.quiet.full
  -- momentum
  have az : o.advV (advState it) m3 = 0 := advV_zero hc hb f3 g1.u _ g1.quiet.vsrc
  set m4 := viscousVel o (sourceVel o .nph (advectVel o (advState it) m3)) with hm4
  have f4 : Full V r q G m4 := ⟨f3.vel, f3.rho, f3.scal, f3.gp⟩
  have s4 : m4.vel.src = 0 := by
    show srcV S .nph (advectVel o (advState it) m3) = 0
    exact src_zero hb ⟨f3.vel, f3.rho, f3.scal, f3.gp⟩ _
  have c4 : m4.vel.conv = 0 := az
  have d4 : m4.vel.diff = 0 := by
    show S.viscous m3.aux.mu m3.vel.fld.new = 0
    rw [f3.vel]; exact hc.viscous _ _
  have dens : density c m4 = ⟨r, r, r⟩ := by unfold density; rw [hd]; exact f4.rho
  set m5 := rhsVel c o c.kind dt m4 with hm5
  have f5 : Full V r q G m5 := by
    refine ⟨?_, f4.rho, f4.scal, f4.gp⟩
    rw [hm5]
    unfold rhsVel
    rw [dens, s4, c4, d4, f4.vel]
    refine Tri.ext rfl rfl ?_
    funext e
    exact rhs_same (hb.pos e.1) rfl fun _ => rfl
  have c5 : m5.vel.conv = 0 := c4
  have d5 : m5.vel.diff = 0 := d4
  have dens5 : density c m5 = ⟨r, r, r⟩ := by unfold density; rw [hd]; exact f5.rho
  have s5 : (solveVel c o dt m5).vel.fld = ⟨uniform V, uniform V, uniform V⟩ ∧ (solveVel c o dt m5).vel.conv = 0 ∧ (solveVel c o dt m5).vel.diff = 0 ∧
      (solveVel c o dt m5).rho = m5.rho ∧ (solveVel c o dt m5).scal = m5.scal ∧ (solveVel c o dt m5).aux = m5.aux := by
    unfold solveVel
    split_ifs with k1 k2
    · refine ⟨?_, c5, d5, rfl, rfl, rfl⟩
      have : o.solveV (dtDiff c.kind dt) m5 = uniform V := by
        show S.solveV m5.rho.new m5.aux.mu _ m5.vel.fld.new = uniform V
        rw [f5.rho, f5.vel]
        exact hc.solveV _ _ _ _ _ hb.pos (dtDiff_nonneg hdt) fun e => by rw [hc.viscous]; simp
      rw [this, f5.vel]
    · have dz : o.diffV m5 = 0 := by
        show S.viscous m5.aux.mu m5.vel.fld.new = 0
        rw [f5.vel]; exact hc.viscous _ _
      refine ⟨?_, c5, ?_, rfl, rfl, rfl⟩
      · dsimp only
        rw [dz, d5, f5.vel]
        refine Tri.ext rfl rfl ?_
        funext e
        simp [rk2]
      · dsimp only; rw [dz, d5, sub_zero]
    · exact ⟨f5.vel, c5, d5, rfl, rfl, rfl⟩
  set m6 := solveVel c o dt m5 with hm6
  obtain ⟨t1, t2, t3, t4, t5, t6⟩ := s5
  have pr : o.project false m6 = (uniform V, { m6.aux with gp := G }) := by
    show (((S.project false m6.rho.new dt m6.vel.fld.new m6.aux.gp).1, { m6.aux with gp := (S.project false m6.rho.new dt m6.vel.fld.new m6.aux.gp).2 }) : Ve ι K × Aux ι F K) = _
    rw [t1, t6, f5.gp, hc.project _ _ _ _ hb.grad]
  have fin : predict c o dt false it m = projection o false m6 := rfl
  have sc : ∀ i, theScal i (projection o false m6) = theScal i m3 := by
    intro i; unfold theScal
    show ((m6.scal)[i]?).getD _ = _
    rw [t5]; rfl
  have ln : (projection o false m6).scal.length = m3.scal.length := by
    show m6.scal.length = _
    rw [t5]; rfl
  rw [fin]
  refine ⟨⟨⟨?_, ?_, fun i hi => ?_, ?_⟩, ?_, ?_, fun i hi => ?_, fun hn i hi => ?_⟩, ?_⟩
  · unfold projection; rw [pr, t1]
  · show m6.rho = _
    rw [t4]; exact f5.rho
  · rw [sc]; rw [ln] at hi; exact f3.scal i hi
  · unfold projection; rw [pr]
  · exact t2
  · exact t3
  · rw [sc]; rw [ln] at hi; exact g3 i hi hi
  · rw [sc]; rw [ln] at hi; exact g1.quiet.diff hn i hi
  · rw [ln, g2, lc]

theorem correct_full (hc : Consistent S n IsG) (hb : Balanced S n IsG V r q G) {c : Cfg} (hd : c.densPde = false) (hg : c.godunov = false) {dt : K} (hdt : 0 ≤ dt)
    {m : M ι F K} (h : Done c V r q G m) : Full V r q G (correct S c dt m) ∧ (correct S c dt m).scal.length = m.scal.length := by
  set o := ops S c dt with ho
  have ng : ¬ c.godunov = true := by rw [hg]; decide
  have hq : Quiet c V r q G m := ⟨h.full, fun x => absurd x ng, fun x => absurd x ng, h.diff⟩
  have mu : o.mac .new m = { m.aux with u := through n V } := mac_uniform hc hq _
  set m1 := macVel o .new m with hm1
  have u1 : m1.aux.u = through n V := by rw [hm1]; unfold macVel; rw [mu]
  have f1 : Full V r q G m1 := ⟨h.full.vel, h.full.rho, h.full.scal, by rw [hm1]; unfold macVel; rw [mu]; exact h.full.gp⟩
  have cS : ∀ i < m.scal.length, advS S c .new i m1 = 0 := fun i hi => adv_zero hb f1 u1 _ hi fun x => absurd x ng
  have cV : advV S c .new m1 = 0 := advV_zero hc hb f1 u1 _ fun x => absurd x ng
  set m2 := viscosity o m1 with hm2
  have f2 : Full V r q G m2 := ⟨f1.vel, f1.rho, f1.scal, f1.gp⟩
  set dV := if c.kind = .explicit then o.diffV m2 else m2.vel.diff with hdV
  set dS := fun i => if c.kind = .explicit then o.diff i m2 else (theScal i m2).diff with hdS
  have dVz : c.kind = .explicit → dV = 0 := by
    intro hk
    rw [hdV, if_pos hk]
    show S.viscous m2.aux.mu m2.vel.fld.new = 0
    rw [f2.vel]; exact hc.viscous _ _
  have dSz : ∀ i < m.scal.length, c.kind = .explicit → dS i = 0 := by
    intro i hi hk
    simp only [hdS, if_pos hk]
    show S.conduct i (m2.aux.alpha i) (theScal i m2).fld.new = 0
    rw [f2.scal i hi]; exact hb.conduct i _
  have h3 : holdDensity c m2 = m2 := by
    unfold holdDensity
    rw [hd]
    simp only [Bool.false_eq_true, if_false]
    have e := f2.rho
    have : { m2.rho with nph := m2.rho.old } = m2.rho := by rw [e]
    rw [this]
  have c2 : Calm c n V r q G m2 := ⟨⟨f2, fun x => absurd x ng, fun x => absurd x ng, h.diff⟩, u1⟩
  have all := each_all (fun m' => (Calm c n V r q G m' ∧ m'.vel.conv = 0 ∧ m'.vel.diff = 0 ∧ (∀ i < m'.scal.length, (theScal i m').conv = 0)) ∧
      m'.scal.length = m.scal.length) (fun _ _ => True)
    (correctScal S c dt (fun i => advS S c .new i m1) dS) (fun i m' hm' => by
      obtain ⟨⟨a1, a2, a3, a4⟩, a5⟩ := hm'
      obtain ⟨b1, b2, b3⟩ := correct_calm (dt := dt) (conv := fun i => advS S c .new i m1) (diff := dS) hc hb hdt i a1 (a4 i) (fun hi => cS i (by omega))
        (fun hi hk => dSz i (by omega) hk)
      refine ⟨⟨⟨b2, by rw [b1.vel]; exact a2, by rw [b1.vel]; exact a3, fun j hj => ?_⟩, by rw [b1.len]; exact a5⟩, trivial, fun _ _ => trivial⟩
      rw [b1.len] at hj
      by_cases e : i = j
      · subst e; exact b3 hj
      · rw [b1.other j e]; exact a4 j hj) (fun i m' => by
      unfold correctScal
      dsimp only
      have a : ∀ m : M ι F K, (halfScal i (postSolve (ops S c dt) i m)).scal.length = m.scal.length := fun m => by
        rw [halfScal, at_len]; exact (only_post c dt i m).len
      rw [a]
      split_ifs <;> simp only [setNew, sourceScal, setSrc, at_len]) m2 ⟨⟨c2, h.vconv, h.vdiff, h.conv⟩, rfl⟩
  obtain ⟨⟨⟨g1, g2, g3, g4⟩, g5⟩, -, -⟩ := all
  have fin : correct S c dt m = correctVel S c dt (advV S c .new m1) dV (each (correctScal S c dt (fun i => advS S c .new i m1) dS) (holdDensity c m2)) := rfl
  rw [fin, h3, cV]
  set m3 := each (correctScal S c dt (fun i => advS S c .new i m1) dS) m2 with hm3
  have f3 := g1.quiet.full
  unfold correctVel
  dsimp only
  set m4 := sourceVel o .new m3 with hm4
  have s4 : m4.vel.src = 0 := src_zero hb f3 .new
  have new4 : (fun e : ι × Fin 3 => correctorRhs true c.kind dt ⟨m4.rho.old e.1, m4.rho.new e.1, 1, m4.vel.fld.old e, m4.vel.conv e, (0 : Ve ι K) e,
      m4.vel.src e, m4.vel.diff e, dV e, S.mask e.1⟩) = uniform V := by
    funext e
    have r4 : m4.rho = ⟨r, r, r⟩ := f3.rho
    have v4 : m4.vel.fld = ⟨uniform V, uniform V, uniform V⟩ := f3.vel
    have k4 : m4.vel.conv = 0 := g2
    have d4 : m4.vel.diff = 0 := g3
    rw [s4, r4, v4, k4, d4]
    exact crhs_same (hb.pos e.1) rfl rfl (fun _ => rfl) fun hk => by rw [dVz hk]; rfl
  rw [new4]
  have v4 : m4.vel.fld = ⟨uniform V, uniform V, uniform V⟩ := f3.vel
  have same : { m4 with vel := { m4.vel with fld := { m4.vel.fld with new := uniform V } } } = m4 := by
    have : { m4.vel.fld with new := uniform V } = m4.vel.fld := by rw [v4]
    rw [this]
  rw [same]
  have sv : o.solveV (dtDiff c.kind dt) m4 = uniform V := by
    show S.solveV m3.rho.new m3.aux.mu _ m3.vel.fld.new = uniform V
    rw [f3.rho, f3.vel]
    exact hc.solveV _ _ _ _ _ hb.pos (dtDiff_nonneg hdt) fun e => by rw [hc.viscous]; simp
  have same2 : (if c.kind ≠ .explicit then { m4 with vel := { m4.vel with fld := { m4.vel.fld with new := o.solveV (dtDiff c.kind dt) m4 } } } else m4) = m4 := by
    rw [sv, same]; split_ifs <;> rfl
  rw [← ho, same2]
  have pr : o.project false m4 = (uniform V, { m4.aux with gp := G }) := by
    show (((S.project false m3.rho.new dt m3.vel.fld.new m3.aux.gp).1, { m3.aux with gp := (S.project false m3.rho.new dt m3.vel.fld.new m3.aux.gp).2 }) : Ve ι K × Aux ι F K) = _
    rw [f3.vel, f3.gp, hc.project _ _ _ _ hb.grad]; rfl
  refine ⟨⟨?_, f3.rho, f3.scal, ?_⟩, g5⟩
  · unfold projection; rw [pr, v4]
  · unfold projection; rw [pr]

theorem prepare_full {c : Cfg} (hd : c.densPde = false) {dt : K} {m : M ι F K} (h : Holds V r q G m) :
    Full V r q G (prepare c (ops S c dt) m) ∧ (prepare c (ops S c dt) m).scal.length = m.scal.length := by
  have l : (prepare c (ops S c dt) m).scal.length = m.scal.length := by simp [prepare]
  refine ⟨⟨?_, ?_, fun i hi => ?_, ?_⟩, l⟩
  · simp only [prepare, h.vel]
  · simp only [prepare, hd, Bool.false_eq_true, if_false, h.rho]
  · rw [l] at hi
    have := h.scal i hi
    unfold theScal at this ⊢
    simp only [prepare, List.getElem?_map, List.getElem?_eq_getElem hi, Option.map_some, Option.getD_some] at this ⊢
    rw [this]
  · exact h.gp

theorem Full.holds {m : M ι F K} (h : Full V r q G m) : Holds V r q G m :=
  ⟨by rw [h.vel], by rw [h.rho], fun i hi => by rw [h.scal i hi], h.gp⟩

/-! ### C136 -/

/-- **C136**: a state in balance is kept by whole time steps, in all its values, for any number of steps of any lengths: with the Godunov scheme with
any number of iterations of each step, with the method of lines (predictor and corrector), for all kinds of diffusion, whatever viscosities the turbulence
model gives, and whatever the stored terms held before. -/
theorem balance_kept (hc : Consistent S n IsG) (hb : Balanced S n IsG V r q G) {c : Cfg} (hd : c.densPde = false) :
    ∀ (l : List (K × ℕ)) (m : M ι F K), (∀ x ∈ l, 0 ≤ x.1 ∧ (c.godunov = true ∨ x.2 ≤ 1)) → Holds V r q G m →
      ∃ m', run S c l m = some m' ∧ Holds V r q G m' ∧ m'.scal.length = m.scal.length := by
  -- one iteration
  have one : ∀ (dt : K) (it : ℕ) (m : M ι F K), 0 ≤ dt → (c.godunov = true ∨ it = 0) → (it = 0 → Holds V r q G m) → (it ≠ 0 → Full V r q G m) →
      ∃ m', doAdvance c (ops S c dt) (correct S c dt) false dt it m = some m' ∧ Full V r q G m' ∧ m'.scal.length = m.scal.length := by
    intro dt it m hdt hit h0 h1
    unfold doAdvance
    simp only [Bool.false_and, Bool.false_eq_true, if_false]
    unfold advance
    have hf : Full V r q G (if it = 0 then prepare c (ops S c dt) m else m) ∧ (if it = 0 then prepare c (ops S c dt) m else m).scal.length = m.scal.length := by
      split_ifs with e
      · exact prepare_full hd (h0 e)
      · exact ⟨h1 e, rfl⟩
    obtain ⟨p1, p2⟩ := predict_done (dt := dt) hc hb hd hdt it hf.1
    by_cases hg : c.godunov = true
    · exact ⟨_, by simp only [hg, if_true], p1.full, p2.trans hf.2⟩
    · have e := hit.resolve_left hg
      obtain ⟨k1, k2⟩ := correct_full hc hb hd (by simpa using hg) hdt p1
      subst e
      exact ⟨_, by simp only [hg, if_false, if_true]; rfl, k1, k2.trans (p2.trans hf.2)⟩
  -- iterations of one step
  have iters : ∀ (dt : K), 0 ≤ dt → ∀ (k : ℕ), (c.godunov = true ∨ k ≤ 1) → ∀ m : M ι F K, Holds V r q G m →
      ∃ m', step c (ops S c dt) (correct S c dt) false dt k m = some m' ∧ (k = 0 → m' = m) ∧ (k ≠ 0 → Full V r q G m') ∧ m'.scal.length = m.scal.length := by
    intro dt hdt k
    induction k with
    | zero => intro _ m _; exact ⟨m, rfl, fun _ => rfl, fun h => absurd rfl h, rfl⟩
    | succ k ih =>
      intro hk m hm
      obtain ⟨m1, e1, e2, e3, e4⟩ := ih (hk.imp id fun h => by omega) m hm
      obtain ⟨m2, d1, d2, d3⟩ := one dt k m1 hdt (hk.imp id fun h => by omega) (fun h => by rw [e2 h]; exact hm) e3
      refine ⟨m2, ?_, fun h => absurd h (Nat.succ_ne_zero k), fun _ => d2, d3.trans e4⟩
      unfold step at e1 ⊢
      rw [List.range_succ, List.foldlM_append, e1]
      simp [d1]
  intro l
  induction l with
  | nil => intro m _ hm; exact ⟨m, rfl, hm, rfl⟩
  | cons x l ih =>
    obtain ⟨dt, k⟩ := x
    intro m hl hm
    obtain ⟨h1, h2⟩ := hl (dt, k) (List.mem_cons_self ..)
    obtain ⟨m1, e1, e2, e3, e4⟩ := iters dt h1 k h2 m hm
    have hm1 : Holds V r q G m1 := by
      by_cases hk : k = 0
      · rw [e2 hk]; exact hm
      · exact (e3 hk).holds
    obtain ⟨m', r1, r2, r3⟩ := ih m1 (fun x hx => hl x (List.mem_cons_of_mem _ hx)) hm1
    exact ⟨m', by unfold run; rw [e1]; exact r1, r2, r3.trans e4⟩

/-- **C136**: a uniform flow with uniform density and uniform scalars is in balance if its acceleration is balanced by a pressure gradient: without
forces, or with Coriolis force and the geostrophic pressure gradient. -/
theorem uniform_balanced (hc : Consistent S n IsG) {ρ : K} (hρ : 0 < ρ) {Q : ℕ → K} (hf : ∀ e, ρ * S.accel (uniform V) e = G e) (hG : IsG G)
    (hcd : ∀ k a, S.conduct k a (fun _ => Q k) = 0) (hh : ∀ k, S.heat k (fun _ => Q k) = 0) :
    Balanced S n IsG V (fun _ => ρ) (fun k _ => Q k) G := by
  have z : ∀ i, ∑ f, S.s i f * through n V f = 0 := by
    intro i
    unfold through
    calc ∑ f, S.s i f * ∑ d, n f d * V d = ∑ d, (∑ f, S.s i f * n f d) * V d := by
          simp only [Finset.mul_sum, Finset.sum_mul]
          rw [Finset.sum_comm]
          exact Finset.sum_congr rfl fun d _ => Finset.sum_congr rfl fun f _ => by ring
      _ = 0 := by simp [hc.closed]
  have y : ∀ (i : ι) (a : K), ∑ f, S.s i f * (through n V f * S.face (through n V) 0 (fun _ => a) f) = 0 := by
    intro i a
    rw [hc.face]
    calc ∑ f, S.s i f * (through n V f * a) = (∑ f, S.s i f * through n V f) * a := by
          rw [Finset.sum_mul]; exact Finset.sum_congr rfl fun f _ => by ring
      _ = 0 := by rw [z, zero_mul]
  exact ⟨fun _ => hρ, hf, hG, fun d i => y i _, fun k i => y i _, hcd, hh⟩

/-- **C136**: a fluid at rest is in balance, with any density (stratified, or water under air) and any scalars without conduction, if its weight is a
discrete pressure gradient. -/
theorem rest_balanced (hr : ∀ x, 0 < r x) (hf : ∀ e, r e.1 * S.accel (uniform fun _ => 0) e = G e) (hG : IsG G)
    (hcd : ∀ k a, S.conduct k a (q k) = 0) (hh : ∀ k, S.heat k (q k) = 0) : Balanced S n IsG (fun _ => 0) r q G := by
  have z : ∀ f, through n (fun _ => (0 : K)) f = 0 := fun f => by simp [through]
  exact ⟨hr, hf, hG, fun d i => Finset.sum_eq_zero fun f _ => by rw [z]; ring, fun k i => Finset.sum_eq_zero fun f _ => by rw [z]; ring, hcd, hh⟩

end step

/-! ### A row of three periodic cells, inviscid, with rotation -/

/-- Upwind values, mean of the neighbours at the faces, projections by the mean, Coriolis force about the vertical. -/
def row : Scheme (Fin 3) (Fin 3) ℚ where
  s i f := if f = i + 1 then 1 else if f = i then -1 else 0
  face u g q f := if u f < 0 then q f else q (f - 1)
  extrap v g f := (v (f, 0) + v (f - 1, 0)) / 2 + (g (f, 0) + g (f - 1, 0)) / 4
  mac _ u := fun _ => (u 0 + u 1 + u 2) / 3
  viscous _ _ := 0
  conduct _ _ _ := 0
  solveV _ _ _ f := f
  solve _ _ _ _ f := f
  project _ _ _ v g := (fun e => if e.2 = 0 then (v (0, 0) + v (1, 0) + v (2, 0)) / 3 else v e, g)
  accel v e := if e.2 = 0 then v (e.1, 1) else if e.2 = 1 then -v (e.1, 0) else -10
  heat _ _ := 0
  visc _ := (fun _ => 1, fun _ _ => 0)
  mask _ := 1

/-- Faces normal to the row. -/
def rowN : Fin 3 → Fin 3 → ℚ := fun _ d => if d = 0 then 1 else 0

theorem row_consistent : Consistent row rowN (fun _ => True) where
  face u c := by funext f; simp [row]
  extrap V := by funext f; simp [row, uniform, through, rowN]
  closed i d := by fin_cases i <;> fin_cases d <;> decide +kernel
  mac r u h := by
    have a := h 0
    have b := h 1
    have e1 : u 1 = u 0 := by
      have : ∑ f, row.s 0 f * u f = u 1 - u 0 := by rw [Fin.sum_univ_three]; simp [row]; ring
      linarith
    have e2 : u 2 = u 1 := by
      have : ∑ f, row.s 1 f * u f = u 2 - u 1 := by rw [Fin.sum_univ_three]; simp [row]; ring
      linarith
    funext f
    show (u 0 + u 1 + u 2) / 3 = u f
    fin_cases f
    · show _ = u 0; rw [e2, e1]; ring
    · show _ = u 1; rw [e2, e1]; ring
    · show _ = u 2; rw [e2, e1]; ring
  viscous _ _ := rfl
  solveV r mu τ f g hr _ h := by
    funext e
    have := h e
    simp only [row, Pi.zero_apply, mul_zero, sub_zero] at this
    exact (mul_left_cancel₀ (hr e.1).ne' this).symm
  solve i r a τ f g hr _ h := by
    funext x
    have := h x
    simp only [row, Pi.zero_apply, mul_zero, sub_zero] at this
    exact (mul_left_cancel₀ (hr x).ne' this).symm
  project r dt V G _ := by
    refine Prod.ext ?_ rfl
    funext e
    show (if e.2 = 0 then (V 0 + V 0 + V 0) / 3 else V e.2) = V e.2
    split_ifs with h
    · rw [h]; ring
    · rfl

/-- A geostrophic wind with density two and one scalar. -/
def wind : Fin 3 → ℚ := ![8, 3, 0]
def windG : Ve (Fin 3) ℚ := fun e => ![6, -16, -20] e.2

theorem wind_balanced : Balanced row rowN (fun _ => True) wind (fun _ => 2) (fun _ _ => 290) windG :=
  uniform_balanced row_consistent (by norm_num) (by
    rintro ⟨i, d⟩
    fin_cases d <;> simp [row, uniform, wind, windG] <;> norm_num) trivial (fun _ _ => rfl) fun _ => rfl

/-- Memory at the start of the run: left-over old values and terms. -/
def rowStart : M (Fin 3) (Fin 3) ℚ where
  vel := ⟨⟨fun _ => 7, fun _ => 5, uniform wind⟩, fun _ => 1, fun _ => 2, fun _ => 3⟩
  rho := ⟨fun _ => 9, fun _ => 9, fun _ => 2⟩
  scal := [⟨⟨fun _ => 4, fun _ => 4, fun _ => 290⟩, fun _ => 1, fun _ => 2, fun _ => 3⟩]
  aux := ⟨fun _ => 6, windG, fun _ => 0, fun _ _ => 0⟩

example : ∃ m', run row ⟨true, .explicit, false⟩ [(1 / 10, 2), (1 / 5, 1)] rowStart = some m' ∧ Holds wind (fun _ => 2) (fun _ _ => 290) windG m' ∧
    m'.scal.length = 1 :=
  balance_kept row_consistent wind_balanced rfl _ _ (by simp) ⟨rfl, rfl, fun i hi => by
    have : i = 0 := by simp [rowStart] at hi; exact hi
    subst this; rfl, rfl⟩

/-- With another pressure gradient the wind does change: the hypothesis on the forces matters. -/
example : ∃ m', run row ⟨true, .explicit, false⟩ [(1 / 10, 1)] { rowStart with aux := { rowStart.aux with gp := fun _ => 0 } } = some m' ∧
    m'.vel.fld.new (0, 1) ≠ 3 := by
  refine ⟨_, rfl, ?_⟩
  decide +kernel

/-- Water below air at rest in the same cells: any density is kept. -/
example : Balanced row rowN (fun _ => True) (fun _ => 0) (![1000, 1, 500]) (fun _ => ![1, 2, 3]) (fun e => if e.2 = 2 then -10 * ![1000, 1, 500] e.1 else 0) :=
  rest_balanced (by intro x; fin_cases x <;> simp) (by
    rintro ⟨i, d⟩
    fin_cases i <;> fin_cases d <;> simp [row, uniform] <;> norm_num) trivial (fun _ _ => rfl) fun _ => rfl

end AmrWind.Steady
