import Mathlib.Tactic.NormNum
import Verif.Config.SolverModel

/-!
# Theorems on the options of the linear solvers
-/

namespace AmrWind.Solver

theorem mem_all (k : Opt) : k ∈ Opt.all := by cases k <;> decide

theorem all_nodup : Opt.all.Nodup := by decide

theorem key_inj {a b : Opt} (h : a.key = b.key) : a = b := by
  revert a b; intro a b
  cases a <;> cases b <;> first | (intro; rfl) | (intro h; exact absurd h (by decide))

theorem fold_outside (q : String → Option Val) (pre : String) (k : Opt) : ∀ (l : List Opt) (o : Opt → Val), k ∉ l →
    l.foldl (fun o k => match q (pre ++ "." ++ k.key) with
      | some v => Function.update o k v
      | none => o) o k = o k := by
  intro l
  induction l with
  | nil => intro o _; rfl
  | cons x t ih =>
    intro o h
    rw [List.foldl_cons, ih _ (fun hh => h (List.mem_cons_of_mem _ hh))]
    have hx : k ≠ x := fun e => h (e ▸ List.mem_cons_self ..)
    cases q (pre ++ "." ++ x.key) with
    | none => rfl
    | some v => exact Function.update_of_ne hx _ _

theorem fold_inside (q : String → Option Val) (pre : String) (k : Opt) : ∀ (l : List Opt) (o : Opt → Val), l.Nodup → k ∈ l →
    l.foldl (fun o k => match q (pre ++ "." ++ k.key) with
      | some v => Function.update o k v
      | none => o) o k = (q (pre ++ "." ++ k.key)).getD (o k) := by
  intro l
  induction l with
  | nil => intro o _ h; exact absurd h (by simp)
  | cons x t ih =>
    intro o hn h
    rw [List.foldl_cons]
    obtain ⟨h1, h2⟩ := List.nodup_cons.mp hn
    by_cases hx : k = x
    · subst hx
      rw [fold_outside q pre k t _ h1]
      cases q (pre ++ "." ++ k.key) with
      | none => rfl
      | some v => exact Function.update_self ..
    · have hm : k ∈ t := by
        rcases List.mem_cons.mp h with e | e
        · exact absurd e hx
        · exact e
      rw [ih _ h2 hm]
      cases q (pre ++ "." ++ x.key) with
      | none => rfl
      | some v => dsimp only; rw [Function.update_of_ne hx]

theorem parse_spec (q : String → Option Val) (pre : String) (o : Opt → Val) (k : Opt) :
    parseOptions q pre o k = (q (pre ++ "." ++ k.key)).getD (o k) := fold_inside q pre k _ o all_nodup (mem_all k)

/-- C125. **The options of a field override those of diffusion, which override the defaults.** For every option, and for the two
projections likewise with their own prefix; only the interface to hypre of the nodal projection is fixed. -/
theorem options_layered (q : String → Option Val) (lp : Opt → Val) (k : Opt) :
    (∀ f, kindOptions q lp (.diffusion f) k =
      match q ((f ++ "_" ++ "diffusion") ++ "." ++ k.key), q ("diffusion" ++ "." ++ k.key) with
      | some v, _ => v
      | none, some v => v
      | none, none => defaults lp k) ∧
    kindOptions q lp .mac k = (q ("mac_proj" ++ "." ++ k.key)).getD (defaults lp k) ∧
    (k ≠ .hypreInterface → kindOptions q lp .nodal k = (q ("nodal_proj" ++ "." ++ k.key)).getD (defaults lp k)) := by
  refine ⟨fun f => ?_, parse_spec q _ _ k, fun h => ?_⟩
  · show parseOptions q _ (parseOptions q _ _) k = _
    rw [parse_spec, parse_spec]
    cases q ((f ++ "_" ++ "diffusion") ++ "." ++ k.key) <;> cases q ("diffusion" ++ "." ++ k.key) <;> rfl
  · show Function.update _ _ _ k = _
    rw [Function.update_of_ne h]
    exact parse_spec q _ _ k

/-- The names the code compares the bottom solver with. -/
def known : List Val := [.str "smoother", .str "bicg", .str "cg", .str "bicgcg", .str "cgbicg", .str "hypre"]

theorem apply_common (hypre : Bool) (o : Opt → Val) (m s : Mlmg) (h : apply hypre o m = some s) :
    s.verbose = o .verbose ∧ s.maxIter = o .maxIter ∧ s.maxFmgIter = o .maxFmgIters ∧
    s.fixedIter = (if o .doFixedIters = .bool true then some (o .maxIter) else m.fixedIter) ∧
    s.nSolve = o .doNsolve ∧ s.nSolveGridSize = o .nsolveGridSize ∧ s.preSmooth = o .numPreSmooth ∧
    s.postSmooth = o .numPostSmooth ∧ s.finalSmooth = o .numFinalSmooth ∧ s.bottomSmooth = o .numBottomSmooth ∧
    s.bottomVerbose = o .bottomVerbose ∧ s.bottomTolerance = o .bottomRelTol ∧ s.bottomToleranceAbs = o .bottomAbsTol ∧
    s.bottomMaxIter = m.bottomMaxIter := by
  unfold apply at h
  by_cases hf : o .doFixedIters = .bool true <;> simp only [hf, if_true, if_false] at h ⊢ <;>
    (revert h; split_ifs <;> intro h <;>
      first
        | (cases h; exact ⟨rfl, rfl, rfl, rfl, rfl, rfl, rfl, rfl, rfl, rfl, rfl, rfl, rfl, rfl⟩)
        | (cases hi : interfaceOf (o .hypreInterface) with
           | none => rw [hi] at h; cases h
           | some i => rw [hi] at h; cases h; exact ⟨rfl, rfl, rfl, rfl, rfl, rfl, rfl, rfl, rfl, rfl, rfl, rfl, rfl, rfl⟩)
        | cases h)

/-- C125. **Every option reaches its solve, but for two.** A solve that is set up runs with the resolved value of each setting of the
solver, the tolerances and the operator; a fixed number of iterations is asked for exactly if the option says so.

Partial (C125). Missing: the options that are never handed over (`bottom_maxiter_ignored`, `mac_order_ignored`). -/
theorem settings_reach_partial (hypre : Bool) (q : String → Option Val) (lp : Opt → Val) (order : Val) (m : Mlmg) (hm : m.fixedIter = none)
    (k : Kind) (s : Setup) (h : setup hypre q lp order m k = some s) :
    let o := kindOptions q lp k
    s.relTol = o .relTol ∧ s.absTol = o .absTol ∧ s.operator = o ∧ (∀ f, k = .diffusion f → s.maxOrder = some (o .maxOrder)) ∧
    s.mlmg.verbose = o .verbose ∧ s.mlmg.maxIter = o .maxIter ∧ s.mlmg.maxFmgIter = o .maxFmgIters ∧
    s.mlmg.fixedIter = (if o .doFixedIters = .bool true then some (o .maxIter) else none) ∧
    s.mlmg.nSolve = o .doNsolve ∧ s.mlmg.nSolveGridSize = o .nsolveGridSize ∧ s.mlmg.preSmooth = o .numPreSmooth ∧
    s.mlmg.postSmooth = o .numPostSmooth ∧ s.mlmg.finalSmooth = o .numFinalSmooth ∧ s.mlmg.bottomSmooth = o .numBottomSmooth ∧
    s.mlmg.bottomVerbose = o .bottomVerbose ∧ s.mlmg.bottomTolerance = o .bottomRelTol ∧
    s.mlmg.bottomToleranceAbs = o .bottomAbsTol := by
  unfold setup at h
  dsimp only at h
  cases ha : apply hypre (kindOptions q lp k) m with
  | none => rw [ha] at h; cases h
  | some a =>
    rw [ha] at h
    cases h
    obtain ⟨h1, h2, h3, h4, h5, h6, h7, h8, h9, h10, h11, h12, h13, _⟩ := apply_common hypre _ m a ha
    rw [hm] at h4
    exact ⟨rfl, rfl, rfl, fun f hf => by subst hf; rfl, h1, h2, h3, h4, h5, h6, h7, h8, h9, h10, h11, h12, h13⟩

/-- C125. **The bottom solver is the one named.** The five built-in names and, where the program has it, hypre with a valid interface;
a wrong interface, or hypre in a program without it, stops the program. -/
theorem bottom_named (hypre : Bool) (o : Opt → Val) (m : Mlmg) :
    (∀ n, n ∈ ["smoother", "cg", "bicgcg", "cgbicg"] → o .bottomSolver = .str n → ∃ s, apply hypre o m = some s ∧ s.bottomSolver = n) ∧
    (o .bottomSolver = .str "bicg" → ∃ s, apply hypre o m = some s ∧ s.bottomSolver = "bicgstab") ∧
    (o .bottomSolver = .str "hypre" →
      (hypre = false → apply hypre o m = none) ∧
      (hypre = true → (apply hypre o m = none ↔
        o .hypreInterface ≠ .str "ij" ∧ o .hypreInterface ≠ .str "semi_structured" ∧ o .hypreInterface ≠ .str "structured")) ∧
      ∀ s, apply hypre o m = some s → s.bottomSolver = "hypre" ∧ s.hypreNamespace = o .hypreNamespace) := by
  refine ⟨fun n hn h => ?_, fun h => ?_, fun h => ⟨fun hf => ?_, fun hf => ?_, fun s hs => ?_⟩⟩
  · simp only [List.mem_cons, List.not_mem_nil, or_false] at hn
    rcases hn with rfl | rfl | rfl | rfl <;> · unfold apply; simp [h]
  · unfold apply; simp [h]
  · unfold apply; simp [h, hf]
  · unfold apply interfaceOf; simp only [h, hf]; simp; split_ifs <;> simp_all
  · unfold apply at hs
    simp only [h] at hs
    cases hypre with
    | false => simp at hs
    | true =>
      cases hi : interfaceOf (o .hypreInterface) with
      | none => simp [hi] at hs
      | some i => simp [hi] at hs; subst hs; exact ⟨rfl, rfl⟩

/-- C125. **A name that is not known is accepted in silence** and the solver keeps the one the library starts with. The documented
"petsc" is such a name, and so is "bicgstab", the default. -/
theorem unknown_solver_silent (hypre : Bool) (o : Opt → Val) (m : Mlmg) (h : o .bottomSolver ∉ known) :
    ∃ s, apply hypre o m = some s ∧ s.bottomSolver = m.bottomSolver := by
  simp only [known, List.mem_cons, List.not_mem_nil, or_false, not_or] at h
  obtain ⟨h1, h2, h3, h4, h5, h6⟩ := h
  unfold apply
  simp only [h1, h2, h3, h4, h5, h6, if_false]
  by_cases hf : o .doFixedIters = .bool true
  · simp only [hf, if_true]; exact ⟨_, rfl, rfl⟩
  · simp only [hf, if_false]; exact ⟨_, rfl, rfl⟩

example : Val.str "petsc" ∉ known ∧ Val.str "bicgstab" ∉ known := by decide

/-- C125. **The largest number of iterations of the bottom solver is ignored.** It is documented and read, and no solve depends on
it. -/
theorem bottom_maxiter_ignored (hypre : Bool) (q : String → Option Val) (lp : Opt → Val) (order : Val) (m : Mlmg) (k : Kind) (s : Setup)
    (h : setup hypre q lp order m k = some s) : s.mlmg.bottomMaxIter = m.bottomMaxIter := by
  unfold setup at h
  dsimp only at h
  cases ha : apply hypre (kindOptions q lp k) m with
  | none => rw [ha] at h; cases h
  | some a =>
    rw [ha] at h
    cases h
    exact (apply_common hypre _ m a ha).2.2.2.2.2.2.2.2.2.2.2.2.2

/-- C125. **The projection of the faces ignores the order of its boundary stencil**, which is documented for it: it keeps the
library's. -/
theorem mac_order_ignored (hypre : Bool) (q : String → Option Val) (lp : Opt → Val) (order : Val) (m : Mlmg) (s : Setup)
    (h : setup hypre q lp order m .mac = some s) : s.maxOrder = some order := by
  unfold setup at h
  dsimp only at h
  cases ha : apply hypre (kindOptions q lp .mac) m with
  | none => rw [ha] at h; cases h
  | some a => rw [ha] at h; cases h; rfl

/-- C125. **The nodal projection always uses the `ij` interface** and never stops the program for another one. -/
theorem nodal_interface (q : String → Option Val) (lp : Opt → Val) (order : Val) (m : Mlmg) :
    kindOptions q lp .nodal .hypreInterface = .str "ij" ∧ ∃ s, setup true q lp order m .nodal = some s ∧
      (kindOptions q lp .nodal .bottomSolver = .str "hypre" → s.mlmg.hypreInterface = "ij") := by
  have hi : kindOptions q lp .nodal .hypreInterface = .str "ij" := by
    unfold kindOptions
    exact Function.update_self ..
  refine ⟨hi, ?_⟩
  have key : ∃ s, apply true (kindOptions q lp .nodal) m = some s ∧
      (kindOptions q lp .nodal .bottomSolver = .str "hypre" → s.hypreInterface = "ij") := by
    by_cases h : kindOptions q lp .nodal .bottomSolver = .str "hypre"
    · unfold apply interfaceOf
      simp [h, hi]
    · cases ha : apply true (kindOptions q lp .nodal) m with
      | some s => exact ⟨s, rfl, fun hh => absurd hh h⟩
      | none =>
        exfalso
        revert ha
        unfold apply
        dsimp only
        split_ifs <;> simp_all
  obtain ⟨s, h1, h2⟩ := key
  refine ⟨{ mlmg := s, relTol := kindOptions q lp .nodal .relTol, absTol := kindOptions q lp .nodal .absTol,
            operator := kindOptions q lp .nodal, maxOrder := none }, ?_, h2⟩
  unfold setup
  dsimp only
  rw [h1]
  rfl

/-- C125. **The defaults are not the documented ones.** The manual has an absolute tolerance of -1 for the bottom solver, which turns
the test off; it is positive and on. The other tolerances are 2.2 times the ones of the manual. -/
theorem default_tolerances (lp : Opt → Val) : ∃ a b c d : ℚ, defaults lp .bottomAbsTol = .num a ∧ defaults lp .bottomRelTol = .num b ∧
    defaults lp .relTol = .num c ∧ defaults lp .absTol = .num d ∧ 0 < a ∧ 2 / 10 ^ 4 < b ∧ b < 23 / 10 ^ 5 ∧
    2 / 10 ^ 11 < c ∧ c < 23 / 10 ^ 12 ∧ 2 / 10 ^ 14 < d ∧ d < 23 / 10 ^ 15 :=
  ⟨_, _, _, _, rfl, rfl, rfl, rfl, by norm_num [epsilon], by norm_num [epsilon], by norm_num [epsilon], by norm_num [epsilon],
    by norm_num [epsilon], by norm_num [epsilon], by norm_num [epsilon]⟩

/-- Inputs with a default and an override for temperature. -/
def exInputs : String → Option Val := fun s =>
  if s = "diffusion.mg_rtol" then some (.num (1 / 1000)) else if s = "temperature_diffusion.mg_rtol" then some (.num (1 / 10)) else
  if s = "mac_proj.bottom_solver" then some (.str "petsc") else if s = "nodal_proj.do_fixed_iters" then some (.bool false) else none

/-- A solver as the library makes it. -/
def exMlmg : Mlmg := ⟨.num 0, .num 200, .num 0, none, .bool false, .num 32, .num 2, .num 2, .num 8, .num 0, .num 0, .num (1 / 10000),
  .num (-1), .num 200, "bicgstab", .str "hypre", "ij"⟩

example : (setup false exInputs (fun _ => .num 7) (.num 3) exMlmg (.diffusion "temperature")).map (fun s => (s.relTol, s.maxOrder)) =
    some (.num (1 / 10), some (.num 2)) := by decide +kernel
example : (setup false exInputs (fun _ => .num 7) (.num 3) exMlmg (.diffusion "velocity")).map (fun s => (s.relTol, s.mlmg.fixedIter)) =
    some (.num (1 / 1000), some (.num 200)) := by decide +kernel
example : (setup false exInputs (fun _ => .num 7) (.num 3) exMlmg .mac).map (fun s => (s.mlmg.bottomSolver, s.maxOrder)) =
    some ("bicgstab", some (.num 3)) := by decide +kernel
example : (setup false exInputs (fun _ => .num 7) (.num 3) exMlmg .nodal).map (fun s => s.mlmg.fixedIter) = some none := by
  decide +kernel

end AmrWind.Solver
