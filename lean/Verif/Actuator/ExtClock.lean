import Mathlib.Tactic.Linarith
import Mathlib.Tactic.Ring
import Mathlib.Tactic.FieldSimp
import Mathlib.Tactic.NormNum
import Verif.Actuator.ExtModel
/-!
# C114: the solver of a turbine advances with the flow, and a run can be continued
-/

set_option linter.unusedSectionVars false

namespace AmrWind.Ext

variable {V : Type*}

/-! ## Step sizes -/

section clock
variable {K : Type*} [Field K] [LinearOrder K] [IsStrictOrderedRing K] [FloorRing K]

/-- An accepted number of substeps: the solver's steps fit into a step of the flow, and what is left is at most `tol` of their length. -/
theorem substeps_spec (tol dtCfd dtExt : K) (he : 0 < dtExt) (n : ℕ) (h : substeps tol dtCfd dtExt = some n) :
    0 < n ∧ n * dtExt ≤ dtCfd ∧ dtCfd ≤ (1 + tol) * (n * dtExt) := by
  unfold substeps at h
  dsimp only at h
  by_cases h0 : ⌊dtCfd / dtExt⌋ > 0
  · rw [if_pos h0] at h
    by_cases h1 : dtCfd / ((⌊dtCfd / dtExt⌋ : K) * dtExt) - 1 > tol
    · rw [if_pos h1] at h; simp at h
    · rw [if_neg h1] at h
      simp only [Option.some.injEq] at h
      have hn : ((n : ℤ) : ℤ) = ⌊dtCfd / dtExt⌋ := by rw [← h]; exact Int.toNat_of_nonneg h0.le
      have hK : (n : K) = (⌊dtCfd / dtExt⌋ : K) := by rw [← hn]; simp
      have hpos : 0 < n := by omega
      have hp : (0 : K) < n := by exact_mod_cast hpos
      refine ⟨hpos, ?_, ?_⟩
      · rw [hK]
        have := Int.floor_le (dtCfd / dtExt)
        rwa [le_div_iff₀ he] at this
      · rw [← hK] at h1
        push Not at h1
        have : dtCfd / (n * dtExt) ≤ 1 + tol := by linarith
        rwa [div_le_iff₀ (mul_pos hp he)] at this
  · rw [if_neg h0] at h; simp at h

/-- Steps of the flow that are a multiple of those of the solver are accepted. -/
theorem substeps_multiple (tol dtExt : K) (he : 0 < dtExt) (ht : 0 ≤ tol) (n : ℕ) (hn : 0 < n) : substeps tol (n * dtExt) dtExt = some n := by
  have e : (n : K) * dtExt / dtExt = n := by field_simp
  have hf : ⌊(n : K) * dtExt / dtExt⌋ = (n : ℤ) := by rw [e]; exact Int.floor_natCast n
  have hp : (0 : K) < n := by exact_mod_cast hn
  unfold substeps
  rw [hf]
  have h0 : (n : ℤ) > 0 := by omega
  simp only [h0, if_true]
  have e1 : (n : K) * dtExt / (((n : ℤ) : K) * dtExt) - 1 = 0 := by
    simp only [Int.cast_natCast]
    rw [div_self (mul_pos hp he).ne', sub_self]
  rw [e1, if_neg (not_lt.mpr ht)]
  simp

/-- Counterexample: the tolerance is for one side only. A step of the flow that is less than a multiple, by however little, is refused if the multiple
is at most a hundred. -/
theorem substeps_just_below (tol dtCfd dtExt : K) (he : 0 < dtExt) (ht : tol ≤ 1 / 10000) (n : ℕ) (hn : n ≤ 100) (h0 : n * dtExt * (199 / 200) < dtCfd)
    (h1 : dtCfd < n * dtExt) : substeps tol dtCfd dtExt = none ∨ n = 0 := by
  by_contra hc
  push Not at hc
  obtain ⟨h, hn0⟩ := hc
  obtain ⟨m, hm⟩ := Option.ne_none_iff_exists'.mp h
  obtain ⟨hpos, h2, h3⟩ := substeps_spec tol dtCfd dtExt he m hm
  have hlt : (m : K) * dtExt < n * dtExt := lt_of_le_of_lt h2 h1
  have hmn : (m : K) < n := lt_of_mul_lt_mul_right hlt he.le
  have hmn' : m + 1 ≤ n := by exact_mod_cast hmn
  have hmn'' : (m : K) + 1 ≤ n := by exact_mod_cast hmn'
  have hp : (0 : K) < m := by exact_mod_cast hpos
  have hn' : (n : K) ≤ 100 := by exact_mod_cast hn
  have hm0 : (1 + tol) * (m * dtExt) ≤ (1 + 1 / 10000) * (m * dtExt) := mul_le_mul_of_nonneg_right (by linarith) (mul_pos hp he).le
  have h4 : (n : K) * (199 / 200) * dtExt < (1 + 1 / 10000) * m * dtExt := by nlinarith
  have h5 : (n : K) * (199 / 200) < (1 + 1 / 10000) * m := lt_of_mul_lt_mul_right h4 he.le
  linarith

/-- 0.3 in steps of 0.1 is accepted, 0.2999999 is not. -/
example : substeps (1 / 10 ^ 12) (3 / 10 : ℚ) (1 / 10) = some 3 ∧ substeps (1 / 10 ^ 12) (2999999 / 10000000 : ℚ) (1 / 10) = none := by
  decide +kernel

end clock

/-! ## Calls -/

/-- The calls of steps with the velocities `vs`. -/
def stepsOf (N : ℕ) (vs : List V) : List (Call V) := vs.flatMap fun u => List.replicate N (.step u)

theorem run_after (N : ℕ) (ci : ℤ) (s : Iface V) (hf : s.fresh = false) (vs : List V) :
    (run N ci s vs).calls = s.calls ++ stepsOf N vs ∧ (run N ci s vs).index = s.index + N * vs.length ∧
      (run N ci s vs).file = s.file ++ vs ∧ (run N ci s vs).fresh = false := by
  unfold run
  induction vs generalizing s with
  | nil => simp [stepsOf, hf]
  | cons v l ih =>
    rw [List.foldl_cons]
    have hw : (work N ci s v).fresh = false := by simp [work, extStep, hf, advance]
    obtain ⟨h1, h2, h3, h4⟩ := ih (work N ci s v) hw
    refine ⟨?_, ?_, ?_, h4⟩
    · rw [h1]
      simp [work, extStep, hf, advance, stepsOf, List.append_assoc]
    · rw [h2]
      simp only [work, extStep, hf, advance, Bool.false_eq_true, if_false, List.length_cons]
      ring
    · rw [h3]
      simp [work, extStep, hf, advance, List.append_assoc]

/-- A fresh run: the solver is started with the velocities at the start, then makes `N` steps with the velocities of every step; these are
recorded. -/
theorem fresh_run (N : ℕ) (ci : ℤ) (v v0 : V) (file : Option (List V)) (vs : List V) :
    let s := run N ci (startInit v file) (v0 :: vs)
    s.calls = .solution0 v0 :: stepsOf N vs ∧ s.index = N * vs.length ∧ s.file = file.getD [] ++ vs := by
  have e : run N ci (startInit v file) (v0 :: vs) = run N ci (work N ci (startInit v file) v0) vs := rfl
  dsimp only
  rw [e]
  obtain ⟨h1, h2, h3, -⟩ := run_after N ci (work N ci (startInit v file) v0) (by simp [work, extStep, startInit]) vs
  refine ⟨?_, ?_, ?_⟩
  · rw [h1]; simp [work, extStep, startInit]
  · rw [h2]; simp [work, extStep, startInit]
  · rw [h3]; simp [work, extStep, startInit]

section clock
variable {K : Type*} [Field K] [LinearOrder K] [IsStrictOrderedRing K] [FloorRing K]

/-- The clocks agree: after any number of steps of a fresh run, the time of the solver is not after that of the flow, and behind by at most `tol` of it. -/
theorem clocks_agree (tol dtCfd dtExt : K) (he : 0 < dtExt) (N : ℕ) (h : substeps tol dtCfd dtExt = some N) (ci : ℤ) (v v0 : V) (file : Option (List V))
    (vs : List V) :
    let t := ((run N ci (startInit v file) (v0 :: vs)).index : K) * dtExt
    t ≤ vs.length * dtCfd ∧ vs.length * dtCfd ≤ (1 + tol) * t := by
  obtain ⟨-, h1, h2⟩ := substeps_spec tol dtCfd dtExt he N h
  have hi := (fresh_run N ci v v0 file vs).2.1
  dsimp only at hi ⊢
  rw [hi]
  push_cast
  have hl : (0 : K) ≤ vs.length := Nat.cast_nonneg _
  constructor
  · calc (N : K) * vs.length * dtExt = vs.length * (N * dtExt) := by ring
      _ ≤ vs.length * dtCfd := mul_le_mul_of_nonneg_left h1 hl
  · calc (vs.length : K) * dtCfd ≤ vs.length * ((1 + tol) * (N * dtExt)) := mul_le_mul_of_nonneg_left h2 hl
      _ = (1 + tol) * (N * vs.length * dtExt) := by ring

end clock

example : (run 2 0 (startInit 0 none) [5, 6, 7]).calls = [Call.solution0 5, .step 6, .step 6, .step 7, .step 7] ∧
    (run 2 0 (startInit 0 none) [5, 6, 7]).file = [6, 7] := by decide

/-! ## Continuing with a checkpoint of the solver -/

/-- A run continued from a checkpoint of the solver after `k` steps of the flow: the solver is restored, asked for its initial solution with the velocities
found, and its step index goes on. -/
theorem restart_run (N : ℕ) (ci : ℤ) (v v0 : V) (k : ℕ) (file : Option (List V)) (vs : List V) :
    let s := run N ci (startRestart v (N * k) file) (v0 :: vs)
    s.calls = .restore :: .solution0 v0 :: stepsOf N vs ∧ s.index = N * (k + vs.length) := by
  have e : run N ci (startRestart v (N * k) file) (v0 :: vs) = run N ci (work N ci (startRestart v (N * k) file) v0) vs := rfl
  dsimp only
  rw [e]
  obtain ⟨h1, h2, -, -⟩ := run_after N ci (work N ci (startRestart v (N * k) file) v0) (by simp [work, extStep, startRestart]) vs
  refine ⟨?_, ?_⟩
  · rw [h1]; simp [work, extStep, startRestart]
  · rw [h2]; simp [work, extStep, startRestart, mul_add]

/-- Steps of a run at which a checkpoint of the solver is written, as numbers of steps of the flow since step index 0 of the solver. -/
def chkSteps (N : ℕ) (s : Iface V) : List ℕ := s.chk.map (· / N)

theorem run_chk (N : ℕ) (hN : 0 < N) (ci : ℤ) (hci : 0 < ci) (k : ℕ) (s : Iface V) (hf : s.fresh = false) (hi : s.index = N * k) (vs : List V) (j : ℕ) :
    j ∈ chkSteps N (run N ci s vs) ↔ j ∈ chkSteps N s ∨ (k < j ∧ j ≤ k + vs.length ∧ ci ∣ (j : ℤ)) := by
  unfold run
  induction vs generalizing s k with
  | nil =>
    simp only [List.foldl_nil, List.length_nil, add_zero]
    constructor
    · exact Or.inl
    · rintro (h | ⟨h1, h2, -⟩)
      · exact h
      · omega
  | cons v l ih =>
    rw [List.foldl_cons]
    have hw : (work N ci s v).fresh = false := by simp [work, extStep, hf, advance]
    have hx : (work N ci s v).index = N * (k + 1) := by simp [work, extStep, hf, advance, hi, mul_add]
    rw [ih (k + 1) (work N ci s v) hw hx]
    have hq : (N * k + N) / N = k + 1 := by
      rw [show N * k + N = N * (k + 1) by ring]; exact Nat.mul_div_cancel_left _ hN
    have hd : (((k + 1 : ℕ) : ℤ).tmod ci = 0) ↔ ci ∣ ((k + 1 : ℕ) : ℤ) :=
      ⟨fun e => Int.dvd_of_tmod_eq_zero e, fun e => Int.tmod_eq_zero_of_dvd e⟩
    have hc : j ∈ chkSteps N (work N ci s v) ↔ j ∈ chkSteps N s ∨ (j = k + 1 ∧ ci ∣ ((k + 1 : ℕ) : ℤ)) := by
      unfold chkSteps
      simp only [work, extStep, hf, advance, Bool.false_eq_true, if_false, hi, hq]
      by_cases hh : ci ∣ ((k + 1 : ℕ) : ℤ)
      · rw [if_pos ⟨hci, hd.mpr hh⟩]
        simp only [List.map_append, List.map_cons, List.map_nil, List.mem_append, List.mem_singleton, hq, hh, and_true]
      · rw [if_neg (fun h => hh (hd.mp h.2))]
        exact ⟨Or.inl, fun h => h.elim id fun h => absurd h.2 hh⟩
    rw [hc, List.length_cons]
    constructor
    · rintro ((h | ⟨h, h'⟩) | ⟨h1, h2, h3⟩)
      · exact Or.inl h
      · exact Or.inr ⟨by omega, by omega, by rw [h]; exact h'⟩
      · exact Or.inr ⟨by omega, by omega, h3⟩
    · rintro (h | ⟨h1, h2, h3⟩)
      · exact Or.inl (Or.inl h)
      · rcases Nat.eq_or_lt_of_le h1 with e | e
        · exact Or.inl (Or.inr ⟨e.symm, by rw [show k + 1 = j from e]; exact h3⟩)
        · exact Or.inr ⟨by omega, by omega, h3⟩

/-- In a run that starts flow and turbine together (at step `m` of the flow), for every checkpoint of the flow by number of steps there is one of the solver
in the same step.

Partial (C114). Missing: checkpoints at other intervals, see the refutations of C114. -/
theorem checkpoint_pairs_partial (N : ℕ) (hN : 0 < N) (ci delay : ℤ) (v v0 : V) (m : ℤ) (file : Option (List V)) (vs : List V) (j : ℕ) (hj : 0 < j)
    (hl : j ≤ vs.length) (h : SimTime.stepDue ci delay m (m + j) = true) :
    j ∈ chkSteps N (run N ci (startInit v file) (v0 :: vs)) := by
  unfold SimTime.stepDue at h
  simp only [decide_eq_true_eq] at h
  obtain ⟨hci, -, hm⟩ := h
  have e : run N ci (startInit v file) (v0 :: vs) = run N ci (work N ci (startInit v file) v0) vs := rfl
  rw [e, run_chk N hN ci hci 0 _ (by simp [work, extStep, startInit]) (by simp [work, extStep, startInit])]
  right
  refine ⟨hj, by omega, ?_⟩
  have := Int.dvd_of_tmod_eq_zero hm
  simpa using this

/-- Counterexample: a run of the flow continued at step 50 with checkpoints every 100 steps, the solver continued as well: the flow's checkpoint is at step 150, the
solver's at step 100 (after 50 steps), and none at the same step. -/
theorem checkpoint_unpaired (N : ℕ) (hN : 0 < N) (v v0 : V) (vs : List V) (hl : vs.length = 100) :
    SimTime.stepDue 100 0 50 150 = true ∧ SimTime.stepDue 100 0 50 100 = false ∧
      100 ∈ chkSteps N (run N 100 (startRestart v (N * 50) none) (v0 :: vs)) ∧
      150 ∉ chkSteps N (run N 100 (startRestart v (N * 50) none) (v0 :: vs)) := by
  have e : run N 100 (startRestart v (N * 50) none) (v0 :: vs) = run N 100 (work N 100 (startRestart v (N * 50) none) v0) vs := rfl
  have h := fun j => run_chk N hN 100 (by norm_num) 50 (work N 100 (startRestart v (N * 50) none) v0) (by simp [work, extStep, startRestart])
    (by simp [work, extStep, startRestart]) vs j
  have h0 : chkSteps N (work N 100 (startRestart v (N * 50) none) v0) = [] := by simp [work, extStep, startRestart, chkSteps]
  refine ⟨by decide, by decide, ?_, ?_⟩
  · rw [e, h, hl]; right; refine ⟨by norm_num, by norm_num, by norm_num⟩
  · rw [e, h, hl, h0]
    rintro (hh | ⟨-, -, hh⟩)
    · simp at hh
    · norm_num at hh

/-- Counterexample: with checkpoints of the flow by time (the interval in steps is then not positive), the solver writes none. -/
theorem checkpoint_by_time (N : ℕ) (ci : ℤ) (hci : ci ≤ 0) (s : Iface V) (vs : List V) : (run N ci s vs).chk = s.chk := by
  unfold run
  induction vs generalizing s with
  | nil => rfl
  | cons v l ih =>
    rw [List.foldl_cons, ih]
    unfold work extStep advance
    dsimp only
    split_ifs with h1 h2
    · rfl
    · omega
    · rfl

/-! ## Continuing by replay -/

/-- A replay drives the solver with the records of the file: the initial solution with the first record, then `n` steps of the flow. -/
theorem replay_calls (N n : ℕ) (hN : 0 < N) (v : V) (l : List V) (hn : n ≤ (v :: l).length) :
    ∃ s, startReplay N (n * N) (some (v :: l)) = some s ∧ s.calls = .solution0 v :: stepsOf N ((v :: l).take n) ∧ s.index = n * N ∧ s.fresh = false ∧
      s.file = v :: l := by
  unfold startReplay
  dsimp only
  rw [Nat.mul_div_cancel _ hN, if_pos hn, if_pos rfl]
  exact ⟨_, rfl, rfl, rfl, rfl, rfl⟩

/-- After a replay the buffer holds the velocities of the last record replayed (of the first one when none is). -/
theorem replay_velocity (N n : ℕ) (hN : 0 < N) (v : V) (l : List V) (hn : n ≤ (v :: l).length) (s : Iface V)
    (hs : startReplay N (n * N) (some (v :: l)) = some s) : (n = 0 → s.vel = v) ∧ ∀ k, n = k + 1 → (v :: l)[k]? = some s.vel := by
  unfold startReplay at hs
  dsimp only at hs
  rw [Nat.mul_div_cancel _ hN, if_pos hn, if_pos rfl] at hs
  cases hs
  refine ⟨?_, ?_⟩
  · rintro rfl; rfl
  · rintro k rfl
    dsimp only
    have hk : k < (v :: l).length := hn
    have ht : (v :: l).take (k + 1) = (v :: l).take k ++ [(v :: l)[k]] := by
      rw [List.take_add_one, List.getElem?_eq_getElem hk]; rfl
    rw [ht, List.getElem?_eq_getElem hk, List.getLastD_eq_getLast?, List.getLast?_append_of_ne_nil _ (by simp)]
    rfl

/-- A replay that is refused: no file, too few records, or a start time that is no multiple of the step of the flow. -/
theorem replay_refused (N k : ℕ) (hN : 0 < N) (l : List V) : startReplay N k (some l) = none ↔ l = [] ∨ l.length < k / N ∨ ¬ N ∣ k := by
  unfold startReplay
  dsimp only
  have hd : k / N * N = k ↔ N ∣ k := ⟨fun e => ⟨k / N, by rw [mul_comm]; exact e.symm⟩, fun h => Nat.div_mul_cancel h⟩
  by_cases h1 : l.length ≥ k / N
  · rw [if_pos h1]
    cases l with
    | nil => simp
    | cons v l =>
      by_cases h2 : k / N * N = k
      · simp only [h2, if_true]
        simpa [hd.mp h2] using h1
      · have h3 : ¬ N ∣ k := fun h => h2 (hd.mpr h)
        simp [h2, h3]
  · rw [if_neg h1]
    simp [not_le.mp h1]

/-- A recorded run of `n` steps, replayed: the calls are those of the run but for the velocities of the initial solution, which are those of the first
step. -/
theorem replay_of_run (N : ℕ) (hN : 0 < N) (ci : ℤ) (v v0 v1 : V) (vs : List V) :
    let r := run N ci (startInit v none) (v0 :: v1 :: vs)
    ∃ s, startReplay N r.index (some r.file) = some s ∧ s.index = r.index ∧ s.calls = .solution0 v1 :: stepsOf N (v1 :: vs) ∧
      r.calls = .solution0 v0 :: stepsOf N (v1 :: vs) := by
  obtain ⟨h1, h2, h3⟩ := fresh_run N ci v v0 none (v1 :: vs)
  dsimp only at h1 h2 h3 ⊢
  obtain ⟨s, hs, hc, hi, -, -⟩ := replay_calls N (v1 :: vs).length hN v1 vs (le_refl _)
  refine ⟨s, ?_, ?_, ?_, h1⟩
  · rw [h2, h3, mul_comm]; simpa using hs
  · rw [hi, h2, mul_comm]
  · rw [hc, List.take_length]

/-- Counterexample: the initial solution of a replay is not that of the run if the velocities at the start differ from those of the first step. -/
theorem replay_start_differs (N : ℕ) (hN : 0 < N) (ci : ℤ) (v v0 v1 : V) (hv : v0 ≠ v1) (vs : List V) :
    let r := run N ci (startInit v none) (v0 :: v1 :: vs)
    ∃ s, startReplay N r.index (some r.file) = some s ∧ s.calls ≠ r.calls := by
  obtain ⟨s, hs, -, hc, hr⟩ := replay_of_run N hN ci v v0 v1 vs
  refine ⟨s, hs, ?_⟩
  rw [hc, hr]
  intro h
  simp only [List.cons.injEq, Call.solution0.injEq, and_true] at h
  exact hv h.symm

/-- Counterexample: after a replay to step `n` and `k` steps of the flow, the solver has made the steps of `n + k + 1` steps: the call at the start of the run
already advances it. -/
theorem replay_one_step_ahead (N n : ℕ) (hN : 0 < N) (ci : ℤ) (v : V) (l : List V) (hn : n ≤ (v :: l).length) (w0 : V) (ws : List V) :
    ∃ s, startReplay N (n * N) (some (v :: l)) = some s ∧ (run N ci s (w0 :: ws)).index = (n + ws.length + 1) * N ∧
      (run N ci s (w0 :: ws)).calls = .solution0 v :: stepsOf N ((v :: l).take n ++ w0 :: ws) := by
  obtain ⟨s, hs, hc, hi, hf, -⟩ := replay_calls N n hN v l hn
  obtain ⟨h1, h2, -, -⟩ := run_after N ci s hf (w0 :: ws)
  refine ⟨s, hs, ?_, ?_⟩
  · rw [h2, hi, List.length_cons]; ring
  · rw [h1, hc]; simp [stepsOf]

example : (startReplay 2 4 (some [6, 7])).map (fun s => (run 2 0 s [8, 9]).index) = some 8 := by decide

/-- Counterexample: records are appended to a file that is found. A fresh run in the place of an older one with at least `n` records: a replay of `n` of its steps
uses the velocities of the older run. -/
theorem replay_uses_older_run (N n : ℕ) (hN : 0 < N) (ci : ℤ) (v v0 : V) (a : V) (old vs : List V) (hn : n ≤ (a :: old).length) :
    let r := run N ci (startInit v (some (a :: old))) (v0 :: vs)
    ∃ s, startReplay N (n * N) (some r.file) = some s ∧ s.calls = .solution0 a :: stepsOf N ((a :: old).take n) := by
  obtain ⟨-, -, h3⟩ := fresh_run N ci v v0 (some (a :: old)) vs
  dsimp only at h3 ⊢
  rw [h3]
  simp only [Option.getD_some, List.cons_append]
  obtain ⟨s, hs, hc, -⟩ := replay_calls N n hN a (old ++ vs) (by simp only [List.length_cons, List.length_append] at hn ⊢; omega)
  refine ⟨s, hs, ?_⟩
  rw [hc]
  congr 2
  rw [← List.cons_append, List.take_append_of_le_length hn]

/-- As above for the records of a replayed run: they follow those it has replayed and all that were after them. -/
theorem replay_appends (N n : ℕ) (hN : 0 < N) (ci : ℤ) (v : V) (l : List V) (hn : n ≤ (v :: l).length) (ws : List V) :
    ∃ s, startReplay N (n * N) (some (v :: l)) = some s ∧ (run N ci s ws).file = v :: l ++ ws := by
  obtain ⟨s, hs, -, -, hf, hfile⟩ := replay_calls N n hN v l hn
  exact ⟨s, hs, by rw [(run_after N ci s hf ws).2.2.1, hfile]⟩

/-! ## Duration -/

section clock
variable {K : Type*} [Field K] [LinearOrder K] [IsStrictOrderedRing K] [FloorRing K]

/-- If the time of the flow is its step number times its step, an accepted turbine is simulated as long as the flow, up to 1e-6: either the stop time of the flow
is within reach of the solver, or the time of its last step.

Partial (C114). Missing: replayed turbines, which run one step ahead (`replay_one_step_ahead`). -/
theorem duration_covered_partial (big stopTime : K) (stopIndex : ℤ) (dt cur fastStart fastStop : K) (h : simTimeOk big stopTime stopIndex dt cur fastStart fastStop = true)
    (hb : fastStop - fastStart ≤ big - cur - 1 / 1000000) :
    (0 < stopTime ∧ stopTime - cur < fastStop - fastStart + 1 / 1000000) ∨
      (0 ≤ stopIndex ∧ stopIndex * dt - cur < fastStop - fastStart + 1 / 1000000) := by
  unfold simTimeOk at h
  simp only [gt_iff_lt, decide_eq_true_eq] at h
  by_cases h1 : 0 < stopTime
  · rw [if_pos h1] at h
    by_cases h2 : -1 < stopIndex
    · rw [if_pos h2] at h
      rcases le_total stopTime (stopIndex * dt) with hle | hle
      · rw [min_eq_left hle] at h; left; exact ⟨h1, by linarith⟩
      · rw [min_eq_right hle] at h; right; exact ⟨by omega, by linarith⟩
    · rw [if_neg h2] at h
      rcases le_total stopTime big with hle | hle
      · rw [min_eq_left hle] at h; left; exact ⟨h1, by linarith⟩
      · rw [min_eq_right hle] at h; linarith
  · rw [if_neg h1] at h
    by_cases h2 : -1 < stopIndex
    · rw [if_pos h2] at h
      rcases le_total big (stopIndex * dt) with hle | hle
      · rw [min_eq_left hle] at h; linarith
      · rw [min_eq_right hle] at h; right; exact ⟨by omega, by linarith⟩
    · rw [if_neg h2, min_self] at h; linarith

example : simTimeOk (10 ^ 30 : ℚ) 100 (-1) (1 / 10) 0 0 100 = true ∧ simTimeOk (10 ^ 30 : ℚ) 100 (-1) (1 / 10) 0 0 50 = false := by decide +kernel

/-- Counterexample: a run continued at time 100 after 100 steps of size 1, with steps of size 1/10 up to step 300: it lasts 20, but a turbine with a duration of one hundredth
is accepted. -/
theorem duration_not_covered : simTimeOk (10 ^ 30 : ℚ) (-1) 300 (1 / 10) 100 0 (1 / 100) = true ∧ (300 - 100 : ℚ) * (1 / 10) = 20 := by
  constructor
  · decide +kernel
  · norm_num

end clock

end AmrWind.Ext
