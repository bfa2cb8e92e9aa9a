import Verif.PostProc.Model
import Verif.SimTime.Parse
import Verif.SimTime.OutputProps

/-! # Properties of output configuration and of post-processing output (C12, C13, C52) -/

set_option linter.unusedSectionVars false

namespace AmrWind.SimTime

variable {K : Type*} [Field K] [LinearOrder K] [IsStrictOrderedRing K] [FloorRing K]

/-! ## C13, time manager -/

/-- What the user's output settings must satisfy (specification of "valid"): for plots and for
checkpoints not both kinds of interval, no enforcement without a time interval, and no enforcement
with a fixed step. -/
def ValidOutput (c : Cfg K) : Prop :=
  ¬ (0 < c.pltInterval ∧ 0 < c.pltTInterval) ∧ ¬ (0 < c.chkptInterval ∧ 0 < c.chkptTInterval) ∧
  (c.forcePltDt = true → 0 < c.pltTInterval) ∧ (c.forceChkptDt = true → 0 < c.chkptTInterval) ∧
  (0 < c.fixedDt → c.forcePltDt = false ∧ c.forceChkptDt = false)

/-- **C13.** Parsing accepts exactly the valid settings. -/
theorem parse_accepts_iff_valid (c : Cfg K) (st : Int × Int × Int × K × K) (h0 : c.adaptive = false) :
    (∃ r, parseParameters c st = .ok r) ↔ ValidOutput c := by
  unfold parseParameters ValidOutput
  constructor
  · rintro ⟨r, h⟩
    simp only at h
    by_cases a : 0 < c.pltInterval ∧ 0 < c.pltTInterval
    · rw [if_pos a] at h; simp at h
    rw [if_neg a] at h
    by_cases b : 0 < c.chkptInterval ∧ 0 < c.chkptTInterval
    · rw [if_pos b] at h; simp at h
    rw [if_neg b] at h
    by_cases d : c.pltTInterval ≤ 0 ∧ c.forcePltDt = true
    · rw [if_pos d] at h; simp at h
    rw [if_neg d] at h
    by_cases e : c.chkptTInterval ≤ 0 ∧ c.forceChkptDt = true
    · rw [if_pos e] at h; simp at h
    rw [if_neg e] at h
    by_cases f : (if 0 < c.fixedDt then c.adaptive else true) = false ∧
        (c.forcePltDt = true ∨ c.forceChkptDt = true)
    · rw [if_pos f] at h; simp at h
    rw [if_neg f] at h
    refine ⟨a, b, fun hh => ?_, fun hh => ?_, fun hh => ?_⟩
    · by_contra hc; exact d ⟨not_lt.mp hc, hh⟩
    · by_contra hc; exact e ⟨not_lt.mp hc, hh⟩
    · simp only [hh, if_true, h0, true_and, not_or, Bool.not_eq_true] at f
      exact f
  · rintro ⟨a, b, d, e, f⟩
    simp only
    rw [if_neg a, if_neg b, if_neg (fun hh => absurd (d hh.2) (not_lt.mpr hh.1)),
      if_neg (fun hh => absurd (e hh.2) (not_lt.mpr hh.1)), if_neg]
    · exact ⟨_, rfl⟩
    rintro ⟨h1, h2⟩
    by_cases hf : 0 < c.fixedDt
    · obtain ⟨h3, h4⟩ := f hf
      rw [h3, h4] at h2
      simp at h2
    · simp [hf] at h1

/-- **C13.** In an accepted configuration the step mode is decided by `fixed_dt` alone, enforcement
implies adaptive stepping with a positive interval, and the first step history is `-1`/`fixed_dt`. -/
theorem parse_result (c c' : Cfg K) (st : Int × Int × Int × K × K) (s' : State K)
    (h0 : c.adaptive = false) (h : parseParameters c st = .ok (c', s')) :
    (c'.adaptive = true ↔ c.fixedDt ≤ 0) ∧
    (c'.forcePltDt = true → c'.adaptive = true ∧ 0 < c'.pltTInterval) ∧
    (c'.forceChkptDt = true → c'.adaptive = true ∧ 0 < c'.chkptTInterval) ∧
    s'.dt0 = (if 0 < c.fixedDt then c.fixedDt else -1) ∧ s'.newTime = 0 ∧ s'.timeIndex = 0 := by
  obtain ⟨a, b, d, e, f⟩ := (parse_accepts_iff_valid c st h0).mp ⟨_, h⟩
  unfold parseParameters at h
  simp only at h
  by_cases a' : 0 < c.pltInterval ∧ 0 < c.pltTInterval
  · rw [if_pos a'] at h; simp at h
  rw [if_neg a'] at h
  by_cases b' : 0 < c.chkptInterval ∧ 0 < c.chkptTInterval
  · rw [if_pos b'] at h; simp at h
  rw [if_neg b'] at h
  by_cases d' : c.pltTInterval ≤ 0 ∧ c.forcePltDt = true
  · rw [if_pos d'] at h; simp at h
  rw [if_neg d'] at h
  by_cases e' : c.chkptTInterval ≤ 0 ∧ c.forceChkptDt = true
  · rw [if_pos e'] at h; simp at h
  rw [if_neg e'] at h
  by_cases f' : (if 0 < c.fixedDt then c.adaptive else true) = false ∧
      (c.forcePltDt = true ∨ c.forceChkptDt = true)
  · rw [if_pos f'] at h; simp at h
  rw [if_neg f'] at h
  simp only [Except.ok.injEq, Prod.mk.injEq] at h
  obtain ⟨h1, h2⟩ := h
  have ha : c'.adaptive = (if 0 < c.fixedDt then c.adaptive else true) := by rw [← h1]; rfl
  have hp : c'.forcePltDt = c.forcePltDt := by rw [← h1]; rfl
  have hk : c'.forceChkptDt = c.forceChkptDt := by rw [← h1]; rfl
  have hpi : c'.pltTInterval = c.pltTInterval := by rw [← h1]; rfl
  have hki : c'.chkptTInterval = c.chkptTInterval := by rw [← h1]; rfl
  have hmode : c'.adaptive = true ↔ c.fixedDt ≤ 0 := by
    rw [ha]
    by_cases hf : 0 < c.fixedDt
    · simp [hf, h0]
    · simp only [hf, if_false, true_iff]; exact not_lt.mp hf
  refine ⟨hmode, ?_, ?_, by rw [← h2], by rw [← h2], by rw [← h2]⟩
  · rw [hp, hpi]
    intro hh
    refine ⟨hmode.mpr (not_lt.mp fun hf => ?_), d hh⟩
    rw [(f hf).1] at hh; simp at hh
  · rw [hk, hki]
    intro hh
    refine ⟨hmode.mpr (not_lt.mp fun hf => ?_), e hh⟩
    rw [(f hf).2] at hh; simp at hh

/-- The demo settings are accepted. -/
example : ValidOutput { demoCfg with adaptive := false, forceDtAbsTol := 100000000 } := by
  unfold ValidOutput; simp [demoCfg]

/-- The minimum tolerance is at most each enforced tolerance. -/
theorem minPostTol_le (ps : List (PostDt K)) (t : K) : minPostTol ps t ≤ t := by
  induction ps generalizing t with
  | nil => exact le_rfl
  | cons p ps ih =>
    unfold minPostTol
    refine (ih _).trans ?_
    split
    · exact min_le_left _ _
    · exact le_rfl

theorem minPostTol_le_mem (ps : List (PostDt K)) (t : K) (p : PostDt K) (hp : p ∈ ps)
    (he : p.enforce = true) : minPostTol ps t ≤ p.tol * p.interval := by
  induction ps generalizing t with
  | nil => simp at hp
  | cons q ps ih =>
    unfold minPostTol
    rcases List.mem_cons.mp hp with rfl | hp
    · rw [if_pos he]
      exact (minPostTol_le _ _).trans (min_le_right _ _)
    · exact ih _ hp

/-- **C13.** After `calculate_minimum_enforce_dt_abs_tol` the absolute tolerance is at most the
tolerance of every enforced interval. -/
theorem min_tol_le_enforced (c : Cfg K) (I d tol : K) (h : Enforced c I d tol) :
    (calcMinEnforceTol c).forceDtAbsTol ≤ tol * I := by
  unfold calcMinEnforceTol
  simp only
  cases h with
  | plot h =>
    refine (minPostTol_le _ _).trans ?_
    rw [if_pos h]
    exact min_le_right _ _
  | chkpt h =>
    refine (minPostTol_le _ _).trans ?_
    rw [if_pos h]
    split
    · exact (min_le_left _ _).trans (min_le_right _ _)
    · exact min_le_right _ _
  | post p hp h => exact minPostTol_le_mem _ _ p hp h

example : Enforced demoCfg 1 0 (1/1000) := Enforced.plot (c := demoCfg) rfl

end AmrWind.SimTime

namespace AmrWind.PostProc

open AmrWind.SimTime

variable {K : Type*} [Field K] [LinearOrder K] [IsStrictOrderedRing K] [FloorRing K]

/-! ## C13, post-processing -/

/-- **C13.** An accepted post-processing configuration has exactly one of a positive step interval and
a positive time interval, and enforcement implies the latter. -/
theorem accepted_one_kind (p : PostIn K) (r : PostCfg K) (h : populate p = .ok r) :
    ((0 < r.interval ∧ ¬ 0 < r.timeInterval) ∨ (¬ 0 < r.interval ∧ 0 < r.timeInterval)) ∧
    (r.enforce = true → 0 < r.timeInterval) := by
  have hneg : ¬ (0 < (-1 : K)) := by linarith [zero_lt_one (α := K)]
  unfold populate at h
  rcases hi : p.interval with _ | iv <;> rcases hf : p.frequency with _ | fv <;>
    rcases ht : p.timeInterval with _ | tv <;>
    simp [hi, hf, ht] at h <;> grind

theorem isErr_ite {ε α : Type*} (p : Prop) [Decidable p] (a : ε) (x : Except ε α) :
    (∃ e, (if p then .error a else x) = .error e) ↔ p ∨ ∃ e, x = .error e := by
  by_cases h : p <;> simp [h]

theorem isErr_ok {ε α : Type*} (a : α) : (∃ e : ε, (Except.ok a : Except ε α) = .error e) ↔ False := by
  simp

/-- **C13.** Exactly which inputs are rejected. -/
theorem post_rejected_iff (p : PostIn K) :
    (∃ e, populate p = .error e) ↔
      let n : Option Int := p.interval.orElse fun _ => p.frequency
      let validTime : Prop := ∃ I, p.timeInterval = some I ∧ 0 < I
      (p.fromRestart = some true ∧ (p.start.isSome ∨ p.startTime.isSome)) ∨
      ((∃ i, n = some i ∧ i ≤ 0) ∧ ¬ validTime) ∨
      ((∃ i, n = some i ∧ 0 < i) ∧ validTime) ∨
      (p.enforce = some true ∧ ¬ validTime) := by
  unfold populate
  simp only [isErr_ite, isErr_ok]
  rcases hi : p.interval with _ | iv <;> rcases hf : p.frequency with _ | fv <;>
    rcases ht : p.timeInterval with _ | tv <;> rcases hr : p.fromRestart with _ | rv <;>
    rcases he : p.enforce with _ | ev <;>
    simp [hi, hf, ht, hr, he] <;> grind

/-- An accepted, non-default input. -/
example : populate (K := ℚ) ⟨none, none, some (1/2), none, none, some true, none, none, some true, none,
    some true⟩ = .ok ⟨-1, 1/2, 0, 0, true, -1, -1, 1/100, 1/1000, true, true⟩ := by
  simp [populate]

/-! ## C12 -/

/-- **C12.** When output happens: step-based at multiples of the interval after the delay; time-based
when a target time `t₀ + k I` lies in the window `(t - dt + tol, t + tol]`. -/
theorem output_now_iff (p : PostCfg K) (n n0 : Int) (t t0 dt tol : K) :
    doOutputNow p n n0 t t0 dt tol = true ↔
      (0 < p.interval ∧ p.delay ≤ n ∧ p.interval ∣ n - ntime0 p n0) ∨
      (0 < p.timeInterval ∧ p.timeDelay ≤ t + min tol (p.timeTol * dt) ∧
        ∃ k : ℤ, t - dt + min tol (p.timeTol * dt) < time0 p t0 + k * p.timeInterval ∧
          time0 p t0 + k * p.timeInterval ≤ t + min tol (p.timeTol * dt)) := by
  unfold doOutputNow
  simp only [Bool.or_eq_true, decide_eq_true_eq, Int.dvd_iff_tmod_eq_zero]
  apply or_congr
  · constructor <;> rintro ⟨a, b, d⟩ <;> exact ⟨a, by omega, d⟩
  · set τ := min tol (p.timeTol * dt)
    have key : 0 < p.timeInterval → ((t - time0 p t0 + τ - (⌊(t - time0 p t0 + τ) / p.timeInterval⌋ : K)
        * p.timeInterval < dt) ↔ fracDue p.timeInterval (time0 p t0) t dt τ) := by
      intro hI
      unfold fracDue
      set x := (t - time0 p t0 + τ) / p.timeInterval with hx
      have hxI : t - time0 p t0 + τ = x * p.timeInterval := by rw [hx]; field_simp
      rw [hxI, ← sub_mul, lt_div_iff₀ hI]
    constructor
    · rintro ⟨a, b, d⟩
      exact ⟨a, by linarith, (fracDue_iff_window _ _ _ _ _ a).mp ((key a).mp d)⟩
    · rintro ⟨a, b, d⟩
      exact ⟨a, by linarith, (key a).mpr ((fracDue_iff_window _ _ _ _ _ a).mpr d)⟩

/-- The counting origin: an explicit `output_start` wins, then the restart index if
`output_from_restart`, else 0. -/
theorem origin_spec (p : PostCfg K) (n0 : Int) :
    ntime0 p n0 = if 0 ≤ p.startIndex then p.startIndex else if p.fromRestart = true then n0 else 0 := rfl

/-- **C12.** In a run with at least one step no index is output twice, and with
`output_after_final_step` a run that stops normally outputs its final index. -/
theorem post_output_once_and_final (N : Num K) (c : Cfg K) (p : PostCfg K) (s0 s : State K)
    (is : List (CflIn K)) (h0 : s0.timeIndex = s.timeIndex) (hne : trace N c s is ≠ []) :
    (outputIndices N c p s0 s is).Nodup ∧
    (∀ t, p.doFinal = true → evolve N c s is = .stopped t →
      t.timeIndex ∈ outputIndices N c p s0 s is) := by
  have hnd := trace_indices_nodup N c s is
  have hgt : ∀ t ∈ trace N c s is, s0.timeIndex < t.timeIndex := by
    intro t ht
    have : t.timeIndex ∈ (trace N c s is).map (·.timeIndex) := List.mem_map_of_mem ht
    rw [trace_indices] at this
    obtain ⟨i, _, hi⟩ := List.mem_map.mp this
    omega
  have hfin : ∀ t, evolve N c s is = .stopped t → ∃ l ∈ trace N c s is,
      outputNow c p l = outputNow c p t ∧ t.timeIndex = l.timeIndex := by
    intro t hstop
    have ht := evolve_stopped_last hstop
    obtain ⟨l, hl⟩ : ∃ l, (trace N c s is).getLast? = some l := by
      rw [← Option.isSome_iff_exists, List.getLast?_isSome]; exact hne
    rw [hl] at ht
    simp only [Option.getD_some] at ht
    exact ⟨l, List.mem_of_getLast? hl, by rw [ht]; rfl, by rw [ht]⟩
  have hsub : (((trace N c s is).filter (fun t => outputNow c p t)).map (·.timeIndex)).Nodup :=
    hnd.sublist (List.Sublist.map _ List.filter_sublist)
  have hfirst : ((if outputNow c p s0 then [s0.timeIndex] else []) ++
      ((trace N c s is).filter (fun t => outputNow c p t)).map (·.timeIndex)).Nodup := by
    rw [List.nodup_append]
    refine ⟨by split <;> simp, hsub, ?_⟩
    intro a ha b hb hab
    have ha' : a = s0.timeIndex := by
      split at ha
      · simpa using ha
      · simp at ha
    obtain ⟨u, hu, rfl⟩ := List.mem_map.mp hb
    have := hgt u (List.mem_filter.mp hu).1
    omega
  constructor
  · unfold outputIndices
    rw [List.nodup_append]
    refine ⟨hfirst, ?_, ?_⟩
    · split
      · split <;> simp
      · simp
    · intro a ha b hb hab
      subst hab
      split at hb
      · rename_i t hstop
        split at hb
        · rename_i hcond
          simp only [List.mem_singleton] at hb
          subst hb
          obtain ⟨l, hl, hw, hidx⟩ := hfin t hstop
          rcases List.mem_append.mp ha with ha | ha
          · have ha' : t.timeIndex = s0.timeIndex := by
              split at ha
              · simpa using ha
              · simp at ha
            have := hgt l hl
            omega
          · obtain ⟨u, hu, hue⟩ := List.mem_map.mp ha
            obtain ⟨hu1, hu2⟩ := List.mem_filter.mp hu
            have : u = l := List.inj_on_of_nodup_map hnd hu1 hl (by rw [hue, hidx])
            subst this
            rw [hw] at hu2
            simp [hu2] at hcond
        · simp at hb
      · simp at hb
  · intro t hdo hstop
    obtain ⟨l, hl, hw, hidx⟩ := hfin t hstop
    unfold outputIndices
    rw [hstop, hdo]
    by_cases ho : outputNow c p t = true
    · apply List.mem_append_left
      apply List.mem_append_right
      rw [hidx]
      exact List.mem_map.mpr ⟨l, List.mem_filter.mpr ⟨hl, by rw [hw]; exact ho⟩, rfl⟩
    · apply List.mem_append_right
      simp [ho]

/-- Example object: every 3 steps, final output on. -/
def demoPost : PostCfg ℚ := ⟨3, -1, 0, 0, false, -1, -1, 1/100, 1/1000, false, true⟩

example : outputIndices demoNum { demoCfg with stopIndex := 7, stopTime := -1 } demoPost freshState
    freshState (List.replicate 8 ⟨4,0,0⟩) = [0, 3, 6, 7] := by decide +kernel

/-! ## C52 -/

/-- **C52 fails.** Time-based output of the initial state depends on the step mode: with the same
schedule (start time 0, no delay, minimum tolerance positive) the initial state is output when the step
is fixed and is not output when the step is adaptive, because `post_init_actions` runs before the first
step is computed and the step is still `-1`. -/
theorem initial_output_depends_on_step_mode (c : Cfg K) (p : PostCfg K) (s : State K)
    (hI : 0 < p.timeInterval) (hint : p.interval ≤ 0) (htol : p.timeTol = 1 / 100)
    (hf : 0 ≤ c.forceDtAbsTol) (hst : ¬ (-(1/2) < p.startTime)) (hr : p.fromRestart = false)
    (hd : p.timeDelay = 0) (ht : s.newTime = 0) :
    outputNow c p { s with dt0 := -1 } = false ∧
    ∀ dt, 0 < dt → outputNow c p { s with dt0 := dt } = true := by
  have h0 : time0 p s.startTime = 0 := by unfold time0; rw [if_neg hst, hr]; rfl
  constructor
  · unfold outputNow
    rw [← Bool.not_eq_true, output_now_iff]
    rintro (⟨h, _⟩ | ⟨_, _, k, h1, h2⟩)
    · omega
    · simp only at h1 h2
      linarith
  · intro dt hdt
    unfold outputNow
    rw [output_now_iff]
    right
    simp only [h0, ht, hd]
    have a : 0 ≤ min c.forceDtAbsTol (p.timeTol * dt) := le_min hf (by rw [htol]; positivity)
    have b : min c.forceDtAbsTol (p.timeTol * dt) < dt :=
      lt_of_le_of_lt (min_le_right _ _) (by rw [htol]; linarith)
    exact ⟨hI, by linarith, 0, by push_cast; linarith, by push_cast; linarith⟩

/-- Consequence: a zero-step adaptive run (`max_step = 0`) with initial pressure iterations and
`output_after_final_step` writes nothing at all, although the final output was asked for. -/
theorem zero_step_run_writes_nothing :
    ∃ (c : Cfg ℚ) (p : PostCfg ℚ), p.doFinal = true ∧ 0 < p.timeInterval ∧ c.stopIndex = 0 ∧
      outputIndices demoNum c p freshState { freshState with dt0 := 1/10 } [⟨4,0,0⟩] = [] := by
  refine ⟨{ demoCfg with stopIndex := 0 }, { demoPost with interval := -1, timeInterval := 1 },
    rfl, by norm_num, rfl, ?_⟩
  decide +kernel

end AmrWind.PostProc
