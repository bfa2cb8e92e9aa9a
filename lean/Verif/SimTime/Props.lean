import Verif.SimTime.Lemmas
import Mathlib.Analysis.Real.Sqrt
import Mathlib.Algebra.Order.Ring.Rat
import Mathlib.Data.Rat.Floor

/-!
# Properties of the time step and of the time loop (C01–C07)

`trace N c s is` is the list of time-manager states at the end of each completed pass of the loop in
`incflo::Evolve`, started in state `s` and fed with the CFL numbers `is`.
-/

set_option linter.unusedSectionVars false

namespace AmrWind.SimTime

variable {K : Type*} [Field K] [LinearOrder K] [IsStrictOrderedRing K] [FloorRing K]

/-! ## Concrete objects used in the non-vacuity examples -/

/-- A small but realistic set-up: adaptive, `cfl = 1`, plots enforced every `1` second. -/
def demoCfg : Cfg ℚ where
  stopTime := 10
  delayTime := -1
  maxCfl := 1
  fixedDt := -1
  initialDt := -1
  maxDt := 1/2
  minDt := -1
  initShrink := 1/10
  dtGrowth := 1/10
  chkptTInterval := -1
  chkptTDelay := 0
  chkptTTol := 1/100
  forceChkptTol := 1/1000
  pltTInterval := 1
  pltTDelay := 0
  pltTTol := 1/100
  forcePltTol := 1/1000
  stopIndex := 20
  chkptInterval := 4
  chkptDelay := 0
  pltInterval := -1
  pltDelay := 0
  regridInterval := 5
  adaptive := true
  forceChkptDt := false
  forcePltDt := true
  post := [⟨true, 1/1000, 3/4, 0⟩]
  forceDtAbsTol := 3/4000

/-- Machine epsilon of double precision; `sqrt` is exact on the squares used in the examples. -/
def demoNum : Num ℚ where
  eps := 1 / 2 ^ 52
  sqrt := fun x => (Nat.sqrt x.num.toNat : ℚ) / (Nat.sqrt x.den : ℚ)

/-- State of a fresh simulation after `parse_parameters` (SimTime.cpp:13-16: steps are `-1`). -/
def freshState : State ℚ where
  dt0 := -1
  dt1 := -1
  dt2 := -1
  curTime := 0
  newTime := 0
  startTime := 0
  timeIndex := 0
  startIndex := 0
  pltStartIndex := 0
  chkptStartIndex := 0
  regridStartIndex := 0
  pltStartTime := 0
  chkptStartTime := 0
  isInit := true
  currentCfl := 0
  dtCalc := 0

theorem demo_wf : WF demoNum demoCfg := by
  constructor <;> simp [demoNum, demoCfg] <;> norm_num

/-! ## C01 -/

/-- **C01.** Shortening a step for an output interval `I` (relative tolerance `tol`): the result is
positive and not larger than the requested step; it never steps over a multiple of `I` that lies more
than `tol*I` ahead; it lands exactly on the first such multiple whenever the requested step reaches
it; and it leaves the step alone when no such multiple is reached. -/
theorem enforced_dt_spec (dt cur I tol : K) (hI : 0 < I) (htol : 0 ≤ tol) (hdt : 0 < dt) :
    0 < enforcedDt dt cur I tol ∧ enforcedDt dt cur I tol ≤ dt ∧
    (∀ k : ℤ, cur + tol * I < k * I → cur + enforcedDt dt cur I tol ≤ k * I) ∧
    (∀ k : ℤ, cur + tol * I < k * I → (∀ j : ℤ, cur + tol * I < j * I → k ≤ j) →
      k * I ≤ cur + dt → cur + enforcedDt dt cur I tol = k * I) ∧
    ((∀ k : ℤ, cur + tol * I < k * I → cur + dt < k * I) → enforcedDt dt cur I tol = dt) := by
  have key : ∀ k : ℤ, cur + tol * I < k * I ↔ ⌊cur / I + tol⌋ + 1 ≤ k := by
    intro k
    rw [Int.add_one_le_iff, Int.floor_lt]
    constructor
    · intro h
      have : (cur / I + tol) * I < k * I := by
        have h3 : (cur / I + tol) * I = cur + tol * I := by field_simp
        rw [h3]; exact h
      exact lt_of_mul_lt_mul_right this hI.le
    · intro h
      have := mul_lt_mul_of_pos_right h hI
      have h3 : (cur / I + tol) * I = cur + tol * I := by field_simp
      linarith
  refine ⟨enforcedDt_pos _ _ _ _ hI htol hdt, enforcedDt_le _ _ _ _, ?_, ?_, ?_⟩
  · intro k hk
    have h1 := (key k).mp hk
    have h2 : ((⌊cur / I + tol⌋ : K) + 1) ≤ k := by exact_mod_cast h1
    have h3 := mul_le_mul_of_nonneg_right h2 hI.le
    have h4 : enforcedDt dt cur I tol ≤ ((⌊cur / I + tol⌋ : K) + 1) * I - cur := min_le_right _ _
    linarith
  · intro k hk hmin hreach
    have h1 := (key k).mp hk
    have h2 := hmin (⌊cur / I + tol⌋ + 1) ((key _).mpr le_rfl)
    have h3 : k = ⌊cur / I + tol⌋ + 1 := le_antisymm h2 h1
    have h4 : (k : K) = (⌊cur / I + tol⌋ : K) + 1 := by rw [h3]; push_cast; ring
    unfold enforcedDt
    rw [← h4, min_eq_right (by linarith)]
    ring
  · intro h
    have h1 := h (⌊cur / I + tol⌋ + 1) ((key _).mpr le_rfl)
    unfold enforcedDt
    apply min_eq_left
    push_cast at h1
    linarith

/-- The hypotheses of C01 are met, with the step actually shortened. -/
example : enforcedDt (3/10 : ℚ) (9/10) 1 (1/1000) = 1/10 ∧ (0:ℚ) < 1 ∧ (0:ℚ) ≤ 1/1000 := by
  have : ⌊(9/10 : ℚ)/1 + 1/1000⌋ = 0 := by norm_num [Int.floor_eq_iff]
  refine ⟨?_, by norm_num, by norm_num⟩
  unfold enforcedDt; rw [this]; norm_num

/-! ## C02 -/

/-- **C02.** Whatever limiter, enforcement and stop time are configured, an accepted adaptive step
outside the delay window respects the CFL limit: `½ (cd + √(cd² + 4 src)) dt ≤ cfl`, and this is the
CFL number the manager reports.  The start-up case (CFL below machine epsilon on a non-initial step,
where `initial_dt` is used) is excluded by `hu`. -/
theorem adaptive_step_respects_cfl (N : Num K) (c : Cfg K) (s s' : State K) (conv diff src : K)
    (heps : 0 < N.eps) (hcfl : 0 ≤ c.maxCfl) (hsh : s.isInit = true → c.initShrink ≤ 1)
    (ha : c.adaptive = true) (hd : ¬ inDelay c s.curTime)
    (hu0 : 0 ≤ (conv + diff) + N.sqrt ((conv + diff) * (conv + diff) + 4 * src))
    (hu : s.isInit = true ∨ N.eps ≤ (conv + diff) + N.sqrt ((conv + diff) * (conv + diff) + 4 * src))
    (h : setCurrentCfl N c s conv diff src = .ok s') :
    (1 / 2) * ((conv + diff) + N.sqrt ((conv + diff) * (conv + diff) + 4 * src)) * s'.dt0 ≤ c.maxCfl ∧
    s'.currentCfl =
      (1 / 2) * ((conv + diff) + N.sqrt ((conv + diff) * (conv + diff) + 4 * src)) * s'.dt0 := by
  obtain ⟨dtCfl, h1, _, h3⟩ := setCurrentCfl_adaptive h ha hd
  refine ⟨?_, by rw [h3]; rfl⟩
  change 0 ≤ cflUnitTime N conv diff src at hu0
  change _ ∨ N.eps ≤ cflUnitTime N conv diff src at hu
  change (1 / 2) * cflUnitTime N conv diff src * _ ≤ _
  set u := cflUnitTime N conv diff src
  have hle : s'.dt0 ≤ dtCfl := by
    rw [h3]
    have := (shortenAll_le c s.curTime (limitDt c s dtCfl)).trans (limitDt_le c s dtCfl)
    simp only
    split
    · exact (min_le_left _ _).trans this
    · exact this
  have hmax : 0 < max u N.eps := lt_of_lt_of_le heps (le_max_right _ _)
  have hb : dtCfl ≤ 2 * c.maxCfl / max u N.eps := by
    unfold cflDt at h1
    simp only at h1
    split at h1
    · rename_i hcond
      rcases hu with hu | hu
      · simp [hu] at hcond
      · exact absurd hcond.2.2 (not_lt.mpr hu)
    · injection h1 with h1
      rw [← h1]
      split
      · rename_i hi
        have h0 : 0 ≤ 2 * c.maxCfl / max u N.eps := by positivity
        nlinarith [hsh hi]
      · exact le_rfl
  have h4 : (1/2) * u * s'.dt0 ≤ (1/2) * u * (2 * c.maxCfl / max u N.eps) := by
    apply mul_le_mul_of_nonneg_left (hle.trans hb); positivity
  have h5 : (1/2) * u * (2 * c.maxCfl / max u N.eps) = c.maxCfl * (u / max u N.eps) := by
    field_simp
  have h6 : u / max u N.eps ≤ 1 := by
    rw [div_le_one hmax]; exact le_max_left _ _
  have h7 : c.maxCfl * (u / max u N.eps) ≤ c.maxCfl := by
    nlinarith
  linarith

/-- **C02.** The reported CFL number is always that of the accepted step, in every mode. -/
theorem reported_cfl_of_accepted_step (N : Num K) (c : Cfg K) (s s' : State K) (conv diff src : K)
    (h : setCurrentCfl N c s conv diff src = .ok s') :
    s'.currentCfl =
      (1 / 2) * ((conv + diff) + N.sqrt ((conv + diff) * (conv + diff) + 4 * src)) * s'.dt0 := by
  unfold setCurrentCfl at h
  simp only at h
  split at h
  · simp at h
  · split at h
    · split at h
      · simp at h
      · injection h with h; rw [← h]; rfl
    · injection h with h; rw [← h]; rfl

/-- **C02, over the reals with the actual square root**: with non-negative CFL numbers. -/
theorem adaptive_step_respects_cfl_real (eps : ℝ) (c : Cfg ℝ) (s s' : State ℝ) (conv diff src : ℝ)
    (hconv : 0 ≤ conv) (hdiff : 0 ≤ diff)
    (heps : 0 < eps) (hcfl : 0 ≤ c.maxCfl) (hsh : s.isInit = true → c.initShrink ≤ 1)
    (ha : c.adaptive = true) (hd : ¬ inDelay c s.curTime)
    (hu : s.isInit = true ∨ eps ≤ (conv + diff) + √((conv + diff) * (conv + diff) + 4 * src))
    (h : setCurrentCfl ⟨eps, Real.sqrt⟩ c s conv diff src = .ok s') :
    (1 / 2) * ((conv + diff) + √((conv + diff) ^ 2 + 4 * src)) * s'.dt0 ≤ c.maxCfl := by
  have := (adaptive_step_respects_cfl ⟨eps, Real.sqrt⟩ c s s' conv diff src heps hcfl hsh ha hd
    (by have := Real.sqrt_nonneg ((conv + diff) * (conv + diff) + 4 * src); simp only; linarith)
    hu h).1
  simpa [sq] using this

/-- **C02, start-up case** (CFL below machine epsilon on the first steps, where `initial_dt` is used):
the reported CFL number is at most `½ eps initial_dt`. -/
theorem startup_step_cfl (N : Num K) (c : Cfg K) (s s' : State K) (conv diff src : K)
    (ha : c.adaptive = true) (hd : ¬ inDelay c s.curTime) (hi : s.isInit = false)
    (hu0 : 0 ≤ (conv + diff) + N.sqrt ((conv + diff) * (conv + diff) + 4 * src))
    (hu : (conv + diff) + N.sqrt ((conv + diff) * (conv + diff) + 4 * src) < N.eps)
    (h : setCurrentCfl N c s conv diff src = .ok s') :
    0 < c.initialDt ∧ s'.dt0 ≤ c.initialDt ∧
    (1 / 2) * ((conv + diff) + N.sqrt ((conv + diff) * (conv + diff) + 4 * src)) * s'.dt0 ≤
      (1 / 2) * N.eps * c.initialDt := by
  obtain ⟨dtCfl, h1, _, h3⟩ := setCurrentCfl_adaptive h ha hd
  change 0 ≤ cflUnitTime N conv diff src at hu0
  change cflUnitTime N conv diff src < N.eps at hu
  change _ ∧ _ ∧ (1 / 2) * cflUnitTime N conv diff src * _ ≤ _
  set u := cflUnitTime N conv diff src
  have h4 : s'.dt0 ≤ dtCfl := by
    rw [h3]
    simp only [hi, Bool.false_eq_true, false_and, if_false]
    exact (shortenAll_le c s.curTime (limitDt c s dtCfl)).trans (limitDt_le c s dtCfl)
  unfold cflDt at h1
  simp only [ha, hi, hu, and_self, if_true, Bool.false_eq_true, if_false] at h1
  split at h1
  · split at h1
    · rename_i hpos
      injection h1 with h1
      rw [← h1] at h4
      refine ⟨hpos, h4, ?_⟩
      have : u * s'.dt0 ≤ N.eps * c.initialDt := by
        calc u * s'.dt0 ≤ u * c.initialDt := mul_le_mul_of_nonneg_left h4 hu0
          _ ≤ N.eps * c.initialDt := mul_le_mul_of_nonneg_right hu.le hpos.le
      linarith
    · simp at h1
  · simp at h1

/-- Non-vacuity of C02: the demo set-up accepts the step for convective CFL 4. -/
example : (setCurrentCfl demoNum demoCfg { freshState with isInit := false, dt0 := 1/2 } 4 0 0).toOption.map
    (·.dt0) = some (1/4) ∧ ¬ inDelay demoCfg freshState.curTime := by
  decide +kernel

/-! ## C03 -/

/-- **C03 (adaptive).** No time reached in an adaptive run started before `stop_time`, outside the
delay window, is beyond `stop_time`. -/
theorem adaptive_never_passes_stop_time (N : Num K) (c : Cfg K) (wf : WF N c) (s : State K)
    (is : List (CflIn K)) (ha : c.adaptive = true) (hstop : 0 < c.stopTime)
    (hd : ¬ inDelay c s.newTime) : ∀ t ∈ trace N c s is, t.newTime ≤ c.stopTime := by
  have main : ∀ t ∈ trace N c s is, ¬ inDelay c t.newTime ∧ t.newTime ≤ c.stopTime := by
    -- the bound is established by each step, whatever the state before it
    have hstep : ∀ a b : State K, ¬ inDelay c a.newTime → Step N c a b →
        ¬ inDelay c b.newTime ∧ b.newTime ≤ c.stopTime := by
      intro a b hda hab
      have hpos := step_pos wf ha hda hab
      obtain ⟨a', i, h1, h2⟩ := hab
      have hrel := step_rel h1 h2
      have hnew : b.newTime = a.newTime + b.dt0 := by rw [hrel.new, hrel.cur]
      refine ⟨inDelay_mono hda (by linarith), ?_⟩
      obtain ⟨hc, rfl⟩ := newTimestep_true h1
      obtain ⟨s1, h3, rfl⟩ := stepBody_ok h2
      obtain ⟨dtCfl, h4, _, h6⟩ := setCurrentCfl_adaptive h3 ha (by simpa using hda)
      rw [hnew, h6]
      simp only [advanceTime, Bool.false_eq_true, false_and, if_false]
      exact shortenAll_stop c a.newTime _ hstop
    intro t ht
    have h1 := trace_inv (P := fun a => ¬ inDelay c a.newTime)
      (fun a b ha' hab => (hstep a b ha' hab).1) s hd is
    -- use the chain to get a predecessor
    have h2 : ∀ (l : List (CflIn K)) (a : State K), ¬ inDelay c a.newTime →
        ∀ t ∈ trace N c a l, t.newTime ≤ c.stopTime := by
      intro l
      induction l with
      | nil => simp [trace]
      | cons i l ih =>
        intro a hda t ht
        unfold trace at ht
        split at ht
        · simp at ht
        · rename_i a' e1
          split at ht
          · simp at ht
          · rename_i b e2
            have hb := hstep a b hda ⟨a', i, e1, e2⟩
            rcases List.mem_cons.mp ht with rfl | ht
            · exact hb.2
            · exact ih b hb.1 t ht
    exact ⟨h1 t ht, h2 is s hd t ht⟩
  exact fun t ht => (main t ht).2

/-- **C03 (fixed step).** With a fixed step, outside the delay window, the run passes `stop_time` by
less than one step. -/
theorem fixed_overshoot_lt_dt (N : Num K) (c : Cfg K) (heps : 0 ≤ N.eps) (s : State K)
    (is : List (CflIn K)) (ha : c.adaptive = false) (hdt : 0 < c.fixedDt) (hstop : 0 < c.stopTime)
    (hd : ¬ inDelay c s.newTime) : ∀ t ∈ trace N c s is, t.newTime < c.stopTime + c.fixedDt := by
  induction is generalizing s with
  | nil => simp [trace]
  | cons i l ih =>
    intro t ht
    unfold trace at ht
    split at ht
    · simp at ht
    · rename_i s' e1
      split at ht
      · simp at ht
      · rename_i b e2
        have hrel := step_rel e1 e2
        obtain ⟨hc, rfl⟩ := newTimestep_true e1
        obtain ⟨s1, h3, rfl⟩ := stepBody_ok e2
        have hdt' : s1.dt0 = c.fixedDt := setCurrentCfl_fixed h3 ha hd
        change (advanceTime s1).dt0 = c.fixedDt at hdt'
        have hnew : (advanceTime s1).newTime = s.newTime + c.fixedDt := by
          rw [hrel.new, hrel.cur, hdt']
        have hlt := continueSim_stop hc hstop
        rcases List.mem_cons.mp ht with rfl | ht
        · rw [hnew]; linarith
        · exact ih _ (inDelay_mono hd (by rw [hnew]; linarith)) t ht

/-- The hypotheses of C03 hold for the demo run, which makes three steps. -/
example : (trace demoNum demoCfg freshState [⟨4,0,0⟩, ⟨4,0,0⟩, ⟨4,0,0⟩]).length = 3 ∧
    ¬ inDelay demoCfg freshState.newTime := by decide +kernel

/-! ## C04 -/

/-- **C04.** In an adaptive run outside the delay window each step exceeds its predecessor by at most
the factor `1 + max_dt_growth`, and never exceeds `max_dt`. -/
theorem step_growth_bounded (N : Num K) (c : Cfg K) (wf : WF N c) (s : State K) (is : List (CflIn K))
    (ha : c.adaptive = true) (hd : ¬ inDelay c s.newTime) (hs : 0 < s.dt0) :
    List.IsChain (fun a b => b.dt0 ≤ (1 + c.dtGrowth) * a.dt0 ∧ (0 < c.maxDt → b.dt0 ≤ c.maxDt))
      (s :: trace N c s is) := by
  refine trace_chain_inv (P := fun a => ¬ inDelay c a.newTime ∧ 0 < a.dt0) ?_ ?_ s ⟨hd, hs⟩ is
  · rintro a b ⟨hda, hpa⟩ hab
    have hpos := step_pos wf ha hda hab
    obtain ⟨a', i, h1, h2⟩ := hab
    have hrel := step_rel h1 h2
    exact ⟨inDelay_mono hda (by rw [hrel.new, hrel.cur]; linarith), hpos⟩
  · rintro a b ⟨hda, hpa⟩ ⟨a', i, h1, h2⟩
    obtain ⟨hc, rfl⟩ := newTimestep_true h1
    obtain ⟨s1, h3, rfl⟩ := stepBody_ok h2
    obtain ⟨dtCfl, h4, _, h6⟩ := setCurrentCfl_adaptive h3 ha (by simpa using hda)
    rw [h6]
    simp only [advanceTime, Bool.false_eq_true, false_and, if_false]
    refine ⟨(shortenAll_le _ _ _).trans (limitDt_growth c _ _ ha hpa), fun hm =>
      (shortenAll_le _ _ _).trans (limitDt_max c _ _ ha hm)⟩

/-- **C04, compounded:** the `n`-th step of the run is at most `(1+growth)^(n+1)` times the step
before the run. -/
theorem step_growth_compounded (N : Num K) (c : Cfg K) (wf : WF N c) (s : State K)
    (is : List (CflIn K)) (ha : c.adaptive = true) (hd : ¬ inDelay c s.newTime) (hs : 0 < s.dt0)
    (n : ℕ) (hn : n < (trace N c s is).length) :
    (trace N c s is)[n].dt0 ≤ (1 + c.dtGrowth) ^ (n + 1) * s.dt0 := by
  have hch := step_growth_bounded N c wf s is ha hd hs
  have hg : 0 ≤ 1 + c.dtGrowth := by linarith [wf.growth]
  have aux : ∀ (l : List (State K)) (a : State K) (n : ℕ) (hn : n < l.length),
      List.IsChain (fun a b => b.dt0 ≤ (1 + c.dtGrowth) * a.dt0 ∧ (0 < c.maxDt → b.dt0 ≤ c.maxDt))
        (a :: l) → l[n].dt0 ≤ (1 + c.dtGrowth) ^ (n + 1) * a.dt0 := by
    intro l
    induction l with
    | nil => intro a n hn; simp at hn
    | cons b l ih =>
      intro a n hn hc
      rw [List.isChain_cons_cons] at hc
      cases n with
      | zero => simpa using hc.1.1
      | succ n =>
        have h1 := ih b n (by simpa using hn) hc.2
        have h2 := mul_le_mul_of_nonneg_left hc.1.1 (pow_nonneg hg (n + 1))
        simp only [List.getElem_cons_succ]
        have hn' : n < l.length := by simpa using hn
        calc l[n].dt0 ≤ (1 + c.dtGrowth) ^ (n + 1) * b.dt0 := h1
          _ ≤ (1 + c.dtGrowth) ^ (n + 1) * ((1 + c.dtGrowth) * a.dt0) := h2
          _ = (1 + c.dtGrowth) ^ (n + 1 + 1) * a.dt0 := by ring
  exact aux _ s n hn hch

/-- Non-vacuity of C04: a run in which the growth limit is active. -/
example : (trace demoNum demoCfg { freshState with dt0 := 1/10 } [⟨4,0,0⟩, ⟨4,0,0⟩]).map (·.dt0)
    = [11/100, 121/1000] := by decide +kernel

/-! ## C05 -/

/-- **C05 fails.** Witness: CFL-permitted step constantly `0.3`, `min_dt = 0.2`, plots enforced every
second.  After the step shortened to land on `t = 1` the growth limit keeps the next step at `0.11`,
and the run is aborted with the `min_dt` message although the CFL restriction always allowed `0.3`. -/
theorem min_dt_abort_not_only_cfl :
    ∃ (c : Cfg ℚ) (is : List (CflIn ℚ)) (s' : State ℚ), 0 < c.minDt ∧
      (∀ i ∈ is, c.minDt < 2 * c.maxCfl / cflUnitTime demoNum i.conv i.diff i.src) ∧
      evolve demoNum c freshState is = .aborted .belowMinDt s' := by
  refine ⟨{ demoCfg with minDt := 1/5, maxDt := -1, post := [], stopTime := -1 },
    List.replicate 5 ⟨10/3, 0, 0⟩,
    { freshState with dt0 := 1/10, dt1 := 1/10, dt2 := 3/10, curTime := 1, newTime := 1,
                      timeIndex := 5, isInit := false, currentCfl := 1/3, dtCalc := 1/10 },
    by norm_num, ?_, ?_⟩
  · intro i hi
    rw [List.eq_of_mem_replicate hi]
    decide +kernel
  · decide +kernel

/-- **C05, the provable part.** With the growth limit and `max_dt` not active, an adaptive step that
is not in the start-up case aborts with the `min_dt` message iff the CFL restriction gives a step
below `min_dt`.  Missing from the full claim: the case where the growth limit reduced the step (see
`min_dt_abort_not_only_cfl`). -/
theorem min_dt_abort_iff_cfl_partial (N : Num K) (c : Cfg K) (s : State K) (conv diff src : K)
    (ha : c.adaptive = true) (hi : s.isInit = false) (hmin : 0 < c.minDt)
    (hu : N.eps ≤ cflUnitTime N conv diff src)
    (hg : 0 < s.dt0 → 2 * c.maxCfl / cflUnitTime N conv diff src ≤ (1 + c.dtGrowth) * s.dt0)
    (hm : 0 < c.maxDt → 2 * c.maxCfl / cflUnitTime N conv diff src ≤ c.maxDt) :
    setCurrentCfl N c s conv diff src = .error .belowMinDt ↔
      2 * c.maxCfl / cflUnitTime N conv diff src < c.minDt := by
  have h1 : cflDt N c s (cflUnitTime N conv diff src) =
      .ok (2 * c.maxCfl / cflUnitTime N conv diff src) := by
    unfold cflDt
    simp [ha, hi, not_lt.mpr hu, max_eq_left hu]
  have h2 : limitDt c s (2 * c.maxCfl / cflUnitTime N conv diff src) =
      2 * c.maxCfl / cflUnitTime N conv diff src := by
    unfold limitDt
    by_cases a : 0 < s.dt0 <;> by_cases b : 0 < c.maxDt <;> simp [a, b, ha, hg, hm]
  unfold setCurrentCfl
  simp only [h1, h2, ha, if_true, hmin, true_and]
  split <;> simp_all

/-- Exact characterisation of the abort, growth limit included. -/
theorem min_dt_abort_iff (N : Num K) (c : Cfg K) (s : State K) (conv diff src : K)
    (ha : c.adaptive = true) :
    setCurrentCfl N c s conv diff src = .error .belowMinDt ↔
      ∃ dt, cflDt N c s (cflUnitTime N conv diff src) = .ok dt ∧ 0 < c.minDt ∧
        limitDt c s dt < c.minDt := by
  unfold setCurrentCfl
  simp only [ha, if_true]
  rcases h : cflDt N c s (cflUnitTime N conv diff src) with e | dt
  · simp only [Except.error.injEq, reduceCtorEq, false_and, exists_false, iff_false]
    intro he
    subst he
    unfold cflDt at h
    simp only at h
    split at h
    · split at h
      · split at h <;> simp at h
      · simp at h
    · simp at h
  · simp only [Except.ok.injEq, exists_eq_left']
    split <;> simp_all

/-! ## C06 -/

/-- **C06.** Bookkeeping between consecutive states of a run (any configuration): times join up, the
index counts, the step history shifts. -/
theorem loop_bookkeeping (N : Num K) (c : Cfg K) (s : State K) (is : List (CflIn K)) :
    List.IsChain (fun a b => b.curTime = a.newTime ∧ b.newTime = b.curTime + b.dt0 ∧
      b.timeIndex = a.timeIndex + 1 ∧ b.dt1 = a.dt0 ∧ b.dt2 = a.dt1) (s :: trace N c s is) := by
  refine trace_chain_inv (P := fun _ => True) (fun _ _ _ _ => trivial) ?_ s trivial is
  rintro a b _ ⟨a', i, h1, h2⟩
  have h := step_rel h1 h2
  exact ⟨h.cur, h.new, h.idx, h.dt1, h.dt2⟩

/-- **C06.** In an adaptive run outside the delay window every step is positive, so time strictly
increases.

Partial (C06). Missing: with a delay and no initial step the time can go backwards (`delay_without_initial_dt_goes_backwards`). -/
theorem adaptive_time_increases_partial (N : Num K) (c : Cfg K) (wf : WF N c) (s : State K)
    (is : List (CflIn K)) (ha : c.adaptive = true) (hd : ¬ inDelay c s.newTime) :
    List.IsChain (fun a b => 0 < b.dt0 ∧ a.newTime < b.newTime) (s :: trace N c s is) := by
  have hp : ∀ a b : State K, ¬ inDelay c a.newTime → Step N c a b →
      0 < b.dt0 ∧ a.newTime < b.newTime := by
    intro a b hda hab
    have hpos := step_pos wf ha hda hab
    obtain ⟨a', i, h1, h2⟩ := hab
    have hrel := step_rel h1 h2
    exact ⟨hpos, by rw [hrel.new, hrel.cur]; linarith⟩
  refine trace_chain_inv (P := fun a => ¬ inDelay c a.newTime) ?_ hp s hd is
  intro a b hda hab
  exact inDelay_mono hda (hp a b hda hab).2.le

/-- **C06.** The final time is the start time plus the sum of the steps, and the final index the start
index plus the number of steps. -/
theorem time_is_sum_of_steps (N : Num K) (c : Cfg K) (s : State K) (is : List (CflIn K)) (t : State K)
    (ht : (trace N c s is).getLast? = some t) :
    t.newTime = s.newTime + ((trace N c s is).map (·.dt0)).sum ∧
    t.timeIndex = s.timeIndex + (trace N c s is).length := by
  have hch := loop_bookkeeping N c s is
  have aux : ∀ (l : List (State K)) (a t : State K), List.IsChain (fun a b =>
      b.curTime = a.newTime ∧ b.newTime = b.curTime + b.dt0 ∧
      b.timeIndex = a.timeIndex + 1 ∧ b.dt1 = a.dt0 ∧ b.dt2 = a.dt1) (a :: l) →
      l.getLast? = some t →
      t.newTime = a.newTime + (l.map (·.dt0)).sum ∧ t.timeIndex = a.timeIndex + l.length := by
    intro l
    induction l with
    | nil => intro a t _ h; simp at h
    | cons b l ih =>
      intro a t hc hl
      rw [List.isChain_cons_cons] at hc
      obtain ⟨⟨h1, h2, h3, _, _⟩, hc⟩ := hc
      cases l with
      | nil =>
        simp only [List.getLast?_singleton, Option.some.injEq] at hl
        subst hl
        simp [h2, h1, h3]
      | cons d l =>
        have hl' : (d :: l).getLast? = some t := by simpa [List.getLast?_cons_cons] using hl
        obtain ⟨h4, h5⟩ := ih b t hc hl'
        constructor
        · rw [h4, h2, h1]; simp only [List.map_cons, List.sum_cons]; ring
        · rw [h5, h3]; simp only [List.length_cons]; push_cast; ring
  exact aux _ s t hch ht

/-- Non-vacuity of the C06 statements: a three-step run with its times. -/
example : (trace demoNum demoCfg freshState [⟨4,0,0⟩, ⟨5,0,0⟩, ⟨4,0,0⟩]).map
    (fun t => (t.newTime, t.dt0, t.timeIndex)) = [(1/4, 1/4, 1), (9/20, 1/5, 2), (67/100, 11/50, 3)] := by
  decide +kernel

/-- **C06 fails inside the delay window.** With `delay_time > 0` and `initial_dt` not set (default
`-1`) the accepted step is `-1`: time runs backwards. -/
theorem delay_without_initial_dt_goes_backwards (N : Num K) (c : Cfg K) (s s' : State K)
    (conv diff src : K) (hinit : c.initialDt = -1) (hd : s.curTime < c.delayTime)
    (h : setCurrentCfl N c s conv diff src = .ok s') :
    s'.dt0 = -1 ∧ (advanceTime s').newTime < s'.curTime := by
  have hin : inDelay c s.curTime := by
    unfold inDelay; rw [hinit]
    have : max (-1 : K) 0 = 0 := max_eq_right (by linarith [zero_lt_one (α := K)])
    rw [this]; linarith
  have : s'.dt0 = -1 := by
    unfold setCurrentCfl at h
    simp only [if_pos hin] at h
    split at h
    · simp at h
    · split at h
      · split at h
        · simp at h
        · injection h with h; rw [← h]; exact hinit
      · injection h with h; rw [← h]; exact hinit
  refine ⟨this, ?_⟩
  simp only [advanceTime, this]
  linarith [zero_lt_one (α := K)]

/-- The situation of `delay_without_initial_dt_goes_backwards` occurs in a run of accepted input. -/
example : (trace demoNum { demoCfg with delayTime := 5, stopTime := -1 } freshState
    [⟨4,0,0⟩, ⟨4,0,0⟩]).map (·.newTime) = [-1, -2] := by decide +kernel

/-! ## C07 -/

/-- **C07.** With `max_step = n > 0` a run from index `i ≤ n` makes at most `n - i` steps and its index
never exceeds `n`. -/
theorem max_step_bounds_run (N : Num K) (c : Cfg K) (s : State K) (is : List (CflIn K))
    (h : 0 < c.stopIndex) (hs : s.timeIndex ≤ c.stopIndex) :
    ((trace N c s is).length : Int) ≤ c.stopIndex - s.timeIndex ∧
    ∀ t ∈ trace N c s is, t.timeIndex ≤ c.stopIndex := by
  induction is generalizing s with
  | nil => simp [trace]; omega
  | cons i l ih =>
    unfold trace
    split
    · simp; omega
    · rename_i s' e1
      split
      · simp; omega
      · rename_i b e2
        have hrel := step_rel e1 e2
        have hlt := (continueSim_index (newTimestep_true e1).1).2 h
        have hb : b.timeIndex ≤ c.stopIndex := by rw [hrel.idx]; omega
        obtain ⟨h1, h2⟩ := ih b hb
        refine ⟨?_, ?_⟩
        · rw [List.length_cons]; push_cast; rw [hrel.idx] at h1; omega
        · intro t ht
          rcases List.mem_cons.mp ht with rfl | ht
          · exact hb
          · exact h2 t ht

/-- **C07.** With `max_step = n > 0` and no other stop criterion, a run that is given enough steps and
does not abort stops exactly at index `n`. -/
theorem max_step_reached (N : Num K) (c : Cfg K) (s : State K) (is : List (CflIn K))
    (h : 0 < c.stopIndex) (hs : s.timeIndex ≤ c.stopIndex) (hst : c.stopTime ≤ 0)
    (hlen : c.stopIndex - s.timeIndex < is.length) :
    (∃ t, evolve N c s is = .stopped t ∧ t.timeIndex = c.stopIndex) ∨
    (∃ e t, evolve N c s is = .aborted e t) := by
  induction is generalizing s with
  | nil => simp at hlen; omega
  | cons i l ih =>
    unfold evolve
    split
    · rename_i s' e1
      obtain ⟨hc, rfl⟩ := newTimestep_false e1
      left
      refine ⟨_, rfl, ?_⟩
      unfold continueSim at hc
      rw [if_neg (by omega), if_neg (by rintro ⟨h1, _⟩; exact absurd h1 (not_lt.mpr hst))] at hc
      split at hc
      · rename_i h2; simp only; omega
      · simp at hc
    · rename_i s' e1
      split
      · rename_i e e2; exact Or.inr ⟨e, s', rfl⟩
      · rename_i b e2
        have hrel := step_rel e1 e2
        have hlt := (continueSim_index (newTimestep_true e1).1).2 h
        apply ih b
        · rw [hrel.idx]; omega
        · rw [hrel.idx]; simp only [List.length_cons] at hlen; push_cast at hlen; omega

/-- **C07.** With `stop_time` set and every step at least `d > 0`, the number of steps is bounded. -/
theorem stop_time_bounds_run (N : Num K) (c : Cfg K) (heps : 0 ≤ N.eps) (s : State K)
    (is : List (CflIn K)) (hstop : 0 < c.stopTime) (d : K) (hd : 0 < d)
    (hmin : ∀ t ∈ trace N c s is, d ≤ t.dt0) (hne : trace N c s is ≠ []) :
    (((trace N c s is).length : K) - 1) * d < c.stopTime - s.newTime := by
  induction is generalizing s with
  | nil => simp [trace] at hne
  | cons i l ih =>
    have hunf : trace N c s (i :: l) = trace N c s (i :: l) := rfl
    conv at hunf => rhs; unfold trace
    split at hunf
    · exact absurd hunf hne
    · rename_i s' e1
      have hlt := continueSim_stop (newTimestep_true e1).1 hstop
      have hlt' : s.newTime < c.stopTime := by nlinarith
      split at hunf
      · exact absurd hunf hne
      · rename_i b e2
        have hrel := step_rel e1 e2
        rw [hunf] at hmin ⊢
        have hb := hmin b List.mem_cons_self
        by_cases hl : trace N c b l = []
        · rw [hl]; simp; exact hlt'
        · have := ih b (fun t ht => hmin t (List.mem_cons_of_mem _ ht)) hl
          rw [List.length_cons]
          push_cast
          rw [hrel.new, hrel.cur] at this
          linarith

/-- **C07.** `max_step = 0` performs no step. -/
theorem max_step_zero_no_steps (N : Num K) (c : Cfg K) (s : State K) (is : List (CflIn K))
    (h : c.stopIndex = 0) : trace N c s is = [] := by
  cases is with
  | nil => rfl
  | cons i l => simp [trace, newTimestep, continueSim, h]

/-- **C07.** Without a stop criterion (defaults `-1`) the loop never stops by itself. -/
theorem no_criterion_never_stops (N : Num K) (c : Cfg K) (s t : State K) (is : List (CflIn K))
    (h1 : c.stopIndex < 0) (h2 : c.stopTime ≤ 0) : evolve N c s is ≠ .stopped t := by
  induction is generalizing s with
  | nil => simp [evolve]
  | cons i l ih =>
    unfold evolve
    have hc : continueSim N c s = true := by
      unfold continueSim
      rw [if_neg (by omega), if_neg (by rintro ⟨h, _⟩; exact absurd h (not_lt.mpr h2)),
        if_neg (by rintro ⟨h, _⟩; omega)]
    simp only [newTimestep, hc, if_true]
    split
    · simp
    · exact ih _

/-- Non-vacuity for C07: a run stopped by `max_step`. -/
example : (match evolve demoNum { demoCfg with stopIndex := 2, stopTime := -1 } freshState
    [⟨4,0,0⟩, ⟨4,0,0⟩, ⟨4,0,0⟩] with | .stopped t => some t.timeIndex | _ => none) = some 2 := by
  decide +kernel

end AmrWind.SimTime
