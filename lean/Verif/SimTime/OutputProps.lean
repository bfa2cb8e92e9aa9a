import Verif.SimTime.Props
import Mathlib.Data.List.Range
import Mathlib.Data.Int.Interval

/-!
# Properties of the output and regrid schedules (C08–C11)
-/

set_option linter.unusedSectionVars false

namespace AmrWind.SimTime

variable {K : Type*} [Field K] [LinearOrder K] [IsStrictOrderedRing K] [FloorRing K]

/-! ## C08 -/

theorem stepDue_iff (n delay start idx : Int) :
    stepDue n delay start idx = true ↔ 0 < n ∧ delay ≤ idx ∧ n ∣ idx - start := by
  unfold stepDue
  rw [decide_eq_true_iff, Int.dvd_iff_tmod_eq_zero]
  constructor <;> rintro ⟨a, b, d⟩ <;> exact ⟨a, by omega, d⟩

theorem timeDue_off (I delay start new dt tol : K) (h : I ≤ 0) :
    timeDue I delay start new dt tol = false := by
  unfold timeDue
  rw [decide_eq_false_iff_not]
  rintro ⟨a, _⟩
  exact absurd a (not_lt.mpr h)

/-- **C08.** With time-based plotting off, a plot file is due exactly at the time indices that are at
or after `plot_delay` and differ from `plot_start` by a multiple of `plot_interval > 0`. -/
theorem plot_step_schedule (c : Cfg K) (s : State K) (h : c.pltTInterval ≤ 0) :
    writePlotFile c s = true ↔
      0 < c.pltInterval ∧ c.pltDelay ≤ s.timeIndex ∧ c.pltInterval ∣ s.timeIndex - s.pltStartIndex := by
  unfold writePlotFile
  rw [timeDue_off _ _ _ _ _ _ h, Bool.or_false, stepDue_iff]

/-- **C08.** The same for checkpoints. -/
theorem checkpoint_step_schedule (c : Cfg K) (s : State K) (h : c.chkptTInterval ≤ 0) :
    writeCheckpoint c s = true ↔
      0 < c.chkptInterval ∧ c.chkptDelay ≤ s.timeIndex ∧
        c.chkptInterval ∣ s.timeIndex - s.chkptStartIndex := by
  unfold writeCheckpoint
  rw [timeDue_off _ _ _ _ _ _ h, Bool.or_false, stepDue_iff]

/-- After the delay the file written after the loop complements the regular one. -/
theorem last_plot_complements (c : Cfg K) (s : State K) (h : c.pltTInterval ≤ 0)
    (hi : 0 < c.pltInterval) (hd : c.pltDelay ≤ s.timeIndex) :
    writeLastPlotFile c s = true ↔ writePlotFile c s = false := by
  have := plot_step_schedule c s h
  rw [← Bool.not_eq_true, this]
  unfold writeLastPlotFile
  have h2 : ¬ (0 < c.pltTInterval) := not_lt.mpr h
  simp only [h2, false_and, decide_false, Bool.or_false, decide_eq_true_eq, ne_eq,
    Int.dvd_iff_tmod_eq_zero]
  tauto

theorem last_checkpoint_complements (c : Cfg K) (s : State K) (h : c.chkptTInterval ≤ 0)
    (hi : 0 < c.chkptInterval) (hd : c.chkptDelay ≤ s.timeIndex) :
    writeLastCheckpoint c s = true ↔ writeCheckpoint c s = false := by
  have := checkpoint_step_schedule c s h
  rw [← Bool.not_eq_true, this]
  unfold writeLastCheckpoint
  have h2 : ¬ (0 < c.chkptTInterval) := not_lt.mpr h
  simp only [h2, false_and, decide_false, Bool.or_false, decide_eq_true_eq, ne_eq,
    Int.dvd_iff_tmod_eq_zero]
  tauto

/-- The state handed to the final output agrees with the last state of the trace on everything the
output decisions read. -/
theorem evolve_stopped_last {N : Num K} {c : Cfg K} {s t : State K} {is : List (CflIn K)}
    (h : evolve N c s is = .stopped t) :
    t = { ((trace N c s is).getLast?.getD s) with
            isInit := false, curTime := ((trace N c s is).getLast?.getD s).newTime } := by
  induction is generalizing s with
  | nil => simp [evolve] at h
  | cons i l ih =>
    unfold evolve at h
    unfold trace
    split at h
    · rename_i s' e1
      obtain ⟨_, rfl⟩ := newTimestep_false e1
      injection h with h
      simp [← h]
    · rename_i s' e1
      split at h
      · simp at h
      · rename_i b e2
        rw [ih h]
        rcases hl : trace N c b l with _ | ⟨d, l'⟩
        · simp [e1, e2, hl]
        · simp [e1, e2, hl, List.getLast?_cons_cons, List.getLast?_eq_some_getLast]

theorem trace_indices (N : Num K) (c : Cfg K) (s : State K) (is : List (CflIn K)) :
    (trace N c s is).map (·.timeIndex) =
      (List.range (trace N c s is).length).map (fun i : ℕ => s.timeIndex + 1 + i) := by
  induction is generalizing s with
  | nil => simp [trace]
  | cons i l ih =>
    unfold trace
    split
    · simp
    · rename_i s' e1
      split
      · simp
      · rename_i b e2
        have hrel := step_rel e1 e2
        rw [List.map_cons, ih b, List.length_cons, List.range_succ_eq_map, List.map_cons,
          List.map_map, hrel.idx]
        congr 1
        · simp
        · apply List.map_congr_left
          intro a _
          simp only [Function.comp]
          push_cast
          ring

theorem trace_indices_nodup (N : Num K) (c : Cfg K) (s : State K) (is : List (CflIn K)) :
    ((trace N c s is).map (·.timeIndex)).Nodup := by
  rw [trace_indices]
  refine List.Nodup.map ?_ List.nodup_range
  intro a b h
  simpa using h

/-- **C08.** A run with step-based plotting that stops normally after at least one step, at or after
`plot_delay`, writes no index twice and writes the final index (exactly once, whether or not it
is a multiple of the interval).

Partial (C08). Missing: the final file is missing when the run ends before the delay. -/
theorem plot_files_once_and_final_partial (N : Num K) (c : Cfg K) (s t : State K) (is : List (CflIn K))
    (h : c.pltTInterval ≤ 0) (hi : 0 < c.pltInterval)
    (hstop : evolve N c s is = .stopped t) (hne : trace N c s is ≠ [])
    (hd : c.pltDelay ≤ t.timeIndex) :
    (plotIndices N c s is).Nodup ∧ t.timeIndex ∈ plotIndices N c s is := by
  have ht := evolve_stopped_last hstop
  obtain ⟨l, hl⟩ : ∃ l, (trace N c s is).getLast? = some l := by
    rw [← Option.isSome_iff_exists, List.getLast?_isSome]; exact hne
  rw [hl] at ht
  simp only [Option.getD_some] at ht
  have hmem : l ∈ trace N c s is := List.mem_of_getLast? hl
  have hw : writePlotFile c l = writePlotFile c t := by rw [ht]; rfl
  have hidx : t.timeIndex = l.timeIndex := by rw [ht]
  have hlast := last_plot_complements c t h hi hd
  have hnd := trace_indices_nodup N c s is
  unfold plotIndices
  rw [hstop]
  simp only
  have hsub : (((trace N c s is).filter (fun t => writePlotFile c t)).map (·.timeIndex)).Nodup :=
    hnd.sublist (List.Sublist.map _ List.filter_sublist)
  by_cases hwl : writeLastPlotFile c t = true
  · rw [if_pos hwl]
    refine ⟨?_, by simp⟩
    rw [List.nodup_append]
    refine ⟨hsub, by simp, ?_⟩
    intro a ha b hb
    simp only [List.mem_singleton] at hb
    subst hb
    rintro rfl
    obtain ⟨u, hu, hue⟩ := List.mem_map.mp ha
    obtain ⟨hu1, hu2⟩ := List.mem_filter.mp hu
    have : u = l := List.inj_on_of_nodup_map hnd hu1 hmem (by rw [hue, hidx])
    subst this
    rw [hw, hlast.mp hwl] at hu2
    simp at hu2
  · rw [if_neg hwl, List.append_nil]
    refine ⟨hsub, ?_⟩
    have : writePlotFile c t = true := by
      by_contra hh
      exact hwl (hlast.mpr (by simpa using hh))
    rw [hidx]
    exact List.mem_map.mpr ⟨l, List.mem_filter.mpr ⟨hmem, by rw [hw]; exact this⟩, rfl⟩

/-- **C08.** The same for checkpoint files.

Partial (C08). Missing: the final file is missing when the run ends before the delay. -/
theorem checkpoint_files_once_and_final_partial (N : Num K) (c : Cfg K) (s t : State K)
    (is : List (CflIn K)) (h : c.chkptTInterval ≤ 0) (hi : 0 < c.chkptInterval)
    (hstop : evolve N c s is = .stopped t) (hne : trace N c s is ≠ [])
    (hd : c.chkptDelay ≤ t.timeIndex) :
    (chkptIndices N c s is).Nodup ∧ t.timeIndex ∈ chkptIndices N c s is := by
  have ht := evolve_stopped_last hstop
  obtain ⟨l, hl⟩ : ∃ l, (trace N c s is).getLast? = some l := by
    rw [← Option.isSome_iff_exists, List.getLast?_isSome]; exact hne
  rw [hl] at ht
  simp only [Option.getD_some] at ht
  have hmem : l ∈ trace N c s is := List.mem_of_getLast? hl
  have hw : writeCheckpoint c l = writeCheckpoint c t := by rw [ht]; rfl
  have hidx : t.timeIndex = l.timeIndex := by rw [ht]
  have hlast := last_checkpoint_complements c t h hi hd
  have hnd := trace_indices_nodup N c s is
  unfold chkptIndices
  rw [hstop]
  simp only
  have hsub : (((trace N c s is).filter (fun t => writeCheckpoint c t)).map (·.timeIndex)).Nodup :=
    hnd.sublist (List.Sublist.map _ List.filter_sublist)
  by_cases hwl : writeLastCheckpoint c t = true
  · rw [if_pos hwl]
    refine ⟨?_, by simp⟩
    rw [List.nodup_append]
    refine ⟨hsub, by simp, ?_⟩
    intro a ha b hb
    simp only [List.mem_singleton] at hb
    subst hb
    rintro rfl
    obtain ⟨u, hu, hue⟩ := List.mem_map.mp ha
    obtain ⟨hu1, hu2⟩ := List.mem_filter.mp hu
    have : u = l := List.inj_on_of_nodup_map hnd hu1 hmem (by rw [hue, hidx])
    subst this
    rw [hw, hlast.mp hwl] at hu2
    simp at hu2
  · rw [if_neg hwl, List.append_nil]
    refine ⟨hsub, ?_⟩
    have : writeCheckpoint c t = true := by
      by_contra hh
      exact hwl (hlast.mpr (by simpa using hh))
    rw [hidx]
    exact List.mem_map.mpr ⟨l, List.mem_filter.mpr ⟨hmem, by rw [hw]; exact this⟩, rfl⟩

/-- A run meeting the hypotheses: seven steps, checkpoints every 4, the last one extra. -/
example : chkptIndices demoNum { demoCfg with stopIndex := 7, stopTime := -1 } freshState
    (List.replicate 8 ⟨4,0,0⟩) = [4, 7] := by decide +kernel

/-- **C08 fails before the delay.** If the run ends before `plot_delay` at a multiple of the interval
no file is written for the final state, neither by the regular nor by the final output. -/
theorem final_plot_missing_before_delay :
    ∃ (c : Cfg ℚ) (is : List (CflIn ℚ)) (t : State ℚ), 0 < c.pltInterval ∧
      evolve demoNum c freshState is = .stopped t ∧ plotIndices demoNum c freshState is = [] := by
  refine ⟨{ demoCfg with stopIndex := 2, stopTime := -1, pltInterval := 2, pltDelay := 10,
                         pltTInterval := -1, forcePltDt := false, post := [] },
    List.replicate 3 ⟨4,0,0⟩,
    { freshState with dt0 := 1/4, dt1 := 1/4, curTime := 1/2, newTime := 1/2, timeIndex := 2,
                      isInit := false, currentCfl := 1, dtCalc := 1/4 }, by norm_num, ?_, ?_⟩
  · decide +kernel
  · decide +kernel

/-! ## C09 -/

/-- **C09.** The test of `write_plot_file`/`write_checkpoint` on the fractional part holds exactly when
an output target `start + k I` lies in the half-open window `(new - dt + tol, new + tol]`. -/
theorem fracDue_iff_window (I start new dt tol : K) (hI : 0 < I) :
    fracDue I start new dt tol ↔
      ∃ k : ℤ, new - dt + tol < start + k * I ∧ start + k * I ≤ new + tol := by
  unfold fracDue
  set x := (new - start + tol) / I with hx
  have hxI : x * I = new - start + tol := by rw [hx]; field_simp
  have hfl : (⌊x⌋ : K) ≤ x := Int.floor_le x
  have hdt : dt / I * I = dt := by field_simp
  constructor
  · intro h
    refine ⟨⌊x⌋, ?_, ?_⟩
    · have := mul_lt_mul_of_pos_right h hI
      rw [sub_mul, hxI, hdt] at this
      linarith
    · have := mul_le_mul_of_nonneg_right hfl hI.le
      linarith
  · rintro ⟨k, h1, h2⟩
    have hk : (k : K) ≤ x := by
      have : (k : K) * I ≤ x * I := by rw [hxI]; linarith
      exact le_of_mul_le_mul_right this hI
    have hk2 : k ≤ ⌊x⌋ := Int.le_floor.mpr hk
    have hk3 : (k : K) ≤ (⌊x⌋ : K) := by exact_mod_cast hk2
    have h3 : (x - (⌊x⌋ : K)) * I < dt / I * I := by
      rw [sub_mul, hxI, hdt]
      have := mul_le_mul_of_nonneg_right hk3 hI.le
      linarith
    exact lt_of_mul_lt_mul_right h3 hI.le

/-- **C09.** With time-based plotting only, a plot file is due exactly when the state is past the delay
(up to the tolerance) and its window contains a target time. -/
theorem plot_time_schedule (c : Cfg K) (s : State K) (h : c.pltInterval ≤ 0) (hI : 0 < c.pltTInterval) :
    writePlotFile c s = true ↔
      c.pltTDelay ≤ s.newTime + min (c.pltTTol * s.dt0) c.forceDtAbsTol ∧
      ∃ k : ℤ, s.newTime - s.dt0 + min (c.pltTTol * s.dt0) c.forceDtAbsTol <
          s.pltStartTime + k * c.pltTInterval ∧
        s.pltStartTime + k * c.pltTInterval ≤
          s.newTime + min (c.pltTTol * s.dt0) c.forceDtAbsTol := by
  unfold writePlotFile
  have h1 : stepDue c.pltInterval c.pltDelay s.pltStartIndex s.timeIndex = false := by
    rw [← Bool.not_eq_true, stepDue_iff]; omega
  rw [h1, Bool.false_or]
  unfold timeDue
  rw [decide_eq_true_iff, fracDue_iff_window _ _ _ _ _ hI]
  unfold pltTol
  constructor
  · rintro ⟨_, a, b⟩; exact ⟨by linarith, b⟩
  · rintro ⟨a, b⟩; exact ⟨hI, by linarith, b⟩

theorem checkpoint_time_schedule (c : Cfg K) (s : State K) (h : c.chkptInterval ≤ 0)
    (hI : 0 < c.chkptTInterval) :
    writeCheckpoint c s = true ↔
      c.chkptTDelay ≤ s.newTime + min (c.chkptTTol * s.dt0) c.forceDtAbsTol ∧
      ∃ k : ℤ, s.newTime - s.dt0 + min (c.chkptTTol * s.dt0) c.forceDtAbsTol <
          s.chkptStartTime + k * c.chkptTInterval ∧
        s.chkptStartTime + k * c.chkptTInterval ≤
          s.newTime + min (c.chkptTTol * s.dt0) c.forceDtAbsTol := by
  unfold writeCheckpoint
  have h1 : stepDue c.chkptInterval c.chkptDelay s.chkptStartIndex s.timeIndex = false := by
    rw [← Bool.not_eq_true, stepDue_iff]; omega
  rw [h1, Bool.false_or]
  unfold timeDue
  rw [decide_eq_true_iff, fracDue_iff_window _ _ _ _ _ hI]
  unfold chkptTol
  constructor
  · rintro ⟨_, a, b⟩; exact ⟨by linarith, b⟩
  · rintro ⟨a, b⟩; exact ⟨hI, by linarith, b⟩

/-- A chain of steps with a constant tolerance: the windows tile, so a target lies in exactly one. -/
theorem windows_tile (τ T : K) (l : List (State K)) (s : State K)
    (hch : List.IsChain (fun a b : State K => b.newTime = a.newTime + b.dt0 ∧ 0 < b.dt0) (s :: l))
    (h0 : s.newTime + τ < T) (t : State K) (ht : l.getLast? = some t) (h1 : T ≤ t.newTime + τ) :
    ∃! i : Fin l.length, l[i].newTime - l[i].dt0 + τ < T ∧ T ≤ l[i].newTime + τ := by
  induction l generalizing s with
  | nil => simp at ht
  | cons b l ih =>
    rw [List.isChain_cons_cons] at hch
    obtain ⟨⟨e, hpos⟩, hch⟩ := hch
    -- times after b are larger than b's
    have hmono : ∀ (l : List (State K)) (b : State K), List.IsChain
        (fun a b : State K => b.newTime = a.newTime + b.dt0 ∧ 0 < b.dt0) (b :: l) →
        ∀ x ∈ l, b.newTime ≤ x.newTime - x.dt0 := by
      intro l
      induction l with
      | nil => simp
      | cons d l ih2 =>
        intro b hc x hx
        rw [List.isChain_cons_cons] at hc
        rcases List.mem_cons.mp hx with rfl | hx
        · linarith [hc.1.1]
        · have := ih2 d hc.2 x hx
          linarith [hc.1.1, hc.1.2]
    by_cases hb : T ≤ b.newTime + τ
    · refine ⟨⟨0, by simp⟩, ⟨by simpa using (by rw [e]; linarith : b.newTime - b.dt0 + τ < T),
        by simpa using hb⟩, ?_⟩
      rintro ⟨i, hi⟩ ⟨h3, h4⟩
      cases i with
      | zero => rfl
      | succ i =>
        exfalso
        have hi' : i < l.length := by simpa using hi
        have := hmono l b hch l[i] (List.getElem_mem hi')
        simp only [Fin.getElem_fin, List.getElem_cons_succ] at h3
        linarith
    · push Not at hb
      have hl : l ≠ [] := by
        rintro rfl
        simp only [List.getLast?_singleton, Option.some.injEq] at ht
        subst ht
        linarith
      obtain ⟨d, l', rfl⟩ := List.exists_cons_of_ne_nil hl
      rw [List.getLast?_cons_cons] at ht
      obtain ⟨i, hi, huniq⟩ := ih b hch hb ht
      refine ⟨⟨i.1 + 1, by simp only [List.length_cons]; have := i.2; simp only [List.length_cons] at this; omega⟩,
        by simpa using hi, ?_⟩
      rintro ⟨j, hj⟩ hjp
      cases j with
      | zero =>
        exfalso
        have : T ≤ b.newTime + τ := by simpa using hjp.2
        linarith
      | succ j =>
        have := huniq ⟨j, by simpa using hj⟩ (by simpa using hjp)
        rw [← this]

/-- **C09 (partial).** If the absolute tolerance is the same `τ` at every step of the run (fixed step,
or an enforced interval whose tolerance is the smallest), every target time in `(t₀+τ, t_end+τ]` lies
in the window of exactly one step, which by `plot_time_schedule` is where its plot file is written.
Missing for the full claim: steps of varying size with the `dt`-relative tolerance, see
`varying_dt_misses_target`. -/
theorem time_targets_exactly_once_partial (N : Num K) (c : Cfg K) (s t : State K)
    (is : List (CflIn K)) (τ : K)
    (hpos : ∀ u ∈ trace N c s is, 0 < u.dt0)
    (hτ : ∀ u ∈ trace N c s is, min (c.pltTTol * u.dt0) c.forceDtAbsTol = τ)
    (ht : (trace N c s is).getLast? = some t) (k : ℤ)
    (h0 : s.newTime + τ < s.pltStartTime + k * c.pltTInterval)
    (h1 : s.pltStartTime + k * c.pltTInterval ≤ t.newTime + τ) :
    ∃! i : Fin (trace N c s is).length,
      (trace N c s is)[i].newTime - (trace N c s is)[i].dt0 +
          min (c.pltTTol * (trace N c s is)[i].dt0) c.forceDtAbsTol <
        s.pltStartTime + k * c.pltTInterval ∧
      s.pltStartTime + k * c.pltTInterval ≤ (trace N c s is)[i].newTime +
          min (c.pltTTol * (trace N c s is)[i].dt0) c.forceDtAbsTol := by
  have hch := loop_bookkeeping N c s is
  have hch2 : List.IsChain (fun a b : State K => b.newTime = a.newTime + b.dt0 ∧ 0 < b.dt0)
      (s :: trace N c s is) := by
    generalize trace N c s is = l at hch hpos
    clear ht h0 hτ h1
    induction l generalizing s with
    | nil => simp
    | cons b l ih =>
      rw [List.isChain_cons_cons] at hch ⊢
      refine ⟨⟨by rw [hch.1.2.1, hch.1.1], hpos b List.mem_cons_self⟩,
        ih b hch.2 (fun u hu => hpos u (List.mem_cons_of_mem _ hu))⟩
  obtain ⟨i, hi, hu⟩ := windows_tile τ _ _ s hch2 h0 t ht h1
  refine ⟨i, ?_, ?_⟩
  · have := hτ _ (List.getElem_mem i.2)
    simp only [Fin.getElem_fin] at hi ⊢
    rw [this]; exact hi
  · intro j hj
    apply hu
    have := hτ _ (List.getElem_mem j.2)
    simp only [Fin.getElem_fin] at hj ⊢
    rw [this] at hj; exact hj

/-- With a fixed step the hypotheses on `dt` and on the tolerance of
`time_targets_exactly_once_partial` hold. -/
theorem fixed_step_tolerance_constant (N : Num K) (c : Cfg K) (s : State K) (is : List (CflIn K))
    (ha : c.adaptive = false) (hdt : 0 < c.fixedDt) (hd : ¬ inDelay c s.newTime) :
    ∀ u ∈ trace N c s is, 0 < u.dt0 ∧
      min (c.pltTTol * u.dt0) c.forceDtAbsTol = min (c.pltTTol * c.fixedDt) c.forceDtAbsTol := by
  have : ∀ u ∈ trace N c s is, ¬ inDelay c u.newTime ∧ u.dt0 = c.fixedDt := by
    induction is generalizing s with
    | nil => simp [trace]
    | cons i l ih =>
      intro t ht
      unfold trace at ht
      split at ht
      · simp at ht
      · rename_i s' e1
        split at ht
        · simp at ht
        · rename_i b e2
          have hrel := step_rel e1 e2
          obtain ⟨hc, rfl⟩ := newTimestep_true e1
          obtain ⟨s1, h3, rfl⟩ := stepBody_ok e2
          have hdt' : s1.dt0 = c.fixedDt := setCurrentCfl_fixed h3 ha hd
          change (advanceTime s1).dt0 = c.fixedDt at hdt'
          have hnew : (advanceTime s1).newTime = s.newTime + c.fixedDt := by
            rw [hrel.new, hrel.cur, hdt']
          have hnd : ¬ inDelay c (advanceTime s1).newTime :=
            inDelay_mono hd (by rw [hnew]; linarith)
          rcases List.mem_cons.mp ht with rfl | ht
          · exact ⟨hnd, hdt'⟩
          · exact ih _ hnd t ht
  intro u hu
  rw [(this u hu).2]
  exact ⟨hdt, rfl⟩

/-- A fixed-step run with a plot every `1/2`: `dt = 1/5`, files at steps 3, 5, 8, 10. -/
example :
    let c : Cfg ℚ := { demoCfg with
      adaptive := false, fixedDt := 1/5, pltTInterval := 1/2, forcePltDt := false,
      forceDtAbsTol := 100000000, post := [], stopIndex := 10, stopTime := -1 }
    let s : State ℚ := { freshState with dt0 := 1/5 }
    plotIndices demoNum c s (List.replicate 11 ⟨1,0,0⟩) = [3, 5, 8, 10] := by decide +kernel

/-- **C09 fails for varying steps.** An adaptive run with default tolerances: the target time `1.0105`
falls between the windows `(0.0100, 1.0100]` and `(1.0110, 2.1110]` of two consecutive steps of size `1` and
`1.1`; no plot is written for it although the run passes it. -/
theorem varying_dt_misses_target :
    ∃ (c : Cfg ℚ) (is : List (CflIn ℚ)), c.pltTInterval = 10105/10000 ∧ c.forcePltDt = false ∧
      (trace demoNum c { freshState with dt0 := 1 } is).map (fun t => (t.newTime, t.dt0)) =
        [(1, 1), (21/10, 11/10)] ∧
      (trace demoNum c { freshState with dt0 := 1 } is).map (writePlotFile c) = [false, true] ∧
      ¬ ∃ t ∈ trace demoNum c { freshState with dt0 := 1 } is,
        t.newTime - t.dt0 + min (c.pltTTol * t.dt0) c.forceDtAbsTol < 10105/10000 ∧
        10105/10000 ≤ t.newTime + min (c.pltTTol * t.dt0) c.forceDtAbsTol := by
  refine ⟨{ demoCfg with pltTInterval := 10105/10000, forcePltDt := false, post := [],
                         forceDtAbsTol := 100000000, maxDt := -1 }, [⟨1,0,0⟩, ⟨1/2,0,0⟩], rfl, rfl, ?_, ?_, ?_⟩
  · decide +kernel
  · decide +kernel
  · decide +kernel

/-! ## C10 -/

/-- One enforced interval never lets the step jump over a target that is more than the tolerance
ahead and not before the delay. -/
theorem shortenFor_lands (cur I d tol dt : K) (hI : 0 < I) (k : ℤ) (hd : d ≤ k * I)
    (hk : cur + tol * I < k * I) : cur + shortenFor cur I d tol true dt ≤ k * I := by
  unfold shortenFor
  split
  · have h2 : ((⌊cur / I + tol⌋ : K) + 1) ≤ k := by
      have : ⌊cur / I + tol⌋ + 1 ≤ k := by
        rw [Int.add_one_le_iff, Int.floor_lt]
        have h3 : (cur / I + tol) * I = cur + tol * I := by field_simp
        have : (cur / I + tol) * I < k * I := by rw [h3]; exact hk
        exact lt_of_mul_lt_mul_right this hI.le
      exact_mod_cast this
    have h3 := mul_le_mul_of_nonneg_right h2 hI.le
    have h4 : enforcedDt dt cur I tol ≤ ((⌊cur / I + tol⌋ : K) + 1) * I - cur := min_le_right _ _
    linarith
  · rename_i h
    simp only [hI, true_and, not_le] at h
    linarith

theorem shortenPost_lands (cur : K) (ps : List (PostDt K)) (dt : K) (p : PostDt K) (hp : p ∈ ps)
    (he : p.enforce = true) (hI : 0 < p.interval) (k : ℤ) (hd : p.delay ≤ k * p.interval)
    (hk : cur + p.tol * p.interval < k * p.interval) :
    cur + shortenPost cur ps dt ≤ k * p.interval := by
  induction ps generalizing dt with
  | nil => simp at hp
  | cons q ps ih =>
    rcases List.mem_cons.mp hp with rfl | hp
    · unfold shortenPost
      have h1 := shortenPost_le cur ps (shortenFor cur p.interval p.delay p.tol p.enforce dt)
      have h2 := shortenFor_lands cur p.interval p.delay p.tol dt hI k hd hk
      rw [← he] at h2
      linarith
    · exact ih _ hp

/-- The enforced output intervals of a configuration: plot, checkpoint, post-processing. -/
inductive Enforced (c : Cfg K) : (I d tol : K) → Prop
  | plot : c.forcePltDt = true → Enforced c c.pltTInterval c.pltTDelay c.forcePltTol
  | chkpt : c.forceChkptDt = true → Enforced c c.chkptTInterval c.chkptTDelay c.forceChkptTol
  | post (p : PostDt K) : p ∈ c.post → p.enforce = true → Enforced c p.interval p.delay p.tol

theorem shortenAll_lands (c : Cfg K) (cur dt I d tol : K) (he : Enforced c I d tol) (hI : 0 < I)
    (k : ℤ) (hd : d ≤ k * I) (hk : cur + tol * I < k * I) : cur + shortenAll c cur dt ≤ k * I := by
  unfold shortenAll
  simp only
  set x := (if 0 < c.stopTime ∧ c.stopTime < cur + dt then c.stopTime - cur else dt)
  set y := shortenFor cur c.chkptTInterval c.chkptTDelay c.forceChkptTol c.forceChkptDt x with hy
  set z := shortenFor cur c.pltTInterval c.pltTDelay c.forcePltTol c.forcePltDt y with hz
  have h1 := shortenPost_le cur c.post z
  have h2 : z ≤ y := shortenFor_le _ _ _ _ _ _
  cases he with
  | plot h =>
    rw [h] at hz
    have := shortenFor_lands cur _ _ _ y hI k hd hk
    rw [← hz] at this
    linarith
  | chkpt h =>
    rw [h] at hy
    have := shortenFor_lands cur _ _ _ x hI k hd hk
    rw [← hy] at this
    linarith
  | post p hp h => exact shortenPost_lands cur c.post z p hp h hI k hd hk

theorem shortenFor_reason (cur I d tol dt : K) (f : Bool) :
    shortenFor cur I d tol f dt = dt ∨
      (f = true ∧ 0 < I ∧ ∃ k : ℤ, cur + shortenFor cur I d tol f dt = k * I) := by
  unfold shortenFor
  split
  · rename_i h
    unfold enforcedDt
    rcases min_choice dt (((⌊cur / I + tol⌋ : K) + 1) * I - cur) with h1 | h1
    · left; exact h1
    · right
      refine ⟨h.2.1, h.1, ⌊cur / I + tol⌋ + 1, ?_⟩
      rw [h1]; push_cast; ring
  · left; rfl

theorem shortenPost_reason (cur : K) (ps : List (PostDt K)) (dt : K) :
    shortenPost cur ps dt = dt ∨
      ∃ p ∈ ps, p.enforce = true ∧ 0 < p.interval ∧
        ∃ k : ℤ, cur + shortenPost cur ps dt = k * p.interval := by
  induction ps generalizing dt with
  | nil => left; rfl
  | cons q ps ih =>
    unfold shortenPost
    rcases ih (shortenFor cur q.interval q.delay q.tol q.enforce dt) with h | ⟨p, hp, h⟩
    · rw [h]
      rcases shortenFor_reason cur q.interval q.delay q.tol dt q.enforce with h2 | ⟨a, b, d⟩
      · left; exact h2
      · right; exact ⟨q, List.mem_cons_self, a, b, d⟩
    · right; exact ⟨p, List.mem_cons_of_mem _ hp, h⟩

/-- **C10.** A step is shortened only for a reason: the shortened step ends exactly at `stop_time` or
exactly at a multiple of one of the enforced intervals. -/
theorem shortened_only_for_a_reason (c : Cfg K) (cur dt : K) :
    shortenAll c cur dt = dt ∨ (0 < c.stopTime ∧ cur + shortenAll c cur dt = c.stopTime) ∨
      ∃ I d tol, Enforced c I d tol ∧ 0 < I ∧ ∃ k : ℤ, cur + shortenAll c cur dt = k * I := by
  unfold shortenAll
  simp only
  set x := (if 0 < c.stopTime ∧ c.stopTime < cur + dt then c.stopTime - cur else dt) with hx
  set y := shortenFor cur c.chkptTInterval c.chkptTDelay c.forceChkptTol c.forceChkptDt x with hy
  set z := shortenFor cur c.pltTInterval c.pltTDelay c.forcePltTol c.forcePltDt y with hz
  rcases shortenPost_reason cur c.post z with h | ⟨p, hp, a, b, d⟩
  · rw [h]
    rcases shortenFor_reason cur c.pltTInterval c.pltTDelay c.forcePltTol y c.forcePltDt with
      h2 | ⟨a, b, d⟩
    · rw [← hz] at h2
      rw [h2]
      rcases shortenFor_reason cur c.chkptTInterval c.chkptTDelay c.forceChkptTol x c.forceChkptDt with
        h3 | ⟨a, b, d⟩
      · rw [← hy] at h3
        rw [h3, hx]
        split
        · rename_i hs; right; left; exact ⟨hs.1, by ring⟩
        · left; rfl
      · right; right; exact ⟨_, _, _, Enforced.chkpt a, b, d⟩
    · right; right; exact ⟨_, _, _, Enforced.plot a, b, d⟩
  · right; right; exact ⟨_, _, _, Enforced.post p hp a, b, d⟩

/-- Both alternatives occur: kept, and shortened to the enforced multiple. -/
example : shortenAll demoCfg (1/2) (1/5) = 1/5 ∧ (1/2 : ℚ) + shortenAll demoCfg (1/2) (2/5) = 3/4 := by
  decide +kernel

/-- **C10.** In an adaptive run (outside the delay window) no enforced output time `k I`, with
`k I` not before the output's delay, is jumped over: if the run starts more than the tolerance before
`k I` and ends at or after it, some step ends in `[k I - tol I, k I]`. -/
theorem enforced_time_not_jumped (N : Num K) (c : Cfg K) (wf : WF N c) (s : State K)
    (is : List (CflIn K)) (ha : c.adaptive = true) (hdel : ¬ inDelay c s.newTime)
    (I d tol : K) (he : Enforced c I d tol) (hI : 0 < I) (htol : 0 ≤ tol)
    (k : ℤ) (hd : d ≤ k * I) (h0 : s.newTime + tol * I < k * I)
    (t : State K) (ht : t ∈ trace N c s is) (h1 : k * I ≤ t.newTime) :
    ∃ u ∈ trace N c s is, k * I - tol * I ≤ u.newTime ∧ u.newTime ≤ k * I := by
  induction is generalizing s with
  | nil => simp [trace] at ht
  | cons i l ih =>
    unfold trace at ht ⊢
    split at ht
    · simp at ht
    · rename_i s' e1
      split at ht
      · simp at ht
      · rename_i b e2
        have hpos := step_pos wf ha hdel ⟨s', i, e1, e2⟩
        have hrel := step_rel e1 e2
        have hnew : b.newTime = s.newTime + b.dt0 := by rw [hrel.new, hrel.cur]
        obtain ⟨hc, rfl⟩ := newTimestep_true e1
        obtain ⟨s1, h3, rfl⟩ := stepBody_ok e2
        obtain ⟨dtCfl, h4, _, h6⟩ := setCurrentCfl_adaptive h3 ha (by simpa using hdel)
        have hland : (advanceTime s1).newTime ≤ k * I := by
          rw [hnew, h6]
          simp only [advanceTime, Bool.false_eq_true, false_and, if_false]
          exact shortenAll_lands c s.newTime _ I d tol he hI k hd h0
        by_cases hin : k * I - tol * I ≤ (advanceTime s1).newTime
        · exact ⟨_, List.mem_cons_self, hin, hland⟩
        · push Not at hin
          rcases List.mem_cons.mp ht with rfl | ht
          · exfalso
            have : 0 ≤ tol * I := by positivity
            linarith
          · obtain ⟨u, hu, hu2⟩ := ih (advanceTime s1)
              (inDelay_mono hdel (by rw [hnew]; linarith)) (by linarith) ht
            exact ⟨u, List.mem_cons_of_mem _ hu, hu2⟩

/-- **C10 (partial).** When a step ends exactly on an enforced plot time `k I` and the plot start time
is itself a multiple of `I` (e.g. `0`), the plot file is written.  Missing for the full claim: a plot
start time that is not a multiple of the interval, see `enforced_plot_skipped_after_restart`. -/
theorem enforced_plot_written_partial (c : Cfg K) (s : State K) (hI : 0 < c.pltTInterval)
    (k m : ℤ) (hnew : s.newTime = k * c.pltTInterval) (hstart : s.pltStartTime = m * c.pltTInterval)
    (hdt : 0 < s.dt0) (h1 : 0 ≤ c.pltTTol) (h2 : c.pltTTol < 1) (h3 : 0 ≤ c.forceDtAbsTol)
    (hd : c.pltTDelay ≤ s.newTime) : writePlotFile c s = true := by
  unfold writePlotFile timeDue
  rw [Bool.or_eq_true]
  right
  rw [decide_eq_true_iff, fracDue_iff_window _ _ _ _ _ hI]
  have ht0 : 0 ≤ pltTol c s := le_min (by positivity) h3
  have ht1 : pltTol c s < s.dt0 := lt_of_le_of_lt (min_le_left _ _) (by nlinarith)
  refine ⟨hI, by linarith, k - m, ?_, ?_⟩
  · push_cast; rw [hnew, hstart]; linarith
  · push_cast; rw [hnew, hstart]; linarith

/-- The enforced demo run lands on `t = 1` and writes there. -/
example : ((trace demoNum { demoCfg with post := [] } freshState (List.replicate 4 ⟨10/3,0,0⟩)).filter
    (fun t => writePlotFile { demoCfg with post := [] } t)).map (fun t => (t.newTime, t.timeIndex))
    = [(1, 4)] := by decide +kernel

/-- **C10 fails after a restart** from a time that is not a multiple of the interval: restart at
`t = 1/2`, enforced interval `1`.  The step is shortened to land on `t = 1`, where no plot is written;
plots are due at `3/2, 5/2, …`, which are not enforced. -/
theorem enforced_plot_skipped_after_restart :
    ∃ (c : Cfg ℚ) (s : State ℚ) (is : List (CflIn ℚ)), c.forcePltDt = true ∧ c.pltTInterval = 1 ∧
      s = setRestartTime ⟨none, none, none, none, none⟩ 5 (1/2) freshState ∧
      (trace demoNum c s is).map (fun t => (t.newTime, writePlotFile c t)) =
        [(4/5, false), (1, false), (61/50, false), (731/500, false), (8641/5000, true)] := by
  refine ⟨{ demoCfg with post := [], maxDt := -1 },
    setRestartTime ⟨none, none, none, none, none⟩ 5 (1/2) freshState,
    List.replicate 5 ⟨10/3, 0, 0⟩, rfl, rfl, rfl, ?_⟩
  decide +kernel

/-! ## C11 -/

/-- **C11.** A regrid is performed exactly at the indices after `regrid_start` that differ from it by a
multiple of `regrid_interval > 0`. -/
theorem regrid_schedule (c : Cfg K) (s : State K) :
    doRegrid c s = true ↔
      0 < c.regridInterval ∧ s.regridStartIndex < s.timeIndex ∧
        c.regridInterval ∣ s.timeIndex - s.regridStartIndex := by
  unfold doRegrid
  rw [decide_eq_true_iff, Int.dvd_iff_tmod_eq_zero]
  constructor <;> rintro ⟨a, b, d⟩ <;> exact ⟨a, by omega, d⟩

theorem countP_dvd_range (n m : ℕ) :
    (List.range m).countP (fun i => decide (n ∣ i + 1)) = m / n := by
  induction m with
  | zero => simp
  | succ m ih =>
    rw [List.range_succ, List.countP_append, ih, Nat.succ_div]
    simp [List.countP_singleton]

/-- **C11.** A run of `m` steps that starts at `regrid_start` regrids exactly `m / regrid_interval`
times. -/
theorem regrid_count (N : Num K) (c : Cfg K) (s : State K) (is : List (CflIn K)) (n : ℕ)
    (hn : c.regridInterval = n) (hpos : 0 < n) (hs : s.regridStartIndex = s.timeIndex) :
    ((trace N c s is).filter (fun t => doRegrid c t)).length = (trace N c s is).length / n := by
  have hreg : ∀ t ∈ trace N c s is, t.regridStartIndex = s.timeIndex := by
    refine trace_inv (P := fun t => t.regridStartIndex = s.timeIndex) ?_ s hs is
    rintro a b ha ⟨a', i, h1, h2⟩
    rw [(step_rel h1 h2).reg, ha]
  have h1 : (trace N c s is).countP (fun t => doRegrid c t) =
      ((trace N c s is).map (·.timeIndex)).countP
        (fun j => decide (s.timeIndex < j ∧ (n : Int) ∣ j - s.timeIndex)) := by
    rw [List.countP_map]
    apply List.countP_congr
    intro t ht
    rw [regrid_schedule, hreg t ht, hn]
    simp only [Function.comp, decide_eq_true_eq]
    constructor
    · rintro ⟨_, b, d⟩; exact ⟨b, d⟩
    · rintro ⟨b, d⟩; exact ⟨by exact_mod_cast hpos, b, d⟩
  rw [← List.countP_eq_length_filter, h1, trace_indices, List.countP_map, ← countP_dvd_range n]
  apply List.countP_congr
  intro i _
  simp only [Function.comp, decide_eq_true_eq]
  have : s.timeIndex + 1 + (i : Int) - s.timeIndex = ((i + 1 : ℕ) : Int) := by push_cast; ring
  rw [this, Int.natCast_dvd_natCast]
  constructor
  · exact fun h => h.2
  · exact fun h => ⟨by omega, h⟩

/-- Twelve steps with `regrid_interval = 5`: two regrids, at 5 and 10. -/
example : ((trace demoNum { demoCfg with stopTime := -1 } freshState (List.replicate 12 ⟨4,0,0⟩)).filter
    (fun t => doRegrid demoCfg t)).map (·.timeIndex) = [5, 10] := by decide +kernel

end AmrWind.SimTime
