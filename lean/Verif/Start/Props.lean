import Mathlib.Tactic.Linarith
import Mathlib.Tactic.Ring
import Mathlib.Tactic.NormNum
import Verif.Start.Model
import Verif.SimTime.OutputProps
import Verif.SimTime.Props
/-!
# C117: dry runs, the start of a run, and its files
-/

set_option linter.unusedSectionVars false

namespace AmrWind.Start

open SimTime

variable {K : Type*} [Field K] [LinearOrder K] [IsStrictOrderedRing K] [FloorRing K]

/-! ## The input of a dry run -/

theorem query_append (tab add : List (String × ℤ)) (k : String) (d : ℤ) :
    query (tab ++ add) k d = query add k (query tab k d) := by
  unfold query
  rw [List.filter_append, List.getLast?_append]
  cases (add.filter fun e => e.1 = k).getLast? <;> simp

/-- The last value given for a key counts. -/
theorem query_last (tab : List (String × ℤ)) (k : String) (v d : ℤ) : query (tab ++ [(k, v)]) k d = v := by
  rw [query_append]; simp [query]

/-- The index a run starts with: 0, or that of the checkpoint. -/
def firstIndex (i : Inp K) : ℤ := (i.restart.map (·.1)).getD 0

theorem dry_kept (i : Inp K) (h : i.dry = true) : (setUpDryRun i).dry = true := by
  unfold setUpDryRun
  rw [if_pos h]
  unfold Inp.dry at h ⊢
  simp only [query_append]
  simpa [query] using h

theorem dry_values (i : Inp K) (h : i.dry = true) :
    (setUpDryRun i).iterations = 0 ∧ (setUpDryRun i).project = false ∧ (setUpDryRun i).cfg.stopIndex = 0 ∧
      (setUpDryRun i).cfg.pltInterval = 1 ∧ (setUpDryRun i).cfg.chkptInterval = i.cfg.chkptInterval ∧
      (setUpDryRun i).base = i.base ∧ (setUpDryRun i).restart = i.restart ∧ (setUpDryRun i).over = i.over ∧
      (setUpDryRun i).plotFile = "dry_run_" ++ i.plotFile := by
  have e : setUpDryRun i = { i with
      tab := i.tab ++ [("incflo.initial_iterations", 0), ("incflo.do_initial_proj", 0), ("time.max_step", 0),
        ("time.plot_interval", 1), ("time.checkpoint_inteval", -1)]
      plotFile := "dry_run_" ++ i.plotFile } := by unfold setUpDryRun; rw [if_pos h]
  rw [e]
  refine ⟨?_, ?_, ?_, ?_, ?_, rfl, rfl, rfl, rfl⟩
  · simp [Inp.iterations, query_append, query]
  · simp [Inp.project, query_append, query]
  · simp [Inp.cfg, query_append, query]
  · simp [Inp.cfg, query_append, query]
  · simp only [Inp.cfg, query_append]
    simp [query]

/-! ## The time manager at the start -/

/-- What `begin` leaves of the options, and the start values. -/
theorem begin_spec (i : Inp K) (c : Cfg K) (s : State K) (h : begin i = some (c, s)) :
    c.stopIndex = i.cfg.stopIndex ∧ c.pltInterval = i.cfg.pltInterval ∧ c.chkptInterval = i.cfg.chkptInterval ∧
      c.pltTInterval = i.base.pltTInterval ∧ c.chkptTInterval = i.base.chkptTInterval ∧ c.pltDelay = i.base.pltDelay ∧
      c.chkptDelay = i.base.chkptDelay ∧ c.pltTDelay = i.base.pltTDelay ∧ c.pltTTol = i.base.pltTTol ∧
      c.adaptive = (if 0 < i.base.fixedDt then i.base.adaptive else true) ∧
      s.timeIndex = firstIndex i ∧ s.newTime = (i.restart.map (·.2)).getD 0 ∧
      s.dt0 = (if 0 < i.base.fixedDt then i.base.fixedDt else -1) ∧
      s.chkptStartIndex = i.over.checkpointStart.getD (firstIndex i) ∧
      s.pltStartIndex = i.over.plotStart.getD (firstIndex i) ∧
      s.pltStartTime = i.over.plotStartTime.getD ((i.restart.map (·.2)).getD 0) ∧ s.isInit = true ∧
      ¬(0 < i.cfg.pltInterval ∧ 0 < i.base.pltTInterval) ∧ ¬(0 < i.cfg.chkptInterval ∧ 0 < i.base.chkptTInterval) := by
  unfold begin at h
  cases hp : parseParameters i.cfg (i.over.regridStart.getD 0, i.over.plotStart.getD 0, i.over.checkpointStart.getD 0,
      i.over.plotStartTime.getD 0, i.over.checkpointStartTime.getD 0) with
  | error e => rw [hp] at h; simp at h
  | ok cs =>
    obtain ⟨c', s'⟩ := cs
    rw [hp] at h
    unfold parseParameters at hp
    dsimp only at hp
    by_cases h1 : 0 < i.cfg.pltInterval ∧ 0 < i.cfg.pltTInterval
    · rw [if_pos h1] at hp; simp at hp
    rw [if_neg h1] at hp
    by_cases h2 : 0 < i.cfg.chkptInterval ∧ 0 < i.cfg.chkptTInterval
    · rw [if_pos h2] at hp; simp at hp
    rw [if_neg h2] at hp
    by_cases h3 : i.cfg.pltTInterval ≤ 0 ∧ i.cfg.forcePltDt = true
    · rw [if_pos h3] at hp; simp at hp
    rw [if_neg h3] at hp
    by_cases h4 : i.cfg.chkptTInterval ≤ 0 ∧ i.cfg.forceChkptDt = true
    · rw [if_pos h4] at hp; simp at hp
    rw [if_neg h4] at hp
    by_cases h5 : (if 0 < i.cfg.fixedDt then i.cfg.adaptive else true) = false ∧ (i.cfg.forcePltDt = true ∨ i.cfg.forceChkptDt = true)
    · rw [if_pos h5] at hp; simp at hp
    rw [if_neg h5] at hp
    simp only [Except.ok.injEq, Prod.mk.injEq] at hp
    obtain ⟨rfl, rfl⟩ := hp
    cases hr : i.restart with
    | none =>
      rw [hr] at h
      simp only [Option.some.injEq, Prod.mk.injEq] at h
      obtain ⟨rfl, rfl⟩ := h
      refine ⟨rfl, rfl, rfl, rfl, rfl, rfl, rfl, rfl, rfl, rfl, ?_, rfl, rfl, ?_, ?_, rfl, rfl, h1, h2⟩ <;> simp [firstIndex, hr]
    | some nt =>
      rw [hr] at h
      simp only [Option.some.injEq, Prod.mk.injEq] at h
      obtain ⟨rfl, rfl⟩ := h
      refine ⟨rfl, rfl, rfl, rfl, rfl, rfl, rfl, rfl, rfl, rfl, ?_, rfl, rfl, ?_, ?_, rfl, rfl, h1, h2⟩ <;>
        simp [firstIndex, hr, setRestartTime]

/-- What the user must not ask for: intervals in steps and in time together, or exact times of files without such times or
with fixed steps. -/
def Consistent (i : Inp K) : Prop :=
  ¬(0 < i.cfg.pltInterval ∧ 0 < i.base.pltTInterval) ∧ ¬(0 < i.cfg.chkptInterval ∧ 0 < i.base.chkptTInterval) ∧
    (i.base.forcePltDt = true → 0 < i.base.pltTInterval) ∧ (i.base.forceChkptDt = true → 0 < i.base.chkptTInterval) ∧
    (i.base.forcePltDt = true ∨ i.base.forceChkptDt = true → ¬0 < i.base.fixedDt ∨ i.base.adaptive = true)

/-- Exactly the consistent inputs are accepted. -/
theorem begin_accepts (i : Inp K) : (begin i).isSome = true ↔ Consistent i := by
  unfold begin parseParameters Consistent
  dsimp only
  have e1 : i.cfg.pltTInterval = i.base.pltTInterval := rfl
  have e2 : i.cfg.chkptTInterval = i.base.chkptTInterval := rfl
  have e3 : i.cfg.forcePltDt = i.base.forcePltDt := rfl
  have e4 : i.cfg.forceChkptDt = i.base.forceChkptDt := rfl
  have e5 : i.cfg.fixedDt = i.base.fixedDt := rfl
  have e6 : i.cfg.adaptive = i.base.adaptive := rfl
  rw [e1, e2, e3, e4, e5, e6]
  by_cases h1 : 0 < i.cfg.pltInterval ∧ 0 < i.base.pltTInterval
  · rw [if_pos h1]; simp [h1]
  rw [if_neg h1]
  by_cases h2 : 0 < i.cfg.chkptInterval ∧ 0 < i.base.chkptTInterval
  · rw [if_pos h2]; simp [h2]
  rw [if_neg h2]
  by_cases h3 : i.base.pltTInterval ≤ 0 ∧ i.base.forcePltDt = true
  · rw [if_pos h3]
    simp only [Option.isSome_none, Bool.false_eq_true, false_iff, not_and]
    intro _ _ h
    exact absurd (h h3.2) (not_lt.mpr h3.1)
  rw [if_neg h3]
  by_cases h4 : i.base.chkptTInterval ≤ 0 ∧ i.base.forceChkptDt = true
  · rw [if_pos h4]
    simp only [Option.isSome_none, Bool.false_eq_true, false_iff, not_and]
    intro _ _ _ h
    exact absurd (h h4.2) (not_lt.mpr h4.1)
  rw [if_neg h4]
  by_cases h5 : (if 0 < i.base.fixedDt then i.base.adaptive else true) = false ∧ (i.base.forcePltDt = true ∨ i.base.forceChkptDt = true)
  · rw [if_pos h5]
    simp only [Option.isSome_none, Bool.false_eq_true, false_iff, not_and]
    intro _ _ _ _ h
    obtain ⟨ha, hb⟩ := h5
    rcases h hb with h' | h'
    · rw [if_neg h'] at ha; simp at ha
    · rw [h'] at ha; simp at ha
  rw [if_neg h5]
  have hs : ((match i.restart with
      | none => some (calcMinEnforceTol { i.cfg with adaptive := if 0 < i.base.fixedDt then i.base.adaptive else true }, (⟨if 0 < i.base.fixedDt then i.base.fixedDt else -1, -1, -1, 0, 0, 0, 0, 0, i.over.plotStart.getD 0, i.over.checkpointStart.getD 0, i.over.regridStart.getD 0, i.over.plotStartTime.getD 0, i.over.checkpointStartTime.getD 0, true, 0, 0⟩ : State K))
      | some (n, t) => some (calcMinEnforceTol { i.cfg with adaptive := if 0 < i.base.fixedDt then i.base.adaptive else true }, setRestartTime i.over n t (⟨if 0 < i.base.fixedDt then i.base.fixedDt else -1, -1, -1, 0, 0, 0, 0, 0, i.over.plotStart.getD 0, i.over.checkpointStart.getD 0, i.over.regridStart.getD 0, i.over.plotStartTime.getD 0, i.over.checkpointStartTime.getD 0, true, 0, 0⟩ : State K))) : Option (Cfg K × State K)).isSome = true := by
    cases i.restart <;> simp
  refine iff_of_true hs ⟨h1, h2, ?_, ?_, ?_⟩
  · intro h; by_contra hc; exact h3 ⟨not_lt.mp hc, h⟩
  · intro h; by_contra hc; exact h4 ⟨not_lt.mp hc, h⟩
  · intro h
    by_contra hc
    push Not at hc
    apply h5
    refine ⟨?_, h⟩
    rw [if_pos hc.1]
    simpa using hc.2

/-! ## Dry runs -/

/-- All a dry run does, for an accepted input: a plot file if the first index is not below the delay, and a checkpoint if
one is due, or would be at the end of a run. No step, no projection, no iteration; it ends. -/
theorem dry_run_events (N : Num K) (i : Inp K) (hd : i.dry = true) (x y : CflIn K) (xs : List (CflIn K)) (c : Cfg K) (s : State K)
    (hb : begin (setUpDryRun i) = some (c, s)) :
    ∃ t, run N i x (y :: xs) =
      some ((if i.base.pltDelay ≤ firstIndex i then [Ev.plot ("dry_run_" ++ i.plotFile) (firstIndex i)] else []) ++
        (if writeCheckpoint c s then [Ev.chk (firstIndex i)] else []) ++
        (if writeLastCheckpoint c s then [Ev.chk (firstIndex i)] else []), .stopped t) ∧ t.timeIndex = firstIndex i := by
  obtain ⟨v1, v2, v3, v4, v5, v6, v7, v8, v9⟩ := dry_values i hd
  obtain ⟨b1, b2, b3, b4, b5, b6, b7, -, -, -, b11, b12, b13, b14, b15, -, -, b18, b19⟩ := begin_spec _ c s hb
  have hfi : firstIndex (setUpDryRun i) = firstIndex i := by unfold firstIndex; rw [v7]
  rw [hfi] at b11 b14 b15
  rw [v6] at b4 b5 b6 b7 b18 b19
  rw [v4] at b2 b18
  have hti : c.pltTInterval ≤ 0 := by rw [b4]; by_contra hc; exact b18 ⟨by norm_num, not_le.mp hc⟩
  have hcont : continueSim N c s = false := by
    unfold continueSim
    rw [if_pos (by rw [b1, v3])]
  have hnt : newTimestep N c s = (false, { s with isInit := false, curTime := s.newTime }) := by
    unfold newTimestep
    rw [hcont]; rfl
  have hprep : prepare N (setUpDryRun i) c s x = some (s, (if writePlotFile c s then [Ev.plot ("dry_run_" ++ i.plotFile) s.timeIndex] else []) ++
      (if writeCheckpoint c s then [Ev.chk s.timeIndex] else [])) := by
    unfold prepare
    rw [dry_kept i hd, v1, v2, v9]
    simp
  have hev : evolve N c s (y :: xs) = .stopped { s with isInit := false, curTime := s.newTime } := by
    unfold evolve; rw [hnt]
  have htr : trace N c s (y :: xs) = [] := by unfold trace; rw [hnt]
  refine ⟨{ s with isInit := false, curTime := s.newTime }, ?_, b11⟩
  have hlast : writeLastPlotFile c { s with isInit := false, curTime := s.newTime } = false := by
    unfold writeLastPlotFile
    rw [b2]
    simp [not_lt.mpr hti]
  have hlc : writeLastCheckpoint c { s with isInit := false, curTime := s.newTime } = writeLastCheckpoint c s := rfl
  have hplot : (writePlotFile c s = true) = (i.base.pltDelay ≤ firstIndex i) := by
    rw [eq_iff_iff, plot_step_schedule c s hti, b2, b6, b11]
    constructor
    · exact fun h => h.2.1
    · exact fun h => ⟨by norm_num, h, one_dvd _⟩
  unfold run
  dsimp only
  rw [hb, Option.bind_some, hprep, Option.map_some]
  dsimp only
  rw [hev, htr]
  unfold lastEvents
  dsimp only
  rw [hlast, hlc, b11]
  simp only [hplot, List.flatMap_nil, List.append_nil, Bool.false_eq_true, if_false, List.nil_append, v9]

/-- C117: a dry run without intervals of checkpoints, and with no delay beyond its first index, writes one plot file, with
a name of its own, and does nothing else: whatever steps, projections and iterations the user asked for, for a new run and a
restart.

Partial (C117). Missing: runs with a delay or with intervals in time (`dry_run_no_plot`, `dry_run_refused`). -/
theorem dry_run_one_plot_partial (N : Num K) (i : Inp K) (hd : i.dry = true) (hdelay : i.base.pltDelay ≤ firstIndex i)
    (hplt : i.base.pltTInterval ≤ 0) (hc : i.cfg.chkptInterval ≤ 0) (hct : i.base.chkptTInterval ≤ 0)
    (hf : i.base.forcePltDt = false) (hfc : i.base.forceChkptDt = false) (x y : CflIn K) (xs : List (CflIn K)) :
    ∃ t, run N i x (y :: xs) = some ([Ev.plot ("dry_run_" ++ i.plotFile) (firstIndex i)], .stopped t) := by
  obtain ⟨v1, v2, v3, v4, v5, v6, v7, v8, v9⟩ := dry_values i hd
  have hcons : Consistent (setUpDryRun i) := by
    unfold Consistent
    rw [v6, v5, hf, hfc]
    refine ⟨fun h => absurd h.2 (not_lt.mpr hplt), fun h => absurd h.2 (not_lt.mpr hct), ?_, ?_, ?_⟩ <;> simp
  obtain ⟨⟨c, s⟩, hb⟩ := Option.isSome_iff_exists.mp ((begin_accepts _).mpr hcons)
  obtain ⟨t, ht, -⟩ := dry_run_events N i hd x y xs c s hb
  obtain ⟨b1, b2, b3, b4, b5, -⟩ := begin_spec _ c s hb
  rw [v5] at b3
  rw [v6] at b5
  have h1 : writeCheckpoint c s = false := by
    rw [← Bool.not_eq_true, checkpoint_step_schedule c s (by rw [b5]; exact hct), b3]
    exact fun h => absurd h.1 (not_lt.mpr hc)
  have h2 : writeLastCheckpoint c s = false := by
    unfold writeLastCheckpoint
    rw [b3, b5]
    simp [not_lt.mpr hc, not_lt.mpr hct]
  refine ⟨t, ?_⟩
  rw [ht, h1, h2, if_pos hdelay]
  simp

/-- Counterexample: the option that is to switch checkpoints off is misspelt. A dry run of an input with an interval of
checkpoints writes one; restarted from a checkpoint, one with the index of that. -/
theorem dry_run_checkpoint (N : Num K) (i : Inp K) (hd : i.dry = true) (hc : 0 < i.cfg.chkptInterval) (hcd : i.base.chkptDelay ≤ firstIndex i)
    (hco : i.over.checkpointStart = none) (x y : CflIn K) (xs : List (CflIn K)) (r : List Ev × Outcome K) (hr : run N i x (y :: xs) = some r) :
    Ev.chk (firstIndex i) ∈ r.1 := by
  obtain ⟨v1, v2, v3, v4, v5, v6, v7, v8, v9⟩ := dry_values i hd
  cases hb : begin (setUpDryRun i) with
  | none => unfold run at hr; simp [hb] at hr
  | some cs =>
    obtain ⟨c, s⟩ := cs
    obtain ⟨t, ht, -⟩ := dry_run_events N i hd x y xs c s hb
    obtain ⟨b1, b2, b3, b4, b5, b6, b7, -, -, -, b11, -, -, b14, -, -, -, -, b19⟩ := begin_spec _ c s hb
    have hfi : firstIndex (setUpDryRun i) = firstIndex i := by unfold firstIndex; rw [v7]
    rw [v6, v5] at b19
    rw [v5] at b3
    rw [v6] at b5 b7
    rw [hfi] at b11
    rw [v8, hco, hfi, Option.getD_none] at b14
    have hti : c.chkptTInterval ≤ 0 := by rw [b5]; by_contra h; exact b19 ⟨hc, not_le.mp h⟩
    have h1 : writeCheckpoint c s = true := by
      rw [checkpoint_step_schedule c s hti, b3, b7, b11, b14, sub_self]
      exact ⟨hc, hcd, dvd_zero _⟩
    rw [ht] at hr
    simp only [Option.some.injEq] at hr
    rw [← hr, h1]
    simp

/-- Counterexample: a dry run of an input with a delay of plot files writes none. -/
theorem dry_run_no_plot (N : Num K) (i : Inp K) (hd : i.dry = true) (hdelay : firstIndex i < i.base.pltDelay) (x y : CflIn K)
    (xs : List (CflIn K)) (r : List Ev × Outcome K) (hr : run N i x (y :: xs) = some r) (f : String) (n : ℤ) : Ev.plot f n ∉ r.1 := by
  cases hb : begin (setUpDryRun i) with
  | none => unfold run at hr; simp [hb] at hr
  | some cs =>
    obtain ⟨c, s⟩ := cs
    obtain ⟨t, ht, -⟩ := dry_run_events N i hd x y xs c s hb
    rw [ht] at hr
    simp only [Option.some.injEq] at hr
    rw [← hr, if_neg (not_le.mpr hdelay)]
    simp only [List.nil_append, List.mem_append]
    rintro (h | h)
    · by_cases hw : writeCheckpoint c s = true
      · rw [if_pos hw] at h; simp at h
      · rw [if_neg hw] at h; simp at h
    · by_cases hw : writeLastCheckpoint c s = true
      · rw [if_pos hw] at h; simp at h
      · rw [if_neg hw] at h; simp at h

/-- Counterexample: a dry run of an input with plot files at intervals of time is refused. -/
theorem dry_run_refused (N : Num K) (i : Inp K) (hd : i.dry = true) (h : 0 < i.base.pltTInterval) (x : CflIn K) (xs : List (CflIn K)) :
    run N i x xs = none := by
  obtain ⟨v1, v2, v3, v4, v5, v6, v7, v8, v9⟩ := dry_values i hd
  have hn : begin (setUpDryRun i) = none := by
    rw [← Option.not_isSome_iff_eq_none, begin_accepts]
    intro hc
    exact hc.1 ⟨by rw [v4]; norm_num, by rw [v6]; exact h⟩
  unfold run
  simp [hn]

/-- An input: fixed steps of 1/2, ten steps, plot files every four, checkpoints every five. -/
def exInp : Inp ℚ where
  tab := [("time.max_step", 10), ("time.plot_interval", 4), ("time.checkpoint_interval", 5), ("incflo.initial_iterations", 2)]
  base := { demoCfg with fixedDt := 1 / 2, stopTime := -1, adaptive := false, pltTInterval := -1, forcePltDt := false, post := [], forceDtAbsTol := 10 ^ 8 }
  over := ⟨none, none, none, none, none⟩
  plotFile := "plt"
  restart := none

/-- The same as a dry run. -/
def exDry : Inp ℚ := { exInp with tab := exInp.tab ++ [("incflo.dry_run", 1)] }

/-- A run of ten steps. -/
example : (run demoNum exInp ⟨1, 0, 0⟩ (List.replicate 11 ⟨1, 0, 0⟩)).map (·.1) = some [.boundaries, .projection, .iteration, .iteration,
    .plot "plt" 0, .chk 0, .step 1, .step 2, .step 3, .step 4, .plot "plt" 4, .step 5, .chk 5, .step 6, .step 7, .step 8, .plot "plt" 8, .step 9,
    .step 10, .chk 10, .plot "plt" 10] := by decide +kernel

/-- Its dry run: a plot file, and the checkpoint that is not wanted; and the dry run of a restart with index 5. -/
example : (run demoNum exDry ⟨1, 0, 0⟩ [⟨1, 0, 0⟩]).map (·.1) = some [.plot "dry_run_plt" 0, .chk 0] ∧
    (run demoNum { exDry with restart := some (5, 5 / 2) } ⟨1, 0, 0⟩ [⟨1, 0, 0⟩]).map (·.1) = some [.plot "dry_run_plt" 5, .chk 5] ∧
    (run demoNum { exDry with tab := [("incflo.dry_run", 1)] } ⟨1, 0, 0⟩ [⟨1, 0, 0⟩]).map (·.1) = some [.plot "dry_run_plt" 0] ∧
    (run demoNum { exDry with base := { exDry.base with pltDelay := 3 } } ⟨1, 0, 0⟩ [⟨1, 0, 0⟩]).map (·.1) = some [.chk 0] ∧
    (run demoNum { exDry with base := { exDry.base with pltTInterval := 1 } } ⟨1, 0, 0⟩ [⟨1, 0, 0⟩]).map (·.1) = none := by
  decide +kernel

/-! ## Before the first step -/

/-- A restart from step 5 of the run above. -/
example : (run demoNum { exInp with restart := some (5, 5 / 2) } ⟨1, 0, 0⟩ (List.replicate 6 ⟨1, 0, 0⟩)).map (·.1) = some [.step 6, .step 7, .step 8,
    .step 9, .plot "plt" 9, .step 10, .chk 10, .plot "plt" 10] := by decide +kernel

/-- From the first step on there are only steps and files. -/
theorem loop_events (N : Num K) (file : String) (c : Cfg K) (s : State K) (xs : List (CflIn K)) (e : Ev)
    (he : e ∈ (trace N c s xs).flatMap (stepEvents file c) ++ lastEvents file c (evolve N c s xs)) :
    e ≠ Ev.boundaries ∧ e ≠ Ev.projection ∧ e ≠ Ev.iteration := by
  rcases List.mem_append.mp he with he | he
  · obtain ⟨t, -, ht⟩ := List.mem_flatMap.mp he
    unfold stepEvents at ht
    rcases List.mem_append.mp ht with ht | ht
    · rcases List.mem_append.mp ht with ht | ht
      · simp only [List.mem_singleton] at ht; subst ht; simp
      · by_cases hw : writePlotFile c t = true
        · rw [if_pos hw, List.mem_singleton] at ht; subst ht; simp
        · rw [if_neg hw] at ht; simp at ht
    · by_cases hw : writeCheckpoint c t = true
      · rw [if_pos hw, List.mem_singleton] at ht; subst ht; simp
      · rw [if_neg hw] at ht; simp at ht
  · unfold lastEvents at he
    cases ho : evolve N c s xs with
    | stopped t =>
      rw [ho] at he
      rcases List.mem_append.mp he with ht | ht
      · by_cases hw : writeLastPlotFile c t = true
        · rw [if_pos hw, List.mem_singleton] at ht; subst ht; simp
        · rw [if_neg hw] at ht; simp at ht
      · by_cases hw : writeLastCheckpoint c t = true
        · rw [if_pos hw, List.mem_singleton] at ht; subst ht; simp
        · rw [if_neg hw] at ht; simp at ht
    | running t => rw [ho] at he; simp at he
    | aborted e t => rw [ho] at he; simp at he

/-- A restarted run does nothing before its first step: no projection, no iteration, no file (unless it is at its end already). -/
theorem restart_starts_at_once (N : Num K) (i : Inp K) (hd : i.dry = false) (hr : i.restart.isSome = true) (x : CflIn K)
    (xs : List (CflIn K)) (r : List Ev × Outcome K) (h : run N i x xs = some r) :
    (∀ e ∈ r.1, e ≠ Ev.boundaries ∧ e ≠ Ev.projection ∧ e ≠ Ev.iteration) ∧
      (r.1 = [] ∨ (∃ l, r.1 = Ev.step (firstIndex i + 1) :: l) ∨ ∃ t, r.2 = .stopped t ∧ t.timeIndex = firstIndex i) := by
  have hsd : setUpDryRun i = i := by unfold setUpDryRun; rw [if_neg (by simp [hd])]
  unfold run at h
  dsimp only at h
  rw [hsd] at h
  cases hb : begin i with
  | none => rw [hb] at h; simp at h
  | some cs =>
    obtain ⟨c, s⟩ := cs
    have hidx := (begin_spec _ c s hb).2.2.2.2.2.2.2.2.2.2.1
    have hp : prepare N i c s x = some (s, []) := by
      unfold prepare
      rw [if_pos (by rw [hr, hd]; rfl)]
    rw [hb, Option.bind_some, hp, Option.map_some, Option.some.injEq] at h
    dsimp only at h
    rw [← h]
    dsimp only
    refine ⟨fun e he => loop_events N i.plotFile c s xs e (by simpa using he), ?_⟩
    have hti := trace_indices N c s xs
    have hend : ∀ t, evolve N c s xs = .stopped t → _ := fun t he => evolve_stopped_last (t := t) he
    cases ht : trace N c s xs with
    | nil =>
      rw [List.flatMap_nil, List.append_nil, List.nil_append]
      cases he : evolve N c s xs with
      | stopped t =>
        right; right
        refine ⟨t, rfl, ?_⟩
        rw [hend t he, ht]
        exact hidx
      | running t => left; rfl
      | aborted e t => left; rfl
    | cons a l =>
      right; left
      rw [ht] at hti
      simp only [List.map_cons, List.length_cons, List.range_succ_eq_map, List.cons.injEq, Nat.cast_zero, add_zero] at hti
      refine ⟨(if writePlotFile c a then [Ev.plot i.plotFile a.timeIndex] else []) ++ (if writeCheckpoint c a then [Ev.chk a.timeIndex] else []) ++
        l.flatMap (stepEvents i.plotFile c) ++ lastEvents i.plotFile c (evolve N c s xs), ?_⟩
      rw [List.flatMap_cons, ← hidx, ← hti.1]
      simp [stepEvents]

/-- A new run: the projection comes first, then as many iterations as asked for, then the files of the initial state. -/
theorem new_run_order (N : Num K) (i : Inp K) (hd : i.dry = false) (hr : i.restart = none) (x : CflIn K) (xs : List (CflIn K))
    (r : List Ev × Outcome K) (h : run N i x xs = some r) :
    ∃ files rest, r.1 = (if i.iterations > 0 then [Ev.boundaries] else []) ++ (if i.project then [Ev.projection] else []) ++
        List.replicate i.iterations Ev.iteration ++ files ++ rest ∧
      (∀ e ∈ files, e = Ev.plot i.plotFile 0 ∨ e = Ev.chk 0) ∧ (∀ e ∈ rest, e ≠ Ev.projection ∧ e ≠ Ev.iteration) := by
  have hsd : setUpDryRun i = i := by unfold setUpDryRun; rw [if_neg (by simp [hd])]
  unfold run at h
  dsimp only at h
  rw [hsd] at h
  cases hb : begin i with
  | none => rw [hb] at h; simp at h
  | some cs =>
    obtain ⟨c, s⟩ := cs
    have hidx := (begin_spec _ c s hb).2.2.2.2.2.2.2.2.2.2.1
    have hf : firstIndex i = 0 := by simp [firstIndex, hr]
    rw [hb, Option.bind_some] at h
    cases hp : prepare N i c s x with
    | none => rw [hp] at h; simp at h
    | some se =>
      rw [hp, Option.map_some, Option.some.injEq] at h
      dsimp only at h
      unfold prepare at hp
      rw [hr, if_neg (by simp)] at hp
      dsimp only at hp
      obtain ⟨s', hs', hse⟩ := Option.map_eq_some_iff.mp hp
      have hi : s'.timeIndex = 0 := by
        by_cases hn : i.iterations > 0
        · rw [if_pos hn] at hs'
          cases hc : setCurrentCfl N c s x.conv x.diff x.src with
          | error e => rw [hc] at hs'; simp [Except.toOption] at hs'
          | ok s2 =>
            rw [hc] at hs'
            simp only [Except.toOption, Option.some.injEq] at hs'
            rw [← hs', (setCurrentCfl_frame hc).2.2.2.2.2.1, hidx, hf]
        · rw [if_neg hn, Option.some.injEq] at hs'
          rw [← hs', hidx, hf]
      refine ⟨(if writePlotFile c s' then [Ev.plot i.plotFile s'.timeIndex] else []) ++ (if writeCheckpoint c s' then [Ev.chk s'.timeIndex] else []),
        (trace N c se.1 xs).flatMap (stepEvents i.plotFile c) ++ lastEvents i.plotFile c (evolve N c se.1 xs), ?_, ?_, ?_⟩
      · rw [← h, ← hse]
        simp only [List.append_assoc]
      · intro e he
        rw [hi] at he
        rcases List.mem_append.mp he with he | he
        · by_cases hw : writePlotFile c s' = true
          · rw [if_pos hw] at he; left; simpa using he
          · rw [if_neg hw] at he; simp at he
        · by_cases hw : writeCheckpoint c s' = true
          · rw [if_pos hw] at he; right; simpa using he
          · rw [if_neg hw] at he; simp at he
      · intro e he
        exact (loop_events N i.plotFile c se.1 xs e he).2

/-! ## The files of a run -/

/-- The index of a plot file. -/
def plotOf : Ev → Option ℤ
  | .plot _ n => some n
  | _ => none

/-- The index of a checkpoint. -/
def chkOf : Ev → Option ℤ
  | .chk n => some n
  | _ => none

theorem loop_plots (N : Num K) (file : String) (c : Cfg K) (s : State K) (xs : List (CflIn K)) :
    ((trace N c s xs).flatMap (stepEvents file c) ++ lastEvents file c (evolve N c s xs)).filterMap plotOf = plotIndices N c s xs := by
  unfold plotIndices
  rw [List.filterMap_append]
  congr 1
  · induction trace N c s xs with
    | nil => rfl
    | cons a l ih =>
      rw [List.flatMap_cons, List.filterMap_append, ih]
      by_cases hw : writePlotFile c a = true <;> by_cases hw2 : writeCheckpoint c a = true <;> simp [stepEvents, hw, hw2, plotOf, List.filterMap_cons]
  · cases evolve N c s xs with
    | stopped t =>
      by_cases hw : writeLastPlotFile c t = true <;> by_cases hw2 : writeLastCheckpoint c t = true <;> simp [lastEvents, hw, hw2, plotOf, List.filterMap_cons]
    | running t => rfl
    | aborted e t => rfl

theorem loop_chks (N : Num K) (file : String) (c : Cfg K) (s : State K) (xs : List (CflIn K)) :
    ((trace N c s xs).flatMap (stepEvents file c) ++ lastEvents file c (evolve N c s xs)).filterMap chkOf = chkptIndices N c s xs := by
  unfold chkptIndices
  rw [List.filterMap_append]
  congr 1
  · induction trace N c s xs with
    | nil => rfl
    | cons a l ih =>
      rw [List.flatMap_cons, List.filterMap_append, ih]
      by_cases hw : writePlotFile c a = true <;> by_cases hw2 : writeCheckpoint c a = true <;> simp [stepEvents, hw, hw2, chkOf, List.filterMap_cons]
  · cases evolve N c s xs with
    | stopped t =>
      by_cases hw : writeLastPlotFile c t = true <;> by_cases hw2 : writeLastCheckpoint c t = true <;> simp [lastEvents, hw, hw2, chkOf, List.filterMap_cons]
    | running t => rfl
    | aborted e t => rfl

/-- Files decided on by `due` at the start and after every step, and by `last` at the end, are never written twice if the two
never agree. -/
theorem once (N : Num K) (c : Cfg K) (s : State K) (xs : List (CflIn K)) (due last : State K → Bool)
    (hx : ∀ t, ¬(due t = true ∧ last t = true))
    (hf : ∀ t t', t'.timeIndex = t.timeIndex → t'.newTime = t.newTime → t'.dt0 = t.dt0 → t'.pltStartIndex = t.pltStartIndex →
      t'.pltStartTime = t.pltStartTime → t'.chkptStartIndex = t.chkptStartIndex → t'.chkptStartTime = t.chkptStartTime → due t' = due t) (b : Bool) :
    ((if b && due s then [s.timeIndex] else []) ++ (((trace N c s xs).filter due).map (·.timeIndex) ++
      match evolve N c s xs with
      | .stopped t => if last t then [t.timeIndex] else []
      | _ => [])).Nodup := by
  have hnd := trace_indices_nodup N c s xs
  have hgt : ∀ t ∈ trace N c s xs, s.timeIndex < t.timeIndex := by
    intro t ht
    have : t.timeIndex ∈ (trace N c s xs).map (·.timeIndex) := List.mem_map.mpr ⟨t, ht, rfl⟩
    rw [trace_indices] at this
    obtain ⟨k, -, hk⟩ := List.mem_map.mp this
    omega
  have hsub : (((trace N c s xs).filter due).map (·.timeIndex)).Nodup := hnd.sublist (List.Sublist.map _ List.filter_sublist)
  have hfirst : ∀ a ∈ (if b && due s then [s.timeIndex] else []), a = s.timeIndex ∧ due s = true := by
    intro a ha
    by_cases hb : (b && due s) = true
    · rw [if_pos hb, List.mem_singleton] at ha
      exact ⟨ha, by simp at hb; exact hb.2⟩
    · rw [if_neg hb] at ha; simp at ha
  rw [List.nodup_append, List.nodup_append]
  refine ⟨?_, ⟨hsub, ?_, ?_⟩, ?_⟩
  · by_cases hb : (b && due s) = true
    · rw [if_pos hb]; simp
    · rw [if_neg hb]; simp
  · cases evolve N c s xs with
    | stopped t => by_cases hl : last t = true <;> simp [hl]
    | running t => simp
    | aborted e t => simp
  · intro a ha d hd
    cases he : evolve N c s xs with
    | stopped t =>
      rw [he] at hd
      by_cases hl : last t = true
      · dsimp only at hd
        rw [if_pos hl, List.mem_singleton] at hd
        rintro rfl
        obtain ⟨u, hu, hue⟩ := List.mem_map.mp ha
        obtain ⟨hu1, hu2⟩ := List.mem_filter.mp hu
        have ht := evolve_stopped_last he
        have hne : trace N c s xs ≠ [] := List.ne_nil_of_mem hu1
        obtain ⟨l, hl'⟩ : ∃ l, (trace N c s xs).getLast? = some l := by
          rw [← Option.isSome_iff_exists, List.getLast?_isSome]; exact hne
        rw [hl', Option.getD_some] at ht
        have hlm : l ∈ trace N c s xs := List.mem_of_getLast? hl'
        have hul : u = l := List.inj_on_of_nodup_map hnd hu1 hlm (by rw [hue, hd, ht])
        subst hul
        have : due t = due u := hf u t (by rw [ht]) (by rw [ht]) (by rw [ht]) (by rw [ht]) (by rw [ht]) (by rw [ht]) (by rw [ht])
        exact hx t ⟨by rw [this]; exact hu2, hl⟩
      · dsimp only at hd
        rw [if_neg hl] at hd; simp at hd
    | running t => rw [he] at hd; simp at hd
    | aborted e t => rw [he] at hd; simp at hd
  · intro a ha d hd
    obtain ⟨ha1, ha2⟩ := hfirst a ha
    rintro rfl
    rcases List.mem_append.mp hd with hd | hd
    · obtain ⟨u, hu, hue⟩ := List.mem_map.mp hd
      have := hgt u (List.mem_filter.mp hu).1
      omega
    · cases he : evolve N c s xs with
      | stopped t =>
        rw [he] at hd
        by_cases hl : last t = true
        · dsimp only at hd
          rw [if_pos hl, List.mem_singleton] at hd
          have ht := evolve_stopped_last he
          cases htr : trace N c s xs with
          | nil =>
            rw [htr] at ht
            simp only [List.getLast?_nil, Option.getD_none] at ht
            have : due t = due s := hf s t (by rw [ht]) (by rw [ht]) (by rw [ht]) (by rw [ht]) (by rw [ht]) (by rw [ht]) (by rw [ht])
            exact hx t ⟨by rw [this]; exact ha2, hl⟩
          | cons u l =>
            obtain ⟨v, hv⟩ : ∃ v, (trace N c s xs).getLast? = some v := by
              rw [← Option.isSome_iff_exists, List.getLast?_isSome, htr]; simp
            rw [hv, Option.getD_some] at ht
            have := hgt v (List.mem_of_getLast? hv)
            have e : t.timeIndex = v.timeIndex := by rw [ht]
            omega
        · dsimp only at hd
          rw [if_neg hl] at hd; simp at hd
      | running t => rw [he] at hd; simp at hd
      | aborted e t => rw [he] at hd; simp at hd

theorem plot_exclusive (c : Cfg K) (hc : ¬(0 < c.pltInterval ∧ 0 < c.pltTInterval)) (t : State K) :
    ¬(writePlotFile c t = true ∧ writeLastPlotFile c t = true) := by
  rintro ⟨h1, h2⟩
  unfold writePlotFile stepDue timeDue at h1
  unfold writeLastPlotFile at h2
  simp only [Bool.or_eq_true, decide_eq_true_eq] at h1 h2
  rcases h1 with h1 | h1 <;> rcases h2 with h2 | h2
  · exact h2.2 h1.2.2
  · exact hc ⟨h1.1, h2.1⟩
  · exact hc ⟨h2.1, h1.1⟩
  · exact absurd h1.2.2 (by unfold fracDue; exact not_lt.mpr h2.2)

theorem chk_exclusive (c : Cfg K) (hc : ¬(0 < c.chkptInterval ∧ 0 < c.chkptTInterval)) (t : State K) :
    ¬(writeCheckpoint c t = true ∧ writeLastCheckpoint c t = true) := by
  rintro ⟨h1, h2⟩
  unfold writeCheckpoint stepDue timeDue at h1
  unfold writeLastCheckpoint at h2
  simp only [Bool.or_eq_true, decide_eq_true_eq] at h1 h2
  rcases h1 with h1 | h1 <;> rcases h2 with h2 | h2
  · exact h2.2 h1.2.2
  · exact hc ⟨h1.1, h2.1⟩
  · exact hc ⟨h2.1, h1.1⟩
  · exact absurd h1.2.2 (by unfold fracDue; exact not_lt.mpr h2.2)

/-- No run, new or restarted, dry or not, however it ends, writes two plot files or two checkpoints with the same index. -/
theorem files_once (N : Num K) (i : Inp K) (x : CflIn K) (xs : List (CflIn K)) (r : List Ev × Outcome K) (h : run N i x xs = some r) :
    (r.1.filterMap plotOf).Nodup ∧ (r.1.filterMap chkOf).Nodup := by
  unfold run at h
  dsimp only at h
  generalize setUpDryRun i = j at h
  cases hb : begin j with
  | none => rw [hb] at h; simp at h
  | some cs =>
    obtain ⟨c, s⟩ := cs
    obtain ⟨-, b2, b3, b4, b5, -, -, -, -, -, -, -, -, -, -, -, -, b18, b19⟩ := begin_spec _ c s hb
    rw [← b2, ← b4] at b18
    rw [← b3, ← b5] at b19
    rw [hb, Option.bind_some] at h
    cases hp : prepare N j c s x with
    | none => rw [hp] at h; simp at h
    | some se =>
      rw [hp, Option.map_some, Option.some.injEq] at h
      dsimp only at h
      have hev : ∃ b, se.2.filterMap plotOf = (if b && writePlotFile c se.1 then [se.1.timeIndex] else []) ∧
          se.2.filterMap chkOf = (if b && writeCheckpoint c se.1 then [se.1.timeIndex] else []) := by
        unfold prepare at hp
        by_cases hr : (j.restart.isSome && !j.dry) = true
        · rw [if_pos hr, Option.some.injEq] at hp
          exact ⟨false, by rw [← hp]; rfl, by rw [← hp]; rfl⟩
        · rw [if_neg hr] at hp
          dsimp only at hp
          obtain ⟨s', -, hse⟩ := Option.map_eq_some_iff.mp hp
          refine ⟨true, ?_, ?_⟩
          all_goals
            rw [← hse]
            simp only [List.filterMap_append, Bool.true_and]
            by_cases hw : writePlotFile c s' = true <;> by_cases hw2 : writeCheckpoint c s' = true <;>
              by_cases h1 : j.iterations > 0 <;> by_cases h2 : j.project = true <;>
              simp [hw, hw2, h1, h2, plotOf, chkOf, List.filterMap_replicate, List.filterMap_cons]
      obtain ⟨b, hb1, hb2⟩ := hev
      rw [← h]
      dsimp only
      rw [List.append_assoc]
      have e (f : Ev → Option ℤ) (a b : List Ev) : (a ++ b).filterMap f = a.filterMap f ++ b.filterMap f := List.filterMap_append
      rw [e plotOf se.2, e chkOf se.2, loop_plots, loop_chks, hb1, hb2]
      refine ⟨?_, ?_⟩
      · exact once N c se.1 xs (writePlotFile c) (writeLastPlotFile c) (plot_exclusive c b18)
          (fun t t' e1 e2 e3 e4 e5 _ _ => by unfold writePlotFile pltTol; rw [e1, e2, e3, e4, e5]) b
      · exact once N c se.1 xs (writeCheckpoint c) (writeLastCheckpoint c) (chk_exclusive c b19)
          (fun t t' e1 e2 e3 _ _ e6 e7 => by unfold writeCheckpoint chkptTol; rw [e1, e2, e3, e6, e7]) b

/-! ## The plot file of the initial state -/

theorem prepare_files (N : Num K) (i : Inp K) (hd : i.dry = false) (x : CflIn K) (xs : List (CflIn K)) (hn : i.iterations = 0)
    (hr : i.restart = none) (c : Cfg K) (s : State K) (hb : begin i = some (c, s)) (r : List Ev × Outcome K) (h : run N i x xs = some r) :
    r.1.filterMap plotOf = (if writePlotFile c s then [0] else []) ++ plotIndices N c s xs := by
  have hsd : setUpDryRun i = i := by unfold setUpDryRun; rw [if_neg (by simp [hd])]
  have hidx : s.timeIndex = 0 := by
    rw [(begin_spec _ c s hb).2.2.2.2.2.2.2.2.2.2.1]; simp [firstIndex, hr]
  unfold run at h
  dsimp only at h
  rw [hsd, hb, Option.bind_some] at h
  unfold prepare at h
  rw [hr, hn] at h
  simp only [Option.isSome_none, Bool.false_and, Bool.false_eq_true, if_false, lt_irrefl, gt_iff_lt, Option.map_some, List.nil_append,
    List.replicate_zero, List.append_nil, Option.some.injEq] at h
  rw [← h]
  dsimp only
  have e (f : Ev → Option ℤ) (a b : List Ev) : (a ++ b).filterMap f = a.filterMap f ++ b.filterMap f := List.filterMap_append
  rw [List.append_assoc, e, loop_plots, hidx]
  congr 1
  by_cases hw : writePlotFile c s = true <;> by_cases hw2 : writeCheckpoint c s = true <;> by_cases h2 : i.project = true <;>
    simp [hw, hw2, h2, plotOf, List.filterMap_cons]

/-- Files at intervals of steps: a new run writes the initial state.

Partial (C117). Missing: intervals in time with adapted steps, where it is false. -/
theorem initial_plot_steps_partial (N : Num K) (i : Inp K) (hd : i.dry = false) (hr : i.restart = none) (hi : 0 < i.cfg.pltInterval)
    (hdl : i.base.pltDelay ≤ 0) (ho : i.over.plotStart = none) (x : CflIn K) (xs : List (CflIn K)) (r : List Ev × Outcome K)
    (h : run N i x xs = some r) : Ev.plot i.plotFile 0 ∈ r.1 := by
  have hsd : setUpDryRun i = i := by unfold setUpDryRun; rw [if_neg (by simp [hd])]
  unfold run at h
  dsimp only at h
  rw [hsd] at h
  cases hb : begin i with
  | none => rw [hb] at h; simp at h
  | some cs =>
    obtain ⟨c, s⟩ := cs
    obtain ⟨b1, b2, b3, b4, b5, b6, b7, -, -, -, b11, b12, b13, b14, b15, -, -, b18, b19⟩ := begin_spec _ c s hb
    have hf : firstIndex i = 0 := by simp [firstIndex, hr]
    rw [hf] at b11 b15
    rw [ho, Option.getD_none] at b15
    have hti : c.pltTInterval ≤ 0 := by rw [b4]; by_contra hc; exact b18 ⟨hi, not_le.mp hc⟩
    rw [hb, Option.bind_some] at h
    cases hp : prepare N i c s x with
    | none => rw [hp] at h; simp at h
    | some se =>
      rw [hp, Option.map_some, Option.some.injEq] at h
      dsimp only at h
      unfold prepare at hp
      rw [hr, if_neg (by simp)] at hp
      dsimp only at hp
      obtain ⟨s', hs', hse⟩ := Option.map_eq_some_iff.mp hp
      have hi' : s'.timeIndex = 0 ∧ s'.pltStartIndex = 0 := by
        by_cases hn : i.iterations > 0
        · rw [if_pos hn] at hs'
          cases hc : setCurrentCfl N c s x.conv x.diff x.src with
          | error e => rw [hc] at hs'; simp [Except.toOption] at hs'
          | ok s2 =>
            rw [hc] at hs'
            simp only [Except.toOption, Option.some.injEq] at hs'
            have hfr := setCurrentCfl_frame hc
            rw [← hs', hfr.2.2.2.2.2.1, hfr.2.2.2.2.2.2.2.1]
            exact ⟨b11, b15⟩
        · rw [if_neg hn, Option.some.injEq] at hs'
          rw [← hs']; exact ⟨b11, b15⟩
      have hw : writePlotFile c s' = true := by
        rw [plot_step_schedule c s' hti, b2, b6, hi'.1, hi'.2, sub_self]
        exact ⟨hi, hdl, dvd_zero _⟩
      rw [← h, ← hse]
      simp [hw, hi'.1]

/-- Files at intervals of time, with fixed steps: a new run without initial iterations writes the initial state. -/
theorem initial_plot_fixed (N : Num K) (i : Inp K) (hd : i.dry = false) (hr : i.restart = none) (hn : i.iterations = 0)
    (hi : 0 < i.base.pltTInterval) (hdl : i.base.pltTDelay ≤ 0) (ho : i.over.plotStartTime = none) (hfx : 0 < i.base.fixedDt)
    (htol : 0 ≤ i.base.pltTTol ∧ i.base.pltTTol < 1) (habs : ∀ c s, begin i = some (c, s) → 0 ≤ c.forceDtAbsTol) (x : CflIn K)
    (xs : List (CflIn K)) (r : List Ev × Outcome K) (h : run N i x xs = some r) : 0 ∈ r.1.filterMap plotOf := by
  cases hb : begin i with
  | none => unfold run at h; simp [setUpDryRun, hd, hb] at h
  | some cs =>
    obtain ⟨c, s⟩ := cs
    rw [prepare_files N i hd x xs hn hr c s hb r h]
    obtain ⟨b1, b2, b3, b4, b5, b6, b7, b8, b9, -, b11, b12, b13, b14, b15, b16, -, b18, b19⟩ := begin_spec _ c s hb
    have hw : writePlotFile c s = true := by
      unfold writePlotFile
      rw [Bool.or_eq_true]
      right
      unfold timeDue
      rw [decide_eq_true_eq]
      have e1 : s.newTime = 0 := by rw [b12, hr]; rfl
      have e2 : s.pltStartTime = 0 := by rw [b16, ho, hr]; rfl
      have e3 : s.dt0 = i.base.fixedDt := by rw [b13, if_pos hfx]
      have t0 : 0 ≤ pltTol c s := by
        unfold pltTol
        rw [e3, b9]
        exact le_min (mul_nonneg htol.1 hfx.le) (habs c s hb)
      have t1 : pltTol c s < i.base.fixedDt := by
        unfold pltTol
        rw [e3, b9]
        exact lt_of_le_of_lt (min_le_left _ _) (by nlinarith [htol.2])
      rw [b4, e1, e2, e3, b8]
      refine ⟨hi, by linarith, ?_⟩
      unfold fracDue
      have z : (0 : K) - 0 + pltTol c s = pltTol c s := by ring
      rw [z]
      have hfl : (0 : K) ≤ (⌊pltTol c s / i.base.pltTInterval⌋ : K) := by
        have : 0 ≤ ⌊pltTol c s / i.base.pltTInterval⌋ := Int.floor_nonneg.mpr (div_nonneg t0 hi.le)
        exact_mod_cast this
      have : pltTol c s / i.base.pltTInterval < i.base.fixedDt / i.base.pltTInterval := div_lt_div_of_pos_right t1 hi
      linarith
    rw [hw]
    simp

/-- Counterexample: with steps adapted to the flow and no initial iterations, the initial state is not written at intervals of
time (the size of the step is still -1). -/
theorem initial_plot_missing (N : Num K) (i : Inp K) (hd : i.dry = false) (hr : i.restart = none) (hn : i.iterations = 0)
    (hi : 0 < i.base.pltTInterval) (hdl : 0 ≤ i.base.pltTDelay) (hfx : i.base.fixedDt ≤ 0)
    (htol : 0 < i.base.pltTTol) (x y : CflIn K) (hy : ∀ c s, begin i = some (c, s) → continueSim N c s = true)
    (xs : List (CflIn K)) (r : List Ev × Outcome K) (h : run N i x (y :: xs) = some r) : 0 ∉ r.1.filterMap plotOf := by
  cases hb : begin i with
  | none => unfold run at h; simp [setUpDryRun, hd, hb] at h
  | some cs =>
    obtain ⟨c, s⟩ := cs
    rw [prepare_files N i hd x (y :: xs) hn hr c s hb r h]
    obtain ⟨b1, b2, b3, b4, b5, b6, b7, b8, b9, -, b11, b12, b13, b14, b15, b16, -, b18, b19⟩ := begin_spec _ c s hb
    have hidx : s.timeIndex = 0 := by rw [b11]; simp [firstIndex, hr]
    have e1 : s.newTime = 0 := by rw [b12, hr]; rfl
    have e3 : s.dt0 = -1 := by rw [b13, if_neg (not_lt.mpr hfx)]
    have hpi : c.pltInterval ≤ 0 := by rw [b2]; by_contra hc; exact b18 ⟨not_le.mp hc, hi⟩
    have hw : writePlotFile c s = false := by
      unfold writePlotFile stepDue timeDue
      have t0 : pltTol c s < 0 := by
        unfold pltTol
        rw [e3, b9]
        exact lt_of_le_of_lt (min_le_left _ _) (by linarith)
      have h1 : ¬(0 < c.pltInterval ∧ 0 ≤ s.timeIndex - c.pltDelay ∧ (s.timeIndex - s.pltStartIndex).tmod c.pltInterval = 0) :=
        fun hh => absurd hh.1 (not_lt.mpr hpi)
      have h2 : ¬(0 < c.pltTInterval ∧ 0 ≤ s.newTime + pltTol c s - c.pltTDelay ∧
          fracDue c.pltTInterval s.pltStartTime s.newTime s.dt0 (pltTol c s)) := by
        rintro ⟨-, hh, -⟩
        rw [e1, b8] at hh
        linarith
      rw [decide_eq_false h1, decide_eq_false h2]; rfl
    rw [hw, if_neg (by simp), List.nil_append]
    -- the files of the loop have positive indices
    intro hm
    have hgt : ∀ t ∈ trace N c s (y :: xs), 0 < t.timeIndex := by
      intro t ht
      have : t.timeIndex ∈ (trace N c s (y :: xs)).map (·.timeIndex) := List.mem_map.mpr ⟨t, ht, rfl⟩
      rw [trace_indices, hidx] at this
      obtain ⟨k, -, hk⟩ := List.mem_map.mp this
      omega
    unfold plotIndices at hm
    rcases List.mem_append.mp hm with hm | hm
    · obtain ⟨t, ht, h0⟩ := List.mem_map.mp hm
      have := hgt t (List.mem_filter.mp ht).1
      omega
    · cases he : evolve N c s (y :: xs) with
      | stopped t =>
        rw [he] at hm
        by_cases hl : writeLastPlotFile c t = true
        · dsimp only at hm
          rw [if_pos hl, List.mem_singleton] at hm
          have ht := evolve_stopped_last he
          cases htr : trace N c s (y :: xs) with
          | nil =>
            have hcs := hy c s hb
            unfold evolve newTimestep at he
            unfold trace newTimestep at htr
            rw [if_pos hcs] at he htr
            dsimp only at he htr
            cases hsb : stepBody N c { s with isInit := false, dt2 := s.dt1, dt1 := s.dt0, timeIndex := s.timeIndex + 1, curTime := s.newTime } y with
            | error e => rw [hsb] at he; simp at he
            | ok s'' => rw [hsb] at htr; simp at htr
          | cons u l =>
            obtain ⟨v, hv⟩ : ∃ v, (trace N c s (y :: xs)).getLast? = some v := by
              rw [← Option.isSome_iff_exists, List.getLast?_isSome, htr]; simp
            rw [hv, Option.getD_some] at ht
            have := hgt v (List.mem_of_getLast? hv)
            have e : t.timeIndex = v.timeIndex := by rw [ht]
            omega
        · dsimp only at hm
          rw [if_neg hl] at hm; simp at hm
      | running t => rw [he] at hm; simp at hm
      | aborted e t => rw [he] at hm; simp at hm

/-- Plot files at intervals of 1: written at the start with fixed steps, and not with steps adapted to the flow. -/
example : (run demoNum { exInp with tab := [("incflo.initial_iterations", 0), ("time.max_step", 2)], base := { exInp.base with pltTInterval := 1 } } ⟨1, 0, 0⟩
      (List.replicate 3 ⟨1, 0, 0⟩)).map (·.1) = some [.projection, .plot "plt" 0, .step 1, .step 2, .plot "plt" 2] ∧
    (run demoNum { exInp with tab := [("incflo.initial_iterations", 0), ("time.max_step", 2)], base := { exInp.base with pltTInterval := 1, fixedDt := -1, maxDt := 1 / 2 } } ⟨1, 0, 0⟩
      (List.replicate 3 ⟨1, 0, 0⟩)).map (·.1) = some [.projection, .step 1, .step 2, .plot "plt" 2] := by
  decide +kernel

/-! ## Initial iterations -/

section iterations
variable {ι P F : Type*}

/-- A step leaves the fields at the old time alone. -/
def KeepsOld (cd : Bool) (pred : Flow (K := K) ι P F → Flow (K := K) ι P F) : Prop :=
  ∀ w, (pred w).vel.old = w.vel.old ∧ (cd = true → (pred w).rho.old = w.rho.old) ∧ ∀ n, ((pred w).scal n).old = (w.scal n).old

theorem iterate_keeps (cd : Bool) (pred : Flow (K := K) ι P F → Flow (K := K) ι P F) (hp : KeepsOld cd pred) (n : ℕ) (w : Flow (K := K) ι P F)
    (hv : w.vel.old = w.vel.new) (hr : cd = true → w.rho.old = w.rho.new) (hs : ∀ n, (w.scal n).old = (w.scal n).new) :
    (iterate cd pred n w).vel = w.vel ∧ (cd = true → (iterate cd pred n w).rho = w.rho) ∧ ∀ m, (iterate cd pred n w).scal m = w.scal m := by
  induction n generalizing w with
  | zero => exact ⟨rfl, fun _ => rfl, fun _ => rfl⟩
  | succ n ih =>
    have un : iterate cd pred (n + 1) w = iterate cd pred n (putBack cd (pred w)) := rfl
    rw [un]
    obtain ⟨h1, h2, h3⟩ := hp w
    have e1 : (putBack cd (pred w)).vel = ⟨w.vel.old, w.vel.old⟩ := by unfold putBack Two.restore; simp only [h1]
    have e2 : cd = true → (putBack cd (pred w)).rho = ⟨w.rho.old, w.rho.old⟩ := by
      intro hc; unfold putBack Two.restore; simp only [hc, if_true, h2 hc]
    have e3 : ∀ m, (putBack cd (pred w)).scal m = ⟨(w.scal m).old, (w.scal m).old⟩ := by
      intro m; unfold putBack Two.restore; simp only [h3]
    obtain ⟨i1, i2, i3⟩ := ih (putBack cd (pred w)) (by rw [e1]) (fun hc => by rw [e2 hc]) (fun m => by rw [e3])
    refine ⟨?_, ?_, ?_⟩
    · rw [i1, e1]
      calc (⟨w.vel.old, w.vel.old⟩ : Two F) = ⟨w.vel.old, w.vel.new⟩ := by rw [← hv]
        _ = w.vel := rfl
    · intro hc
      rw [i2 hc, e2 hc]
      calc (⟨w.rho.old, w.rho.old⟩ : Two F) = ⟨w.rho.old, w.rho.new⟩ := by rw [← hr hc]
        _ = w.rho := rfl
    · intro m
      rw [i3, e3]
      calc (⟨(w.scal m).old, (w.scal m).old⟩ : Two F) = ⟨(w.scal m).old, (w.scal m).new⟩ := by rw [← hs m]
        _ = w.scal m := rfl

/-- C117: whatever steps are made in the initial iterations, and however many, velocity and scalars, and density (constant, or one
of the scalars), are afterwards what they were. -/
theorem iterations_keep_flow (cd : Bool) (tol : K) (maxP : (P → K) → K) (b : Bool) (p0 : P → K) (pred : Flow (K := K) ι P F → Flow (K := K) ι P F)
    (hp : KeepsOld cd pred) (n : ℕ) (w : Flow (K := K) ι P F) :
    (initialIterations cd tol maxP b p0 pred n w).vel.new = w.vel.new ∧
      (cd = true → (initialIterations cd tol maxP b p0 pred n w).rho.new = w.rho.new) ∧
      ∀ m, ((initialIterations cd tol maxP b p0 pred n w).scal m).new = (w.scal m).new := by
  obtain ⟨h1, h2, h3⟩ := iterate_keeps cd pred hp n { keep cd w with p := takeOff tol maxP b p0 (keep cd w).p } rfl
    (by intro hc; subst hc; rfl) (fun _ => rfl)
  refine ⟨?_, ?_, ?_⟩
  · unfold initialIterations; dsimp only; rw [h1]; rfl
  · intro hc
    unfold initialIterations; dsimp only; rw [h2 hc]
    subst hc; rfl
  · intro m
    unfold initialIterations; dsimp only; rw [h3]; rfl

/-- A step adds to the pressure, and depends on it by its gradient (a field of its own) only. -/
def AddsPressure (pred : Flow (K := K) ι P F → Flow (K := K) ι P F) : Prop :=
  ∀ w (d : P → K), pred { w with p := fun x => w.p x + d x } = { pred w with p := fun x => (pred w).p x + d x }

theorem iterate_adds (cd : Bool) (pred : Flow (K := K) ι P F → Flow (K := K) ι P F) (hp : AddsPressure pred) (n : ℕ) (w : Flow (K := K) ι P F)
    (d : P → K) : iterate cd pred n { w with p := fun x => w.p x + d x } = { iterate cd pred n w with p := fun x => (iterate cd pred n w).p x + d x } := by
  induction n generalizing w with
  | zero => rfl
  | succ n ih =>
    have un (v : Flow (K := K) ι P F) : iterate cd pred (n + 1) v = iterate cd pred n (putBack cd (pred v)) := rfl
    rw [un, un, hp w d]
    exact ih (putBack cd (pred w))

/-- C117: with the true pressure asked for, the pressure after the initial iterations is that without, plus the reference pressure,
which is added once, unless the pressure given contains it. The other fields do not depend on it. -/
theorem iterations_pressure (cd : Bool) (tol : K) (maxP : (P → K) → K) (p0 : P → K) (pred : Flow (K := K) ι P F → Flow (K := K) ι P F)
    (hp : AddsPressure pred) (n : ℕ) (w : Flow (K := K) ι P F) :
    initialIterations cd tol maxP true p0 pred n w =
      { initialIterations cd tol maxP false p0 pred n w with
        p := fun x => (initialIterations cd tol maxP false p0 pred n w).p x + if |maxP w.p| > tol then 0 else p0 x } := by
  have e : initialIterations cd tol maxP false p0 pred n w = iterate cd pred n (keep cd w) := rfl
  rw [e]
  by_cases h : |maxP w.p| > tol
  · have e1 : takeOff tol maxP true p0 (keep cd w).p = fun x => (keep cd w).p x + -p0 x := by
      unfold takeOff
      have : (keep cd w).p = w.p := rfl
      rw [if_pos rfl, this, if_pos h]
      funext x; ring
    unfold initialIterations
    dsimp only
    rw [e1, iterate_adds cd pred hp n (keep cd w) (fun x => -p0 x)]
    unfold addOn
    simp [h]
  · have e1 : takeOff tol maxP true p0 (keep cd w).p = (keep cd w).p := by
      unfold takeOff
      have : (keep cd w).p = w.p := rfl
      rw [if_pos rfl, this, if_neg h]
    unfold initialIterations
    dsimp only
    rw [e1]
    unfold addOn
    simp [h]

/-- A step that changes everything it may, and adds 1 to the pressure. -/
def exPred (w : Flow (K := ℚ) Unit Unit ℚ) : Flow (K := ℚ) Unit Unit ℚ :=
  { w with vel := ⟨w.vel.old, 7⟩, rho := ⟨w.rho.old, 8⟩, scal := fun n => ⟨(w.scal n).old, 9⟩, p := fun x => w.p x + 1, gp := w.gp + 1 }

example : KeepsOld true exPred ∧ AddsPressure exPred := by
  refine ⟨fun w => ⟨rfl, fun _ => rfl, fun _ => rfl⟩, fun w d => ?_⟩
  unfold exPred
  dsimp only
  congr 1
  funext x; ring

/-- Two iterations from pressure 0 (no reference pressure in it) and from 100 (it is): 52 and 102. -/
example : let w : Flow (K := ℚ) Unit Unit ℚ := ⟨⟨0, 1⟩, ⟨0, 2⟩, fun _ => ⟨0, 3⟩, fun _ => 0, 0⟩
    let f := initialIterations true (1 / 10 ^ 8) (fun p => |p ()|) true (fun _ => 50) exPred 2
    (f w).p () = 52 ∧ (f { w with p := fun _ => 100 }).p () = 102 ∧ (f w).vel.new = 1 ∧ (f w).gp = 2 := by
  decide +kernel

end iterations

/-- The options of scheme, diffusion and CFL number that are accepted. -/
theorem accepted_iff (godunov : Bool) (diffusion : ℤ) (cfl : K) :
    accepted godunov diffusion cfl = true ↔ (0 ≤ diffusion ∧ diffusion ≤ 2) ∧ (godunov = true → cfl ≤ 1) ∧ (godunov = false → cfl ≤ 1 / 2) := by
  unfold accepted
  by_cases hd : diffusion = 0 ∨ diffusion = 1 ∨ diffusion = 2
  · rw [if_pos hd]
    have h02 : 0 ≤ diffusion ∧ diffusion ≤ 2 := by omega
    cases godunov with
    | true =>
      by_cases hc : cfl > 1
      · simp [hc, h02]
      · simp [hc, h02, not_lt.mp hc]
    | false =>
      by_cases hc : cfl > 1 / 2
      · rw [if_pos ⟨rfl, hc⟩]
        simp only [Bool.false_eq_true, false_iff, not_and, not_forall]
        intro _ _
        exact ⟨trivial, not_le.mpr hc⟩
      · rw [if_neg (fun h => hc h.2)]
        simp [h02]
        simpa using not_lt.mp hc
  · rw [if_neg hd]
    simp only [Bool.false_eq_true, false_iff, not_and]
    intro h
    omega

end AmrWind.Start
