import Verif.SimTime.Model
import Mathlib.Tactic.Linarith
import Mathlib.Tactic.Ring
import Mathlib.Tactic.FieldSimp
import Mathlib.Tactic.Positivity
import Mathlib.Tactic.NormNum

/-! Helper lemmas for the time-manager properties. -/

set_option linter.unusedSectionVars false

namespace AmrWind.SimTime

variable {K : Type*} [Field K] [LinearOrder K] [IsStrictOrderedRing K] [FloorRing K]

/-- Configurations the time loop is meant for: positive CFL limit and machine epsilon, growth factor
above `-1`, non-negative tolerances (all defaults of SimTime.H satisfy this). -/
structure WF (N : Num K) (c : Cfg K) : Prop where
  eps_pos : 0 < N.eps
  cfl_pos : 0 < c.maxCfl
  growth : -1 < c.dtGrowth
  chkpt_tol : 0 ≤ c.forceChkptTol
  plt_tol : 0 ≤ c.forcePltTol
  post_tol : ∀ p ∈ c.post, 0 ≤ p.tol

theorem enforcedDt_le (dt cur I tol : K) : enforcedDt dt cur I tol ≤ dt := min_le_left _ _

theorem next_gap (cur I tol : K) (hI : 0 < I) :
    tol * I < ((⌊cur / I + tol⌋ : K) + 1) * I - cur := by
  have h : cur / I + tol < (⌊cur / I + tol⌋ : K) + 1 := Int.lt_floor_add_one _
  have h2 : (cur / I + tol) * I < ((⌊cur / I + tol⌋ : K) + 1) * I :=
    mul_lt_mul_of_pos_right h hI
  have h3 : (cur / I + tol) * I = cur + tol * I := by field_simp
  linarith

theorem enforcedDt_pos (dt cur I tol : K) (hI : 0 < I) (ht : 0 ≤ tol) (hdt : 0 < dt) :
    0 < enforcedDt dt cur I tol := by
  unfold enforcedDt
  refine lt_min hdt (lt_of_le_of_lt ?_ (next_gap cur I tol hI))
  positivity

theorem shortenFor_le (cur I d tol : K) (f : Bool) (dt : K) :
    shortenFor cur I d tol f dt ≤ dt := by
  unfold shortenFor; split
  · exact enforcedDt_le _ _ _ _
  · exact le_rfl

theorem shortenFor_pos (cur I d tol : K) (f : Bool) (dt : K) (ht : 0 ≤ tol) (hdt : 0 < dt) :
    0 < shortenFor cur I d tol f dt := by
  unfold shortenFor; split
  · rename_i h; exact enforcedDt_pos _ _ _ _ h.1 ht hdt
  · exact hdt

theorem shortenPost_le (cur : K) (ps : List (PostDt K)) (dt : K) : shortenPost cur ps dt ≤ dt := by
  induction ps generalizing dt with
  | nil => exact le_rfl
  | cons p ps ih => exact (ih _).trans (shortenFor_le _ _ _ _ _ _)

theorem shortenPost_pos (cur : K) (ps : List (PostDt K)) (dt : K) (h : ∀ p ∈ ps, 0 ≤ p.tol)
    (hdt : 0 < dt) : 0 < shortenPost cur ps dt := by
  induction ps generalizing dt with
  | nil => exact hdt
  | cons p ps ih =>
    exact ih _ (fun q hq => h q (List.mem_cons_of_mem _ hq))
      (shortenFor_pos _ _ _ _ _ _ (h p List.mem_cons_self) hdt)

/-- stop-time clip, SimTime.cpp:215-218 -/
theorem shortenAll_le (c : Cfg K) (cur dt : K) : shortenAll c cur dt ≤ dt := by
  unfold shortenAll
  refine (shortenPost_le _ _ _).trans ((shortenFor_le _ _ _ _ _ _).trans
    ((shortenFor_le _ _ _ _ _ _).trans ?_))
  split
  · rename_i h; linarith [h.2]
  · exact le_rfl

theorem shortenAll_stop (c : Cfg K) (cur dt : K) (h : 0 < c.stopTime) :
    cur + shortenAll c cur dt ≤ c.stopTime := by
  have h1 : shortenAll c cur dt ≤
      if 0 < c.stopTime ∧ c.stopTime < cur + dt then c.stopTime - cur else dt := by
    unfold shortenAll
    exact (shortenPost_le _ _ _).trans ((shortenFor_le _ _ _ _ _ _).trans
      (shortenFor_le _ _ _ _ _ _))
  split at h1
  · linarith
  · rename_i h2
    have : cur + dt ≤ c.stopTime := by
      by_contra h3
      exact h2 ⟨h, not_le.mp h3⟩
    linarith

theorem shortenAll_pos {N : Num K} {c : Cfg K} (wf : WF N c) (cur dt : K) (hdt : 0 < dt)
    (hstop : 0 < c.stopTime → cur < c.stopTime) : 0 < shortenAll c cur dt := by
  unfold shortenAll
  refine shortenPost_pos _ _ _ wf.post_tol (shortenFor_pos _ _ _ _ _ _ wf.plt_tol
    (shortenFor_pos _ _ _ _ _ _ wf.chkpt_tol ?_))
  split
  · rename_i h; linarith [hstop h.1]
  · exact hdt

theorem limitDt_le (c : Cfg K) (s : State K) (dt : K) : limitDt c s dt ≤ dt := by
  unfold limitDt
  simp only
  split <;> split <;> simp

theorem limitDt_growth (c : Cfg K) (s : State K) (dt : K) (ha : c.adaptive = true) (h : 0 < s.dt0) :
    limitDt c s dt ≤ (1 + c.dtGrowth) * s.dt0 := by
  unfold limitDt
  simp only [h, ha, and_self, if_true, true_and]
  split <;> simp

theorem limitDt_max (c : Cfg K) (s : State K) (dt : K) (ha : c.adaptive = true) (h : 0 < c.maxDt) :
    limitDt c s dt ≤ c.maxDt := by
  unfold limitDt
  simp only [h, ha, and_self, if_true]
  split <;> simp

theorem limitDt_pos {N : Num K} {c : Cfg K} (wf : WF N c) (s : State K) (dt : K) (hdt : 0 < dt) :
    0 < limitDt c s dt := by
  unfold limitDt
  simp only
  have hg : 0 < 1 + c.dtGrowth := by linarith [wf.growth]
  have h1 : 0 < (if 0 < s.dt0 ∧ c.adaptive = true then min dt ((1 + c.dtGrowth) * s.dt0) else dt) := by
    split
    · rename_i h; exact lt_min hdt (mul_pos hg h.1)
    · exact hdt
  split
  · rename_i h; exact lt_min h1 h.2
  · exact h1

theorem cflDt_pos {N : Num K} {c : Cfg K} (wf : WF N c) {s : State K} (hi : s.isInit = false)
    {u dt : K} (h : cflDt N c s u = .ok dt) : 0 < dt := by
  unfold cflDt at h
  simp only [hi] at h
  have hmax : 0 < max u N.eps := lt_of_lt_of_le wf.eps_pos (le_max_right _ _)
  split at h
  · split at h
    · split at h
      · rename_i h1; injection h with h; subst h; simpa using h1
      · simp at h
    · simp at h
  · injection h with h; subst h
    have := wf.cfl_pos
    simp only [Bool.false_eq_true, if_false]
    positivity

/-- What an accepted adaptive step looks like outside the delay window. -/
theorem setCurrentCfl_adaptive {N : Num K} {c : Cfg K} {s s' : State K} {conv diff src : K}
    (h : setCurrentCfl N c s conv diff src = .ok s') (ha : c.adaptive = true)
    (hd : ¬ inDelay c s.curTime) :
    ∃ dtCfl, cflDt N c s (cflUnitTime N conv diff src) = .ok dtCfl ∧
      ¬ (0 < c.minDt ∧ limitDt c s dtCfl < c.minDt) ∧
      s' = { s with
        dt0 := (if s.isInit = true ∧ 0 < c.initialDt then
          min (shortenAll c s.curTime (limitDt c s dtCfl)) c.initialDt
          else shortenAll c s.curTime (limitDt c s dtCfl)),
        currentCfl := (1 / 2) * cflUnitTime N conv diff src *
          (if s.isInit = true ∧ 0 < c.initialDt then
          min (shortenAll c s.curTime (limitDt c s dtCfl)) c.initialDt
          else shortenAll c s.curTime (limitDt c s dtCfl)),
        dtCalc := (if s.isInit = true ∧ 0 < c.initialDt then
          min (shortenAll c s.curTime (limitDt c s dtCfl)) c.initialDt
          else shortenAll c s.curTime (limitDt c s dtCfl)) } := by
  unfold setCurrentCfl at h
  simp only at h
  split at h
  · simp at h
  · rename_i dtCfl hcfl
    refine ⟨dtCfl, hcfl, ?_⟩
    simp only [if_pos ha, if_neg hd] at h
    split at h
    · simp at h
    · rename_i hm
      injection h with h
      exact ⟨hm, h.symm⟩

/-- An accepted non-adaptive step outside the delay window uses `fixed_dt`. -/
theorem setCurrentCfl_fixed {N : Num K} {c : Cfg K} {s s' : State K} {conv diff src : K}
    (h : setCurrentCfl N c s conv diff src = .ok s') (ha : c.adaptive = false)
    (hd : ¬ inDelay c s.curTime) : s'.dt0 = c.fixedDt := by
  unfold setCurrentCfl at h
  simp only at h
  split at h
  · simp at h
  · rw [if_neg (by simp [ha])] at h
    rw [if_neg hd] at h
    injection h with h
    rw [← h]

/-- `set_current_cfl` only writes `m_dt[0]`, the CFL and the calculated step. -/
theorem setCurrentCfl_frame {N : Num K} {c : Cfg K} {s s' : State K} {conv diff src : K}
    (h : setCurrentCfl N c s conv diff src = .ok s') :
    s'.dt1 = s.dt1 ∧ s'.dt2 = s.dt2 ∧ s'.curTime = s.curTime ∧ s'.newTime = s.newTime ∧
    s'.startTime = s.startTime ∧ s'.timeIndex = s.timeIndex ∧ s'.startIndex = s.startIndex ∧
    s'.pltStartIndex = s.pltStartIndex ∧ s'.chkptStartIndex = s.chkptStartIndex ∧
    s'.regridStartIndex = s.regridStartIndex ∧ s'.pltStartTime = s.pltStartTime ∧
    s'.chkptStartTime = s.chkptStartTime ∧ s'.isInit = s.isInit := by
  unfold setCurrentCfl at h
  simp only at h
  split at h
  · simp at h
  · split at h
    · split at h
      · simp at h
      · injection h with h
        rw [← h]; simp
    · injection h with h
      rw [← h]; simp

theorem continueSim_stop {N : Num K} {c : Cfg K} {s : State K} (h : continueSim N c s = true)
    (hs : 0 < c.stopTime) : s.newTime + N.eps * 10000 < c.stopTime := by
  unfold continueSim at h
  split at h
  · simp at h
  · split at h
    · simp at h
    · rename_i h2
      by_contra h3
      exact h2 ⟨hs, not_lt.mp h3⟩

theorem continueSim_index {N : Num K} {c : Cfg K} {s : State K} (h : continueSim N c s = true) :
    c.stopIndex ≠ 0 ∧ (0 < c.stopIndex → s.timeIndex < c.stopIndex) := by
  unfold continueSim at h
  split at h
  · simp at h
  · rename_i h0
    split at h
    · simp at h
    · split at h
      · simp at h
      · rename_i h1
        refine ⟨h0, fun h2 => ?_⟩
        by_contra h3
        exact h1 ⟨h2, not_lt.mp h3⟩

/-- Everything one pass of the loop body does besides choosing the step size. -/
structure StepRel (s t : State K) : Prop where
  cur : t.curTime = s.newTime
  new : t.newTime = t.curTime + t.dt0
  idx : t.timeIndex = s.timeIndex + 1
  dt1 : t.dt1 = s.dt0
  dt2 : t.dt2 = s.dt1
  init : t.isInit = false
  start : t.startTime = s.startTime
  startIndex : t.startIndex = s.startIndex
  plt : t.pltStartIndex = s.pltStartIndex
  chk : t.chkptStartIndex = s.chkptStartIndex
  reg : t.regridStartIndex = s.regridStartIndex
  pltT : t.pltStartTime = s.pltStartTime
  chkT : t.chkptStartTime = s.chkptStartTime

theorem newTimestep_true {N : Num K} {c : Cfg K} {s s' : State K}
    (h : newTimestep N c s = (true, s')) :
    continueSim N c s = true ∧
    s' = { s with isInit := false, dt2 := s.dt1, dt1 := s.dt0,
                  timeIndex := s.timeIndex + 1, curTime := s.newTime } := by
  unfold newTimestep at h
  split at h
  · rename_i hc; exact ⟨hc, by injection h with _ h; exact h.symm⟩
  · injection h with h _; simp at h

theorem newTimestep_false {N : Num K} {c : Cfg K} {s s' : State K}
    (h : newTimestep N c s = (false, s')) :
    continueSim N c s = false ∧ s' = { s with isInit := false, curTime := s.newTime } := by
  unfold newTimestep at h
  split at h
  · injection h with h _; simp at h
  · rename_i hc; exact ⟨by simpa using hc, by injection h with _ h; exact h.symm⟩

theorem stepBody_ok {N : Num K} {c : Cfg K} {s t : State K} {i : CflIn K}
    (h : stepBody N c s i = .ok t) :
    ∃ s1, setCurrentCfl N c s i.conv i.diff i.src = .ok s1 ∧ t = advanceTime s1 := by
  unfold stepBody at h
  split at h
  · simp at h
  · rename_i s1 h1; injection h with h; exact ⟨s1, h1, h.symm⟩

theorem step_rel {N : Num K} {c : Cfg K} {s s' t : State K} {i : CflIn K}
    (h1 : newTimestep N c s = (true, s')) (h2 : stepBody N c s' i = .ok t) : StepRel s t := by
  obtain ⟨_, rfl⟩ := newTimestep_true h1
  obtain ⟨s1, h3, rfl⟩ := stepBody_ok h2
  obtain ⟨a, b, d, e, f, g, k, l, m, n, o, p, q⟩ := setCurrentCfl_frame h3
  constructor <;> simp_all [advanceTime]

/-- One pass of the loop as a relation. -/
def Step (N : Num K) (c : Cfg K) (s t : State K) : Prop :=
  ∃ s' i, newTimestep N c s = (true, s') ∧ stepBody N c s' i = .ok t

/-- The trace is a chain of steps from the start state. -/
theorem trace_chain (N : Num K) (c : Cfg K) (s : State K) (is : List (CflIn K)) :
    List.IsChain (Step N c) (s :: trace N c s is) := by
  induction is generalizing s with
  | nil => simp [trace]
  | cons i is ih =>
    unfold trace
    split
    · simp
    · rename_i s' h1
      split
      · simp
      · rename_i s'' h2
        exact List.IsChain.cons_cons ⟨s', i, h1, h2⟩ (ih s'')

/-- Invariant rule for traces. -/
theorem trace_inv {N : Num K} {c : Cfg K} {P : State K → Prop}
    (hstep : ∀ s t, P s → Step N c s t → P t) (s : State K) (hs : P s) (is : List (CflIn K)) :
    ∀ t ∈ trace N c s is, P t := by
  induction is generalizing s with
  | nil => simp [trace]
  | cons i is ih =>
    unfold trace
    split
    · simp
    · rename_i s' h1
      split
      · simp
      · rename_i s'' h2
        have hP := hstep s s'' hs ⟨s', i, h1, h2⟩
        intro t ht
        rcases List.mem_cons.mp ht with rfl | ht
        · exact hP
        · exact ih s'' hP t ht

/-- Chain rule: relations that hold between consecutive states under an invariant. -/
theorem trace_chain_inv {N : Num K} {c : Cfg K} {P : State K → Prop} {R : State K → State K → Prop}
    (hstep : ∀ s t, P s → Step N c s t → P t) (hR : ∀ s t, P s → Step N c s t → R s t)
    (s : State K) (hs : P s) (is : List (CflIn K)) :
    List.IsChain R (s :: trace N c s is) := by
  induction is generalizing s with
  | nil => simp [trace]
  | cons i is ih =>
    unfold trace
    split
    · simp
    · rename_i s' h1
      split
      · simp
      · rename_i s'' h2
        have h3 : Step N c s s'' := ⟨s', i, h1, h2⟩
        exact List.IsChain.cons_cons (hR _ _ hs h3) (ih s'' (hstep _ _ hs h3))

theorem inDelay_mono {c : Cfg K} {a b : K} (h : ¬ inDelay c a) (hab : a ≤ b) : ¬ inDelay c b := by
  unfold inDelay at *; linarith [not_lt.mp h]

/-- Outside the delay window an adaptive step is positive. -/
theorem step_pos {N : Num K} {c : Cfg K} (wf : WF N c) {s t : State K} (ha : c.adaptive = true)
    (hd : ¬ inDelay c s.newTime) (h : Step N c s t) : 0 < t.dt0 := by
  obtain ⟨s', i, h1, h2⟩ := h
  obtain ⟨hc, rfl⟩ := newTimestep_true h1
  obtain ⟨s1, h3, rfl⟩ := stepBody_ok h2
  obtain ⟨dtCfl, h4, _, h6⟩ := setCurrentCfl_adaptive h3 ha (by simpa using hd)
  rw [h6]
  simp only [advanceTime, Bool.false_eq_true, false_and, if_false]
  refine shortenAll_pos wf _ _ (limitDt_pos wf _ _ (cflDt_pos wf rfl h4)) ?_
  intro hs
  have := continueSim_stop hc hs
  have := wf.eps_pos
  show s.newTime < c.stopTime
  linarith

end AmrWind.SimTime
