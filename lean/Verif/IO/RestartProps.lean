import Verif.IO.Restart
import Mathlib.Data.Rat.Floor
import Mathlib.Algebra.Order.Ring.Rat
import Mathlib.Tactic.NormNum
import Mathlib.Tactic.FinCases
import Mathlib.Tactic.Ring

/-! # Properties C27, C28: checkpoint header and replicated restart -/

set_option linter.unusedSectionVars false

namespace AmrWind.IO
open AmrWind.SimTime

variable {K : Type*} [Field K] [LinearOrder K] [IsStrictOrderedRing K] [FloorRing K]

/-! ## C27 -/

theorem readGrids_write (g : List (List Bx)) :
    readGrids g.length (⟨g.flatMap fun ba => [.boxes ba, .nl], false⟩ : Strm K) = some g := by
  induction g with
  | nil => rfl
  | cons ba g ih =>
    simp only [List.length_cons, List.flatMap_cons, List.cons_append, List.nil_append, readGrids, skipNl,
      gotoNext, dropLine, Bool.false_eq_true, if_false]
    rw [ih]
    rfl

/-- **C27, part.**  Reading the header that was written for a time state and a grid hierarchy gives back the
number of levels, the step number, the time, all three step sizes, the corners of the domain and the box
array of every level.  Missing: the step size is read but not put back, see
`restart_loses_step_size`. -/
theorem header_round_trip_partial (lead : K → Option ℤ) (old : ChkRead K) (s : State K) (d : ChkData K)
    (hd : ∀ i, d.probLo i < d.probHi i) :
    readHeader lead old (writeHeader s d) =
      some ⟨(d.grids.length : ℤ) - 1, s.timeIndex, s.newTime, s.dt0, s.dt1, s.dt2, d⟩ := by
  unfold readHeader writeHeader
  simp only [getLine, takeLine, dropLine, readInt, readReal, skipNl, gotoNext, List.cons_append,
    List.nil_append, Bool.false_eq_true, if_false]
  have h3 : ∀ a b c : K, probOf [Tok.real a, Tok.real b, Tok.real c] = some ![a, b, c] := by
    intro a b c
    simp only [probOf, probOf.go, List.length_cons, List.length_nil, Option.map_some]
    rw [if_neg (by norm_num)]
    congr 1
    funext i
    fin_cases i <;> rfl
  have e : ∀ p : Fin 3 → K, ![p 0, p 1, p 2] = p := by
    intro p; funext i; fin_cases i <;> rfl
  rw [h3]
  simp only [getLine, takeLine, dropLine, Bool.false_eq_true, if_false]
  rw [h3]
  simp only
  rw [e, e, if_pos hd]
  rw [show ((d.grids.length : ℤ) - 1 + 1).toNat = d.grids.length by omega, readGrids_write]

/-- The restored time state: step number, time and the two older step sizes are those of the run that wrote
the checkpoint; the output schedules start anew. -/
theorem restore_time_partial (o : StartOverrides K) (s s0 : State K) (lead : K → Option ℤ) (old : ChkRead K)
    (d : ChkData K) (hd : ∀ i, d.probLo i < d.probHi i) :
    ∃ r, readHeader lead old (writeHeader s d) = some r ∧
      let s' := restoreTime o r s0
      s'.timeIndex = s.timeIndex ∧ s'.newTime = s.newTime ∧ s'.curTime = s.newTime ∧
      s'.dt1 = s.dt1 ∧ s'.dt2 = s.dt2 ∧ r.data.grids = d.grids ∧ s'.dt0 = s0.dt0 :=
  ⟨_, header_round_trip_partial lead old s d hd, rfl, rfl, rfl, rfl, rfl, rfl, rfl⟩

/-- A number or a line is where the reader expects it: the shape of an accepted header up to the box
arrays. -/
def ShapeOk (lead : K → Option ℤ) (text : List (Tok K)) : Prop :=
  let t0 := dropLine text
  let isNum : List (Tok K) → Prop := fun t =>
    (∃ z t', skipNl t = .int z :: t') ∨ (∃ x t', skipNl t = .real x :: t')
  let isInt : List (Tok K) → Prop := fun t =>
    (∃ z t', skipNl t = .int z :: t') ∨ (∃ x z t', skipNl t = .real x :: t' ∧ lead x = some z)
  let next : List (Tok K) → List (Tok K) := fun t => dropLine (skipNl t).tail
  text ≠ [] ∧ isInt t0 ∧ isInt (next t0) ∧ isNum (next (next t0)) ∧ isNum (next (next (next t0))) ∧
  isNum (next (next (next (next t0)))) ∧ isNum (next (next (next (next (next t0)))))

theorem readInt_ok (lead : K → Option ℤ) (old : ℤ) (st : Strm K) (h : (readInt lead old st).2.fail = false) :
    st.fail = false ∧
      ((∃ z t', skipNl st.rest = .int z :: t') ∨
        (∃ x z t', skipNl st.rest = .real x :: t' ∧ lead x = some z)) ∧
      (readInt lead old st).2.rest = (skipNl st.rest).tail := by
  unfold readInt at h ⊢
  by_cases hf : st.fail = true
  · rw [if_pos hf] at h; exact absurd (hf.symm.trans h) (by simp)
  · rw [if_neg hf] at h ⊢
    refine ⟨by simpa using hf, ?_⟩
    cases hs : skipNl st.rest with
    | nil => rw [hs] at h; simp at h
    | cons a t =>
      rw [hs] at h
      cases a with
      | int z => exact ⟨Or.inl ⟨z, t, rfl⟩, rfl⟩
      | real x =>
        simp only at h ⊢
        cases hl : lead x with
        | none => rw [hl] at h; simp at h
        | some z => exact ⟨Or.inr ⟨x, z, t, rfl, hl⟩, rfl⟩
      | nl => simp at h
      | word w => simp at h
      | boxes b => simp at h

theorem readReal_ok (old : K) (st : Strm K) (h : (readReal old st).2.fail = false) :
    st.fail = false ∧
      ((∃ z t', skipNl st.rest = .int z :: t') ∨ (∃ x t', skipNl st.rest = .real x :: t')) ∧
      (readReal old st).2.rest = (skipNl st.rest).tail := by
  unfold readReal at h ⊢
  by_cases hf : st.fail = true
  · rw [if_pos hf] at h; exact absurd (hf.symm.trans h) (by simp)
  · rw [if_neg hf] at h ⊢
    refine ⟨by simpa using hf, ?_⟩
    cases hs : skipNl st.rest with
    | nil => rw [hs] at h; simp at h
    | cons a t =>
      rw [hs] at h
      cases a with
      | int z => exact ⟨Or.inl ⟨z, t, rfl⟩, rfl⟩
      | real x => exact ⟨Or.inr ⟨x, t, rfl⟩, rfl⟩
      | nl => simp at h
      | word w => simp at h
      | boxes b => simp at h

theorem gotoNext_ok (st : Strm K) (h : (gotoNext st).fail = false) :
    st.fail = false ∧ (gotoNext st).rest = dropLine st.rest := by
  unfold gotoNext at h ⊢
  by_cases hf : st.fail = true
  · rw [if_pos hf] at h; exact absurd (hf.symm.trans h) (by simp)
  · rw [if_neg hf]; exact ⟨by simpa using hf, rfl⟩

/-- **C27.**  A header that does not have a number in each of the places before the domain corners is
rejected: although the code never looks at the state of the stream, a failed extraction leaves both corners
equal (or a word that is not a number), which stops the program. -/
theorem header_bad_shape_rejected (lead : K → Option ℤ) (old : ChkRead K) (text : List (Tok K))
    (h : ¬ ShapeOk lead text) : readHeader lead old text = none := by
  unfold readHeader
  simp only
  generalize htitle : getLine ([] : List (Tok K)) ⟨text, false⟩ = title
  generalize hfin : readInt lead old.finestLevel title.2 = fin
  generalize hnst : readInt lead old.nstep (gotoNext fin.2) = nst
  generalize hcur : readReal old.curTime (gotoNext nst.2) = cur
  generalize hdtr : readReal old.dtRestart (gotoNext cur.2) = dtr
  generalize hd1 : readReal old.dt1 (gotoNext dtr.2) = d1
  generalize hd2 : readReal old.dt2 (gotoNext d1.2) = d2
  have hfail : d2.2.fail = true := by
    by_contra hno
    have h2 : d2.2.fail = false := by simpa using hno
    apply h
    rw [← hd2] at h2
    obtain ⟨a6, b6, _⟩ := readReal_ok _ _ h2
    obtain ⟨a5, r5⟩ := gotoNext_ok _ a6
    rw [← hd1] at a5
    obtain ⟨a5, b5, c5⟩ := readReal_ok _ _ a5
    obtain ⟨a4, r4⟩ := gotoNext_ok _ a5
    rw [← hdtr] at a4
    obtain ⟨a4, b4, c4⟩ := readReal_ok _ _ a4
    obtain ⟨a3, r3⟩ := gotoNext_ok _ a4
    rw [← hcur] at a3
    obtain ⟨a3, b3, c3⟩ := readReal_ok _ _ a3
    obtain ⟨a2, r2⟩ := gotoNext_ok _ a3
    rw [← hnst] at a2
    obtain ⟨a2, b2, c2⟩ := readInt_ok _ _ _ a2
    obtain ⟨a1, r1⟩ := gotoNext_ok _ a2
    rw [← hfin] at a1
    obtain ⟨a1, b1, c1⟩ := readInt_ok _ _ _ a1
    have ht : text ≠ [] := by
      rintro rfl
      rw [← htitle] at a1
      simp [getLine] at a1
    have hr0 : title.2.rest = dropLine text := by
      rw [← htitle]
      cases text with
      | nil => exact absurd rfl ht
      | cons a t => rfl
    rw [hfin] at c1
    rw [hr0] at b1 c1
    rw [c1] at r1
    rw [hnst] at c2
    rw [r1] at b2 c2
    rw [c2] at r2
    rw [hcur] at c3
    rw [r2] at b3 c3
    rw [c3] at r3
    rw [hdtr] at c4
    rw [r3] at b4 c4
    rw [c4] at r4
    rw [hd1] at c5
    rw [r4] at b5 c5
    rw [c5] at r5
    rw [r5] at b6
    exact ⟨ht, b1, b2, b3, b4, b5, b6⟩
  have hg : gotoNext d2.2 = d2.2 := by unfold gotoNext; rw [if_pos hfail]
  have hlo : getLine title.1 (gotoNext d2.2) = (title.1, d2.2) := by
    rw [hg]; unfold getLine; rw [if_pos hfail]
  have hhi : getLine title.1 d2.2 = (title.1, d2.2) := by unfold getLine; rw [if_pos hfail]
  rw [hlo]
  simp only
  cases hp : probOf title.1 with
  | none => rfl
  | some plo =>
    simp only
    rw [hhi]
    simp only
    rw [hp]
    simp only
    rw [if_neg (fun hc => lt_irrefl _ (hc 0))]

/-! ### Continuing after a restart -/

/-- The states agree in what the next steps use: step number, time, and (from the first step on) the step
size. -/
def SameRun (s t : State K) : Prop :=
  s.timeIndex = t.timeIndex ∧ s.newTime = t.newTime

/-- **C27, part.**  With a fixed step the restarted run goes through the same step numbers, times and step
sizes as the run that was not interrupted, for every sequence of flow states. -/
theorem restart_continues_fixed_partial (N : Num K) (c : Cfg K) (hc : c.adaptive = false) (s t : State K)
    (hst : SameRun s t) (is : List (CflIn K)) :
    (trace N c s is).map (fun x => (x.timeIndex, x.curTime, x.newTime, x.dt0)) =
      (trace N c t is).map (fun x => (x.timeIndex, x.curTime, x.newTime, x.dt0)) := by
  induction is generalizing s t with
  | nil => rfl
  | cons i is ih =>
    obtain ⟨h1, h2⟩ := hst
    have hcont : continueSim N c s = continueSim N c t := by unfold continueSim; rw [h1, h2]
    unfold trace newTimestep
    rw [hcont]
    by_cases hk : continueSim N c t = true
    · rw [if_pos hk, if_pos hk]
      simp only
      unfold stepBody setCurrentCfl cflDt
      simp only [hc, Bool.false_eq_true, false_and, if_false]
      rw [h2]
      simp only [List.map_cons, advanceTime]
      rw [h1]
      congr 1
      exact ih _ _ ⟨by simp [h1], by simp⟩
    · rw [if_neg hk, if_neg hk]

/-- The same for the restart itself: whatever state the new run was initialised with. -/
theorem restart_same_run (o : StartOverrides K) (s s0 : State K) (lead : K → Option ℤ) (old : ChkRead K)
    (d : ChkData K) (hd : ∀ i, d.probLo i < d.probHi i) :
    ∃ r, readHeader lead old (writeHeader s d) = some r ∧ SameRun s (restoreTime o r s0) :=
  ⟨_, header_round_trip_partial lead old s d hd, rfl, rfl⟩

/-- The inputs of the example: adaptive step, growth limited to 10% per step. -/
def chkCfg : Cfg ℚ where
  stopTime := -1
  fixedDt := -1
  initialDt := 0
  minDt := 0
  maxDt := 0
  maxCfl := 1
  dtGrowth := 1 / 10
  initShrink := 1 / 10
  delayTime := 0
  stopIndex := 10
  regridInterval := -1
  pltInterval := -1
  pltDelay := 0
  pltTInterval := -1
  pltTDelay := 0
  pltTTol := 0
  forcePltTol := 0
  forcePltDt := false
  chkptInterval := -1
  chkptDelay := 0
  chkptTInterval := -1
  chkptTDelay := 0
  chkptTTol := 0
  forceChkptTol := 0
  forceChkptDt := false
  forceDtAbsTol := 1
  adaptive := true
  post := []

/-- The state that is written: step 5, time 5, step size 1. -/
def chkState : State ℚ where
  dt0 := 1
  dt1 := 1
  dt2 := 1
  curTime := 4
  newTime := 5
  startTime := 0
  timeIndex := 5
  startIndex := 0
  pltStartIndex := 0
  chkptStartIndex := 0
  regridStartIndex := 0
  pltStartTime := 0
  chkptStartTime := 0
  isInit := false
  currentCfl := 1
  dtCalc := 1

/-- The state of a fresh run with an adaptive step: `delta_t` is -1 (SimTime.cpp, `fixed_dt` not given). -/
def freshState : State ℚ :=
  { chkState with dt0 := -1, dt1 := 0, dt2 := 0, timeIndex := 0, newTime := 0, curTime := 0, isInit := true }

/-- **C27 is false** for the step size: the run that goes on takes a step of 1.1 (growth limit), the
restarted one, reading the checkpoint written at the same moment, a step of 10. -/
theorem restart_loses_step_size :
    ∃ (N : Num ℚ) (r : ChkRead ℚ) (i : CflIn ℚ),
      readHeader (fun _ => none) ⟨0, 0, 0, 0, 0, 0, ⟨fun _ => 0, fun _ => 0, []⟩⟩
        (writeHeader chkState ⟨fun _ => 0, fun _ => 1, [[⟨fun _ => 0, fun _ => 7⟩]]⟩) = some r ∧
      (trace N chkCfg chkState [i]).map (·.dt0) = [11 / 10] ∧
      (trace N chkCfg (restoreTime ⟨none, none, none, none, none⟩ r freshState) [i]).map (·.dt0) = [10] := by
  refine ⟨⟨1 / 1000000, fun x => 10 * x⟩, _, ⟨1 / 10, 0, 0⟩,
    header_round_trip_partial _ _ chkState ⟨fun _ => 0, fun _ => 1, [[⟨fun _ => 0, fun _ => 7⟩]]⟩
      (fun _ => by norm_num), ?_, ?_⟩
  · decide +kernel
  · decide +kernel

/-- With an adaptive step the two runs still take the same next step when neither the growth limit is
active: the flow-limited step does not exceed the limit. -/
theorem restart_next_step_adaptive_partial (N : Num K) (c : Cfg K) (s t : State K) (hst : SameRun s t)
    (i : CflIn K) (hgrow : ∀ dt, cflDt N c { s with isInit := false, curTime := s.newTime }
        (cflUnitTime N i.conv i.diff i.src) = .ok dt → dt ≤ (1 + c.dtGrowth) * s.dt0)
    (ht : t.dt0 ≤ 0) :
    (trace N c s [i]).map (fun x => (x.timeIndex, x.curTime, x.newTime, x.dt0)) =
      (trace N c t [i]).map (fun x => (x.timeIndex, x.curTime, x.newTime, x.dt0)) := by
  obtain ⟨h1, h2⟩ := hst
  have hcont : continueSim N c s = continueSim N c t := by unfold continueSim; rw [h1, h2]
  unfold trace newTimestep
  rw [hcont]
  by_cases hk : continueSim N c t = true
  · rw [if_pos hk, if_pos hk]
    simp only [stepBody, setCurrentCfl]
    set u := cflUnitTime N i.conv i.diff i.src with hu
    have hcd : cflDt N c { s with isInit := false, dt2 := s.dt1, dt1 := s.dt0, timeIndex := s.timeIndex + 1, curTime := s.newTime } u =
        cflDt N c { t with isInit := false, dt2 := t.dt1, dt1 := t.dt0, timeIndex := t.timeIndex + 1, curTime := t.newTime } u := by
      unfold cflDt; simp only [h2]
    have hcs : cflDt N c { s with isInit := false, dt2 := s.dt1, dt1 := s.dt0, timeIndex := s.timeIndex + 1, curTime := s.newTime } u =
        cflDt N c { s with isInit := false, curTime := s.newTime } u := rfl
    rw [← hcd, hcs]
    cases hdt : cflDt N c { s with isInit := false, curTime := s.newTime } u with
    | error e => rfl
    | ok dt =>
      simp only
      have hle := hgrow dt hdt
      have hlim : limitDt c { s with isInit := false, dt2 := s.dt1, dt1 := s.dt0, timeIndex := s.timeIndex + 1, curTime := s.newTime } dt =
          limitDt c { t with isInit := false, dt2 := t.dt1, dt1 := t.dt0, timeIndex := t.timeIndex + 1, curTime := t.newTime } dt := by
        unfold limitDt
        simp only
        rw [min_eq_left hle, ite_self, if_neg (c := 0 < t.dt0 ∧ c.adaptive = true) (fun hh => absurd hh.1 (not_lt.mpr ht))]
      rw [hlim, h2]
      generalize limitDt c { t with isInit := false, dt2 := t.dt1, dt1 := t.dt0, timeIndex := t.timeIndex + 1, curTime := t.newTime } dt = L
      by_cases ha : c.adaptive = true
      · by_cases hm : 0 < c.minDt ∧ L < c.minDt
        · simp [ha, hm]
        · simp only [ha, hm, if_true, if_false]
          simp [trace, advanceTime, h1]
      · simp only [ha, if_false]
        simp [trace, advanceTime, h1]
  · rw [if_neg hk, if_neg hk]

/-- The hypotheses are met: a checkpoint of two levels. -/
example : ∃ r, readHeader (fun _ => none) ⟨0, 0, 0, 0, 0, 0, ⟨fun _ => 0, fun _ => 0, []⟩⟩
    (writeHeader chkState ⟨fun _ => 0, fun _ => 1,
      [[⟨fun _ => 0, fun _ => 7⟩], [⟨fun _ => 4, fun _ => 11⟩, ⟨fun _ => 0, fun _ => 3⟩]]⟩) = some r ∧
    r.finestLevel = 1 ∧ r.nstep = 5 ∧ r.data.grids.length = 2 :=
  ⟨_, header_round_trip_partial _ _ _ _ (fun _ => by norm_num), by norm_num, rfl, rfl⟩

/-- A header whose step number is a word. -/
example : ¬ ShapeOk (K := ℚ) (fun _ => none) [.word "Checkpoint", .nl, .int 0, .nl, .word "five", .nl] := by
  rintro ⟨_, _, h, _⟩
  rcases h with ⟨z, t, h⟩ | ⟨x, z, t, h, _⟩ <;> simp [dropLine, skipNl] at h

/-! ## C28 -/

/-- The cell of the checkpoint a cell of the replicated grid corresponds to: same position modulo the
original size. -/
def modCell (len : Fin 3 → ℤ) (lev : ℕ) (c : Fin 3 → ℤ) : Fin 3 → ℤ := fun d => c d % (len d * 2 ^ lev)

theorem mem_allShifts (len : Fin 3 → ℤ) (lev : ℕ) (rep : Fin 3 → ℕ) (s : Fin 3 → ℤ) :
    s ∈ allShifts len lev rep ↔ ∃ n : Fin 3 → ℕ, (∀ d, n d < rep d) ∧ s = fun d => (n d : ℤ) * (len d * 2 ^ lev) := by
  unfold allShifts
  simp only [List.mem_flatMap, List.mem_map, List.mem_range]
  constructor
  · rintro ⟨k, hk, j, hj, i, hi, rfl⟩
    refine ⟨![i, j, k], ?_, ?_⟩
    · intro d; fin_cases d
      · exact hi
      · exact hj
      · exact hk
    · funext d; fin_cases d <;> simp [shiftOf] <;> ring
  · rintro ⟨n, hn, rfl⟩
    refine ⟨n 2, hn 2, n 1, hn 1, n 0, hn 0, ?_⟩
    funext d; fin_cases d <;> simp [shiftOf] <;> ring

/-- The boxes of the file lie in the original domain (refined to the level). -/
def InDomain (len : Fin 3 → ℤ) (lev : ℕ) (ba : List Bx) : Prop :=
  ∀ c, Covers ba c → ∀ d, 0 ≤ c d ∧ c d < len d * 2 ^ lev

theorem shift_of_cell {len : Fin 3 → ℤ} {lev : ℕ} {src : List Bx} (hsrc : InDomain len lev src)
    {c : Fin 3 → ℤ} {n : Fin 3 → ℕ} (h : Covers src fun d => c d - (n d : ℤ) * (len d * 2 ^ lev)) (d : Fin 3) :
    c d - (n d : ℤ) * (len d * 2 ^ lev) = modCell len lev c d ∧ (n d : ℤ) = c d / (len d * 2 ^ lev) := by
  obtain ⟨h0, h1⟩ := hsrc _ h d
  have hpos : 0 < len d * 2 ^ lev := lt_of_le_of_lt h0 h1
  set M := len d * 2 ^ lev
  have hc : c d = (c d - (n d : ℤ) * M) + M * (n d : ℤ) := by ring
  constructor
  · unfold modCell
    show _ = c d % M
    rw [hc, Int.add_mul_emod_self_left, Int.emod_eq_of_lt h0 h1]
    ring
  · rw [hc, Int.add_mul_ediv_left _ _ (ne_of_gt hpos), Int.ediv_eq_zero_of_lt h0 h1, zero_add]

/-- Which cells the replicated boxes have. -/
theorem covers_repBoxes (len : Fin 3 → ℤ) (lev : ℕ) (rep : Fin 3 → ℕ) (src : List Bx) (c : Fin 3 → ℤ) :
    Covers (repBoxes len lev rep src) c ↔ ∃ s ∈ allShifts len lev rep, Covers src fun d => c d - s d := by
  unfold Covers repBoxes
  simp only [List.mem_flatMap, List.mem_map]
  constructor
  · rintro ⟨b', ⟨s, hs, b, hb, rfl⟩, hc⟩
    refine ⟨s, hs, b, hb, fun d => ?_⟩
    have := hc d
    simp only [Bx.shift] at this
    constructor <;> linarith [this.1, this.2]
  · rintro ⟨s, hs, b, hb, hc⟩
    refine ⟨b.shift s, ⟨s, hs, b, hb, rfl⟩, fun d => ?_⟩
    have := hc d
    simp only [Bx.shift]
    constructor <;> linarith [this.1, this.2]

/-- **C28.**  The replicated level has exactly the cells of the enlarged domain whose position modulo the
original size is in the checkpoint. -/
theorem replicated_cells (len : Fin 3 → ℤ) (hlen : ∀ d, 0 < len d) (lev : ℕ) (rep : Fin 3 → ℕ) (src : List Bx)
    (hsrc : InDomain len lev src) (c : Fin 3 → ℤ) :
    Covers (repBoxes len lev rep src) c ↔
      (∀ d, 0 ≤ c d ∧ c d < rep d * (len d * 2 ^ lev)) ∧ Covers src (modCell len lev c) := by
  rw [covers_repBoxes]
  have hpos : ∀ d, 0 < len d * 2 ^ lev := fun d => mul_pos (hlen d) (by positivity)
  constructor
  · rintro ⟨s, hs, hc⟩
    obtain ⟨n, hn, rfl⟩ := (mem_allShifts _ _ _ _).mp hs
    have key := shift_of_cell hsrc hc
    refine ⟨fun d => ?_, ?_⟩
    · obtain ⟨h0, h1⟩ := hsrc _ hc d
      have hnn : (0 : ℤ) ≤ n d := Int.natCast_nonneg _
      have hn1 : (n d : ℤ) + 1 ≤ rep d := by exact_mod_cast hn d
      have hm : ((n d : ℤ) + 1) * (len d * 2 ^ lev) ≤ rep d * (len d * 2 ^ lev) :=
        mul_le_mul_of_nonneg_right hn1 (le_of_lt (hpos d))
      have := mul_nonneg hnn (le_of_lt (hpos d))
      constructor <;> linarith
    · have : (fun d => c d - (n d : ℤ) * (len d * 2 ^ lev)) = modCell len lev c := funext fun d => (key d).1
      rwa [this] at hc
  · rintro ⟨hb, hc⟩
    refine ⟨fun d => ((c d / (len d * 2 ^ lev)).toNat : ℤ) * (len d * 2 ^ lev), ?_, ?_⟩
    · refine (mem_allShifts _ _ _ _).mpr ⟨fun d => (c d / (len d * 2 ^ lev)).toNat, fun d => ?_, rfl⟩
      have h1 : c d / (len d * 2 ^ lev) < rep d := Int.ediv_lt_of_lt_mul (hpos d) (hb d).2
      have h0 : 0 ≤ c d / (len d * 2 ^ lev) := Int.ediv_nonneg (hb d).1 (le_of_lt (hpos d))
      show (c d / (len d * 2 ^ lev)).toNat < rep d
      omega
    · convert hc using 1
      funext d
      have h0 : 0 ≤ c d / (len d * 2 ^ lev) := Int.ediv_nonneg (hb d).1 (le_of_lt (hpos d))
      show c d - ((c d / (len d * 2 ^ lev)).toNat : ℤ) * (len d * 2 ^ lev) = c d % (len d * 2 ^ lev)
      rw [Int.toNat_of_nonneg h0, Int.emod_def, mul_comm]

theorem foldl_copy {V : Type*} (src dst : List Bx) (file : (Fin 3 → ℤ) → V) (c : Fin 3 → ℤ) (hc : Covers dst c)
    (P : V → Prop) (l : List (Fin 3 → ℤ)) (out : (Fin 3 → ℤ) → Option V)
    (hP : ∀ s ∈ l, Covers src (fun d => c d - s d) → P (file fun d => c d - s d))
    (hex : (∃ s ∈ l, Covers src fun d => c d - s d) ∨ ∃ v, out c = some v ∧ P v) :
    ∃ v, l.foldl (fun o s => copyShifted src file s dst o) out c = some v ∧ P v := by
  induction l generalizing out with
  | nil =>
    rcases hex with ⟨s, hs, _⟩ | h
    · exact absurd hs (by simp)
    · exact h
  | cons s l ih =>
    rw [List.foldl_cons]
    apply ih
    · exact fun s' hs' => hP s' (List.mem_cons_of_mem _ hs')
    · by_cases hs : Covers src fun d => c d - s d
      · right
        refine ⟨_, ?_, hP s (by simp) hs⟩
        unfold copyShifted
        rw [if_pos ⟨hc, hs⟩]
      · rcases hex with ⟨s', hs', hcov⟩ | ⟨v, hv, hPv⟩
        · rcases List.mem_cons.mp hs' with rfl | hs'
          · exact absurd hcov hs
          · exact Or.inl ⟨s', hs', hcov⟩
        · right
          refine ⟨v, ?_, hPv⟩
          unfold copyShifted
          rw [if_neg (fun h => hs h.2)]
          exact hv

/-- **C28.**  Restart of a cell-centred field with any replication: every cell of the new level gets the
value of the cell of the checkpoint with the same position modulo the original size, and that is a cell of
the checkpoint.  `dst` is any set of boxes with the cells of the replicated level (AMReX merges and chops
the boxes). -/
theorem replicated_restart {V : Type*} (len : Fin 3 → ℤ) (lev : ℕ) (rep : Fin 3 → ℕ)
    (src dst : List Bx) (hsrc : InDomain len lev src)
    (hdst : ∀ c, Covers dst c ↔ Covers (repBoxes len lev rep src) c) (sameDm : Bool)
    (file : (Fin 3 → ℤ) → V) (out : (Fin 3 → ℤ) → Option V) (c : Fin 3 → ℤ) (hc : Covers dst c) :
    Covers src (modCell len lev c) ∧
    readField len lev rep src dst sameDm file out c = some (file (modCell len lev c)) := by
  obtain ⟨s0, hs0, hcov⟩ := (covers_repBoxes _ _ _ _ _).mp ((hdst c).mp hc)
  have heq : ∀ s ∈ allShifts len lev rep, Covers src (fun d => c d - s d) →
      (fun d => c d - s d) = modCell len lev c := by
    intro s hs h
    obtain ⟨n, _, rfl⟩ := (mem_allShifts _ _ _ _).mp hs
    exact funext fun d => (shift_of_cell hsrc h d).1
  refine ⟨heq s0 hs0 hcov ▸ hcov, ?_⟩
  unfold readField
  by_cases hsame : dst = src ∧ sameDm = true
  · rw [if_pos hsame]
    simp only [if_pos hc]
    have hcs : Covers src c := hsame.1 ▸ hc
    congr 2
    funext d
    obtain ⟨h0, h1⟩ := hsrc c hcs d
    unfold modCell
    rw [Int.emod_eq_of_lt h0 h1]
  · rw [if_neg hsame]
    obtain ⟨v, hv, rfl⟩ := foldl_copy src dst file c hc (fun v => v = file (modCell len lev c)) _ out
      (fun s hs h => by rw [heq s hs h]) (Or.inl ⟨s0, hs0, hcov⟩)
    exact hv

/-- **C28.**  Exactly one copy supplies a given cell, and if the boxes of the checkpoint do not overlap, so
do the boxes of the replicated level: no cell is in two of them. -/
theorem replicated_once (len : Fin 3 → ℤ) (lev : ℕ) (rep : Fin 3 → ℕ) (src : List Bx)
    (hsrc : InDomain len lev src) (c : Fin 3 → ℤ) (hc : Covers (repBoxes len lev rep src) c) :
    (∃! s, s ∈ allShifts len lev rep ∧ Covers src fun d => c d - s d) ∧
    ((∀ x b b', b ∈ src → b' ∈ src → b.Has x → b'.Has x → b = b') →
      ∃! b, b ∈ repBoxes len lev rep src ∧ b.Has c) := by
  obtain ⟨s0, hs0, hcov⟩ := (covers_repBoxes _ _ _ _ _).mp hc
  have huniq : ∀ s, s ∈ allShifts len lev rep → Covers src (fun d => c d - s d) → s = s0 := by
    intro s hs h
    obtain ⟨n, _, rfl⟩ := (mem_allShifts _ _ _ _).mp hs
    obtain ⟨n0, _, rfl⟩ := (mem_allShifts _ _ _ _).mp hs0
    funext d
    rw [(shift_of_cell hsrc h d).2, (shift_of_cell hsrc hcov d).2]
  refine ⟨⟨s0, ⟨hs0, hcov⟩, fun s h => huniq s h.1 h.2⟩, fun hdisj => ?_⟩
  obtain ⟨b0, hb0, hh0⟩ := hcov
  refine ⟨b0.shift s0, ⟨?_, ?_⟩, ?_⟩
  · unfold repBoxes
    simp only [List.mem_flatMap, List.mem_map]
    exact ⟨s0, hs0, b0, hb0, rfl⟩
  · intro d
    have := hh0 d
    simp only [Bx.shift]
    constructor <;> linarith [this.1, this.2]
  · rintro b ⟨hb, hbc⟩
    unfold repBoxes at hb
    simp only [List.mem_flatMap, List.mem_map] at hb
    obtain ⟨s, hs, b1, hb1, rfl⟩ := hb
    have hb1c : b1.Has fun d => c d - s d := by
      intro d
      have := hbc d
      simp only [Bx.shift] at this
      constructor <;> linarith [this.1, this.2]
    have := huniq s hs ⟨b1, hb1, hb1c⟩
    subst this
    rw [hdisj _ b1 b0 hb1 hb0 hb1c hh0]

/-- **C28.**  On the coarsest level, where the checkpoint covers the whole original domain, every cell of the
enlarged domain is filled. -/
theorem replicated_level0_full {V : Type*} (len : Fin 3 → ℤ) (rep : Fin 3 → ℕ) (src dst : List Bx)
    (hfull : ∀ c, Covers src c ↔ ∀ d, 0 ≤ c d ∧ c d < len d) (hlen : ∀ d, 0 < len d)
    (hdst : ∀ c, Covers dst c ↔ Covers (repBoxes len 0 rep src) c) (sameDm : Bool)
    (file : (Fin 3 → ℤ) → V) (out : (Fin 3 → ℤ) → Option V) (c : Fin 3 → ℤ)
    (hc : ∀ d, 0 ≤ c d ∧ c d < rep d * len d) :
    readField len 0 rep src dst sameDm file out c = some (file fun d => c d % len d) := by
  have hin : InDomain len 0 src := by
    intro x hx d
    simpa using (hfull x).mp hx d
  have hcov : Covers dst c := by
    rw [hdst, replicated_cells len hlen 0 rep src hin]
    refine ⟨by simpa using hc, (hfull _).mpr fun d => ?_⟩
    simp only [modCell, pow_zero, mul_one]
    exact ⟨Int.emod_nonneg _ (ne_of_gt (hlen d)), Int.emod_lt_of_pos _ (hlen d)⟩
  have := (replicated_restart len 0 rep src dst hin hdst sameDm file out c hcov).2
  rw [this]
  congr 2
  funext d
  simp [modCell]

/-! ### Fields on nodes and faces -/

theorem covers_toType (nodal : Fin 3 → Bool) (ba : List Bx) (hne : ∀ b ∈ ba, ∀ d, b.lo d ≤ b.hi d) (p : Fin 3 → ℤ) :
    Covers (ba.map (toType nodal)) p ↔
      ∃ e : Fin 3 → ℤ, (∀ d, e d = 0 ∨ (nodal d = true ∧ e d = 1)) ∧ Covers ba fun d => p d - e d := by
  constructor
  · rintro ⟨b', hb', hp⟩
    obtain ⟨b, hb, rfl⟩ := List.mem_map.mp hb'
    refine ⟨fun d => if p d ≤ b.hi d then 0 else 1, fun d => ?_, b, hb, fun d => ?_⟩
    · have := (hp d).2
      simp only [toType] at this
      by_cases h : p d ≤ b.hi d
      · left; exact if_pos h
      · right
        refine ⟨?_, if_neg h⟩
        by_contra hn
        rw [if_neg hn] at this
        omega
    · have h1 := (hp d).1
      have h2 := (hp d).2
      have h3 := hne b hb d
      simp only [toType] at h1 h2
      by_cases h : p d ≤ b.hi d
      · simp only [if_pos h]; constructor <;> omega
      · simp only [if_neg h]
        have : (if nodal d = true then (1 : ℤ) else 0) ≤ 1 := by split <;> omega
        constructor <;> omega
  · rintro ⟨e, he, b, hb, hp⟩
    refine ⟨toType nodal b, List.mem_map_of_mem hb, fun d => ?_⟩
    have h1 : b.lo d ≤ p d - e d := (hp d).1
    have h2 : p d - e d ≤ b.hi d := (hp d).2
    simp only [toType]
    rcases he d with h | ⟨hn, h⟩
    · rw [h] at h1 h2
      have : 0 ≤ (if nodal d = true then (1 : ℤ) else 0) := by split <;> omega
      constructor <;> omega
    · rw [h] at h1 h2
      rw [if_pos hn]
      constructor <;> omega

/-- **C28** for a field on nodes or faces: every point of the new level gets the value of a point of the
checkpoint that differs from it by whole multiples of the original size; if the checkpoint is periodic (the
points on opposite ends carry the same value) that value is the only one possible. -/
theorem replicated_restart_nodal {V : Type*} (nodal : Fin 3 → Bool) (len : Fin 3 → ℤ) (lev : ℕ) (rep : Fin 3 → ℕ)
    (src dst : List Bx) (hsne : ∀ b ∈ src, ∀ d, b.lo d ≤ b.hi d) (hdne : ∀ b ∈ dst, ∀ d, b.lo d ≤ b.hi d)
    (hdst : ∀ c, Covers dst c ↔ Covers (repBoxes len lev rep src) c) (sameDm : Bool)
    (file : (Fin 3 → ℤ) → V) (out : (Fin 3 → ℤ) → Option V) (p : Fin 3 → ℤ)
    (hp : Covers (dst.map (toType nodal)) p) :
    (∃ q, Covers (src.map (toType nodal)) q ∧ (∀ d, len d * 2 ^ lev ∣ p d - q d) ∧
      readField len lev rep (src.map (toType nodal)) (dst.map (toType nodal)) sameDm file out p = some (file q)) ∧
    ((∀ q q', Covers (src.map (toType nodal)) q → Covers (src.map (toType nodal)) q' →
        (∀ d, len d * 2 ^ lev ∣ q d - q' d) → file q = file q') →
      ∀ q, Covers (src.map (toType nodal)) q → (∀ d, len d * 2 ^ lev ∣ p d - q d) →
        readField len lev rep (src.map (toType nodal)) (dst.map (toType nodal)) sameDm file out p = some (file q)) := by
  have main : ∃ q, Covers (src.map (toType nodal)) q ∧ (∀ d, len d * 2 ^ lev ∣ p d - q d) ∧
      readField len lev rep (src.map (toType nodal)) (dst.map (toType nodal)) sameDm file out p = some (file q) := by
    obtain ⟨e, he, hcov⟩ := (covers_toType nodal dst hdne p).mp hp
    obtain ⟨s0, hs0, hc0⟩ := (covers_repBoxes _ _ _ _ _).mp ((hdst _).mp hcov)
    have hsrc0 : Covers (src.map (toType nodal)) fun d => p d - s0 d := by
      refine (covers_toType nodal src hsne _).mpr ⟨e, he, ?_⟩
      convert hc0 using 1
      funext d
      ring
    unfold readField
    by_cases hsame : dst.map (toType nodal) = src.map (toType nodal) ∧ sameDm = true
    · rw [if_pos hsame]
      simp only [if_pos hp]
      exact ⟨p, hsame.1 ▸ hp, fun d => by simp, rfl⟩
    · rw [if_neg hsame]
      obtain ⟨v, hv, q, hq1, hq2, rfl⟩ := foldl_copy (src.map (toType nodal)) (dst.map (toType nodal)) file p hp
        (fun v => ∃ q, Covers (src.map (toType nodal)) q ∧ (∀ d, len d * 2 ^ lev ∣ p d - q d) ∧ v = file q)
        (allShifts len lev rep) out
        (fun s hs h => by
          obtain ⟨n, _, rfl⟩ := (mem_allShifts _ _ _ _).mp hs
          exact ⟨_, h, fun d => ⟨n d, by ring⟩, rfl⟩) (Or.inl ⟨s0, hs0, hsrc0⟩)
      exact ⟨q, hq1, hq2, hv⟩
  refine ⟨main, fun hper q hq hqd => ?_⟩
  obtain ⟨q', hq', hqd', h⟩ := main
  rw [h, hper q' q hq' hq fun d => ?_]
  have : q' d - q d = (p d - q d) - (p d - q' d) := by ring
  rw [this]
  exact dvd_sub (hqd d) (hqd' d)

/-- **C28.**  The replication factor found from the sizes of the two domains: a whole ratio is found exactly,
and an accepted ratio is within one millionth of the factor. -/
theorem repOf_spec (ratio : K) : (∀ n : ℕ, ratio = n → repOf ratio = some (n : ℤ)) ∧
    ∀ r, repOf ratio = some r → |(r : K) - ratio| ≤ 1 / 1000000 := by
  constructor
  · rintro n rfl
    unfold repOf
    simp only [Nat.cast_nonneg, if_true, Int.floor_natCast, Int.cast_natCast, sub_self, abs_zero]
    rw [if_neg (by norm_num)]
  · intro r h
    unfold repOf at h
    simp only at h
    by_cases hb : 1 / 1000000 < |(((if 0 ≤ ratio then ⌊ratio⌋ else -⌊-ratio⌋ : ℤ)) : K) - ratio|
    · rw [if_pos hb] at h; exact absurd h (by simp)
    · rw [if_neg hb] at h
      rw [← Option.some.inj h]
      exact not_lt.mp hb

/-- A ratio just below a whole number, as rounding may produce, is refused rather than mistaken. -/
example : repOf (2 - 1 / 10000000000 : ℚ) = none := by decide +kernel

/-- The hypotheses are met: an 8³ domain in two boxes, replicated 2×1×3, on level 1. -/
example : InDomain (fun _ => 8) 1 [⟨fun _ => 0, ![7, 15, 15]⟩, ⟨![8, 0, 0], fun _ => 15⟩] ∧
    Covers (repBoxes (fun _ => 8) 1 ![2, 1, 3] [⟨fun _ => 0, ![7, 15, 15]⟩, ⟨![8, 0, 0], fun _ => 15⟩]) ![20, 3, 40] := by
  constructor
  · rintro c ⟨b, hb, hc⟩ d
    simp only [List.mem_cons, List.not_mem_nil, or_false] at hb
    rcases hb with rfl | rfl <;> have := hc d <;> fin_cases d <;> simp at this ⊢ <;> omega
  · decide +kernel

/-- C27: a time written without a decimal point is read as that number, and reading goes on behind it. -/
theorem real_from_int (old : K) (z : ℤ) (t : List (Tok K)) : readReal old ⟨.int z :: t, false⟩ = ((z : K), ⟨t, false⟩) := by
  unfold readReal; simp [skipNl]

end AmrWind.IO
