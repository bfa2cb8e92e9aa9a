import Mathlib.Tactic.Linarith
import Mathlib.Tactic.FieldSimp
import Mathlib.Tactic.Ring
import Mathlib.Tactic.LinearCombination
import Mathlib.Tactic.NormNum
import Mathlib.Algebra.Order.Ring.Abs
import Mathlib.Data.Rat.Floor
import Verif.Waves.W2aModel

/-!
# Recorded waves: the target is the linear interpolation between the two records around the time (C116)
-/

set_option linter.unusedSectionVars false

namespace AmrWind.W2a

variable {K : Type*} [Field K] [LinearOrder K] [IsStrictOrderedRing K]

/-! ### Specification -/

/-- What the library and the input have to satisfy: `time2step` gives the first record at or after a time, whatever the
guess; the start time is that of the first record; the records up to the nominal last one are in the file. -/
structure Cfg.Ok (c : Cfg K) : Prop where
  dt_pos : 0 < c.dt
  eps_pos : 0 < c.eps
  tol_pos : 0 < c.tol
  step_spec : ∀ T m, ((c.step T m : ℤ) - 1 : K) * c.dt < T ∧ T ≤ (c.step T m : K) * c.dt
  init_time : c.tInit = (c.nInit : K) * c.dt
  stop : c.nInit ≤ c.nStop
  records : ∀ i, c.nInit ≤ i → i ≤ c.nStop → (c.hos i).isSome

/-- The file is played in a loop: step `n` of the simulation is this step of the file. -/
def loop (c : Cfg K) (n : ℤ) : ℤ := c.nInit + (n - c.nInit) % (c.nStop - c.nInit + 1)

/-- Record `n` of the looped file. -/
def Rec (c : Cfg K) (n : ℤ) (v : K) : Prop := c.hos (loop c n) = some v

/-- The time in the simulation of record `n`. -/
def recTime (c : Cfg K) (n : ℤ) : K := ((n : K) - c.nInit) * c.dt

/-- The linear interpolation at time `t` between record `n - 1` with value `p` and record `n` with value `v`. -/
def between (c : Cfg K) (n : ℤ) (p v t : K) : K := p + (v - p) * ((t - recTime c (n - 1)) / c.dt)

/-- Updates after time `t`: time does not go back, no record is skipped, and no update is closer to time 0 than the
tolerance. -/
def Schedule (c : Cfg K) (t : K) : List K → Prop
  | [] => True
  | t' :: ts => t ≤ t' ∧ t' ≤ t + c.dt ∧ c.tol ≤ t' ∧ Schedule c t' ts

/-! ### Arithmetic -/

theorem step_unique {c : Cfg K} (h : c.Ok) {a b : ℤ} {T : K} (ha : ((a : K) - 1) * c.dt < T ∧ T ≤ (a : K) * c.dt)
    (hb : ((b : K) - 1) * c.dt < T ∧ T ≤ (b : K) * c.dt) : a = b := by
  have key : ∀ x y : ℤ, ((x : K) - 1) * c.dt < T → T ≤ (y : K) * c.dt → x ≤ y := by
    intro x y hx hy
    have h1 : ((x : K) - 1) * c.dt < (y : K) * c.dt := lt_of_lt_of_le hx hy
    have h2 : (x : K) - 1 < y := lt_of_mul_lt_mul_right h1 h.dt_pos.le
    have h3 : (x : K) < ((y + 1 : ℤ) : K) := by push_cast; linarith
    have := Int.cast_lt.mp h3
    omega
  exact le_antisymm (key _ _ ha.1 hb.2) (key _ _ hb.1 ha.2)

theorem loop_range {c : Cfg K} (h : c.Ok) (n : ℤ) : c.nInit ≤ loop c n ∧ loop c n ≤ c.nStop := by
  have hN : 0 < c.nStop - c.nInit + 1 := by have := h.stop; omega
  have h1 := Int.emod_nonneg (n - c.nInit) hN.ne'
  have h2 := Int.emod_lt_of_pos (n - c.nInit) hN
  unfold loop
  omega

theorem loop_succ {c : Cfg K} (h : c.Ok) (n : ℤ) :
    loop c (n + 1) = if loop c n + 1 > c.nStop then c.nInit else loop c n + 1 := by
  have hN : 0 < c.nStop - c.nInit + 1 := by have := h.stop; omega
  have h1 := Int.emod_nonneg (n - c.nInit) hN.ne'
  have h2 := Int.emod_lt_of_pos (n - c.nInit) hN
  have e : (n + 1 - c.nInit) % (c.nStop - c.nInit + 1)
      = ((n - c.nInit) % (c.nStop - c.nInit + 1) + 1) % (c.nStop - c.nInit + 1) := by
    rw [Int.emod_add_emod]; congr 1; ring
  unfold loop
  rw [e]
  by_cases hc : c.nInit + (n - c.nInit) % (c.nStop - c.nInit + 1) + 1 > c.nStop
  · rw [if_pos hc]
    have : (n - c.nInit) % (c.nStop - c.nInit + 1) + 1 = c.nStop - c.nInit + 1 := by omega
    rw [this, Int.emod_self, add_zero]
  · rw [if_neg hc, Int.emod_eq_of_lt (by omega) (by omega)]
    ring

/-- How far the interpolated value is from the record ahead: the closed form of any sequence of updates. -/
def closed (c : Cfg K) (n : ℤ) (p v t : K) : K :=
  v - (v - p) * ((recTime c n - t + c.eps) / ((1 - (c.nInit : K)) * c.dt + c.eps))

/-! ### One run -/

/-- What holds after an update at time `t`. -/
structure Inv (c : Cfg K) (s : St K) (t : K) : Prop where
  last : s.tLast = t
  bracket : ((s.ntime : K) - 1) * c.dt < t + c.tInit ∧ t + c.tInit ≤ (s.ntime : K) * c.dt
  time : s.t = recTime c s.ntime
  offset : s.ntime + s.nOffset = loop c s.ntime
  cur : Rec c s.ntime s.cur
  old : c.tol ≤ t → ∃ p, Rec c (s.ntime - 1) p ∧ s.old = closed c s.ntime p s.cur t
  early : t = 0 ∨ c.tol ≤ t

theorem rec_some {c : Cfg K} (h : c.Ok) (n : ℤ) : ∃ v, Rec c n v := by
  have hr := loop_range h n
  exact Option.isSome_iff_exists.mp (h.records _ hr.1 hr.2)

theorem interp_first (c : Cfg K) (hC : (1 - (c.nInit : K)) * c.dt + c.eps ≠ 0) (n : ℤ) (p v t : K) :
    interp c.eps p v (((n - 1 : ℤ) : K) * c.dt) t (recTime c n) = closed c n p v t := by
  have e : recTime c n - ((n - 1 : ℤ) : K) * c.dt + c.eps = (1 - (c.nInit : K)) * c.dt + c.eps := by
    unfold recTime; push_cast; ring
  unfold interp closed
  rw [e]
  have e2 : t - ((n - 1 : ℤ) : K) * c.dt
      = ((1 - (c.nInit : K)) * c.dt + c.eps) - (recTime c n - t + c.eps) := by
    unfold recTime; push_cast; ring
  dsimp only
  rw [e2, sub_div, div_self hC]
  ring

theorem interp_next (c : Cfg K) (n : ℤ) (p v t t' : K) (hD : recTime c n - t + c.eps ≠ 0) :
    interp c.eps (closed c n p v t) v t t' (recTime c n) = closed c n p v t' := by
  unfold interp closed
  dsimp only
  set D := recTime c n - t + c.eps with hDd
  set C := (1 - (c.nInit : K)) * c.dt + c.eps with hCd
  have e : t' - t = D - (recTime c n - t' + c.eps) := by rw [hDd]; ring
  rw [e, sub_div, div_self hD]
  set D' := recTime c n - t' + c.eps
  have : D' / D * (D / C) = D' / C := by
    rw [div_mul_div_comm, mul_comm D' D, mul_div_mul_left _ _ hD]
  linear_combination (p - v) * this

/-- One update keeps what holds. -/
theorem inv_update {c : Cfg K} (h : c.Ok) (hC : (1 - (c.nInit : K)) * c.dt + c.eps ≠ 0) {s : St K} {t t' : K}
    (i : Inv c s t) (h1 : t ≤ t') (h2 : t' ≤ t + c.dt) (h3 : c.tol ≤ t') :
    ∃ s', update c s t' = some s' ∧ Inv c s' t' := by
  have hst := h.step_spec (t' + c.tInit) s.ntime
  set n := c.step (t' + c.tInit) s.ntime with hn
  have htol := h.tol_pos
  have hnot : ¬ s.tLast < -c.tol := by
    rw [i.last]; rcases i.early with e | e <;> intro hh <;> linarith
  -- `n` is the current step or the next one
  have hn2 : n = s.ntime ∨ n = s.ntime + 1 := by
    have a1 : s.ntime ≤ n := by
      have h4 : ((s.ntime : K) - 1) * c.dt < (n : K) * c.dt := by linarith [i.bracket.1, hst.2]
      have h5 : (s.ntime : K) - 1 < n := lt_of_mul_lt_mul_right h4 h.dt_pos.le
      have h6 : (s.ntime : K) < ((n + 1 : ℤ) : K) := by push_cast; linarith
      have := Int.cast_lt.mp h6
      omega
    have a2 : n ≤ s.ntime + 1 := by
      have h4 : ((n : K) - 1) * c.dt < ((s.ntime : K) + 1) * c.dt := by linarith [i.bracket.2, hst.1]
      have h5 : (n : K) - 1 < (s.ntime : K) + 1 := lt_of_mul_lt_mul_right h4 h.dt_pos.le
      have h6 : (n : K) < ((s.ntime + 1 + 1 : ℤ) : K) := by push_cast; linarith
      have := Int.cast_lt.mp h6
      omega
    omega
  rcases hn2 with hsame | hnext
  · -- no reading
    have htp : c.tol ≤ t := by
      rcases i.early with e | e
      · exfalso
        have hb := i.bracket
        rw [e, h.init_time] at hb
        have hb1 : s.ntime = c.nInit := by
          have x1 : (s.ntime : K) - 1 < c.nInit := by
            have : ((s.ntime : K) - 1) * c.dt < (c.nInit : K) * c.dt := by linarith [hb.1]
            exact lt_of_mul_lt_mul_right this h.dt_pos.le
          have x2 : (c.nInit : K) ≤ s.ntime := by
            have : (c.nInit : K) * c.dt ≤ (s.ntime : K) * c.dt := by linarith [hb.2]
            exact le_of_mul_le_mul_right this h.dt_pos
          have y1 : (s.ntime : K) < ((c.nInit + 1 : ℤ) : K) := by push_cast; linarith
          have := Int.cast_lt.mp y1
          have := Int.cast_le.mp x2
          omega
        have := hst.2
        rw [hsame, hb1, h.init_time] at this
        linarith
      · exact e
    have hnot2 : ¬ |s.tLast| < c.tol := by
      rw [i.last, abs_of_nonneg (by linarith)]; linarith
    refine ⟨⟨n, s.nOffset, t', s.t, interp c.eps s.old s.cur s.tLast t' s.t, s.cur⟩, ?_, ?_⟩
    · simp only [update, evaluate, ← hn, hsame, if_neg hnot, if_neg hnot2, ne_eq, not_true_eq_false, decide_false,
        Bool.or_self, Bool.false_eq_true, if_false]
    · obtain ⟨p, hp, ho⟩ := i.old htp
      refine ⟨rfl, hst, ?_, ?_, ?_, fun _ => ⟨p, ?_, ?_⟩, Or.inr h3⟩
      · show s.t = recTime c n
        rw [hsame]; exact i.time
      · show n + s.nOffset = loop c n
        rw [hsame]; exact i.offset
      · show Rec c n s.cur
        rw [hsame]; exact i.cur
      · show Rec c (n - 1) p
        rw [hsame]; exact hp
      · show interp c.eps s.old s.cur s.tLast t' s.t = closed c n p s.cur t'
        rw [i.last, i.time, ho, hsame]
        refine interp_next c _ _ _ _ _ (ne_of_gt ?_)
        have hb := i.bracket.2
        rw [h.init_time] at hb
        have : recTime c s.ntime = (s.ntime : K) * c.dt - c.nInit * c.dt := by unfold recTime; ring
        rw [this]; linarith [h.eps_pos]
  · -- reading the next record
    have hne : n ≠ s.ntime := by omega
    have hngt : ¬ n > s.ntime + 1 := by omega
    have hwt : (n : K) * c.dt - c.tInit = recTime c n := by rw [h.init_time]; unfold recTime; ring
    obtain ⟨v, hv⟩ := rec_some h n
    have hls := loop_succ h s.ntime
    -- the index read
    have hidx : n + (if n + s.nOffset > c.nStop then resetOffset n c.nInit else s.nOffset) = loop c n := by
      have hi := i.offset
      have : n + s.nOffset = loop c s.ntime + 1 := by omega
      rw [this, hnext, hls]
      split_ifs with hcc
      · unfold resetOffset; omega
      · omega
    set off := (if n + s.nOffset > c.nStop then resetOffset n c.nInit else s.nOffset) with hoff
    have hread : readAt c n off 0 = some (v, off) := by
      unfold readAt
      rw [add_zero, hidx, show c.hos (loop c n) = some v from hv]
    refine ⟨⟨n, off, t', recTime c n, interp c.eps s.cur v (((n - 1 : ℤ) : K) * c.dt) t' (recTime c n), v⟩, ?_, ?_⟩
    · by_cases h4 : |s.tLast| < c.tol
      · simp only [update, evaluate, ← hn, if_neg hnot, if_pos h4, if_pos hne, if_neg hngt, if_true, ← hoff, hread, hwt]
      · simp only [update, evaluate, ← hn, if_neg hnot, if_neg h4, if_pos hne, if_neg hngt, if_true, ← hoff, hread, hwt,
          ne_eq, hne, not_false_eq_true, decide_true, Bool.or_true]
    · refine ⟨rfl, hst, rfl, hidx, hv, fun _ => ⟨s.cur, ?_, interp_first c hC n s.cur v t'⟩, Or.inr h3⟩
      show Rec c (n - 1) s.cur
      rw [hnext, add_sub_cancel_right]
      exact i.cur

/-- The first update of a new simulation. -/
theorem inv_start {c : Cfg K} (h : c.Ok) (hC : (1 - (c.nInit : K)) * c.dt + c.eps ≠ 0) (wave quiet : K) :
    ∃ s, update c (start c wave quiet) 0 = some s ∧ Inv c s 0 ∧ s.ntime = c.nInit ∧
      s.old = closed c c.nInit quiet s.cur 0 := by
  have hst := h.step_spec (0 + c.tInit) c.nInit
  have hn : c.step (0 + c.tInit) c.nInit = c.nInit := by
    refine step_unique h hst ?_
    rw [h.init_time, zero_add]
    refine ⟨?_, le_rfl⟩
    have := h.dt_pos
    linarith
  have htol := h.tol_pos
  have h1 : ¬ (0 : K) < -c.tol := by intro hh; linarith
  have h2 : |(0 : K)| < c.tol := by rw [abs_zero]; exact htol
  obtain ⟨v, hv⟩ := rec_some h c.nInit
  have hl : loop c c.nInit = c.nInit := by unfold loop; rw [sub_self, Int.zero_emod, add_zero]
  have hoff : ¬ c.nInit + 0 > c.nStop := by have := h.stop; omega
  have hread : readAt c c.nInit 0 0 = some (v, 0) := by
    have hv' : c.hos c.nInit = some v := by have := hv; unfold Rec at this; rwa [hl] at this
    unfold readAt
    rw [add_zero, add_zero, hv']
  have hr0 : recTime c c.nInit = 0 := by unfold recTime; ring
  refine ⟨⟨c.nInit, 0, 0, 0, interp c.eps quiet v (((c.nInit - 1 : ℤ) : K) * c.dt) 0 0, v⟩, ?_, ?_, rfl, ?_⟩
  · simp only [update, evaluate, start, hn, if_neg h1, if_pos h2, ne_eq, not_true_eq_false, if_false, if_true,
      if_neg hoff, hread]
  · refine ⟨rfl, ?_, hr0.symm, ?_, hv, fun hh => absurd hh (by intro hh; linarith), Or.inl rfl⟩
    · have := hst; rwa [hn] at this
    · show c.nInit + 0 = loop c c.nInit
      rw [hl, add_zero]
  · show interp c.eps quiet v (((c.nInit - 1 : ℤ) : K) * c.dt) 0 0 = _
    have := interp_first c hC c.nInit quiet v 0
    rwa [hr0] at this

theorem inv_run {c : Cfg K} (h : c.Ok) (hC : (1 - (c.nInit : K)) * c.dt + c.eps ≠ 0) (ts : List K) :
    ∀ {s : St K} {t : K}, Inv c s t → Schedule c t ts → ∃ s', run c s ts = some s' ∧ Inv c s' (ts.getLastD t) := by
  induction ts with
  | nil => intro s t i _; exact ⟨s, rfl, i⟩
  | cons t' ts ih =>
    intro s t i hs
    obtain ⟨h1, h2, h3, h4⟩ := hs
    obtain ⟨s1, e1, i1⟩ := inv_update h hC i h1 h2 h3
    obtain ⟨s2, e2, i2⟩ := ih i1 h4
    refine ⟨s2, ?_, ?_⟩
    · show (update c s t').bind _ = _
      rw [e1]; exact e2
    · rw [List.getLastD_cons]; exact i2

theorem run_append (c : Cfg K) (ts us : List K) : ∀ s, run c s (ts ++ us) = (run c s ts).bind fun s' => run c s' us := by
  induction ts with
  | nil => intro s; rfl
  | cons t ts ih =>
    intro s
    show (update c s t).bind _ = ((update c s t).bind _).bind _
    cases update c s t with
    | none => rfl
    | some s' => exact ih s'

/-! ### Properties -/

/-- C116. In a run that starts at the first record of the file the target after any sequence of updates does not depend on
the sequence: up to the machine epsilon in the denominator it is the linear interpolation in time between the two records
around the time, the file being played in a loop.

Partial (C116). Missing: other start records, where it is false (`late_start_wrong`). -/
theorem target_interpolates_partial {c : Cfg K} (h : c.Ok) (h0 : c.nInit = 0) (wave quiet : K) (ts : List K) (t : K)
    (hs : Schedule c 0 (ts ++ [t])) :
    ∃ s n p v, run c (start c wave quiet) (0 :: ts ++ [t]) = some s ∧ Rec c (n - 1) p ∧ Rec c n v ∧
      recTime c (n - 1) < t ∧ t ≤ recTime c n ∧
      |s.old - between c n p v t| ≤ |v - p| * (c.eps / (c.dt + c.eps)) := by
  have hC : (1 - (c.nInit : K)) * c.dt + c.eps ≠ 0 := by
    rw [h0]; push_cast; have := h.dt_pos; have := h.eps_pos; exact ne_of_gt (by linarith)
  obtain ⟨s0, e0, i0, _⟩ := inv_start h hC wave quiet
  obtain ⟨s, e, i⟩ := inv_run h hC (ts ++ [t]) i0 hs
  have hl : (ts ++ [t]).getLastD 0 = t := by simp
  rw [hl] at i
  have htol : c.tol ≤ t := by
    clear i e hl i0 e0
    have key : ∀ (us : List K) (x : K), Schedule c x (us ++ [t]) → c.tol ≤ t := by
      intro us
      induction us with
      | nil => intro x hx; exact hx.2.2.1
      | cons u us ih => intro x hx; exact ih u hx.2.2.2
    exact key ts 0 hs
  obtain ⟨p, hp, ho⟩ := i.old htol
  have hb := i.bracket
  rw [h.init_time, h0] at hb
  push_cast at hb
  have hdt := h.dt_pos
  have heps := h.eps_pos
  refine ⟨s, s.ntime, p, s.cur, ?_, hp, i.cur, ?_, ?_, ?_⟩
  · show (update c (start c wave quiet) 0).bind _ = _
    rw [e0]; exact e
  · unfold recTime; rw [h0]; push_cast; linarith [hb.1]
  · unfold recTime; rw [h0]; push_cast; linarith [hb.2]
  · rw [ho]
    set T := recTime c s.ntime with hT
    have hTv : T = (s.ntime : K) * c.dt := by rw [hT]; unfold recTime; rw [h0]; push_cast; ring
    have hT1 : recTime c (s.ntime - 1) = T - c.dt := by rw [hTv]; unfold recTime; rw [h0]; push_cast; ring
    have d1 : c.dt ≠ 0 := hdt.ne'
    have d2 : c.dt + c.eps ≠ 0 := (by linarith : (0 : K) < c.dt + c.eps).ne'
    have e2 : closed c s.ntime p s.cur t - between c s.ntime p s.cur t
        = (s.cur - p) * (c.eps / (c.dt + c.eps) * ((T - t - c.dt) / c.dt)) := by
      unfold closed between
      rw [hT1, ← hT, h0]
      push_cast
      rw [sub_zero, one_mul]
      field_simp
      ring
    rw [e2, abs_mul, abs_mul]
    refine mul_le_mul_of_nonneg_left ?_ (abs_nonneg _)
    have h5 : |(T - t - c.dt) / c.dt| ≤ 1 := by
      rw [abs_le]
      constructor
      · rw [le_div_iff₀ hdt]; linarith [hb.2]
      · rw [div_le_iff₀ hdt]; linarith [hb.1]
    have h6 : 0 < c.eps / (c.dt + c.eps) := div_pos heps (by linarith)
    rw [abs_of_pos h6]
    nlinarith

/-- C116, what the code computes for any first record: the distance to the record ahead shrinks linearly, but from the
wrong start: the time of the record behind is taken in the time of the file, not in that of the simulation. -/
theorem target_closed {c : Cfg K} (h : c.Ok) (hC : (1 - (c.nInit : K)) * c.dt + c.eps ≠ 0) (wave quiet : K)
    (ts : List K) (t : K) (hs : Schedule c 0 (ts ++ [t])) :
    ∃ s n p v, run c (start c wave quiet) (0 :: ts ++ [t]) = some s ∧ Rec c (n - 1) p ∧ Rec c n v ∧
      recTime c (n - 1) < t ∧ t ≤ recTime c n ∧
      s.old = v - (v - p) * ((recTime c n - t + c.eps) / ((1 - (c.nInit : K)) * c.dt + c.eps)) := by
  obtain ⟨s0, e0, i0, _⟩ := inv_start h hC wave quiet
  obtain ⟨s, e, i⟩ := inv_run h hC (ts ++ [t]) i0 hs
  have hl : (ts ++ [t]).getLastD 0 = t := by simp
  rw [hl] at i
  have htol : c.tol ≤ t := by
    clear i e hl i0 e0
    have key : ∀ (us : List K) (x : K), Schedule c x (us ++ [t]) → c.tol ≤ t := by
      intro us
      induction us with
      | nil => intro x hx; exact hx.2.2.1
      | cons u us ih => intro x hx; exact ih u hx.2.2.2
    exact key ts 0 hs
  obtain ⟨p, hp, ho⟩ := i.old htol
  have hb := i.bracket
  rw [h.init_time] at hb
  refine ⟨s, s.ntime, p, s.cur, ?_, hp, i.cur, ?_, ?_, ho⟩
  · show (update c (start c wave quiet) 0).bind _ = _
    rw [e0]; exact e
  · unfold recTime; push_cast; linarith [hb.1]
  · unfold recTime; linarith [hb.2]

/-- C116 fails for a start at a later record: from the third record on the target overshoots, it is off by more than the
part of the way that is left to the record ahead. -/
theorem late_start_wrong {c : Cfg K} (h : c.Ok) (h2 : 2 ≤ c.nInit) (heps : c.eps < c.dt) (wave quiet : K)
    (ts : List K) (t : K) (hs : Schedule c 0 (ts ++ [t])) :
    ∃ s n p v, run c (start c wave quiet) (0 :: ts ++ [t]) = some s ∧ Rec c (n - 1) p ∧ Rec c n v ∧
      recTime c (n - 1) < t ∧ t ≤ recTime c n ∧
      |v - p| * ((recTime c n - t) / c.dt) ≤ |s.old - between c n p v t| := by
  have hdt := h.dt_pos
  have hep := h.eps_pos
  have hn : (2 : K) ≤ c.nInit := by exact_mod_cast h2
  have hneg : (1 - (c.nInit : K)) * c.dt + c.eps < 0 := by nlinarith
  obtain ⟨s, n, p, v, e, hp, hv, b1, b2, ho⟩ := target_closed h hneg.ne wave quiet ts t hs
  refine ⟨s, n, p, v, e, hp, hv, b1, b2, ?_⟩
  rw [ho]
  set T := recTime c n with hT
  have hT1 : recTime c (n - 1) = T - c.dt := by rw [hT]; unfold recTime; push_cast; ring
  set C := (1 - (c.nInit : K)) * c.dt + c.eps with hCd
  have e2 : v - (v - p) * ((T - t + c.eps) / C) - between c n p v t
      = (v - p) * ((T - t) / c.dt + (T - t + c.eps) / (-C)) := by
    unfold between
    rw [hT1, div_neg]
    have : (t - (T - c.dt)) / c.dt = 1 - (T - t) / c.dt := by
      have := hdt.ne'
      field_simp
      ring
    rw [this]; ring
  rw [e2, abs_mul]
  refine mul_le_mul_of_nonneg_left ?_ (abs_nonneg _)
  have h5 : 0 ≤ (T - t) / c.dt := div_nonneg (by linarith) hdt.le
  have h6 : 0 ≤ (T - t + c.eps) / (-C) := div_nonneg (by linarith) (by linarith)
  rw [abs_of_nonneg (by linarith)]
  linarith

/-- C116 fails for a start at the second record: the denominator is the machine epsilon, the target is the record ahead
plus the difference of the records times the time left over epsilon. -/
theorem second_record_start_wrong {c : Cfg K} (h : c.Ok) (h1 : c.nInit = 1) (wave quiet : K) (ts : List K) (t : K)
    (hs : Schedule c 0 (ts ++ [t])) :
    ∃ s n p v, run c (start c wave quiet) (0 :: ts ++ [t]) = some s ∧ Rec c (n - 1) p ∧ Rec c n v ∧
      recTime c (n - 1) < t ∧ t ≤ recTime c n ∧
      |s.old - v| = |v - p| * ((recTime c n - t) / c.eps + 1) := by
  have hep := h.eps_pos
  have e1 : (1 - (c.nInit : K)) * c.dt + c.eps = c.eps := by rw [h1]; push_cast; ring
  obtain ⟨s, n, p, v, e, hp, hv, b1, b2, ho⟩ := target_closed h (by rw [e1]; exact hep.ne') wave quiet ts t hs
  refine ⟨s, n, p, v, e, hp, hv, b1, b2, ?_⟩
  rw [ho, e1, add_div, div_self hep.ne']
  have h7 : 0 ≤ (recTime c n - t) / c.eps := div_nonneg (by linarith) hep.le
  rw [show v - (v - p) * ((recTime c n - t) / c.eps + 1) - v = -((v - p) * ((recTime c n - t) / c.eps + 1)) by ring,
    abs_neg, abs_mul, abs_of_nonneg (by linarith : 0 ≤ (recTime c n - t) / c.eps + 1)]

/-- C116: the first target of a new simulation is the first record, up to the machine epsilon, when the run starts at the
first record of the file; at the second record it is the still water. -/
theorem first_target {c : Cfg K} (h : c.Ok) (wave quiet : K) :
    (c.nInit = 0 → ∃ s v, update c (start c wave quiet) 0 = some s ∧ c.hos 0 = some v ∧
      s.old = v - (v - quiet) * (c.eps / (c.dt + c.eps))) ∧
    (c.nInit = 1 → ∃ s, update c (start c wave quiet) 0 = some s ∧ s.old = quiet) := by
  have hdt := h.dt_pos
  have hep := h.eps_pos
  have hr0 : recTime c c.nInit = 0 := by unfold recTime; ring
  constructor
  · intro h0
    have hC : (1 - (c.nInit : K)) * c.dt + c.eps = c.dt + c.eps := by rw [h0]; push_cast; ring
    obtain ⟨s, e, i, hn, ho⟩ := inv_start h (by rw [hC]; exact (by linarith : (0 : K) < c.dt + c.eps).ne') wave quiet
    refine ⟨s, s.cur, e, ?_, ?_⟩
    · have := i.cur
      unfold Rec loop at this
      rw [hn, h0] at this
      simpa using this
    · rw [ho]; unfold closed; rw [hC, hr0, sub_zero, zero_add]
  · intro h1
    have hC : (1 - (c.nInit : K)) * c.dt + c.eps = c.eps := by rw [h1]; push_cast; ring
    obtain ⟨s, e, i, hn, ho⟩ := inv_start h (by rw [hC]; exact hep.ne') wave quiet
    refine ⟨s, e, ?_⟩
    rw [ho]; unfold closed; rw [hC, hr0, sub_zero, zero_add, div_self hep.ne']; ring

/-! ### Restart -/

/-- The first update after a restart. -/
theorem restart_update {c : Cfg K} (h : c.Ok) (hC : (1 - (c.nInit : K)) * c.dt + c.eps ≠ 0) (htol : c.tol < 1) (t : K)
    (n : ℤ) (hb : ((n : K) - 1) * c.dt < t + c.tInit ∧ t + c.tInit ≤ (n : K) * c.dt) (hn0 : c.nInit < n)
    (hfar : c.tol < recTime c n - t) (p v : K) :
    (n ≤ c.nStop → c.hos (n - 1) = some p → c.hos n = some v →
      ∃ s, update c (restart c) t = some s ∧ s.old = closed c n p v t) ∧
    (c.nStop < n → c.hos (c.nInit - 1) = some p → c.hos c.nInit = some v →
      ∃ s, update c (restart c) t = some s ∧ s.old = closed c n p v t) := by
  have hst : c.step (t + c.tInit) c.nInit = n := step_unique h (h.step_spec _ _) hb
  have hl : (-1 : K) < -c.tol := by linarith
  have hne : n ≠ c.nInit := by omega
  have hwt : (n : K) * c.dt - c.tInit = recTime c n := by rw [h.init_time]; unfold recTime; ring
  have hgt : |recTime c n - t| > c.tol := lt_of_lt_of_le hfar (le_abs_self _)
  constructor
  · intro hle hp hv
    have hoff : ¬ n + 0 > c.nStop := by omega
    have r1 : readAt c n 0 (-1) = some (p, 0) := by
      unfold readAt
      rw [show n + 0 + -1 = n - 1 by ring, hp]
    have r2 : readAt c n 0 0 = some (v, 0) := by
      unfold readAt
      rw [show n + 0 + 0 = n by ring, hv]
    refine ⟨⟨n, 0, t, recTime c n, interp c.eps p v (((n - 1 : ℤ) : K) * c.dt) t (recTime c n), v⟩, ?_, ?_⟩
    · simp only [update, evaluate, restart, hst, if_pos hl, if_pos hne, hwt, if_pos hgt, if_true, if_neg hoff, r1, r2,
        one_ne_zero, if_false]
    · exact interp_first c hC n p v t
  · intro hlt hp hv
    have hoff : n + 0 > c.nStop := by omega
    have r1 : readAt c n (resetOffset n c.nInit) (-1) = some (p, resetOffset n c.nInit) := by
      unfold readAt
      rw [show n + resetOffset n c.nInit + -1 = c.nInit - 1 by unfold resetOffset; ring, hp]
    have r2 : readAt c n (resetOffset n c.nInit) 0 = some (v, resetOffset n c.nInit) := by
      unfold readAt
      rw [show n + resetOffset n c.nInit + 0 = c.nInit by unfold resetOffset; ring, hv]
    refine ⟨⟨n, resetOffset n c.nInit, t, recTime c n, interp c.eps p v (((n - 1 : ℤ) : K) * c.dt) t (recTime c n), v⟩,
      ?_, ?_⟩
    · simp only [update, evaluate, restart, hst, if_pos hl, if_pos hne, hwt, if_pos hgt, if_true, if_pos hoff, r1, r2,
        one_ne_zero, if_false]
    · exact interp_first c hC n p v t

theorem loop_first {c : Cfg K} {n : ℤ} (h1 : c.nInit ≤ n) (h2 : n ≤ c.nStop) : loop c n = n := by
  unfold loop
  rw [Int.emod_eq_of_lt (by omega) (by omega)]
  ring

/-- C116: a restart while the file is played the first time gives the target of the run that was not interrupted, when
the restart is not at the time of a record.

Partial (C116). Missing: restarts past the end of the file, where it is false. -/
theorem restart_same_partial {c : Cfg K} (h : c.Ok) (hC : (1 - (c.nInit : K)) * c.dt + c.eps ≠ 0) (htol : c.tol < 1)
    (wave quiet : K) (ts : List K) (t : K) (hs : Schedule c 0 (ts ++ [t])) (hstop : t ≤ recTime c c.nStop)
    (hfar : ∀ n : ℤ, t ≤ recTime c n → c.tol < recTime c n - t) :
    ∃ s s', run c (start c wave quiet) (0 :: ts ++ [t]) = some s ∧ update c (restart c) t = some s' ∧
      s'.old = s.old := by
  obtain ⟨s, n, p, v, e, hp, hv, b1, b2, ho⟩ := target_closed h hC wave quiet ts t hs
  have hdt := h.dt_pos
  have htp : 0 < t := by
    have key : ∀ (us : List K) (x : K), Schedule c x (us ++ [t]) → c.tol ≤ t := by
      intro us
      induction us with
      | nil => intro x hx; exact hx.2.2.1
      | cons u us ih => intro x hx; exact ih u hx.2.2.2
    linarith [key ts 0 hs, h.tol_pos]
  have hb : ((n : K) - 1) * c.dt < t + c.tInit ∧ t + c.tInit ≤ (n : K) * c.dt := by
    unfold recTime at b1 b2
    push_cast at b1
    rw [h.init_time]
    constructor <;> linarith
  have hn0 : c.nInit < n := by
    unfold recTime at b2
    have : (0 : K) < ((n : K) - c.nInit) * c.dt := by linarith
    have h3 : (0 : K) < (n : K) - c.nInit := (pos_iff_pos_of_mul_pos this).mpr hdt
    have : (c.nInit : K) < n := by linarith
    exact_mod_cast this
  have hns : n ≤ c.nStop := by
    have : recTime c (n - 1) < recTime c c.nStop := by linarith
    unfold recTime at this
    have h4 : ((n - 1 : ℤ) : K) - c.nInit < (c.nStop : K) - c.nInit := lt_of_mul_lt_mul_right this hdt.le
    have h5 : ((n - 1 : ℤ) : K) < c.nStop := by linarith
    have := Int.cast_lt.mp h5
    omega
  have hp' : c.hos (n - 1) = some p := by
    have := hp; unfold Rec at this; rwa [loop_first (by omega) (by omega)] at this
  have hv' : c.hos n = some v := by
    have := hv; unfold Rec at this; rwa [loop_first (by omega) hns] at this
  obtain ⟨s', e', o'⟩ := (restart_update h hC htol t n hb hn0 (hfar n b2) p v).1 hns hp' hv'
  exact ⟨s, s', e, e', by rw [o', ho]; rfl⟩

/-- C116 fails for a restart after the end of the file: whatever the place in the loop, the restarted run begins with the
first record, and takes the one before the first as the record behind. -/
theorem restart_after_loop {c : Cfg K} (h : c.Ok) (hC : (1 - (c.nInit : K)) * c.dt + c.eps ≠ 0) (htol : c.tol < 1)
    (t : K) (n : ℤ) (hb : recTime c (n - 1) < t ∧ t ≤ recTime c n) (hfar : c.tol < recTime c n - t) (hn : c.nStop < n)
    (p v : K) (hp : c.hos (c.nInit - 1) = some p) (hv : c.hos c.nInit = some v) :
    ∃ s, update c (restart c) t = some s ∧ s.cur = v ∧ s.old = closed c n p v t := by
  have hbb : ((n : K) - 1) * c.dt < t + c.tInit ∧ t + c.tInit ≤ (n : K) * c.dt := by
    unfold recTime at hb
    push_cast at hb
    rw [h.init_time]
    constructor <;> linarith [hb.1, hb.2]
  have hst : c.step (t + c.tInit) c.nInit = n := step_unique h (h.step_spec _ _) hbb
  have hl : (-1 : K) < -c.tol := by linarith
  have hne : n ≠ c.nInit := by have := h.stop; omega
  have hwt : (n : K) * c.dt - c.tInit = recTime c n := by rw [h.init_time]; unfold recTime; ring
  have hgt : |recTime c n - t| > c.tol := lt_of_lt_of_le hfar (le_abs_self _)
  have hoff : n + 0 > c.nStop := by omega
  have r1 : readAt c n (resetOffset n c.nInit) (-1) = some (p, resetOffset n c.nInit) := by
    unfold readAt
    rw [show n + resetOffset n c.nInit + -1 = c.nInit - 1 by unfold resetOffset; ring, hp]
  have r2 : readAt c n (resetOffset n c.nInit) 0 = some (v, resetOffset n c.nInit) := by
    unfold readAt
    rw [show n + resetOffset n c.nInit + 0 = c.nInit by unfold resetOffset; ring, hv]
  refine ⟨⟨n, resetOffset n c.nInit, t, recTime c n, interp c.eps p v (((n - 1 : ℤ) : K) * c.dt) t (recTime c n), v⟩,
    ?_, rfl, ?_⟩
  · simp only [update, evaluate, restart, hst, if_pos hl, if_pos hne, hwt, if_pos hgt, if_true, if_pos hoff, r1, r2,
      one_ne_zero, if_false]
  · exact interp_first c hC n p v t

/-- C116: without a record before the first (`none` from the reader for step -1) such a restart aborts. -/
theorem restart_after_loop_aborts {c : Cfg K} (h : c.Ok) (htol : c.tol < 1) (t : K) (n : ℤ)
    (hb : recTime c (n - 1) < t ∧ t ≤ recTime c n) (hfar : c.tol < recTime c n - t) (hn : c.nStop < n)
    (hp : c.hos (c.nInit - 1) = none) : update c (restart c) t = none := by
  have hbb : ((n : K) - 1) * c.dt < t + c.tInit ∧ t + c.tInit ≤ (n : K) * c.dt := by
    unfold recTime at hb
    push_cast at hb
    rw [h.init_time]
    constructor <;> linarith [hb.1, hb.2]
  have hst : c.step (t + c.tInit) c.nInit = n := step_unique h (h.step_spec _ _) hbb
  have hl : (-1 : K) < -c.tol := by linarith
  have hne : n ≠ c.nInit := by have := h.stop; omega
  have hwt : (n : K) * c.dt - c.tInit = recTime c n := by rw [h.init_time]; unfold recTime; ring
  have hgt : |recTime c n - t| > c.tol := lt_of_lt_of_le hfar (le_abs_self _)
  have hoff : n + 0 > c.nStop := by omega
  have r1 : readAt c n (resetOffset n c.nInit) (-1) = none := by
    unfold readAt
    rw [show n + resetOffset n c.nInit + -1 = c.nInit - 1 by unfold resetOffset; ring, hp]
  simp only [update, evaluate, restart, hst, if_pos hl, if_pos hne, hwt, if_pos hgt, if_true, if_pos hoff, r1,
      one_ne_zero, if_false]

/-! ### Skipped records -/

/-- C116: when an update skips records, both records around its time are read; past the nominal end the file starts again
at its first record, whatever the number of records skipped. -/
theorem skip_reads_both {c : Cfg K} (h : c.Ok) (hC : (1 - (c.nInit : K)) * c.dt + c.eps ≠ 0) (s : St K) (t : K) (n : ℤ)
    (hb : recTime c (n - 1) < t ∧ t ≤ recTime c n) (hfar : c.tol < recTime c n - t) (hl : c.tol ≤ s.tLast)
    (hn : s.ntime + 1 < n) (p v : K) :
    (n + s.nOffset ≤ c.nStop → c.hos (n + s.nOffset - 1) = some p → c.hos (n + s.nOffset) = some v →
      ∃ s', update c s t = some s' ∧ s'.old = closed c n p v t ∧ s'.cur = v ∧ s'.ntime + s'.nOffset = n + s.nOffset) ∧
    (c.nStop < n + s.nOffset → c.hos (c.nInit - 1) = some p → c.hos c.nInit = some v →
      ∃ s', update c s t = some s' ∧ s'.old = closed c n p v t ∧ s'.cur = v ∧ s'.ntime + s'.nOffset = c.nInit) := by
  have hbb : ((n : K) - 1) * c.dt < t + c.tInit ∧ t + c.tInit ≤ (n : K) * c.dt := by
    unfold recTime at hb
    push_cast at hb
    rw [h.init_time]
    constructor <;> linarith [hb.1, hb.2]
  have hst : c.step (t + c.tInit) s.ntime = n := step_unique h (h.step_spec _ _) hbb
  have htol := h.tol_pos
  have h1 : ¬ s.tLast < -c.tol := by intro hh; linarith
  have h2 : ¬ |s.tLast| < c.tol := by rw [abs_of_nonneg (by linarith)]; linarith
  have hne : n ≠ s.ntime := by omega
  have hgt1 : n > s.ntime + 1 := hn
  have hwt : (n : K) * c.dt - c.tInit = recTime c n := by rw [h.init_time]; unfold recTime; ring
  have hgt : ¬ |recTime c n - t| ≤ c.tol := not_le.mpr (lt_of_lt_of_le hfar (le_abs_self _))
  constructor
  · intro hle hp hv
    have hoff : ¬ n + s.nOffset > c.nStop := by omega
    have r1 : readAt c n s.nOffset (-1) = some (p, s.nOffset) := by
      unfold readAt
      rw [← sub_eq_add_neg, hp]
    have r2 : readAt c n s.nOffset 0 = some (v, s.nOffset) := by
      unfold readAt
      rw [add_zero, hv]
    refine ⟨⟨n, s.nOffset, t, recTime c n, interp c.eps p v (((n - 1 : ℤ) : K) * c.dt) t (recTime c n), v⟩, ?_,
      interp_first c hC n p v t, rfl, rfl⟩
    simp only [update, evaluate, hst, if_neg h1, if_neg h2, if_pos hne, if_pos hgt1, hwt, if_neg hgt, if_true,
      if_neg hoff, r1, r2, one_ne_zero, if_false, ne_eq, hne, not_false_eq_true, decide_true, Bool.or_true]
  · intro hlt hp hv
    have hoff : n + s.nOffset > c.nStop := by omega
    have r1 : readAt c n (resetOffset n c.nInit) (-1) = some (p, resetOffset n c.nInit) := by
      unfold readAt
      rw [show n + resetOffset n c.nInit + -1 = c.nInit - 1 by unfold resetOffset; ring, hp]
    have r2 : readAt c n (resetOffset n c.nInit) 0 = some (v, resetOffset n c.nInit) := by
      unfold readAt
      rw [show n + resetOffset n c.nInit + 0 = c.nInit by unfold resetOffset; ring, hv]
    refine ⟨⟨n, resetOffset n c.nInit, t, recTime c n, interp c.eps p v (((n - 1 : ℤ) : K) * c.dt) t (recTime c n), v⟩,
      ?_, interp_first c hC n p v t, rfl, by unfold resetOffset; ring⟩
    simp only [update, evaluate, hst, if_neg h1, if_neg h2, if_pos hne, if_pos hgt1, hwt, if_neg hgt, if_true,
      if_pos hoff, r1, r2, one_ne_zero, if_false, ne_eq, hne, not_false_eq_true, decide_true, Bool.or_true]

/-! ### Times of the updates -/

/-- The updates at the middle and the end of each step form a schedule, when a step is not longer than two records and not
shorter than twice the tolerance. -/
theorem update_times {c : Cfg K} (ts : List K) : ∀ t0 : K, 0 ≤ t0 → 0 < c.tol →
    (List.IsChain (fun a b => a + 2 * c.tol ≤ b ∧ b ≤ a + 2 * c.dt) (t0 :: ts)) →
    Schedule c t0 (updateTimes t0 ts) := by
  induction ts with
  | nil => intro t0 _ _ _; trivial
  | cons t1 ts ih =>
    intro t0 h0 htol hch
    rw [List.isChain_cons_cons] at hch
    obtain ⟨⟨h1, h2⟩, h3⟩ := hch
    refine ⟨?_, ?_, ?_, ?_, ?_, ?_, ih t1 (by linarith) htol h3⟩ <;> linarith

/-! ### Ranks -/

/-- C116: the run stops exactly if some rank has to read and neither the step wanted nor the first one is there. -/
theorem ranks_stop_iff {m : ℕ} (nInit nStop : ℤ) (avail : ℤ → Bool) (doInterp : Fin (m + 1) → Bool) (n o : ℤ) :
    rankRead nInit nStop avail doInterp n (fun _ => o) = none ↔
      (∃ r, doInterp r = true) ∧ avail nInit = false ∧ (n + o ≤ nStop → avail (n + o) = false) := by
  have hres : n + resetOffset n nInit = nInit := by unfold resetOffset; ring
  unfold rankRead
  dsimp only
  rw [Finset.sup'_const, hres]
  by_cases h : n + o > nStop
  · rw [if_pos h, hres]
    simp only [ite_eq_left_iff, reduceCtorEq, imp_false, not_not]
    have : ¬ n + o ≤ nStop := by omega
    tauto
  · rw [if_neg h]
    simp only [ite_eq_left_iff, reduceCtorEq, imp_false, not_not]
    have : n + o ≤ nStop := by omega
    tauto

/-- C116: when all ranks have the same offset they keep the same one, if all of them read or the file is complete. -/
theorem ranks_agree {m : ℕ} (nInit nStop : ℤ) (avail : ℤ → Bool) (doInterp : Fin (m + 1) → Bool) (n o : ℤ)
    (hall : (∀ r, doInterp r = true) ∨ ∀ i, nInit ≤ i → i ≤ nStop → avail i = true)
    (hn : nInit ≤ n + o) (h0 : avail nInit = true) :
    ∃ f o', rankRead nInit nStop avail doInterp n (fun _ => o) = some f ∧ (∀ r, (f r).1 = o') ∧ nInit ≤ n + o' ∧
      (∀ r, doInterp r = true → (f r).2 = some (n + o')) ∧
      (n + o ≤ nStop → avail (n + o) = true → n + o' = n + o) ∧
      (n + o > nStop ∨ avail (n + o) = false → n + o' = nInit) := by
  have hsup : ∀ x : ℤ, Finset.univ.sup' Finset.univ_nonempty (fun _ : Fin (m + 1) => x) = x := by
    intro x; exact Finset.sup'_const _ _
  have hres : n + resetOffset n nInit = nInit := by unfold resetOffset; ring
  set o1 := (if n + o > nStop then resetOffset n nInit else o) with ho1
  have hr : rankRead nInit nStop avail doInterp n (fun _ => o) = some fun r =>
      if doInterp r then
        (if avail (n + o1) then (o1, some (n + o1)) else (resetOffset n nInit, some nInit))
      else (o1, none) := by
    unfold rankRead
    dsimp only
    rw [hsup, hres, ← ho1, if_neg (by rintro ⟨_, _, hx⟩; rw [h0] at hx; exact Bool.noConfusion hx)]
  have hge : nInit ≤ n + o1 := by
    rw [ho1]; split_ifs
    · omega
    · exact hn
  by_cases hav : avail (n + o1) = true
  · refine ⟨_, o1, hr, ?_, hge, ?_, ?_, ?_⟩
    · intro r; rw [if_pos hav]; split_ifs <;> rfl
    · intro r hd; rw [if_pos hav, if_pos hd]
    · intro h1 _; rw [ho1, if_neg (by omega)]
    · rintro (h1 | h1)
      · rw [ho1, if_pos h1, hres]
      · by_cases hc : n + o > nStop
        · rw [ho1, if_pos hc, hres]
        · exfalso
          rw [ho1, if_neg hc, h1] at hav
          exact Bool.noConfusion hav
  · have hc : ¬ n + o > nStop := by
      intro hc
      rw [ho1, if_pos hc, hres] at hav
      exact hav h0
    have hall' : ∀ r, doInterp r = true := by
      rcases hall with hd | hd
      · exact hd
      · exfalso
        refine hav (hd _ hge ?_)
        rw [ho1, if_neg hc]; omega
    refine ⟨_, resetOffset n nInit, hr, ?_, by omega, ?_, ?_, ?_⟩
    · intro r; rw [if_neg hav, if_pos (hall' r)]
    · intro r hd; rw [if_neg hav, if_pos hd, hres]
    · intro _ h2
      exfalso
      rw [ho1, if_neg hc] at hav
      exact hav h2
    · intro _; exact hres

/-- C116 fails on several ranks for a file that ends before its nominal last step `nStop`, at step `e`: as soon as one rank
has no cells in the zones every later read, up to the nominal last step, gives the first record again; the waves stand
still. -/
theorem waves_freeze {m : ℕ} (nInit nStop e : ℤ) (avail : ℤ → Bool) (doInterp : Fin (m + 1) → Bool)
    (hend : ∀ i, e < i → avail i = false) (h0 : avail nInit = true) (q : Fin (m + 1)) (hq : doInterp q = false)
    (ns : List ℤ) (hns : ∀ n ∈ ns, nInit ≤ n ∧ e < n ∧ n ≤ nStop) :
    ∀ off : Fin (m + 1) → ℤ, (∀ r, off r ≤ 0) → off q = 0 →
      ∃ l, rankRun nInit nStop avail doInterp off ns = some l ∧ l.length = ns.length ∧
        ∀ f ∈ l, ∀ r, doInterp r = true → f r = some nInit := by
  induction ns with
  | nil => intro off _ _; exact ⟨[], rfl, rfl, by simp⟩
  | cons n ns ih =>
    intro off hoff hoq
    obtain ⟨hn1, hn2, hn3⟩ := hns n (by simp)
    have hres : n + resetOffset n nInit = nInit := by unfold resetOffset; ring
    have hoff1 : (fun r => if n + off r > nStop then resetOffset n nInit else off r) = off := by
      funext r; rw [if_neg (by have := hoff r; omega)]
    have hsup : Finset.univ.sup' Finset.univ_nonempty off = 0 := by
      apply le_antisymm
      · exact Finset.sup'_le _ _ fun r _ => hoff r
      · rw [← hoq]; exact Finset.le_sup' off (Finset.mem_univ q)
    have hr : rankRead nInit nStop avail doInterp n off = some fun r =>
        if doInterp r then (resetOffset n nInit, some nInit) else (0, none) := by
      unfold rankRead
      dsimp only
      rw [hoff1, hsup, hres, add_zero, hend n hn2, if_neg (by rintro ⟨_, _, hx⟩; rw [h0] at hx; exact Bool.noConfusion hx)]
      simp
    obtain ⟨l, el, hlen, hl⟩ := ih (fun k hk => hns k (by simp [hk]))
      (fun r => (if doInterp r then (resetOffset n nInit, some nInit) else ((0 : ℤ), (none : Option ℤ))).1)
      (fun r => by split_ifs <;> simp [resetOffset]; omega) (by simp [hq])
    refine ⟨(fun r => (if doInterp r then (resetOffset n nInit, some nInit) else ((0 : ℤ), (none : Option ℤ))).2) :: l,
      ?_, ?_, ?_⟩
    · show (match rankRead nInit nStop avail doInterp n off with | none => none | some f => _) = _
      rw [hr]
      dsimp only
      rw [el]
      rfl
    · simp [hlen]
    · intro f hf r hd
      rcases List.mem_cons.mp hf with rfl | hf
      · simp [hd]
      · exact hl f hf r hd

/-! ### Input and initial velocity -/

/-- C116: the start time is that of the first record whichever input is given, so `init_time` of `Cfg.Ok` holds. -/
theorem start_synced (step : K → ℤ → ℤ) (dt : K) (a : Option ℤ) (b : Option K) :
    (startStep step dt a b).2 = ((startStep step dt a b).1 : K) * dt ∧
    (∀ k, a = some k → (startStep step dt a b).1 = k) ∧
    (∀ x, a = none → b = some x → 0 < x → (startStep step dt a b).1 = step x 0) ∧
    (a = none → b = none → (startStep step dt a b).1 = 0) := by
  refine ⟨by unfold startStep; dsimp only; rw [mul_comm], ?_, ?_, ?_⟩
  · rintro k rfl
    have : ¬ (-1 : K) > 0 := by intro hh; have : (0 : K) < 1 := one_pos; linarith
    simp [startStep]
  · rintro x rfl rfl hx
    simp [startStep, hx]
  · rintro rfl rfl
    simp [startStep]

/-- C116: the velocity at the start of a cell that is partly liquid lies between the wave velocities of the cell and the
cell below; for a velocity linear in height it is that at the middle of the liquid, up to the factor of the machine
epsilon; a full cell has the velocity of the wave, a cell with less than `small` of liquid is left alone. -/
theorem initial_velocity (tight small eps vof v below z dz : K) (hdz : 0 < dz) (he : 0 < eps) (hs : 0 ≤ small)
    (ht : 0 ≤ tight) :
    (1 - tight < vof → initVelocity tight small eps vof v below z dz = some v) ∧
    (vof ≤ small → small ≤ 1 - tight → initVelocity tight small eps vof v below z dz = none) ∧
    (small < vof → vof ≤ 1 - tight → ∃ w, initVelocity tight small eps vof v below z dz = some w ∧
      min v below ≤ w ∧ w ≤ max v below ∧
      ∀ a b : K, below = a + b * (z - dz) → v = a + b * z →
        w = below + b * ((z - dz / 2 + vof * dz / 2) - (z - dz)) * (dz / (dz + eps))) := by
  refine ⟨fun h => ?_, fun h1 h2 => ?_, fun h1 h2 => ?_⟩
  · unfold initVelocity; rw [if_pos h]
  · unfold initVelocity; rw [if_neg (by intro hh; linarith), if_neg (by intro hh; linarith)]
  · have hden : z - (z - dz) + eps = dz + eps := by ring
    have hnum : z - 1 / 2 * dz + 1 / 2 * vof * dz - (z - dz) = (1 + vof) / 2 * dz := by ring
    have hd : 0 < dz + eps := by linarith
    refine ⟨below + (v - below) * (((1 + vof) / 2 * dz) / (dz + eps)), ?_, ?_, ?_, ?_⟩
    · unfold initVelocity
      rw [if_neg (by intro hh; linarith), if_pos h1]
      dsimp only
      rw [hden, hnum]
    all_goals
      set θ := ((1 + vof) / 2 * dz) / (dz + eps) with hθ
    · have t0 : 0 ≤ θ := div_nonneg (mul_nonneg (by linarith) hdz.le) hd.le
      have t1 : θ ≤ 1 := by
        rw [hθ, div_le_one hd]; nlinarith
      have e : below + (v - below) * θ = (1 - θ) * below + θ * v := by ring
      rw [e]
      have m1 : min v below ≤ below := min_le_right _ _
      have m2 : min v below ≤ v := min_le_left _ _
      nlinarith [mul_le_mul_of_nonneg_left m1 (by linarith : 0 ≤ 1 - θ), mul_le_mul_of_nonneg_left m2 t0]
    · have t0 : 0 ≤ θ := div_nonneg (mul_nonneg (by linarith) hdz.le) hd.le
      have t1 : θ ≤ 1 := by
        rw [hθ, div_le_one hd]; nlinarith
      have e : below + (v - below) * θ = (1 - θ) * below + θ * v := by ring
      rw [e]
      have m1 : below ≤ max v below := le_max_right _ _
      have m2 : v ≤ max v below := le_max_left _ _
      nlinarith [mul_le_mul_of_nonneg_left m1 (by linarith : 0 ≤ 1 - θ), mul_le_mul_of_nonneg_left m2 t0]
    · intro a b hb hv
      have : v - below = b * dz := by rw [hb, hv]; ring
      rw [this, hθ]
      have := hd.ne'
      field_simp
      ring

/-! ### Examples -/

/-- Records one second apart, each with its number as value (above still water 0), 10 of them. -/
def exCfg (n0 : ℤ) : Cfg ℚ where
  dt := 1
  tInit := n0
  eps := 1 / 10 ^ 16
  tol := 1 / 10 ^ 10
  nInit := n0
  nStop := 9
  step := fun T _ => ⌈T⌉
  hos := fun i => if 0 ≤ i ∧ i ≤ 9 then some (i * i) else none

theorem exCfg_ok (n0 : ℤ) (h0 : 0 ≤ n0) (h9 : n0 ≤ 9) : (exCfg n0).Ok where
  dt_pos := by norm_num [exCfg]
  eps_pos := by norm_num [exCfg]
  tol_pos := by norm_num [exCfg]
  step_spec := by
    intro T m
    show ((⌈T⌉ : ℤ) - 1 : ℚ) * 1 < T ∧ T ≤ (⌈T⌉ : ℚ) * 1
    rw [mul_one, mul_one]
    exact ⟨by linarith [Int.ceil_lt_add_one T], Int.le_ceil T⟩
  init_time := by simp [exCfg]
  stop := h9
  records := by
    intro i h1 h2
    have h1' : n0 ≤ i := h1
    have h2' : i ≤ 9 := h2
    show (if 0 ≤ i ∧ i ≤ 9 then some ((i : ℚ) * i) else none).isSome = true
    rw [if_pos ⟨by omega, h2'⟩]; rfl

example : Schedule (exCfg 0) 0 [1 / 4, 1 / 2, 5 / 4, 2, 5 / 2] := by
  simp only [Schedule, exCfg]; norm_num

/-- Started at record 3 with values 9 and 16 half a record apart on either side: 17.75 instead of 12.5. -/
example : ((run (exCfg 3) (start (exCfg 3) 9 0) [0, 1 / 2]).map St.old) =
    some (16 - 7 * ((1 / 2 + 1 / 10 ^ 16) / (-2 + 1 / 10 ^ 16)) : ℚ) ∧
    between (exCfg 3) 4 9 16 (1 / 2) = 25 / 2 := by
  constructor
  · decide +kernel
  · norm_num [between, recTime, exCfg]

example : (run (exCfg 1) (start (exCfg 1) 1 0) [0, 1 / 2]).map St.old = some (4 - 3 * (10 ^ 16 / 2 + 1) : ℚ) := by
  decide +kernel

example : (run (exCfg 0) (start (exCfg 0) 0 0) [0, 1 / 2, 1, 3 / 2]).map (fun s => s.ntime) = some 2 := by
  decide +kernel

example : (update (exCfg 0) (restart (exCfg 0)) (5 / 2)).map St.old =
    (run (exCfg 0) (start (exCfg 0) 0 0) [0, 3 / 4, 3 / 2, 2, 5 / 2]).map St.old ∧
    (update (exCfg 0) (restart (exCfg 0)) (5 / 2)).isSome = true := by
  decide +kernel

/-- Past the end: the uninterrupted run is at record 2 of the loop, the restarted one has no record before the first. -/
example : ((run (exCfg 0) (start (exCfg 0) 0 0) (0 :: (List.range 23).map fun i : ℕ => ((i : ℚ) + 1) / 2)).map
      fun s => s.ntime + s.nOffset) = some 2 ∧
    (update (exCfg 0) (restart (exCfg 0)) (23 / 2)).isNone = true := by
  decide +kernel

example : rankRun (m := 1) 0 9 (fun i => decide (0 ≤ i ∧ i ≤ 4)) (fun r => r = 0) (fun _ => 0) [3, 4, 5, 6, 7] =
    some [fun r => if r = 0 then some 3 else none, fun r => if r = 0 then some 4 else none,
      fun r => if r = 0 then some 0 else none, fun r => if r = 0 then some 0 else none,
      fun r => if r = 0 then some 0 else none] := by
  decide +kernel

example : initVelocity (1 / 10 ^ 12) (1 / 1000) (1 / 10 ^ 16) (1 / 2) 3 (1 : ℚ) 0 1 =
    some (1 + 2 * (3 / 4 / (1 + 1 / 10 ^ 16))) := by
  norm_num [initVelocity]

section
variable {K : Type*} [Field K] [LinearOrder K] [IsStrictOrderedRing K]

/-- When a record is missing (the file ends before the record announced as last) the first record is taken in its place, and the
records after it follow. -/
theorem early_end_loops (c : Cfg K) (n off shift : ℤ) (v0 v1 : K) (h : c.hos (n + off + shift) = none)
    (h0 : c.hos (c.nInit + shift) = some v0) (h1 : c.hos (c.nInit + 1 + shift) = some v1) :
    ∃ off', readAt c n off shift = some (v0, off') ∧ readAt c (n + 1) off' shift = some (v1, off') := by
  have e0 : n + resetOffset n c.nInit + shift = c.nInit + shift := by unfold resetOffset; ring
  have e1 : n + 1 + resetOffset n c.nInit + shift = c.nInit + 1 + shift := by unfold resetOffset; ring
  refine ⟨resetOffset n c.nInit, ?_, ?_⟩
  · unfold readAt; rw [h, e0, h0]
  · unfold readAt; rw [e1, h1]

/-- A file with the records 2 to 4, though the last is announced as 9. -/
example : ∃ off', readAt (⟨1, 0, 0, 0, 2, 9, fun _ n => n, fun n => if 2 ≤ n ∧ n ≤ 4 then some n else none⟩ : Cfg ℚ) 5 0 0 = some (2, off') ∧
    readAt (⟨1, 0, 0, 0, 2, 9, fun _ n => n, fun n => if 2 ≤ n ∧ n ≤ 4 then some n else none⟩ : Cfg ℚ) 6 off' 0 = some (3, off') :=
  ⟨-3, by decide +kernel, by decide +kernel⟩

end

end AmrWind.W2a
