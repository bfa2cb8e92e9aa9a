import Verif.Averaging.Model
import Mathlib.Tactic.Linarith
import Mathlib.Data.List.Induction
import Mathlib.Tactic.FieldSimp
import Mathlib.Tactic.LinearCombination
import Mathlib.Algebra.Order.Ring.Rat
import Mathlib.Data.Rat.Floor
import Mathlib.Tactic.NormNum

/-! # Properties C24, C25, C26: time averages -/

set_option linter.unusedSectionVars false

namespace AmrWind.Averaging

variable {K : Type*} [Field K] [LinearOrder K] [IsStrictOrderedRing K] [FloorRing K]

/-! ## Specification -/

/-- The steps of a run started at `T0`: each step has a positive size and ends where the next begins. -/
def Steps {F : Type*} : K → List (Call K F) → Prop
  | _, [] => True
  | T, x :: l => 0 < x.dt ∧ x.t = T + x.dt ∧ Steps x.t l

/-- The samples `(time, value)` of the steps in the averaging period. -/
def samples {F : Type*} (c : Cfg K) (l : List (Call K F)) : List (K × F) :=
  (l.filter fun x => decide (doAvg c x.t x.dt)).map fun x => (x.t, x.f)

/-- Time of the last sample, `p` if there is none. -/
def lastTime {F : Type*} : K → List (K × F) → K
  | p, [] => p
  | _, x :: l => lastTime x.1 l

/-- Time integral of the samples: each value counts for the time since the sample before, the first one
for the time since `p`. -/
def integral : K → List (K × K) → K
  | _, [] => 0
  | p, x :: l => x.2 * (x.1 - p) + integral x.1 l

/-! ## C24 -/

/-- When a step contributes: within the averaging period and, with phase averaging, when one of the times
`start + k interval` was passed within the step (up to the tolerance). -/
theorem doAvg_iff (c : Cfg K) (t dt : K) (h : 0 < c.interval) :
    doAvg c t dt ↔ (c.start ≤ t ∧ t < c.stop) ∧ ∃ k : ℤ,
      c.start + k * c.interval ≤ t + c.looseTol * dt ∧ t + c.looseTol * dt < c.start + k * c.interval + dt := by
  unfold doAvg doPhase
  refine and_congr Iff.rfl ?_
  rw [or_iff_right (not_lt.mpr h.le)]
  generalize hx : t - c.start + c.looseTol * dt = x
  constructor
  · intro hh
    refine ⟨⌊x / c.interval⌋, ?_, ?_⟩
    · have := Int.floor_le (x / c.interval)
      rw [le_div_iff₀ h] at this
      linarith
    · have h2 : x / c.interval < dt / c.interval + (⌊x / c.interval⌋ : K) := by linarith
      rw [div_add' _ _ _ h.ne', div_lt_div_iff_of_pos_right h] at h2
      linarith
  · rintro ⟨k, h1, h2⟩
    have h3 : (k : K) ≤ x / c.interval := by rw [le_div_iff₀ h]; linarith
    have h4 : k ≤ ⌊x / c.interval⌋ := Int.le_floor.mpr h3
    have h5 : (k : K) ≤ (⌊x / c.interval⌋ : K) := by exact_mod_cast h4
    have h6 : x / c.interval < dt / c.interval + k := by
      rw [div_add' _ _ _ h.ne', div_lt_div_iff_of_pos_right h]; linarith
    linarith

theorem doAvg_iff_no_phase (c : Cfg K) (t dt : K) (h : c.interval < 0) :
    doAvg c t dt ↔ c.start ≤ t ∧ t < c.stop := by
  unfold doAvg doPhase
  exact ⟨fun h => h.1, fun h' => ⟨h', Or.inl h⟩⟩

theorem lastTime_snoc {F : Type*} (p : K) (l : List (K × F)) (x : K × F) :
    lastTime p (l ++ [x]) = x.1 := by
  induction l generalizing p with
  | nil => rfl
  | cons y l ih => exact ih y.1

theorem integral_snoc (p : K) (l : List (K × K)) (x : K × K) :
    integral p (l ++ [x]) = integral p l + x.2 * (x.1 - lastTime p l) := by
  induction l generalizing p with
  | nil => simp [integral, lastTime]
  | cons y l ih => simp only [List.cons_append, integral, lastTime, ih]; ring

/-- End time of the steps. -/
def endTime {F : Type*} : K → List (Call K F) → K
  | T, [] => T
  | _, x :: l => endTime x.t l

theorem endTime_snoc {F : Type*} (T : K) (l : List (Call K F)) (x : Call K F) :
    endTime T (l ++ [x]) = x.t := by
  induction l generalizing T with
  | nil => rfl
  | cons y l ih => exact ih y.t

theorem steps_snoc {F : Type*} (T : K) (l : List (Call K F)) (x : Call K F) :
    Steps T (l ++ [x]) ↔ Steps T l ∧ 0 < x.dt ∧ x.t = endTime T l + x.dt := by
  induction l generalizing T with
  | nil => simp [Steps, endTime]
  | cons y l ih =>
    simp only [List.cons_append, Steps, ih, endTime]
    tauto

theorem samples_snoc {F : Type*} (c : Cfg K) (l : List (Call K F)) (x : Call K F) :
    samples c (l ++ [x]) = samples c l ++ (if doAvg c x.t x.dt then [(x.t, x.f)] else []) := by
  unfold samples
  rw [List.filter_append, List.map_append]
  congr 1
  by_cases h : doAvg c x.t x.dt <;> simp [h]

theorem runCalls_snoc {F V : Type*} (c : Cfg K) (upd : K → K → K → V → F → V) (s : St K V)
    (l : List (Call K F)) (x : Call K F) :
    runCalls c upd s (l ++ [x]) = postAdvance c upd (runCalls c upd s l) x := by
  unfold runCalls
  rw [List.foldl_append]
  rfl

/-- The generic fact about a run: before the first sample nothing is stored and the accumulated interval
is at least the time since the start of the averaging; at each sample the accumulated interval is the time
since the sample before.  `P l v` is any relation between the samples and the stored value that the first
and the later updates establish. -/
theorem run_invariant {F V : Type*} (c : Cfg K) (upd : K → K → K → V → F → V) (P : List (K × F) → V → Prop)
    {T0 acc0 : K} (hT : T0 ≤ c.start) (h0 : 0 ≤ acc0 ∨ 0 < acc0 + (c.start - T0)) (v : V)
    (hfirst : ∀ t f acc, c.start ≤ t → 0 < acc → t - c.start ≤ acc →
      P [(t, f)] (upd c.window acc (t - c.start) v f))
    (hnext : ∀ l w t f acc, l ≠ [] → P l w → 0 < acc → acc = t - lastTime c.start l →
      c.start ≤ lastTime c.start l → P (l ++ [(t, f)]) (upd c.window acc (t - c.start) w f))
    (l : List (Call K F)) (hl : Steps T0 l) :
    (samples c l = [] → (runCalls c upd ⟨acc0, v⟩ l).acc = acc0 + (endTime T0 l - T0) ∧
      (runCalls c upd ⟨acc0, v⟩ l).val = v) ∧
    (samples c l ≠ [] → (runCalls c upd ⟨acc0, v⟩ l).acc = endTime T0 l - lastTime c.start (samples c l) ∧
      c.start ≤ lastTime c.start (samples c l) ∧ P (samples c l) (runCalls c upd ⟨acc0, v⟩ l).val) ∧
    T0 ≤ endTime T0 l ∧ (samples c l ≠ [] → lastTime c.start (samples c l) ≤ endTime T0 l) := by
  induction l using List.reverseRecOn with
  | nil => simp [samples, runCalls, endTime]
  | append_singleton l x ih =>
    rw [steps_snoc] at hl
    obtain ⟨hs, hdt, ht⟩ := hl
    obtain ⟨i1, i2, i3, i4⟩ := ih hs
    rw [runCalls_snoc, samples_snoc, endTime_snoc]
    unfold postAdvance
    simp only
    by_cases hd : doAvg c x.t x.dt
    · rw [if_pos hd, if_pos hd]
      have hst : c.start ≤ x.t := hd.1.1
      refine ⟨fun h => absurd h (by simp), fun _ => ⟨?_, ?_, ?_⟩, by linarith, fun _ => ?_⟩
      · rw [lastTime_snoc]; simp
      · rw [lastTime_snoc]; exact hst
      · by_cases hnil : samples c l = []
        · obtain ⟨a1, a2⟩ := i1 hnil
          rw [hnil, a1, a2]
          have hpos : 0 < acc0 + (endTime T0 l - T0) + x.dt := by
            rcases h0 with h0 | h0 <;> linarith
          exact hfirst _ _ _ hst hpos (by rcases h0 with h0 | h0 <;> linarith)
        · obtain ⟨a1, a2, a3⟩ := i2 hnil
          rw [a1]
          refine hnext _ _ _ _ _ hnil a3 ?_ ?_ a2
          · have := i4 hnil; linarith
          · linarith
      · rw [lastTime_snoc]
    · rw [if_neg hd, if_neg hd, List.append_nil]
      refine ⟨fun h => ?_, fun h => ?_, by linarith, fun h => ?_⟩
      · obtain ⟨a1, a2⟩ := i1 h
        exact ⟨by rw [a1, ht]; ring, a2⟩
      · obtain ⟨a1, a2, a3⟩ := i2 h
        exact ⟨by rw [a1, ht]; ring, a2, a3⟩
      · have := i4 h; linarith

/-- What a stored average must satisfy. -/
def IsAverage (c : Cfg K) (l : List (K × K)) (v : Option K) : Prop :=
  ∃ a, v = some a ∧
    (∀ lo hi, (∀ x ∈ l, lo ≤ x.2 ∧ x.2 ≤ hi) → lo ≤ a ∧ a ≤ hi) ∧
    (lastTime c.start l - c.start ≤ c.window → a * (lastTime c.start l - c.start) = integral c.start l)

theorem reUpdate_first (window acc e a f : K) (hacc : 0 < acc) (h : e ≤ acc) :
    reUpdate window acc e (some a) f = some f := by
  unfold reUpdate filterOf
  have hf : max (min window e) acc = acc := max_eq_right ((min_le_right _ _).trans h)
  simp only [hf, sub_self, max_self, mul_zero, zero_add]
  rw [if_neg hacc.ne', mul_div_cancel_right₀ _ hacc.ne']

theorem reUpdate_next (window acc e a f : K) (hacc : 0 < acc) :
    ∃ b θ, reUpdate window acc e (some a) f = some b ∧ 0 ≤ θ ∧ θ ≤ 1 ∧ b = a + θ * (f - a) ∧
      (acc ≤ e → e ≤ window → b * e = a * (e - acc) + f * acc) := by
  unfold reUpdate
  set F := filterOf window acc e with hF
  have hFacc : acc ≤ F := le_max_right _ _
  have hF0 : 0 < F := lt_of_lt_of_le hacc hFacc
  have hfac : max (F - acc) 0 = F - acc := max_eq_left (by linarith)
  simp only [hfac]
  rw [if_neg hF0.ne']
  refine ⟨_, acc / F, rfl, div_nonneg hacc.le hF0.le, (div_le_one hF0).mpr hFacc, ?_, ?_⟩
  · field_simp; ring
  · intro h1 h2
    have : F = e := by rw [hF, filterOf, min_eq_right h2, max_eq_left h1]
    rw [this]
    have he : e ≠ 0 := by linarith
    field_simp

theorem isAverage_first {c : Cfg K} (v t f acc : K) (hacc : 0 < acc) (h : t - c.start ≤ acc) :
    IsAverage c [(t, f)] (reUpdate c.window acc (t - c.start) (some v) f) := by
  rw [reUpdate_first _ _ _ _ _ hacc h]
  refine ⟨f, rfl, fun lo hi hb => hb (t, f) (by simp), fun _ => ?_⟩
  simp [integral, lastTime]

theorem isAverage_next {c : Cfg K} {l : List (K × K)} {w : Option K} (t f acc : K) (hw : IsAverage c l w)
    (hacc : 0 < acc) (he : acc = t - lastTime c.start l) (hs : c.start ≤ lastTime c.start l) :
    IsAverage c (l ++ [(t, f)]) (reUpdate c.window acc (t - c.start) w f) := by
  obtain ⟨a, rfl, hb, hm⟩ := hw
  obtain ⟨b, θ, e1, t0, t1, e2, e3⟩ := reUpdate_next c.window acc (t - c.start) a f hacc
  refine ⟨b, e1, ?_, ?_⟩
  · intro lo hi hlh
    have h1 := hb lo hi (fun x hx => hlh x (List.mem_append_left _ hx))
    have h2 := hlh (t, f) (by simp)
    rw [e2]
    constructor
    · nlinarith [mul_nonneg t0 (sub_nonneg.mpr h2.1), mul_nonneg (sub_nonneg.mpr t1) (sub_nonneg.mpr h1.1)]
    · nlinarith [mul_nonneg t0 (sub_nonneg.mpr h2.2), mul_nonneg (sub_nonneg.mpr t1) (sub_nonneg.mpr h1.2)]
  · rw [lastTime_snoc, integral_snoc]
    simp only
    intro hwin
    have h1 := hm (by linarith)
    rw [e3 (by linarith) hwin, ← h1, ← he]
    have : t - c.start - acc = lastTime c.start l - c.start := by linarith
    rw [this]

/-- State after the call made at initialisation. -/
theorem after_init (c : Cfg K) (v T0 d0 f0 : K) (hT : T0 ≤ c.start) (hd : 0 < d0 + (c.start - T0)) :
    ∃ acc0 w, postAdvance c reUpdate ⟨0, some v⟩ ⟨T0, d0, f0⟩ = ⟨acc0, some w⟩ ∧
      (0 ≤ acc0 ∨ 0 < acc0 + (c.start - T0)) := by
  unfold postAdvance
  simp only [zero_add]
  by_cases h : doAvg c T0 d0
  · rw [if_pos h]
    have he : T0 = c.start := le_antisymm hT h.1.1
    rw [reUpdate_first _ _ _ _ _ (by linarith) (by linarith)]
    exact ⟨0, f0, rfl, Or.inl le_rfl⟩
  · rw [if_neg h]
    exact ⟨d0, v, rfl, Or.inr hd⟩

/-- **C24, part.**  In a run started at `T0`, not after the start of the averaging, with any sequence of
steps: as long as the elapsed averaging time is at most the window, the stored average times the elapsed
time is the time integral of all samples since the start, so the average is their time-weighted mean; and
the average always lies between the smallest and the largest sample.  `d0` is the step size at
initialisation.  Missing: an adaptive run (`d0 = -1`) whose averaging starts less than one time unit after the
start of the run, and a restarted run; the claim is false there, see `adaptive_start_not_finite`,
`adaptive_early_start_not_mean` and `restart_changes_average`. -/
theorem time_average_partial (c : Cfg K) (v T0 d0 f0 : K) (hT : T0 ≤ c.start)
    (hd : 0 < d0 + (c.start - T0)) (steps : List (Call K K)) (hl : Steps T0 steps)
    (hne : samples c steps ≠ []) : IsAverage c (samples c steps) (runProgram c v T0 d0 f0 steps).val := by
  obtain ⟨acc0, w, e, h0⟩ := after_init c v T0 d0 f0 hT hd
  have := (run_invariant c reUpdate (IsAverage c) hT h0 (some w)
    (fun t f acc _ h1 h2 => isAverage_first w t f acc h1 h2)
    (fun l w t f acc _ h1 h2 h3 h4 => isAverage_next t f acc h1 h2 h3 h4) steps hl).2.1 hne
  have e2 : runProgram c v T0 d0 f0 steps = runCalls c reUpdate ⟨acc0, some w⟩ steps := by
    unfold runProgram runCalls
    rw [List.foldl_cons, e]
  rw [e2]
  exact this.2.2

theorem runCalls_none (c : Cfg K) (s : St K (Option K)) (h : s.val = none) (l : List (Call K K)) :
    (runCalls c reUpdate s l).val = none := by
  induction l using List.reverseRecOn with
  | nil => exact h
  | append_singleton l x ih =>
    rw [runCalls_snoc]
    unfold postAdvance
    simp only
    split
    · simp only; rw [ih]; rfl
    · exact ih

/-- In an adaptive run (`d0 = -1`) with averaging from the start of the run (the default) the call at
initialisation divides by zero, and the average is never finite again, whatever the fields and steps. -/
theorem adaptive_start_not_finite (c : Cfg K) (hstop : c.start < c.stop) (hint : c.interval < 0)
    (hw : 0 ≤ c.window) (v f0 : K) (steps : List (Call K K)) :
    (runProgram c v c.start (-1) f0 steps).val = none := by
  unfold runProgram
  have : runCalls c reUpdate ⟨0, some v⟩ (⟨c.start, -1, f0⟩ :: steps) =
      runCalls c reUpdate (postAdvance c reUpdate ⟨0, some v⟩ ⟨c.start, -1, f0⟩) steps := rfl
  rw [this]
  apply runCalls_none
  unfold postAdvance
  simp only
  rw [if_pos ((doAvg_iff_no_phase c _ _ hint).mpr ⟨le_rfl, hstop⟩)]
  simp only [reUpdate, filterOf, sub_self, min_eq_right hw, zero_add]
  rw [if_pos]
  simp

/-- In an adaptive run whose averaging starts half a time unit after the start, the first stored average of
a field that is constantly 1 is -1. -/
theorem adaptive_early_start_not_mean :
    ∃ (c : Cfg ℚ) (steps : List (Call ℚ ℚ)), Steps 0 steps ∧ 0 < c.start ∧ samples c steps ≠ [] ∧
      (∀ x ∈ steps, x.f = 1) ∧ (runProgram c 0 0 (-1) 1 steps).val = some (-1) := by
  refine ⟨⟨1 / 2, 100, 50, -1, 0⟩, [⟨3 / 4, 3 / 4, 1⟩], ?_, ?_, ?_, ?_, ?_⟩
  · simp [Steps]
  · norm_num
  · decide +kernel
  · simp
  · decide +kernel

/-- A restart changes the average: the same four steps, once in one run and once with a restart from a
checkpoint after the second step (the restarted run begins with the stored average, at the time of the
checkpoint; its `delta_t` is the fixed step of the inputs), give different averages. -/
theorem restart_changes_average :
    ∃ (c : Cfg ℚ) (a b : List (Call ℚ ℚ)) (m : ℚ) (last : Call ℚ ℚ), Steps 0 (a ++ [last] ++ b) ∧
      (runProgram c 0 0 1 0 (a ++ [last])).val = some m ∧
      (runProgram c m last.t last.dt last.f b).val ≠ (runProgram c 0 0 1 0 (a ++ [last] ++ b)).val := by
  refine ⟨⟨0, 100, 50, -1, 0⟩, [⟨1, 1, 0⟩], [⟨3, 1, 0⟩], 1 / 2, ⟨2, 1, 1⟩, ?_, ?_, ?_⟩
  · norm_num [Steps]
  · decide +kernel
  · decide +kernel

/-- In a restarted adaptive run `delta_t` is -1 until the first step (the value in the checkpoint is not
used, see `AmrWind.IO.restart_loses_step_size`): the call at initialisation changes the stored average `m` into
one where the present value has a negative weight, for every window and every time of the restart. -/
theorem adaptive_restart_negative_weight (c : Cfg K) (T m f : K) (h1 : c.start < T) (h2 : T < c.stop)
    (hint : c.interval < 0) (hw : 0 < c.window) :
    let w := min c.window (T - c.start)
    0 < w ∧ (runProgram c m T (-1) f []).val = some ((m * (w + 1) - f) / w) := by
  intro w
  have hpos : 0 < w := lt_min hw (sub_pos.mpr h1)
  refine ⟨hpos, ?_⟩
  have hd : doAvg c T (-1) := (doAvg_iff_no_phase c T (-1) hint).mpr ⟨le_of_lt h1, h2⟩
  unfold runProgram runCalls
  rw [List.foldl_cons, List.foldl_nil]
  unfold postAdvance
  simp only
  rw [if_pos hd]
  have hf : filterOf c.window (0 + -1) (T - c.start) = w := by
    unfold filterOf
    rw [max_eq_left]
    show 0 + -1 ≤ w
    linarith
  unfold reUpdate
  simp only [hf]
  rw [if_neg (ne_of_gt hpos), max_eq_left (by linarith)]
  congr 2
  ring

/-! ## C25 -/

/-- **C25.**  In every step the field of key `k` is updated as often as `k` occurs among the averages. -/
theorem updateAll_count {V : Type*} (upd : Key → V → V) (ks : List Key) (s : Key → V) (k : Key) :
    updateAll upd ks s k = (upd k)^[ks.count k] (s k) := by
  induction ks generalizing s with
  | nil => rfl
  | cons j ks ih =>
    rw [updateAll, ih]
    by_cases h : j = k
    · subst h
      rw [Function.update_self, List.count_cons_self, Function.iterate_succ_apply]
    · rw [Function.update_of_ne (Ne.symm h), List.count_cons_of_ne (by simpa using h)]

/-- Number of times a key is asked for in the input. -/
def requests (groups : List (List String × AvgType)) (k : Key) : ℕ :=
  (groups.map fun g => if g.2 = k.2 then g.1.count k.1 else 0).sum

theorem foldl_create (fs : List String) (ty : AvgType) (r : Registry) :
    fs.foldl (fun r f => r.create (f, ty)) r =
      ⟨r.averages ++ fs.map (fun f => (f, ty)), (fs.map (fun f => (f, ty))).reverse ++ r.registered⟩ := by
  induction fs generalizing r with
  | nil => simp
  | cons f fs ih => rw [List.foldl_cons, ih]; simp [Registry.create, List.append_assoc]

theorem count_map_key (fs : List String) (ty : AvgType) (k : Key) :
    (fs.map (fun f => (f, ty))).count k = if ty = k.2 then fs.count k.1 else 0 := by
  obtain ⟨f, t⟩ := k
  induction fs with
  | nil => simp
  | cons a fs ih =>
    simp only [List.map_cons, List.count_cons, ih]
    by_cases h : ty = t
    · subst h
      simp
    · simp [h]

theorem preInit_count (groups : List (List String × AvgType)) (r r' : Registry)
    (h : preInit r groups = some r') (k : Key) :
    r'.averages.count k = r.averages.count k + requests groups k ∧
      ((k ∈ r'.registered) ↔ k ∈ r.registered ∨ 0 < requests groups k) := by
  induction groups generalizing r with
  | nil =>
    simp only [preInit, Option.some.injEq] at h
    subst h
    simp [requests]
  | cons g groups ih =>
    obtain ⟨fs, ty⟩ := g
    unfold preInit at h
    by_cases hn : fs.Nodup
    · rw [if_pos hn, foldl_create] at h
      obtain ⟨h1, h2⟩ := ih _ h
      have hc := count_map_key fs ty k
      constructor
      · rw [h1]
        simp only [List.count_append, requests, List.map_cons, List.sum_cons, hc]
        ring
      · rw [h2]
        simp only [List.mem_append, List.mem_reverse, requests, List.map_cons, List.sum_cons]
        rw [← hc, ← List.count_pos_iff]
        simp only [Nat.add_pos_iff_pos_or_pos]
        constructor
        · rintro ((h | h) | h)
          · exact Or.inr (Or.inl h)
          · exact Or.inl h
          · exact Or.inr (Or.inr h)
        · rintro (h | h | h)
          · exact Or.inl (Or.inr h)
          · exact Or.inl (Or.inl h)
          · exact Or.inr h
    · rw [if_neg hn] at h
      exact absurd h (by simp)

/-- **C25, part.**  An average asked for by exactly one group of the input, and by any number of later
`add_averaging` calls, is updated exactly once per step.  Missing: an average asked for by two groups, or
only by repeated `add_averaging` calls, is updated more often: `two_groups_update_twice`,
`add_averaging_twice`. -/
theorem updated_once_partial {V : Type*} (groups : List (List String × AvgType)) (r : Registry)
    (h : preInit ⟨[], []⟩ groups = some r) (adds : List Key) (k : Key) (hk : requests groups k = 1)
    (upd : Key → V → V) (s : Key → V) :
    updateAll upd (adds.foldl Registry.addAveraging r).averages s k = upd k (s k) := by
  rw [updateAll_count]
  obtain ⟨h1, h2⟩ := preInit_count groups _ _ h k
  have hreg : k ∈ r.registered := h2.mpr (Or.inr (by omega))
  have : ∀ (adds : List Key) (r : Registry), k ∈ r.registered →
      (adds.foldl Registry.addAveraging r).averages.count k = r.averages.count k := by
    intro adds
    induction adds with
    | nil => intro r _; rfl
    | cons a adds ih =>
      intro r hr
      rw [List.foldl_cons]
      by_cases ha : a ∈ r.registered
      · rw [show r.addAveraging a = r from if_pos ha]; exact ih r hr
      · have e : r.addAveraging a = ⟨r.averages ++ [a], r.registered⟩ := if_neg ha
        rw [e]
        refine (ih ⟨r.averages ++ [a], r.registered⟩ hr).trans ?_
        have hne : a ≠ k := fun h => ha (h ▸ hr)
        simp [List.count_append, List.count_singleton, hne]
  rw [this adds r hreg, h1, hk]
  rfl

/-- **C25.**  An average asked for once by `add_averaging` only is updated exactly once per step. -/
theorem added_once {V : Type*} (groups : List (List String × AvgType)) (r : Registry)
    (h : preInit ⟨[], []⟩ groups = some r) (k : Key) (hk : requests groups k = 0)
    (upd : Key → V → V) (s : Key → V) : updateAll upd (r.addAveraging k).averages s k = upd k (s k) := by
  rw [updateAll_count]
  obtain ⟨h1, h2⟩ := preInit_count groups _ _ h k
  have hreg : k ∉ r.registered := by rw [h2]; simp [hk]
  rw [show r.addAveraging k = ⟨r.averages ++ [k], r.registered⟩ from if_neg hreg]
  simp only [List.count_append, h1, hk]
  simp

/-- Nothing else is touched: an average nobody asked for is not updated. -/
theorem not_requested_not_updated {V : Type*} (groups : List (List String × AvgType)) (r : Registry)
    (h : preInit ⟨[], []⟩ groups = some r) (k : Key) (hk : requests groups k = 0)
    (upd : Key → V → V) (s : Key → V) : updateAll upd r.averages s k = s k := by
  rw [updateAll_count, (preInit_count groups _ _ h k).1, hk]
  rfl

/-- Two groups asking for the same average: it is updated twice in one step, and the stored value is not the
time average (one step of size 1 with value 1 after a step of size 1 with value 0 gives 3/4, not 1/2). -/
theorem two_groups_update_twice :
    ∃ (groups : List (List String × AvgType)) (r : Registry) (k : Key), preInit ⟨[], []⟩ groups = some r ∧
      requests groups k = 2 ∧
      updateAll (fun _ v => reUpdate (10 : ℚ) 1 2 v 1) r.averages (fun _ => some 0) k = some (3 / 4) ∧
      reUpdate (10 : ℚ) 1 2 (some 0) 1 = some (1 / 2) := by
  refine ⟨[(["velocity"], .re), (["velocity", "temperature"], .re)], _, ("velocity", .re), rfl, ?_, ?_, ?_⟩
  · decide +kernel
  · rw [updateAll_count]; decide +kernel
  · decide +kernel

/-- Two calls of `add_averaging` for the same new average: it is updated twice per step. -/
theorem add_averaging_twice (k : Key) :
    (((⟨[], []⟩ : Registry).addAveraging k).addAveraging k).averages.count k = 2 := by
  simp [Registry.addAveraging]

/-! ## C26 -/

/-- The tensor index runs over xx, xy, xz, yy, yz, zz. -/
theorem pairs_order : pairs 3 = [(0, 0), (0, 1), (0, 2), (1, 1), (1, 2), (2, 2)] := by decide

/-- What the averaging group must hold after the samples `l` of the velocity: the mean velocity components
are averages of the components, the six stored products are averages of the six products, and each Reynolds
stress is the averaged product minus the product of the averages. -/
def IsTurb (c : Cfg K) (l : List (K × (ℕ → K))) (s : Turb K) : Prop :=
  (∀ n, n < 3 → IsAverage c (l.map fun x => (x.1, x.2 n)) (s.mean n)) ∧
  (∀ mn n m, [(0, 0), (0, 1), (0, 2), (1, 1), (1, 2), (2, 2)][mn]? = some (n, m) →
    IsAverage c (l.map fun x => (x.1, x.2 n * x.2 m)) (s.stress mn) ∧
    ∃ p a b, s.stress mn = some p ∧ s.mean n = some a ∧ s.mean m = some b ∧
      s.reStress mn = some (p - a * b))

/-- The six Reynolds stresses form a positive semidefinite matrix: the variance in every direction is
nonnegative. -/
def PSD (s : Turb K) : Prop :=
  ∃ xx xy xz yy yz zz, s.reStress 0 = some xx ∧ s.reStress 1 = some xy ∧ s.reStress 2 = some xz ∧
    s.reStress 3 = some yy ∧ s.reStress 4 = some yz ∧ s.reStress 5 = some zz ∧
    ∀ w0 w1 w2 : K, 0 ≤ xx * w0 * w0 + yy * w1 * w1 + zz * w2 * w2 +
      2 * (xy * w0 * w1 + xz * w0 * w2 + yz * w1 * w2)

theorem lastTime_map {F G : Type*} (p : K) (l : List (K × F)) (g : K × F → K × G) (hg : ∀ x, (g x).1 = x.1) :
    lastTime p (l.map g) = lastTime p l := by
  induction l generalizing p with
  | nil => rfl
  | cons x l ih => simp only [List.map_cons, lastTime, hg, ih]

theorem psd_step {S00 S01 S02 S11 S12 S22 a0 a1 a2 u0 u1 u2 θ : K} (t0 : 0 ≤ θ) (t1 : θ ≤ 1)
    (h : ∀ w0 w1 w2 : K, 0 ≤ (S00 - a0 * a0) * w0 * w0 + (S11 - a1 * a1) * w1 * w1 +
      (S22 - a2 * a2) * w2 * w2 + 2 * ((S01 - a0 * a1) * w0 * w1 + (S02 - a0 * a2) * w0 * w2 +
        (S12 - a1 * a2) * w1 * w2)) (w0 w1 w2 : K) :
    0 ≤ (S00 + θ * (u0 * u0 - S00) - (a0 + θ * (u0 - a0)) * (a0 + θ * (u0 - a0))) * w0 * w0 +
      (S11 + θ * (u1 * u1 - S11) - (a1 + θ * (u1 - a1)) * (a1 + θ * (u1 - a1))) * w1 * w1 +
      (S22 + θ * (u2 * u2 - S22) - (a2 + θ * (u2 - a2)) * (a2 + θ * (u2 - a2))) * w2 * w2 +
      2 * ((S01 + θ * (u0 * u1 - S01) - (a0 + θ * (u0 - a0)) * (a1 + θ * (u1 - a1))) * w0 * w1 +
        (S02 + θ * (u0 * u2 - S02) - (a0 + θ * (u0 - a0)) * (a2 + θ * (u2 - a2))) * w0 * w2 +
        (S12 + θ * (u1 * u2 - S12) - (a1 + θ * (u1 - a1)) * (a2 + θ * (u2 - a2))) * w1 * w2) := by
  have h1 := h w0 w1 w2
  have h2 : 0 ≤ (1 - θ) * θ * (((a0 - u0) * w0 + (a1 - u1) * w1 + (a2 - u2) * w2) *
      ((a0 - u0) * w0 + (a1 - u1) * w1 + (a2 - u2) * w2)) :=
    mul_nonneg (mul_nonneg (by linarith) t0) (mul_self_nonneg _)
  have h3 := mul_nonneg (sub_nonneg.mpr t1) h1
  have e : ∀ A B C : K, A = B + C → 0 ≤ B → 0 ≤ C → 0 ≤ A := fun A B C h hb hc => by rw [h]; exact add_nonneg hb hc
  refine e _ _ _ ?_ h3 h2
  ring

/-- The same weight is used for all components of one update. -/
theorem reUpdate_weight (window acc e : K) (hacc : 0 < acc) :
    ∃ θ, 0 ≤ θ ∧ θ ≤ 1 ∧ ∀ a f, reUpdate window acc e (some a) f = some (a + θ * (f - a)) := by
  have hFacc : acc ≤ filterOf window acc e := le_max_right _ _
  have hF0 : 0 < filterOf window acc e := lt_of_lt_of_le hacc hFacc
  refine ⟨acc / filterOf window acc e, div_nonneg hacc.le hF0.le, (div_le_one hF0).mpr hFacc, ?_⟩
  intro a f
  have hfac : max (filterOf window acc e - acc) 0 = filterOf window acc e - acc := max_eq_left (by linarith)
  unfold reUpdate
  simp only [hfac]
  rw [if_neg hF0.ne']
  congr 1
  field_simp
  ring

/-- Stored values in detail. -/
structure Known (s : Turb K) (a S : ℕ → K) : Prop where
  mean : ∀ n, n < 3 → s.mean n = some (a n)
  stress : ∀ mn, mn < 6 → s.stress mn = some (S mn)

theorem turb_known {s : Turb K} {a S : ℕ → K} (h : Known s a S) (window acc e : K) (hacc : 0 < acc)
    (u : ℕ → K) : ∃ θ, 0 ≤ θ ∧ θ ≤ 1 ∧
      (∀ n, n < 3 → (turbUpdate window acc e s u).mean n = some (a n + θ * (u n - a n))) ∧
      (∀ mn n m, [(0, 0), (0, 1), (0, 2), (1, 1), (1, 2), (2, 2)][mn]? = some (n, m) →
        (turbUpdate window acc e s u).stress mn = some (S mn + θ * (u n * u m - S mn)) ∧
        (turbUpdate window acc e s u).reStress mn =
          some (S mn + θ * (u n * u m - S mn) - (a n + θ * (u n - a n)) * (a m + θ * (u m - a m)))) := by
  obtain ⟨θ, t0, t1, hθ⟩ := reUpdate_weight window acc e hacc
  have hm : ∀ n, n < 3 → (turbUpdate window acc e s u).mean n = some (a n + θ * (u n - a n)) := by
    intro n hn
    simp only [turbUpdate, h.mean n hn, hθ]
  refine ⟨θ, t0, t1, hm, ?_⟩
  intro mn n m hp
  rw [← pairs_order] at hp
  have hlt : mn < 6 := by
    have := (List.getElem?_eq_some_iff.mp hp).1
    rw [pairs_order] at this
    simpa using this
  have hn : n < 3 ∧ m < 3 := by
    have := List.mem_of_getElem? hp
    rw [pairs_order] at this
    simp only [List.mem_cons, Prod.mk.injEq, List.not_mem_nil, or_false] at this
    omega
  have hs : (turbUpdate window acc e s u).stress mn = some (S mn + θ * (u n * u m - S mn)) := by
    simp only [turbUpdate, hp, h.stress mn hlt, hθ]
    rw [mul_comm (u m) (u n)]
  refine ⟨hs, ?_⟩
  have h1 := hm n hn.1
  have h2 := hm m hn.2
  simp only [turbUpdate] at hs h1 h2 ⊢
  simp only [hp] at hs ⊢
  rw [hs, h1, h2]
  simp only [omul, osub]
  rw [mul_comm (a m + _) (a n + _)]

/-- Averages after the first sample, whatever was stored, and after a later sample. -/
theorem turb_first {c : Cfg K} {s : Turb K} {a S : ℕ → K} (h : Known s a S) (t acc : K) (u : ℕ → K)
    (hacc : 0 < acc) (he : t - c.start ≤ acc) :
    IsTurb c [(t, u)] (turbUpdate c.window acc (t - c.start) s u) ∧
      PSD (turbUpdate c.window acc (t - c.start) s u) := by
  have hm : ∀ n, n < 3 → (turbUpdate c.window acc (t - c.start) s u).mean n = some (u n) := by
    intro n hn
    simp only [turbUpdate, h.mean n hn]
    exact reUpdate_first _ _ _ _ _ hacc he
  have hs : ∀ mn n m, (pairs 3)[mn]? = some (n, m) →
      (turbUpdate c.window acc (t - c.start) s u).stress mn = some (u n * u m) ∧
      (turbUpdate c.window acc (t - c.start) s u).reStress mn = some (u n * u m - u n * u m) := by
    intro mn n m hp
    have hlt : mn < 6 := by
      have := (List.getElem?_eq_some_iff.mp hp).1
      rw [pairs_order] at this
      simpa using this
    have hn : n < 3 ∧ m < 3 := by
      have := List.mem_of_getElem? hp
      rw [pairs_order] at this
      simp only [List.mem_cons, Prod.mk.injEq, List.not_mem_nil, or_false] at this
      omega
    have h1 := hm n hn.1
    have h2 := hm m hn.2
    have h3 : (turbUpdate c.window acc (t - c.start) s u).stress mn = some (u n * u m) := by
      simp only [turbUpdate, hp, h.stress mn hlt]
      rw [reUpdate_first _ _ _ _ _ hacc he, mul_comm]
    refine ⟨h3, ?_⟩
    simp only [turbUpdate] at h1 h2 h3 ⊢
    simp only [hp] at h3 ⊢
    rw [h3, h1, h2]
    simp only [omul, osub]
    rw [mul_comm (u m) (u n)]
  refine ⟨⟨?_, ?_⟩, ?_⟩
  · intro n hn
    refine ⟨u n, hm n hn, fun lo hi hb => hb (t, u n) (by simp), fun _ => ?_⟩
    simp [integral, lastTime]
  · intro mn n m hp
    rw [← pairs_order] at hp
    obtain ⟨h3, h4⟩ := hs mn n m hp
    have hn : n < 3 ∧ m < 3 := by
      have := List.mem_of_getElem? hp
      rw [pairs_order] at this
      simp only [List.mem_cons, Prod.mk.injEq, List.not_mem_nil, or_false] at this
      omega
    refine ⟨⟨u n * u m, h3, fun lo hi hb => hb (t, u n * u m) (by simp), fun _ => ?_⟩,
      _, _, _, h3, hm n hn.1, hm m hn.2, h4⟩
    simp [integral, lastTime]
  · rw [pairs_order] at hs
    refine ⟨_, _, _, _, _, _, (hs 0 0 0 rfl).2, (hs 1 0 1 rfl).2, (hs 2 0 2 rfl).2, (hs 3 1 1 rfl).2,
      (hs 4 1 2 rfl).2, (hs 5 2 2 rfl).2, fun w0 w1 w2 => ?_⟩
    simp

theorem known_of_isTurb {c : Cfg K} {l : List (K × (ℕ → K))} {s : Turb K} (h : IsTurb c l s) :
    ∃ a S, Known s a S := by
  obtain ⟨h1, h2⟩ := h
  refine ⟨fun n => (s.mean n).getD 0, fun mn => (s.stress mn).getD 0, ?_, ?_⟩
  · intro n hn
    obtain ⟨a, ha, _⟩ := h1 n hn
    simp [ha]
  · intro mn hmn
    have : ∃ p, s.stress mn = some p := by
      have hc : mn = 0 ∨ mn = 1 ∨ mn = 2 ∨ mn = 3 ∨ mn = 4 ∨ mn = 5 := by omega
      rcases hc with rfl | rfl | rfl | rfl | rfl | rfl
      · obtain ⟨_, p, _, _, hp, _⟩ := h2 0 0 0 rfl; exact ⟨p, hp⟩
      · obtain ⟨_, p, _, _, hp, _⟩ := h2 1 0 1 rfl; exact ⟨p, hp⟩
      · obtain ⟨_, p, _, _, hp, _⟩ := h2 2 0 2 rfl; exact ⟨p, hp⟩
      · obtain ⟨_, p, _, _, hp, _⟩ := h2 3 1 1 rfl; exact ⟨p, hp⟩
      · obtain ⟨_, p, _, _, hp, _⟩ := h2 4 1 2 rfl; exact ⟨p, hp⟩
      · obtain ⟨_, p, _, _, hp, _⟩ := h2 5 2 2 rfl; exact ⟨p, hp⟩
    obtain ⟨p, hp⟩ := this
    simp [hp]

theorem turb_next {c : Cfg K} {l : List (K × (ℕ → K))} {s : Turb K} (h : IsTurb c l s) (hpsd : PSD s)
    (t acc : K) (u : ℕ → K) (hacc : 0 < acc) (he : acc = t - lastTime c.start l)
    (hst : c.start ≤ lastTime c.start l) :
    IsTurb c (l ++ [(t, u)]) (turbUpdate c.window acc (t - c.start) s u) ∧
      PSD (turbUpdate c.window acc (t - c.start) s u) := by
  obtain ⟨a, S, hk⟩ := known_of_isTurb h
  obtain ⟨θ, t0, t1, k1, k2⟩ := turb_known hk c.window acc (t - c.start) hacc u
  refine ⟨⟨?_, ?_⟩, ?_⟩
  · intro n hn
    have := isAverage_next (c := c) t (u n) acc (h.1 n hn) hacc
      (by rw [lastTime_map _ _ _ (by intro x; rfl)]; exact he)
      (by rw [lastTime_map _ _ _ (by intro x; rfl)]; exact hst)
    rw [List.map_append]
    exact this
  · intro mn n m hp
    obtain ⟨k3, k4⟩ := k2 mn n m hp
    have hn : n < 3 ∧ m < 3 := by
      have := List.mem_of_getElem? hp
      simp only [List.mem_cons, Prod.mk.injEq, List.not_mem_nil, or_false] at this
      omega
    refine ⟨?_, _, _, _, k3, k1 n hn.1, k1 m hn.2, k4⟩
    have := isAverage_next (c := c) t (u n * u m) acc (h.2 mn n m hp).1 hacc
      (by rw [lastTime_map _ _ _ (by intro x; rfl)]; exact he)
      (by rw [lastTime_map _ _ _ (by intro x; rfl)]; exact hst)
    rw [List.map_append]
    have e : (turbUpdate c.window acc (t - c.start) s u).stress mn =
        reUpdate c.window acc (t - c.start) (s.stress mn) (u n * u m) := by
      rw [← pairs_order] at hp
      simp only [turbUpdate, hp]
      rw [mul_comm (u m)]
    rw [e]
    exact this
  · refine ⟨_, _, _, _, _, _, (k2 0 0 0 rfl).2, (k2 1 0 1 rfl).2, (k2 2 0 2 rfl).2, (k2 3 1 1 rfl).2,
      (k2 4 1 2 rfl).2, (k2 5 2 2 rfl).2, ?_⟩
    apply psd_step t0 t1
    obtain ⟨xx, xy, xz, yy, yz, zz, e0, e1, e2, e3, e4, e5, hq⟩ := hpsd
    have get : ∀ (mn n m : ℕ) (r : K), [(0, 0), (0, 1), (0, 2), (1, 1), (1, 2), (2, 2)][mn]? = some (n, m) →
        n < 3 → m < 3 → mn < 6 → s.reStress mn = some r → r = S mn - a n * a m := by
      intro mn n m r hp hn hm hmn hr
      obtain ⟨_, p, x, y, g1, g2, g3, g4⟩ := h.2 mn n m hp
      rw [hk.stress mn hmn] at g1
      rw [hk.mean n hn] at g2
      rw [hk.mean m hm] at g3
      rw [hr] at g4
      injection g1 with g1
      injection g2 with g2
      injection g3 with g3
      injection g4 with g4
      rw [g4, g1, g2, g3]
    rw [get 0 0 0 xx rfl (by omega) (by omega) (by omega) e0,
      get 1 0 1 xy rfl (by omega) (by omega) (by omega) e1,
      get 2 0 2 xz rfl (by omega) (by omega) (by omega) e2,
      get 3 1 1 yy rfl (by omega) (by omega) (by omega) e3,
      get 4 1 2 yz rfl (by omega) (by omega) (by omega) e4,
      get 5 2 2 zz rfl (by omega) (by omega) (by omega) e5] at hq
    exact hq

/-- **C26, part.**  In a run as in `time_average_partial`, after any steps: every Reynolds stress is the
averaged product minus the product of the averages (both being time averages of the samples), and the six
stresses form a positive semidefinite matrix; in particular the diagonal ones are nonnegative.  Missing: the
runs excluded in `time_average_partial`. -/
theorem reynolds_stress_partial (c : Cfg K) (s0 : Turb K) {a0 S0 : ℕ → K} (hs0 : Known s0 a0 S0)
    (T0 d0 : K) (u0 : ℕ → K) (hT : T0 ≤ c.start) (hd : 0 < d0 + (c.start - T0))
    (steps : List (Call K (ℕ → K))) (hl : Steps T0 steps) (hne : samples c steps ≠ []) :
    IsTurb c (samples c steps) (runCalls c turbUpdate ⟨0, s0⟩ (⟨T0, d0, u0⟩ :: steps)).val ∧
      PSD (runCalls c turbUpdate ⟨0, s0⟩ (⟨T0, d0, u0⟩ :: steps)).val := by
  have hinit : ∃ acc0 w, postAdvance c turbUpdate ⟨0, s0⟩ ⟨T0, d0, u0⟩ = ⟨acc0, w⟩ ∧ (∃ a S, Known w a S) ∧
      (0 ≤ acc0 ∨ 0 < acc0 + (c.start - T0)) := by
    unfold postAdvance
    simp only [zero_add]
    by_cases h : doAvg c T0 d0
    · rw [if_pos h]
      have he : T0 = c.start := le_antisymm hT h.1.1
      have := (turb_first (c := c) hs0 T0 d0 u0 (by linarith) (by linarith)).1
      exact ⟨0, _, rfl, known_of_isTurb this, Or.inl le_rfl⟩
    · rw [if_neg h]
      exact ⟨d0, s0, rfl, ⟨_, _, hs0⟩, Or.inr hd⟩
  obtain ⟨acc0, w, e, ⟨a, S, hk⟩, h0⟩ := hinit
  have := (run_invariant c turbUpdate (fun l s => IsTurb c l s ∧ PSD s) hT h0 w
    (fun t f acc _ h1 h2 => turb_first hk t acc f h1 h2)
    (fun l w t f acc _ h1 h2 h3 h4 => turb_next h1.1 h1.2 t acc f h2 h3 h4) steps hl).2.1 hne
  have e2 : runCalls c turbUpdate ⟨0, s0⟩ (⟨T0, d0, u0⟩ :: steps) = runCalls c turbUpdate ⟨acc0, w⟩ steps := by
    unfold runCalls
    rw [List.foldl_cons, e]
  rw [e2]
  exact this.2.2

/-- **C26.**  In a restarted adaptive run the call at initialisation turns a variance `R` about the mean `a` into `(1 + 1/w) (R - (f - a)² / w)`,
`f` being the present value and `w` the weight of the past: it is negative just if the present value is further from the mean than `√(R w)`. -/
theorem adaptive_restart_stress (c : Cfg K) (s : Turb K) (T : K) (u : ℕ → K) (h1 : c.start < T) (h2 : T < c.stop) (hint : c.interval < 0) (hw : 0 < c.window)
    {mn n : ℕ} (hmn : [(0, 0), (0, 1), (0, 2), (1, 1), (1, 2), (2, 2)][mn]? = some (n, n)) {a R : K} (ha : s.mean n = some a)
    (hS : s.stress mn = some (a * a + R)) :
    let w := min c.window (T - c.start)
    ∃ q, (runCalls c turbUpdate ⟨0, s⟩ [⟨T, -1, u⟩]).val.reStress mn = some q ∧ q = (1 + 1 / w) * (R - (u n - a) ^ 2 / w) ∧
      (q < 0 ↔ R * w < (u n - a) ^ 2) := by
  intro w
  have hpos : 0 < w := lt_min hw (sub_pos.mpr h1)
  have hd : doAvg c T (-1) := (doAvg_iff_no_phase c T (-1) hint).mpr ⟨le_of_lt h1, h2⟩
  have hf : filterOf c.window (0 + -1) (T - c.start) = w := by
    unfold filterOf
    rw [max_eq_left]
    show 0 + -1 ≤ w
    linarith
  have hre : ∀ x f : K, reUpdate c.window (0 + -1) (T - c.start) (some x) f = some ((x * (w + 1) - f) / w) := by
    intro x f
    unfold reUpdate
    simp only [hf]
    rw [if_neg (ne_of_gt hpos), max_eq_left (by linarith)]
    congr 2
    ring
  have hq : ((a * a + R) * (w + 1) - u n * u n) / w - (a * (w + 1) - u n) / w * ((a * (w + 1) - u n) / w) = (1 + 1 / w) * (R - (u n - a) ^ 2 / w) := by
    field_simp
    ring
  refine ⟨(1 + 1 / w) * (R - (u n - a) ^ 2 / w), ?_, rfl, ?_⟩
  · unfold runCalls
    rw [List.foldl_cons, List.foldl_nil]
    unfold postAdvance
    simp only
    rw [if_pos hd]
    simp only [turbUpdate, pairs_order, hmn, hS, ha, hre, omul, osub, hq]
  · have h3 : 0 < 1 + 1 / w := by positivity
    rw [mul_neg_iff]
    constructor
    · rintro (⟨-, h⟩ | ⟨h, -⟩)
      · rw [sub_neg, lt_div_iff₀ hpos] at h
        exact h
      · exact absurd h (not_lt.mpr h3.le)
    · intro h
      exact Or.inl ⟨h3, by rw [sub_neg, lt_div_iff₀ hpos]; exact h⟩

/-- Averages of a velocity that was constant: any change before the restart makes the variance negative. -/
example : ∃ (c : Cfg ℚ) (s : Turb ℚ), c.start < 2 ∧ (2 : ℚ) < c.stop ∧ c.interval < 0 ∧ 0 < c.window ∧ s.mean 0 = some 3 ∧ s.stress 0 = some (3 * 3 + 0) ∧
    (0 : ℚ) * min c.window (2 - c.start) < (4 - 3) ^ 2 :=
  ⟨⟨0, 100, 50, -1, 0⟩, ⟨fun _ => some 3, fun _ => some 9, fun _ => some 0⟩, by norm_num, by norm_num, by norm_num, by norm_num, rfl, by norm_num, by norm_num⟩

/-- A run of three unequal steps, the second averaging-period sample beyond the window, satisfying the
hypotheses of `time_average_partial`. -/
example : ∃ (c : Cfg ℚ) (steps : List (Call ℚ ℚ)), (0 : ℚ) ≤ c.start ∧ 0 < 1 + (c.start - 0) ∧ Steps 0 steps ∧
    samples c steps = [(2, 5), (4, 7)] ∧ (runProgram c 0 0 1 0 steps).val = some (61 / 9) := by
  refine ⟨⟨3 / 2, 100, 9 / 4, -1, 0⟩, [⟨1, 1, 3⟩, ⟨2, 1, 5⟩, ⟨4, 2, 7⟩], ?_, ?_, ?_, ?_, ?_⟩
  · norm_num
  · norm_num
  · norm_num [Steps]
  · decide +kernel
  · decide +kernel

/-- An adaptive run with averaging from time 2 on meets them too. -/
example : (0 : ℚ) < -1 + (2 - 0) := by norm_num

end AmrWind.Averaging
