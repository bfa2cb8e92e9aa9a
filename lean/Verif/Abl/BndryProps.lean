import Verif.Abl.BndryModel
import Verif.Plane.Props
import Mathlib.Tactic.FieldSimp
import Mathlib.Tactic.Linarith
import Mathlib.Tactic.Positivity
import Mathlib.Tactic.NormNum
import Mathlib.Tactic.Ring

/-!
# Recorded inflow planes drive another run (C94)
-/

set_option linter.unusedSectionVars false

namespace AmrWind.Bndry

open Plane

section time
variable {K : Type*} [Field K] [LinearOrder K] [IsStrictOrderedRing K] [FloorRing K]

/-! ## Specification -/

/-- `v` is the linear interpolation in time between two consecutive records around `time`. -/
def Between (f : File K) (time v : K) : Prop :=
  ∃ idx t1 t2, f.times[idx]? = some t1 ∧ f.times[idx + 1]? = some t2 ∧ t1 ≤ time ∧ time ≤ t2 ∧
    v = lin t1 t2 (f.value idx) (f.value (idx + 1)) time

/-- Records follow each other by at least the tolerance. -/
def Gaps (f : File K) (tol : K) : Prop :=
  ∀ idx t1 t2, f.times[idx]? = some t1 → f.times[idx + 1]? = some t2 → t1 + tol ≤ t2

/-- The planes held are the initial ones or two consecutive records. -/
def Held (f : File K) (s : St K) : Prop :=
  (s.tn = -1 ∧ s.tnp1 = -1) ∨
    ∃ idx, f.times[idx]? = some s.tn ∧ f.times[idx + 1]? = some s.tnp1 ∧ s.n = f.value idx ∧ s.np1 = f.value (idx + 1)

/-- The reads of a run: the half steps and the ends of the steps, in any order. -/
def reads (f : File K) (tol : K) : St K → List K → Option (St K)
  | s, [] => some s
  | s, t :: ts => (readFile f tol s t).bind fun s' => reads f tol s' ts

/-! ## Lemmas -/

theorem times_mono {l : List K} (hs : l.Pairwise (· < ·)) {i j : ℕ} {a b : K} (hi : l[i]? = some a) (hj : l[j]? = some b)
    (hij : i < j) : a < b := by
  obtain ⟨hi', rfl⟩ := List.getElem?_eq_some_iff.mp hi
  obtain ⟨hj', rfl⟩ := List.getElem?_eq_some_iff.mp hj
  exact List.pairwise_iff_getElem.mp hs i j hi' hj' hij

theorem lin_left {t1 t2 : K} (h : t1 < t2) (v1 v2 : K) : lin t1 t2 v1 v2 t1 = v1 := by
  unfold lin
  have : t2 - t1 ≠ 0 := (sub_pos.mpr h).ne'
  rw [sub_self, zero_div, zero_mul, add_zero, div_self this, one_mul]

theorem lin_right {t1 t2 : K} (h : t1 < t2) (v1 v2 : K) : lin t1 t2 v1 v2 t2 = v2 := by
  unfold lin
  have : t2 - t1 ≠ 0 := (sub_pos.mpr h).ne'
  rw [sub_self, zero_div, zero_mul, zero_add, div_self this, one_mul]

/-- One read: what is held afterwards and what is interpolated. -/
theorem read_step {f : File K} {tol time : K} {s s' : St K} (h : Held f s) (hr : readFile f tol s time = some s') :
    Held f s' ∧ s'.tinterp = time ∧ (∃ idx, f.times[idx]? = some s'.tn ∧ f.times[idx + 1]? = some s'.tnp1 ∧
      s'.interp = lin s'.tn s'.tnp1 (f.value idx) (f.value (idx + 1)) time ∧
      ((s'.tn ≤ time ∧ time < s'.tnp1) ∨
        (closestIndex f.times time tol = some idx ∧ s'.tn ≤ time + tol ∧ time ≤ s'.tnp1 + tol))) := by
  unfold readFile at hr
  cases h0 : f.times.head? with
  | none => rw [h0] at hr; simp at hr
  | some t0 =>
    cases hl : f.times.getLast? with
    | none => rw [h0, hl] at hr; simp at hr
    | some tl =>
      rw [h0, hl] at hr
      simp only at hr
      by_cases c1 : ¬ t0 ≤ time + tol ∨ ¬ time < tl + tol
      · rw [if_pos c1] at hr; cases hr
      · rw [if_neg c1] at hr
        by_cases c2 : s.tn ≤ time ∧ time < s.tnp1
        · rw [if_pos c2] at hr
          injection hr with hr
          subst hr
          rcases h with ⟨e1, e2⟩ | ⟨idx, e1, e2, e3, e4⟩
          · rw [e1, e2] at c2
            exact absurd c2.2 (not_lt.mpr c2.1)
          · refine ⟨Or.inr ⟨idx, e1, e2, e3, e4⟩, rfl, idx, e1, e2, ?_, Or.inl c2⟩
            show lin s.tn s.tnp1 s.n s.np1 time = _
            rw [e3, e4]; rfl
        · rw [if_neg c2] at hr
          cases hi : closestIndex f.times time tol with
          | none => rw [hi] at hr; simp at hr
          | some idx =>
            rw [hi] at hr
            simp only at hr
            cases h1 : f.times[idx]? with
            | none => rw [h1] at hr; simp at hr
            | some t1 =>
              cases h2 : f.times[idx + 1]? with
              | none => rw [h1, h2] at hr; simp at hr
              | some t2 =>
                rw [h1, h2] at hr
                simp only at hr
                by_cases c3 : ¬ t1 ≤ time + tol ∨ ¬ time ≤ t2 + tol
                · rw [if_pos c3] at hr; cases hr
                · rw [if_neg c3] at hr
                  injection hr with hr
                  subst hr
                  rw [not_or, not_not, not_not] at c3
                  exact ⟨Or.inr ⟨idx, h1, h2, rfl, rfl⟩, rfl, idx, h1, h2, rfl, Or.inr ⟨rfl, c3⟩⟩

theorem getLast_mem_le {l : List K} (hs : l.Pairwise (· < ·)) {tl : K} (hl : l.getLast? = some tl) :
    ∀ y ∈ l, y ≤ tl := by
  intro y hy
  obtain ⟨i, hi, rfl⟩ := List.mem_iff_getElem.mp hy
  rw [List.getLast?_eq_getElem?] at hl
  by_cases h : i = l.length - 1
  · subst h
    rw [List.getElem?_eq_getElem hi] at hl
    injection hl with hl
    exact hl.le
  · exact (times_mono hs (List.getElem?_eq_getElem hi) hl (by omega)).le

/-! ## C94: interpolation in time -/

/-- C94. Within the record times each read gives the linear interpolation between the two records around the target time,
whatever was read before. -/
theorem read_between {f : File K} {tol time t0 tl : K} {s s' : St K} (hs : f.times.Pairwise (· < ·)) (ht : 0 < tol)
    (hg : Gaps f tol) (h : Held f s) (h0 : f.times.head? = some t0) (hl : f.times.getLast? = some tl)
    (h1 : t0 ≤ time) (h2 : time ≤ tl) (hr : readFile f tol s time = some s') :
    Held f s' ∧ s'.tinterp = time ∧ Between f time s'.interp ∧ s'.tn ≤ time ∧ time ≤ s'.tnp1 := by
  obtain ⟨hh, hti, idx, e1, e2, e3, e4⟩ := read_step h hr
  have key : s'.tn ≤ time ∧ time ≤ s'.tnp1 := by
    rcases e4 with e4 | ⟨e4, _⟩
    · exact ⟨e4.1, e4.2.le⟩
    · have hs' : f.times.Pairwise (· ≤ ·) := hs.imp fun h => h.le
      obtain ⟨c1, c2, _⟩ := closest_index_spec hs' time tol
      have h0' : f.times[0]? = some t0 := by rw [← List.head?_eq_getElem?]; exact h0
      have hlm : tl ∈ f.times := List.mem_of_getLast? hl
      rcases lt_or_eq_of_le h2 with h2 | rfl
      · obtain ⟨r, hr1, y, hy⟩ := c1 ⟨tl, hlm, h2⟩
        rw [e4] at hr1
        injection hr1 with hr1
        subst hr1
        rcases hy with ⟨hr0, hy, hlt⟩ | ⟨z, hy, hz, hle, hlt⟩
        · rw [h0'] at hy
          injection hy with hy
          rw [← hy] at hlt
          exact absurd h1 (not_le.mpr hlt)
        · rw [e1] at hy; rw [e2] at hz
          injection hy with hy; injection hz with hz
          rw [hy, hz]
          exact ⟨hle, hlt.le⟩
      · obtain ⟨r, hr1, y, hy⟩ := c2 (getLast_mem_le hs hl) ⟨time, hlm, by linarith⟩
        rw [e4] at hr1
        injection hr1 with hr1
        subst hr1
        have hle : s'.tn ≤ time := getLast_mem_le hs hl _ (List.mem_of_getElem? e1)
        refine ⟨hle, ?_⟩
        have hgap := hg idx _ _ e1 e2
        -- the record after the found one is the last
        have hz : time - tol < s'.tnp1 := by
          rcases hy with ⟨hr0, hy, hlt⟩ | ⟨z, hy, hz, _, hlt⟩
          · rw [hr0] at e1
            rw [e1] at hy
            injection hy with hy
            rw [← hy] at hlt
            linarith
          · rw [e2] at hz
            injection hz with hz
            rw [hz]; exact hlt
        rw [List.getLast?_eq_getElem?] at hl
        by_contra hcon
        have hlt := not_le.mp hcon
        have hidx : idx + 1 < f.times.length - 1 := by
          by_contra hc
          have hlen : idx + 1 < f.times.length := (List.getElem?_eq_some_iff.mp e2).1
          have : idx + 1 = f.times.length - 1 := by omega
          rw [this] at e2
          rw [e2] at hl
          injection hl with hl
          exact absurd hl hlt.ne
        have hlen : idx + 2 < f.times.length := by omega
        have h3 := hg (idx + 1) _ _ e2 (List.getElem?_eq_getElem hlen)
        have h4 : f.times[idx + 2] ≤ time := by
          apply getLast_mem_le hs (by rw [List.getLast?_eq_getElem?]; exact hl)
          exact List.getElem_mem hlen
        linarith
  exact ⟨hh, hti, ⟨idx, _, _, e1, e2, key.1, key.2, e3⟩, key⟩

/-- C94. The interpolation is determined by the time: it does not depend on what was read before. -/
theorem between_unique {f : File K} (hs : f.times.Pairwise (· < ·)) {time v w : K} (hv : Between f time v)
    (hw : Between f time w) : v = w := by
  obtain ⟨i, a1, a2, ha1, ha2, h1, h2, rfl⟩ := hv
  obtain ⟨j, b1, b2, hb1, hb2, h3, h4, rfl⟩ := hw
  have ha := times_mono hs ha1 ha2 (by omega)
  have hb := times_mono hs hb1 hb2 (by omega)
  rcases lt_trichotomy i j with hij | rfl | hij
  · have : a2 ≤ b1 := by
      rcases Nat.lt_or_ge (i + 1) j with h | h
      · exact (times_mono hs ha2 hb1 h).le
      · have : i + 1 = j := by omega
        rw [this] at ha2
        rw [ha2] at hb1
        injection hb1 with e
        exact e.le
    have e1 : time = a2 := le_antisymm h2 (this.trans h3)
    have e2 : time = b1 := le_antisymm (h2.trans this) h3
    have hj : i + 1 = j := by
      by_contra hne
      have := times_mono hs ha2 hb1 (by omega)
      rw [← e1, ← e2] at this
      exact absurd this (lt_irrefl _)
    rw [e1, lin_right ha, ← e1, e2, lin_left hb, hj]
  · rw [ha1] at hb1; rw [ha2] at hb2
    injection hb1 with e1; injection hb2 with e2
    rw [e1, e2]
  · have : b2 ≤ a1 := by
      rcases Nat.lt_or_ge (j + 1) i with h | h
      · exact (times_mono hs hb2 ha1 h).le
      · have : j + 1 = i := by omega
        rw [this] at hb2
        rw [hb2] at ha1
        injection ha1 with e
        exact e.le
    have e1 : time = b2 := le_antisymm h4 (this.trans h1)
    have e2 : time = a1 := le_antisymm (h4.trans this) h1
    have hj : j + 1 = i := by
      by_contra hne
      have := times_mono hs hb2 ha1 (by omega)
      rw [← e1, ← e2] at this
      exact absurd this (lt_irrefl _)
    rw [e2, lin_left ha, ← e2, e1, lin_right hb, hj]

/-- C94. At the time of a record the inflow is that record. -/
theorem replay_at_record {f : File K} (hs : f.times.Pairwise (· < ·)) {i : ℕ} {t v : K} (hi : f.times[i]? = some t)
    (hv : Between f t v) : v = f.value i := by
  have hlen : i < f.times.length := (List.getElem?_eq_some_iff.mp hi).1
  obtain ⟨j, b1, b2, hb1, hb2, h3, h4, rfl⟩ := hv
  have hb := times_mono hs hb1 hb2 (by omega)
  have hij : i = j ∨ i = j + 1 := by
    rcases Nat.lt_or_ge i j with h | h
    · exact absurd h3 (not_le.mpr (times_mono hs hi hb1 h))
    · rcases Nat.lt_or_ge (j + 1) i with h' | h'
      · exact absurd h4 (not_le.mpr (times_mono hs hb2 hi h'))
      · omega
  rcases hij with rfl | rfl
  · rw [hi] at hb1
    injection hb1 with e
    rw [e, lin_left hb]
  · rw [hi] at hb2
    injection hb2 with e
    rw [e, lin_right hb]

/-- C94. The inflow lies between the two records. -/
theorem replay_bounded {f : File K} (hs : f.times.Pairwise (· < ·)) {time v lo hi : K} (hv : Between f time v)
    (hb : ∀ i < f.times.length, lo ≤ f.value i ∧ f.value i ≤ hi) : lo ≤ v ∧ v ≤ hi := by
  obtain ⟨j, b1, b2, hb1, hb2, h3, h4, rfl⟩ := hv
  have hlt := times_mono hs hb1 hb2 (by omega)
  have hd : 0 < b2 - b1 := sub_pos.mpr hlt
  have l2 : j + 1 < f.times.length := (List.getElem?_eq_some_iff.mp hb2).1
  have p := hb j (by omega)
  have q := hb (j + 1) l2
  have w1 : 0 ≤ (b2 - time) / (b2 - b1) := div_nonneg (by linarith) hd.le
  have w2 : 0 ≤ (time - b1) / (b2 - b1) := div_nonneg (by linarith) hd.le
  have ws : (b2 - time) / (b2 - b1) + (time - b1) / (b2 - b1) = 1 := by
    rw [← add_div, div_eq_one_iff_eq hd.ne']; ring
  unfold lin
  constructor
  · calc lo = (b2 - time) / (b2 - b1) * lo + (time - b1) / (b2 - b1) * lo := by rw [← add_mul, ws, one_mul]
      _ ≤ _ := add_le_add (mul_le_mul_of_nonneg_left p.1 w1) (mul_le_mul_of_nonneg_left q.1 w2)
  · calc _ ≤ (b2 - time) / (b2 - b1) * hi + (time - b1) / (b2 - b1) * hi :=
          add_le_add (mul_le_mul_of_nonneg_left p.2 w1) (mul_le_mul_of_nonneg_left q.2 w2)
      _ = hi := by rw [← add_mul, ws, one_mul]

/-- C94. With at least two records every time between the first and the last can be read. -/
theorem read_defined {f : File K} {tol time t0 tl : K} {s : St K} (hs : f.times.Pairwise (· < ·)) (ht : 0 < tol)
    (h0 : f.times.head? = some t0) (hl : f.times.getLast? = some tl) (h2l : 2 ≤ f.times.length) (h1 : t0 ≤ time)
    (h2 : time ≤ tl) : ∃ s', readFile f tol s time = some s' := by
  unfold readFile
  rw [h0, hl]
  simp only
  rw [if_neg (by rw [not_or, not_not, not_not]; exact ⟨by linarith, by linarith⟩)]
  by_cases c2 : s.tn ≤ time ∧ time < s.tnp1
  · rw [if_pos c2]; exact ⟨_, rfl⟩
  · rw [if_neg c2]
    have hs' : f.times.Pairwise (· ≤ ·) := hs.imp fun h => h.le
    obtain ⟨c1, c2, _⟩ := closest_index_spec hs' time tol
    have h0' : f.times[0]? = some t0 := by rw [← List.head?_eq_getElem?]; exact h0
    have hlm : tl ∈ f.times := List.mem_of_getLast? hl
    have key : ∃ r t1 t2, closestIndex f.times time tol = some r ∧ f.times[r]? = some t1 ∧ f.times[r + 1]? = some t2 ∧
        t1 ≤ time + tol ∧ time ≤ t2 + tol := by
      rcases lt_or_eq_of_le h2 with h2 | rfl
      · obtain ⟨r, hr1, y, hy⟩ := c1 ⟨tl, hlm, h2⟩
        rcases hy with ⟨hr0, hy, hlt⟩ | ⟨z, hy, hz, hle, hlt⟩
        · rw [h0'] at hy
          injection hy with hy
          rw [← hy] at hlt
          exact absurd h1 (not_le.mpr hlt)
        · exact ⟨r, y, z, hr1, hy, hz, by linarith, by linarith⟩
      · obtain ⟨r, hr1, y, hy⟩ := c2 (getLast_mem_le hs hl) ⟨time, hlm, by linarith⟩
        rcases hy with ⟨hr0, hy, hlt⟩ | ⟨z, hy, hz, hle, hlt⟩
        · subst hr0
          have hy2 : f.times[0 + 1]? = some f.times[1] := List.getElem?_eq_getElem (by omega)
          have := times_mono hs hy hy2 (by omega)
          exact ⟨0, y, _, hr1, hy, hy2, by rw [h0'] at hy; injection hy with hy; linarith, by linarith⟩
        · exact ⟨r, y, z, hr1, hy, hz, by linarith, by linarith⟩
    obtain ⟨r, t1, t2, e1, e2, e3, e4, e5⟩ := key
    rw [e1]
    simp only
    rw [e2, e3]
    simp only
    rw [if_neg (by rw [not_or, not_not, not_not]; exact ⟨e4, e5⟩)]
    exact ⟨_, rfl⟩

theorem held_init (f : File K) (a b c : K) : Held f (St.init a b c) := Or.inl ⟨rfl, rfl⟩

/-- C94. In any run, after any sequence of reads within the record times, the inflow is the interpolation at the last
target time. -/
theorem run_between {f : File K} {tol t0 tl : K} (hs : f.times.Pairwise (· < ·)) (ht : 0 < tol) (hg : Gaps f tol)
    (h0 : f.times.head? = some t0) (hl : f.times.getLast? = some tl) (ts : List K) (t : K)
    (hts : ∀ x ∈ ts ++ [t], t0 ≤ x ∧ x ≤ tl) {a b c : K} {s' : St K}
    (hr : reads f tol (St.init a b c) (ts ++ [t]) = some s') : s'.tinterp = t ∧ Between f t s'.interp := by
  have gen : ∀ (l : List K) (s : St K), Held f s → (∀ x ∈ l ++ [t], t0 ≤ x ∧ x ≤ tl) →
      reads f tol s (l ++ [t]) = some s' → s'.tinterp = t ∧ Between f t s'.interp := by
    intro l
    induction l with
    | nil =>
      intro s h hx hr
      have e : reads f tol s ([] ++ [t]) = (readFile f tol s t).bind fun s' => some s' := rfl
      rw [e] at hr
      cases h1 : readFile f tol s t with
      | none => rw [h1] at hr; cases hr
      | some s1 =>
        rw [h1] at hr
        injection hr with hr
        subst hr
        have hx' := hx t (by simp)
        have := read_between hs ht hg h h0 hl hx'.1 hx'.2 h1
        exact ⟨this.2.1, this.2.2.1⟩
    | cons x l ih =>
      intro s h hx hr
      have e : reads f tol s (x :: l ++ [t]) = (readFile f tol s x).bind fun s' => reads f tol s' (l ++ [t]) := rfl
      rw [e] at hr
      cases h1 : readFile f tol s x with
      | none => rw [h1] at hr; cases hr
      | some s1 =>
        rw [h1] at hr
        exact ih s1 (read_step h h1).1 (fun y hy => hx y (List.mem_cons_of_mem _ hy)) hr
  exact gen ts _ (held_init f a b c) hts hr

/-- C94. The cells take the interpolated value just when it was interpolated at the asked time (to the tolerance); the
first of the two checks never stops a run. -/
theorem populate_spec {tol time : K} {s : St K} (ht : 0 ≤ tol) (h : s.tn ≤ s.tnp1) :
    populate tol s time = if |time - s.tinterp| < tol then some s.interp else none := by
  unfold populate
  have : ¬ (¬ s.tn ≤ time + tol ∧ ¬ time ≤ s.tnp1 + tol) := by
    rintro ⟨h1, h2⟩
    have h1 := not_le.mp h1
    have h2 := not_le.mp h2
    linarith
  rw [if_neg this]
  by_cases h' : |time - s.tinterp| < tol
  · rw [if_neg (not_not.mpr h'), if_pos h']
  · rw [if_pos h', if_neg h']

/-- A file with a single record cannot be read at its own time. -/
theorem single_record {t v tol : K} {s : St K} (ht : 0 < tol) (h : ¬ (s.tn ≤ t ∧ t < s.tnp1)) :
    readFile ⟨[t], fun _ => v⟩ tol s t = none := by
  unfold readFile
  have hc : closestIndex [t] t tol = some 0 := by
    unfold closestIndex
    simp [List.findIdx_cons, ht]
  simp only [List.head?_cons, List.getLast?_singleton]
  rw [if_neg (by rw [not_or, not_not, not_not]; exact ⟨by linarith, by linarith⟩), if_neg h, hc]
  rfl

/-! ## C94: the recorded times -/

/-- C94. With increasing times the records are those of the steps the interval divides, from the start time on, in
increasing order. -/
theorem recorded_spec {freq : ℤ} (hf : freq ≠ 0) (start tol : K) {steps : List (ℤ × K)}
    (hs : (steps.map Prod.snd).Pairwise (· < ·)) :
    ∃ l, recorded freq start tol steps = some l ∧ l.Pairwise (· < ·) ∧
      ∀ t, t ∈ l ↔ ∃ n, (n, t) ∈ steps ∧ freq ∣ n ∧ start - tol ≤ t := by
  unfold recorded
  rw [if_neg hf]
  refine ⟨_, rfl, ?_, fun t => ?_⟩
  · exact hs.sublist ((List.filter_sublist).map _)
  · rw [List.mem_map]
    constructor
    · rintro ⟨⟨n, t'⟩, h, rfl⟩
      obtain ⟨h1, h2⟩ := List.mem_filter.mp h
      rw [Bool.and_eq_true, decide_eq_true_iff, decide_eq_true_iff] at h2
      exact ⟨n, h1, Int.dvd_of_tmod_eq_zero h2.1, not_lt.mp h2.2⟩
    · rintro ⟨n, h1, h2, h3⟩
      refine ⟨(n, t), List.mem_filter.mpr ⟨h1, ?_⟩, rfl⟩
      rw [Bool.and_eq_true, decide_eq_true_iff, decide_eq_true_iff]
      exact ⟨Int.tmod_eq_zero_of_dvd h2, not_lt.mpr h3⟩

end time

/-! The hypotheses are met and the reads of two half steps and a step give the expected numbers. -/

/-- Three records. -/
def exFile : File ℚ := ⟨[0, 1, 3], fun i => [10, 20, 40].getD i 0⟩

example : (reads exFile (1 / 100) (St.init 0 0 0) [1 / 2, 1, 2, 3]).map (fun s => (s.tinterp, s.interp)) = some (3, 40) ∧
    (reads exFile (1 / 100) (St.init 0 0 0) [1 / 2, 1, 2]).map (fun s => (s.tinterp, s.interp)) = some (2, 30) ∧
    recorded 2 1 (1 / 100) [(0, (0 : ℚ)), (1, 1), (2, 2), (3, 3), (4, 4)] = some [2, 4] := by decide +kernel

example : Gaps exFile (1 / 100) := by
  intro idx t1 t2 h1 h2
  rcases idx with _ | _ | idx
  · injection h1 with h1; injection h2 with h2
    rw [← h1, ← h2]; norm_num
  · injection h1 with h1; injection h2 with h2
    rw [← h1, ← h2]; norm_num
  · cases idx <;> cases h2

section space
variable {K : Type*} [Field K]

/-! ## C94: the recorded value -/

/-- C94. The native format records on both sides the mean of the last cell inside and the first ghost cell. -/
theorem native_face [CharZero K] (f : ℤ → K) (nn : ℤ) :
    nativeFace f nn .low = (f 0 + f (-1)) / 2 ∧ nativeFace f nn .high = (f (nn - 1) + f nn) / 2 := by
  unfold nativeFace offset
  constructor
  · show 1 / 2 * (f (-1) + f (-1 + 1)) = _
    rw [show (-1 : ℤ) + 1 = 0 by norm_num]; ring
  · show 1 / 2 * (f nn + f (nn + -1)) = _
    rw [← sub_eq_add_neg]; ring

/-- C94. NetCDF records the same on the low side. On the high side it takes the mean of the first two ghost cells and no
cell inside. -/
theorem netcdf_face [CharZero K] (f : ℤ → K) (nn : ℤ) :
    netcdfFace f nn .low = nativeFace f nn .low ∧ netcdfFace f nn .high = (f nn + f (nn + 1)) / 2 := by
  unfold netcdfFace nativeFace offset
  constructor
  · show 1 / 2 * (f 0 + f (0 - 1)) = 1 / 2 * (f (-1) + f (-1 + 1))
    rw [show (-1 : ℤ) + 1 = 0 by norm_num, show (0 : ℤ) - 1 = -1 by norm_num]; ring
  · show 1 / 2 * (f nn + f (nn - -1)) = _
    rw [sub_neg_eq_add]; ring

/-- C94 is false of NetCDF planes on the high side: for the linear field `f i = i` on four cells with its linear
continuation the face value is 7/2, recorded is 9/2. -/
theorem netcdf_high_wrong : nativeFace (fun i : ℤ => (i : ℚ)) 4 .high = 7 / 2 ∧
    netcdfFace (fun i : ℤ => (i : ℚ)) 4 .high = 9 / 2 := by decide +kernel

/-! ## C94: the layout of the NetCDF variable -/

/-- The patch holds the cell. -/
def Patch.Has (p : Patch) (i j : ℤ) : Prop := p.lo0 ≤ i ∧ i ≤ p.hi0 ∧ p.lo1 ≤ j ∧ j ≤ p.hi1

theorem assign_get {α β : Type*} [DecidableEq α] {a : α} {b : β} : ∀ (l : List (α × β)) (m : α → Option β),
    (∀ w ∈ l, w.1 = a → w.2 = b) → ((∃ w ∈ l, w.1 = a) ∨ m a = some b) → assign l m a = some b := by
  intro l
  induction l with
  | nil =>
    intro m _ h
    rcases h with ⟨w, hw, _⟩ | h
    · cases hw
    · exact h
  | cons w l ih =>
    intro m hc h
    have e : assign (w :: l) m = assign l (Function.update m w.1 (some w.2)) := rfl
    rw [e]
    apply ih _ (fun w' hw' => hc w' (List.mem_cons_of_mem _ hw'))
    by_cases hw : w.1 = a
    · right
      rw [← hw, Function.update_self, hc w List.mem_cons_self hw]
    · rcases h with ⟨w', hw', e'⟩ | h
      · rcases List.mem_cons.mp hw' with rfl | hw'
        · exact absurd e' hw
        · exact Or.inl ⟨w', hw', e'⟩
      · right
        rw [Function.update_of_ne (Ne.symm hw), h]

theorem flat_inj {a a' b b' w : ℤ} (hb : 0 ≤ b) (hb' : b < w) (hc : 0 ≤ b') (hc' : b' < w) (h : a * w + b = a' * w + b') :
    a = a' ∧ b = b' := by
  have hw : w ≠ 0 := by omega
  have e1 : (a * w + b) / w = a := by
    rw [add_comm, Int.add_mul_ediv_right _ _ hw, Int.ediv_eq_zero_of_lt hb hb', zero_add]
  have e2 : (a' * w + b') / w = a' := by
    rw [add_comm, Int.add_mul_ediv_right _ _ hw, Int.ediv_eq_zero_of_lt hc hc', zero_add]
  have e : a = a' := by rw [← e1, h, e2]
  subst e
  exact ⟨rfl, by omega⟩

theorem irange_mem {lo hi i : ℤ} : i ∈ irange lo hi ↔ lo ≤ i ∧ i ≤ hi := by
  unfold irange
  rw [List.mem_map]
  constructor
  · rintro ⟨n, hn, rfl⟩
    have := List.mem_range.mp hn
    omega
  · rintro ⟨h1, h2⟩
    exact ⟨(i - lo).toNat, List.mem_range.mpr (by omega), by omega⟩

/-- The buffer of a patch holds each value of the patch. -/
theorem buffer_get {p : Patch} {nc : ℕ} (v : ℤ → ℤ → ℕ → K) {i j : ℤ} (h : p.Has i j) {n : ℕ} (hn : n < nc) :
    bufferOf p nc v (((i - p.lo0) * (p.hi1 - p.lo1 + 1) + (j - p.lo1)) * nc + n) = some (v i j n) := by
  obtain ⟨h1, h2, h3, h4⟩ := h
  unfold bufferOf
  apply assign_get
  · intro w hw e
    obtain ⟨i', hi', hw⟩ := List.mem_flatMap.mp hw
    obtain ⟨j', hj', hw⟩ := List.mem_flatMap.mp hw
    obtain ⟨n', hn', rfl⟩ := List.mem_map.mp hw
    have hi' := irange_mem.mp hi'
    have hj' := irange_mem.mp hj'
    have hn' := List.mem_range.mp hn'
    simp only at e ⊢
    obtain ⟨e1, e2⟩ := flat_inj (by positivity) (by exact_mod_cast hn') (by positivity) (by exact_mod_cast hn) e
    obtain ⟨e3, e4⟩ := flat_inj (by omega) (by omega) (by omega) (by omega) e1
    have e5 : i' = i := by omega
    have e6 : j' = j := by omega
    have e7 : n' = n := by exact_mod_cast e2
    rw [e5, e6, e7]
  · left
    exact ⟨_, List.mem_flatMap.mpr ⟨i, irange_mem.mpr ⟨h1, h2⟩, List.mem_flatMap.mpr ⟨j, irange_mem.mpr ⟨h3, h4⟩,
      List.mem_map.mpr ⟨n, List.mem_range.mpr hn, rfl⟩⟩⟩, rfl⟩

/-- The file holds at each position the value of the cell that is as far from `min_lo`. -/
theorem write_get {big : ℤ} {ps : List Patch} {nc : ℕ} (v : ℤ → ℤ → ℕ → K) {i j : ℤ} {n : ℕ} (hn : n < nc) :
    ((∃ p ∈ ps, p.Has i j) →
      writeData big ps nc v (i - (minLo big ps).1, j - (minLo big ps).2, n) = some (v i j n)) ∧
    ((¬ ∃ p ∈ ps, p.Has i j) → writeData big ps nc v (i - (minLo big ps).1, j - (minLo big ps).2, n) = none) := by
  unfold writeData
  generalize minLo big ps = m
  have gen : ∀ (l : List Patch) (file : ℤ × ℤ × ℕ → Option K),
      ((∃ p ∈ l, p.Has i j) → (l.foldl (fun file p => putBlock file (bufferOf p nc v) (p.lo0 - m.1) (p.lo1 - m.2)
        (p.hi0 - p.lo0 + 1) (p.hi1 - p.lo1 + 1) nc) file) (i - m.1, j - m.2, n) = some (v i j n)) ∧
      ((¬ ∃ p ∈ l, p.Has i j) → (l.foldl (fun file p => putBlock file (bufferOf p nc v) (p.lo0 - m.1) (p.lo1 - m.2)
        (p.hi0 - p.lo0 + 1) (p.hi1 - p.lo1 + 1) nc) file) (i - m.1, j - m.2, n) = file (i - m.1, j - m.2, n)) := by
    intro l
    induction l with
    | nil =>
      intro file
      refine ⟨?_, fun _ => rfl⟩
      rintro ⟨p, hp, _⟩
      cases hp
    | cons q l ih =>
      intro file
      rw [List.foldl_cons]
      obtain ⟨a1, a2⟩ := ih (putBlock file (bufferOf q nc v) (q.lo0 - m.1) (q.lo1 - m.2) (q.hi0 - q.lo0 + 1)
        (q.hi1 - q.lo1 + 1) nc)
      have hq : q.Has i j → putBlock file (bufferOf q nc v) (q.lo0 - m.1) (q.lo1 - m.2) (q.hi0 - q.lo0 + 1)
          (q.hi1 - q.lo1 + 1) nc (i - m.1, j - m.2, n) = some (v i j n) := by
        intro h
        have h' := h
        obtain ⟨h1, h2, h3, h4⟩ := h'
        unfold putBlock
        rw [if_pos (by dsimp only; exact ⟨by omega, by omega, by omega, by omega, hn⟩)]
        rw [← buffer_get v h hn]
        congr 2
        simp only
        rw [show i - m.1 - (q.lo0 - m.1) = i - q.lo0 by ring, show j - m.2 - (q.lo1 - m.2) = j - q.lo1 by ring]
      have hq' : ¬ q.Has i j → putBlock file (bufferOf q nc v) (q.lo0 - m.1) (q.lo1 - m.2) (q.hi0 - q.lo0 + 1)
          (q.hi1 - q.lo1 + 1) nc (i - m.1, j - m.2, n) = file (i - m.1, j - m.2, n) := by
        intro h
        unfold putBlock
        rw [if_neg]
        rintro ⟨h1, h2, h3, h4, _⟩
        exact h ⟨by simp only at h1; omega, by simp only at h2; omega, by simp only at h3; omega, by simp only at h4; omega⟩
      constructor
      · rintro ⟨p, hp, hh⟩
        by_cases hl : ∃ p ∈ l, p.Has i j
        · exact a1 hl
        · rw [a2 hl]
          rcases List.mem_cons.mp hp with rfl | hp
          · exact hq hh
          · exact absurd ⟨p, hp, hh⟩ hl
      · intro h
        rw [a2 fun ⟨p, hp, hh⟩ => h ⟨p, List.mem_cons_of_mem _ hp, hh⟩]
        exact hq' fun hh => h ⟨q, List.mem_cons_self, hh⟩
  exact gen ps _

/-- C94. Reading back what was written: a cell gets the value of the cell shifted by the difference between the corner of
the patches on the boundary and the corner of the level, or nothing if that is on no patch. -/
theorem netcdf_read {big : ℤ} {ps : List Patch} {nc : ℕ} (v : ℤ → ℤ → ℕ → K) (b : Patch) {i j : ℤ} {n : ℕ} (hn : n < nc) :
    let i' := i + ((minLo big ps).1 - b.lo0)
    let j' := j + ((minLo big ps).2 - b.lo1)
    ((∃ p ∈ ps, p.Has i' j') → readData (writeData big ps nc v) b i j n = some (v i' j' n)) ∧
      ((¬ ∃ p ∈ ps, p.Has i' j') → readData (writeData big ps nc v) b i j n = none) := by
  intro i' j'
  have h := write_get (big := big) (ps := ps) v (i := i') (j := j') hn
  unfold readData
  rw [show i - b.lo0 = i' - (minLo big ps).1 by simp only [i']; ring,
    show j - b.lo1 = j' - (minLo big ps).2 by simp only [j']; ring]
  exact h

/-- C94. If the patches on the boundary reach the low corner of the level every cell gets its own value. -/
theorem netcdf_read_partial {big : ℤ} {ps : List Patch} {nc : ℕ} (v : ℤ → ℤ → ℕ → K) {b : Patch}
    (hb : minLo big ps = (b.lo0, b.lo1)) {i j : ℤ} {n : ℕ} (hn : n < nc) (h : ∃ p ∈ ps, p.Has i j) :
    readData (writeData big ps nc v) b i j n = some (v i j n) := by
  have := (netcdf_read (big := big) (ps := ps) v b (i := i) (j := j) hn).1
  rw [hb] at this
  simp only [sub_self, add_zero] at this
  exact this h

/-- C94 is false of the layout otherwise: a level with one patch on the boundary at rows 8 to 15 and another, away from the
boundary, at rows 0 to 7: the corner of the level is row 0, row 8 reads nothing, and row 0 reads the value of row 8. -/
theorem netcdf_read_wrong :
    let v : ℤ → ℤ → ℕ → ℚ := fun i _ _ => i
    let file := writeData 1000 [⟨8, 15, 0, 3⟩] 1 v
    readData file ⟨0, 15, 0, 3⟩ 8 0 0 = none ∧ readData file ⟨0, 15, 0, 3⟩ 0 0 0 = some 8 := by
  decide +kernel

/-- The condition is met by a level of two patches side by side. -/
example : minLo 1000 [⟨0, 7, 0, 3⟩, ⟨8, 15, 0, 3⟩] = (0, 0) ∧ (⟨8, 15, 0, 3⟩ : Patch).Has 9 2 := by
  refine ⟨by decide, ?_⟩
  unfold Patch.Has
  decide

end space

end AmrWind.Bndry
