import Verif.Actuator.WindIOModel
import Mathlib.Algebra.BigOperators.Fin
import Mathlib.Data.List.Forall2
import Mathlib.Tactic.Ring
import Mathlib.Tactic.Linarith
import Mathlib.Tactic.FieldSimp
import Mathlib.Tactic.NormNum

/-!
# The structure of a turbine is that of its description
-/

set_option linter.unusedSectionVars false

namespace AmrWind.Wio

variable {K : Type*} [Field K] [LinearOrder K] [IsStrictOrderedRing K]

/-! ## Specification -/

/-- The table has value `v` at place `g`. -/
def Tab.Gives (t : Tab K) (g v : K) : Prop := ∃ i : ℕ, t.grid[i]? = some g ∧ t.values[i]? = some v

/-- Every place of the table has a value. -/
def Tab.Complete (t : Tab K) : Prop := t.values.length = t.grid.length

/-- A particle: mass and place. -/
structure Particle (K : Type*) where
  mu : K
  x : K
  y : K
  z : K

/-- Twice the kinetic energy of particles that move with a body whose origin has speed `v 0, v 1, v 2` and which turns with `v 3, v 4, v 5`:
the speed of each is that of the origin plus the cross product of turning and place. -/
def twiceEnergy (body : List (Particle K)) (v : Fin 6 → K) : K :=
  (body.map fun p => p.mu * ((v 0 + (v 4 * p.z - v 5 * p.y)) ^ 2 + (v 1 + (v 5 * p.x - v 3 * p.z)) ^ 2 +
    (v 2 + (v 3 * p.y - v 4 * p.x)) ^ 2)).sum

/-- Sum of a quantity over the particles of a body. -/
def total (body : List (Particle K)) (f : Particle K → K) : K := (body.map fun p => p.mu * f p).sum

/-! ## Lists -/

theorem mapM_iff {α β : Type*} {f : α → Option β} : ∀ {l : List α} {r : List β},
    l.mapM f = some r ↔ List.Forall₂ (fun a b => f a = some b) l r
  | [], r => by simp [eq_comm]
  | a :: l, r => by
    rw [List.mapM_cons]
    cases ha : f a with
    | none =>
      simp only [Option.bind_eq_bind, Option.bind_none, reduceCtorEq, false_iff]
      intro h
      cases h with
      | cons h1 _ => rw [ha] at h1; cases h1
    | some b =>
      simp only [Option.bind_eq_bind, Option.bind_some, Option.pure_def]
      constructor
      · intro h
        rw [Option.bind_eq_some_iff] at h
        obtain ⟨s, hs, he⟩ := h
        injection he with he
        rw [← he]
        exact List.Forall₂.cons ha (mapM_iff.mp hs)
      · intro h
        cases h with
        | cons h1 h2 =>
          rw [ha] at h1
          injection h1 with h1
          rw [mapM_iff.mpr h2, h1]
          rfl

theorem mapM_range_iff {β : Type*} {f : ℕ → Option β} {n : ℕ} {r : List β} :
    (List.range n).mapM f = some r ↔ r.length = n ∧ ∀ i < n, f i = r[i]? := by
  rw [mapM_iff, List.forall₂_iff_get]
  simp only [List.length_range, List.get_eq_getElem, List.getElem_range]
  constructor
  · rintro ⟨h, h2⟩
    refine ⟨h.symm, fun i hi => ?_⟩
    rw [h2 i hi (h ▸ hi), List.getElem?_eq_getElem]
  · rintro ⟨h, h2⟩
    refine ⟨h.symm, fun i hi hi' => ?_⟩
    rw [h2 i hi, List.getElem?_eq_getElem]

theorem mapM_range_total {β : Type*} {f : ℕ → Option β} {n : ℕ} (h : ∀ i < n, ∃ b, f i = some b) :
    ∃ r, (List.range n).mapM f = some r := by
  have key : ∀ l : List ℕ, (∀ i ∈ l, ∃ b, f i = some b) → ∃ r, l.mapM f = some r := by
    intro l
    induction l with
    | nil => intro _; exact ⟨[], rfl⟩
    | cons a l ih =>
      intro hl
      obtain ⟨b, hb⟩ := hl a (by simp)
      obtain ⟨r, hr⟩ := ih fun i hi => hl i (List.mem_cons_of_mem _ hi)
      exact ⟨b :: r, by rw [List.mapM_cons, hb, hr]; rfl⟩
  exact key _ fun i hi => h i (List.mem_range.mp hi)

/-! ## Axes -/

/-- What is read, place by place. -/
theorem axis_iff {x y z : Tab K} {l : List (K × K × K × K)} : axisPoints x y z = some l ↔ l.length = x.grid.length ∧
    ∀ i (h : i < l.length), x.grid[i]? = some l[i].1 ∧ x.values[i]? = some l[i].2.1 ∧ y.values[i]? = some l[i].2.2.1 ∧
      z.values[i]? = some l[i].2.2.2 := by
  rw [axisPoints, mapM_range_iff]
  refine and_congr_right fun hl => ?_
  rw [← hl]
  refine forall_congr' fun i => forall_congr' fun h => ?_
  rw [List.getElem?_eq_getElem h]
  generalize l[i] = q
  obtain ⟨g, a, b, c⟩ := q
  simp only [Option.bind_eq_bind, Option.bind_eq_some_iff, Option.some.injEq, Prod.mk.injEq]
  constructor
  · rintro ⟨_, h1, _, h2, _, h3, _, h4, rfl, rfl, rfl, rfl⟩
    exact ⟨h1, h2, h3, h4⟩
  · rintro ⟨h1, h2, h3, h4⟩
    exact ⟨_, h1, _, h2, _, h3, _, h4, rfl, rfl, rfl, rfl⟩

/-- Where the three coordinates are given at the same places, the axis of a blade or of the tower goes through the points of the file: a
point for each place, with the coordinates the file has there. Missing: coordinates given at other places. -/
theorem axis_partial {x y z : Tab K} (hx : x.Complete) (hy : y.Complete) (hz : z.Complete) (hxy : y.grid = x.grid) (hxz : z.grid = x.grid) :
    ∃ l, axisPoints x y z = some l ∧ l.map Prod.fst = x.grid ∧
      ∀ p ∈ l, x.Gives p.1 p.2.1 ∧ y.Gives p.1 p.2.2.1 ∧ z.Gives p.1 p.2.2.2 := by
  have hx' : x.values.length = x.grid.length := hx
  have hy' : y.values.length = x.grid.length := hxy ▸ hy
  have hz' : z.values.length = x.grid.length := hxz ▸ hz
  obtain ⟨l, hl⟩ : ∃ l, axisPoints x y z = some l := by
    refine mapM_range_total fun i hi => ?_
    refine ⟨(x.grid[i], x.values[i], y.values[i], z.values[i]), ?_⟩
    rw [List.getElem?_eq_getElem hi, List.getElem?_eq_getElem (by omega : i < x.values.length),
      List.getElem?_eq_getElem (by omega : i < y.values.length), List.getElem?_eq_getElem (by omega : i < z.values.length)]
    rfl
  obtain ⟨h1, h2⟩ := axis_iff.mp hl
  refine ⟨l, hl, ?_, fun p hp => ?_⟩
  · refine List.ext_getElem (by simpa using h1) fun i hi hi' => ?_
    have hil : i < l.length := by simpa using hi
    have := (h2 i hil).1
    rw [List.getElem?_eq_getElem hi'] at this
    simpa using (Option.some.inj this).symm
  · obtain ⟨i, hi, rfl⟩ := List.mem_iff_getElem.mp hp
    obtain ⟨e1, e2, e3, e4⟩ := h2 i hi
    exact ⟨⟨i, e1, e2⟩, ⟨i, hxy ▸ e1, e3⟩, ⟨i, hxz ▸ e1, e4⟩⟩

/-- The axis is read within its lists just if each has a value for every place of `x`. -/
theorem axis_defined_iff {x y z : Tab K} : (∃ l, axisPoints x y z = some l) ↔ x.grid.length ≤ x.values.length ∧
    x.grid.length ≤ y.values.length ∧ x.grid.length ≤ z.values.length := by
  constructor
  · rintro ⟨l, hl⟩
    obtain ⟨h1, h2⟩ := axis_iff.mp hl
    rcases Nat.eq_zero_or_pos x.grid.length with h0 | h0
    · omega
    · obtain ⟨_, e2, e3, e4⟩ := h2 (x.grid.length - 1) (by omega)
      have k2 := (List.getElem?_eq_some_iff.mp e2).1
      have k3 := (List.getElem?_eq_some_iff.mp e3).1
      have k4 := (List.getElem?_eq_some_iff.mp e4).1
      omega
  · rintro ⟨hx, hy, hz⟩
    refine mapM_range_total fun i hi => ⟨(x.grid[i], x.values[i], y.values[i], z.values[i]), ?_⟩
    rw [List.getElem?_eq_getElem hi, List.getElem?_eq_getElem (by omega : i < x.values.length),
      List.getElem?_eq_getElem (by omega : i < y.values.length), List.getElem?_eq_getElem (by omega : i < z.values.length)]
    rfl

/-- False of the code: "the axis is that of the file". Take a blade that is straight in `x` and `y`, given there at its two ends, and along
its length given at three or more places: every table is complete, yet the blade ends at the second place of its length, wherever the
tip is. -/
theorem axis_cut (a b c : K) (g v : List K) (_hz : (⟨0 :: g, a :: b :: v⟩ : Tab K).Complete) :
    axisPoints ⟨[0, 1], [c, c]⟩ ⟨[0, 1], [c, c]⟩ ⟨0 :: g, a :: b :: v⟩ = some [(0, c, c, a), (1, c, c, b)] := by
  rfl

/-- The foot of the tower is the first point of its axis. -/
theorem tower_base {x y z : Tab K} {p : K × K × K × K} {l : List (K × K × K × K)} (h : axisPoints x y z = some (p :: l)) :
    towerBase x y z = some p.2 := by
  obtain ⟨_, e2, e3, e4⟩ := (axis_iff.mp h).2 0 (by simp)
  rw [towerBase, e2, e3, e4]
  rfl

example : axisPoints ⟨[(0 : ℚ), 1 / 2, 1], [0, 0, 1]⟩ ⟨[0, 1 / 2, 1], [0, 0, 2]⟩ ⟨[0, 1 / 2, 1], [0, 30, 60]⟩ =
    some [(0, 0, 0, 0), (1 / 2, 0, 0, 30), (1, 1, 2, 60)] := by decide +kernel

/-- A blade of 60 m given at three places of its length ends at 30 m. -/
example : axisPoints ⟨[(0 : ℚ), 1], [0, 0]⟩ ⟨[0, 1], [0, 0]⟩ ⟨[0, 1 / 2, 1], [0, 30, 60]⟩ =
    some [(0, 0, 0, 0), (1, 0, 0, 30)] := by decide +kernel

example : (⟨[0, 1 / 2, 1], [0, 30, 60]⟩ : Tab ℚ).Complete ∧ axisPoints ⟨[(0 : ℚ), 1], [0, 0]⟩ ⟨[0, 1], [0, 0]⟩ ⟨[0], [60]⟩ = none :=
  ⟨rfl, by decide +kernel⟩

/-! ## Twist -/

/-- Half a turn of twist in the file is half a turn the other way round for the solver, at the places of the file. -/
theorem twist_points {t : Tab ℝ} (h : t.Complete) : ∃ l, twistPoints t = some l ∧ l.map Prod.fst = t.grid ∧
    ∀ p ∈ l, ∃ v, t.Gives p.1 v ∧ p.2 * 180 = -(v * Real.pi) := by
  have h' : t.values.length = t.grid.length := h
  obtain ⟨l, hl⟩ : ∃ l, twistPoints t = some l := by
    refine mapM_range_total fun i hi => ⟨(t.grid[i], -t.values[i] * Real.pi / 180), ?_⟩
    rw [List.getElem?_eq_getElem hi, List.getElem?_eq_getElem (by omega : i < t.values.length)]
    rfl
  obtain ⟨h1, h2⟩ := mapM_range_iff.mp hl
  have key : ∀ i (hi : i < l.length), ∃ v, t.grid[i]? = some l[i].1 ∧ t.values[i]? = some v ∧ l[i].2 = -v * Real.pi / 180 := by
    intro i hi
    have := h2 i (h1 ▸ hi)
    rw [List.getElem?_eq_getElem hi] at this
    generalize l[i] = q at *
    obtain ⟨g, w⟩ := q
    simp only [Option.bind_eq_bind, Option.bind_eq_some_iff, Option.some.injEq, Prod.mk.injEq] at this
    obtain ⟨_, e1, v, e2, rfl, rfl⟩ := this
    exact ⟨v, e1, e2, rfl⟩
  refine ⟨l, hl, ?_, fun p hp => ?_⟩
  · refine List.ext_getElem (by simpa using h1) fun i hi hi' => ?_
    obtain ⟨_, e1, _⟩ := key i (by simpa using hi)
    rw [List.getElem?_eq_getElem hi'] at e1
    simpa using (Option.some.inj e1).symm
  · obtain ⟨i, hi, rfl⟩ := List.mem_iff_getElem.mp hp
    obtain ⟨v, e1, e2, e3⟩ := key i hi
    exact ⟨v, ⟨i, e1, e2⟩, by rw [e3]; ring⟩

example : (⟨[0, 1], [15, -2]⟩ : Tab ℝ).Complete := rfl

/-! ## Tower -/

theorem tower_iff {d t : Tab K} {l : List (K × K × K)} : towerRows d t = some l ↔ l.length = d.grid.length ∧
    ∀ i (h : i < l.length), d.grid[i]? = some l[i].1 ∧ d.values[i]? = some l[i].2.1 ∧ t.values[i]? = some l[i].2.2 := by
  rw [towerRows, mapM_range_iff]
  refine and_congr_right fun hl => ?_
  rw [← hl]
  refine forall_congr' fun i => forall_congr' fun h => ?_
  rw [List.getElem?_eq_getElem h]
  generalize l[i] = q
  obtain ⟨g, a, b⟩ := q
  simp only [Option.bind_eq_bind, Option.bind_eq_some_iff, Option.some.injEq, Prod.mk.injEq]
  constructor
  · rintro ⟨_, h1, _, h2, _, h3, rfl, rfl, rfl⟩
    exact ⟨h1, h2, h3⟩
  · rintro ⟨h1, h2, h3⟩
    exact ⟨_, h1, _, h2, _, h3, rfl, rfl, rfl⟩

/-- Where diameter and thickness are given at the same places, each section of the tower has the diameter and the thickness of the file.
Missing: thickness given at other places. -/
theorem tower_partial {d t : Tab K} (hd : d.Complete) (ht : t.Complete) (hg : t.grid = d.grid) :
    ∃ l, towerRows d t = some l ∧ l.map Prod.fst = d.grid ∧ ∀ p ∈ l, d.Gives p.1 p.2.1 ∧ t.Gives p.1 p.2.2 := by
  have hd' : d.values.length = d.grid.length := hd
  have ht' : t.values.length = d.grid.length := hg ▸ ht
  obtain ⟨l, hl⟩ : ∃ l, towerRows d t = some l := by
    refine mapM_range_total fun i hi => ⟨(d.grid[i], d.values[i], t.values[i]), ?_⟩
    rw [List.getElem?_eq_getElem hi, List.getElem?_eq_getElem (by omega : i < d.values.length),
      List.getElem?_eq_getElem (by omega : i < t.values.length)]
    rfl
  obtain ⟨h1, h2⟩ := tower_iff.mp hl
  refine ⟨l, hl, ?_, fun p hp => ?_⟩
  · refine List.ext_getElem (by simpa using h1) fun i hi hi' => ?_
    have hil : i < l.length := by simpa using hi
    have := (h2 i hil).1
    rw [List.getElem?_eq_getElem hi'] at this
    simpa using (Option.some.inj this).symm
  · obtain ⟨i, hi, rfl⟩ := List.mem_iff_getElem.mp hp
    obtain ⟨e1, e2, e3⟩ := h2 i hi
    exact ⟨⟨i, e1, e2⟩, ⟨i, hg ▸ e1, e3⟩⟩

/-- False of the code: "the wall of the tower has the thickness of the file". A tower with diameters at foot, middle and top: a
thickness given at three other places is taken at those of the diameter (first part), a thickness given at the two ends is read beyond
its end (second part). -/
theorem tower_thickness_wrong (d0 d1 d2 t0 t1 t2 s : K) (_hs : s ≠ 1 / 2) (ht : t1 ≠ t0) (ht2 : t1 ≠ t2) :
    (∃ l, towerRows ⟨[0, 1 / 2, 1], [d0, d1, d2]⟩ ⟨[0, s, 1], [t0, t1, t2]⟩ = some l ∧ (1 / 2, d1, t1) ∈ l ∧
      ∀ g, (⟨[0, s, 1], [t0, t1, t2]⟩ : Tab K).Gives g t1 → g = s) ∧
    towerRows ⟨[0, 1 / 2, 1], [d0, d1, d2]⟩ ⟨[0, 1], [t0, t2]⟩ = none := by
  refine ⟨⟨[(0, d0, t0), (1 / 2, d1, t1), (1, d2, t2)], rfl, by simp, ?_⟩, rfl⟩
  rintro g ⟨i, e1, e2⟩
  match i, e1, e2 with
  | 0, _, e2 => exact absurd (by simpa using e2) (Ne.symm ht)
  | 1, e1, _ => simpa using e1.symm
  | 2, _, e2 => exact absurd (by simpa using e2) (Ne.symm ht2)
  | i + 3, e1, _ => simp at e1

example : towerRows ⟨[(0 : ℚ), 1 / 2, 1], [10, 8, 6]⟩ ⟨[0, 1 / 4, 1], [1 / 10, 1 / 20, 1 / 25]⟩ =
    some [(0, 10, 1 / 10), (1 / 2, 8, 1 / 20), (1, 6, 1 / 25)] := by decide +kernel

/-! ## Polars -/

/-- Where the three coefficients of an airfoil are given at the same angles, the solver gets at each angle of the file the coefficients of
the file. Missing: angles of drag or moment that differ from those of lift. -/
theorem polars_partial {cl cd cm : Tab ℝ} (hl : cl.Complete) (hd : cd.Complete) (hm : cm.Complete) (h1 : cd.grid = cl.grid)
    (h2 : cm.grid = cl.grid) (i : ℕ) (a : ℝ) (ha : (polars cl cd cm).1[i]? = some a) : ∃ deg l d m, a * 180 = deg * Real.pi ∧
      (polars cl cd cm).2.1[i]? = some l ∧ (polars cl cd cm).2.2.1[i]? = some d ∧ (polars cl cd cm).2.2.2[i]? = some m ∧
      cl.Gives deg l ∧ cd.Gives deg d ∧ cm.Gives deg m := by
  have hl' : cl.values.length = cl.grid.length := hl
  have hd' : cd.values.length = cl.grid.length := h1 ▸ hd
  have hm' : cm.values.length = cl.grid.length := h2 ▸ hm
  simp only [polars, List.getElem?_map, Option.map_eq_some_iff] at ha ⊢
  obtain ⟨deg, e, rfl⟩ := ha
  have hi := (List.getElem?_eq_some_iff.mp e).1
  refine ⟨deg, cl.values[i], cd.values[i], cm.values[i], by ring, List.getElem?_eq_getElem _, List.getElem?_eq_getElem _,
    List.getElem?_eq_getElem _, ⟨i, e, List.getElem?_eq_getElem _⟩, ⟨i, h1 ▸ e, List.getElem?_eq_getElem _⟩,
    ⟨i, h2 ▸ e, List.getElem?_eq_getElem _⟩⟩

/-- False of the code without that condition: drag given at angles `-180, 10, 180` is used at the angles `-180, 0, 180` of lift. -/
theorem polars_wrong (c d m : ℝ) : ∃ cl cd cm : Tab ℝ, cl.Complete ∧ cd.Complete ∧ cm.Complete ∧ cm.grid = cl.grid ∧
    (polars cl cd cm).1[1]? = some 0 ∧ (polars cl cd cm).2.2.1[1]? = some d ∧ (∀ v, ¬ cd.Gives 0 v) ∧ cd.Gives 10 d := by
  refine ⟨⟨[-180, 0, 180], [c, c, c]⟩, ⟨[-180, 10, 180], [d, d, d]⟩, ⟨[-180, 0, 180], [m, m, m]⟩, rfl, rfl, rfl, rfl, ?_, rfl, ?_,
    ⟨1, rfl, rfl⟩⟩
  · simp [polars]
  · rintro v ⟨i, e, _⟩
    match i, e with
    | 0, e => norm_num at e
    | 1, e => norm_num at e
    | 2, e => norm_num at e
    | i + 3, e => simp at e

/-! ## Sections of blades -/

/-- A blade is accepted just if masses and stiffnesses are given at the same places up to the tolerance and for all of them; every section
then has the mass and stiffness of one place of the file. -/
theorem blade_sections {tol : K} {kg mg : List K} {ms : List (Inertia K)} {ks : List (ℕ → ℕ → K)}
    {l : List (K × Matrix (Fin 6) (Fin 6) K × Matrix (Fin 6) (Fin 6) K)} : bladeSections tol kg mg ms ks = some l ↔
    mg.length = kg.length ∧ l.length = kg.length ∧ ∀ i (h : i < l.length), ∃ a m k, kg[i]? = some a ∧ mg[i]? = some l[i].1 ∧
      |l[i].1 - a| ≤ tol ∧ ms[i]? = some m ∧ ks[i]? = some k ∧ l[i].2.1 = m.mat ∧ l[i].2.2 = Kyn.stiffMat k := by
  rw [bladeSections]
  by_cases hg : mg.length = kg.length
  swap
  · rw [if_pos hg]; simp [hg]
  rw [if_neg (not_not_intro hg), mapM_range_iff]
  simp only [hg, true_and]
  refine and_congr_right fun hl => ?_
  rw [← hl]
  refine forall_congr' fun i => forall_congr' fun h => ?_
  rw [List.getElem?_eq_getElem h]
  generalize l[i] = q
  obtain ⟨g, a, b⟩ := q
  simp only [Option.bind_eq_bind, Option.bind_eq_some_iff]
  constructor
  · rintro ⟨b', h1, a', h2, h3⟩
    split_ifs at h3 with ht
    rw [Option.bind_eq_some_iff] at h3
    obtain ⟨m, h4, h5⟩ := h3
    rw [Option.bind_eq_some_iff] at h5
    obtain ⟨k, h6, h7⟩ := h5
    simp only [Option.some.injEq, Prod.mk.injEq] at h7
    obtain ⟨rfl, rfl, rfl⟩ := h7
    exact ⟨a', m, k, h2, h1, not_lt.mp ht, h4, h6, rfl, rfl⟩
  · rintro ⟨a', m, k, h1, h2, h3, h4, h5, rfl, rfl⟩
    refine ⟨g, h2, a', h1, ?_⟩
    rw [if_neg (not_lt.mpr h3), h4, h5]
    rfl

theorem total_expand (body : List (Particle K)) : ∀ v : Fin 6 → K, twiceEnergy body v =
    total body (fun _ => 1) * (v 0 ^ 2 + v 1 ^ 2 + v 2 ^ 2) +
    2 * (total body (fun p => p.z) * (v 0 * v 4 - v 1 * v 3) + total body (fun p => p.y) * (v 2 * v 3 - v 0 * v 5) +
      total body (fun p => p.x) * (v 1 * v 5 - v 2 * v 4)) +
    (total body (fun p => p.y ^ 2 + p.z ^ 2) * v 3 ^ 2 + total body (fun p => p.x ^ 2 + p.z ^ 2) * v 4 ^ 2 +
      total body (fun p => p.x ^ 2 + p.y ^ 2) * v 5 ^ 2) -
    2 * (total body (fun p => p.x * p.y) * (v 3 * v 4) + total body (fun p => p.x * p.z) * (v 3 * v 5) +
      total body (fun p => p.y * p.z) * (v 4 * v 5)) := by
  intro v
  induction body with
  | nil => simp [twiceEnergy, total]
  | cons p l ih =>
    simp only [twiceEnergy, total, List.map_cons, List.sum_cons] at ih ⊢
    rw [ih]
    ring

/-- The mass matrix of a section gives the kinetic energy of the material of the section: for any particles in the plane of the section
whose mass, centre and moments are those of the file, whatever the motion. -/
theorem section_energy (s : Inertia K) (body : List (Particle K)) (hz : ∀ p ∈ body, p.z = 0) (hm : total body (fun _ => 1) = s.mass)
    (hx : total body (fun p => p.x) = s.mass * s.cx) (hy : total body (fun p => p.y) = s.mass * s.cy)
    (he : total body (fun p => p.y ^ 2) = s.edge) (hf : total body (fun p => p.x ^ 2) = s.flap)
    (hp : total body (fun p => p.x * p.y) = s.cp) (hpl : total body (fun p => p.x ^ 2 + p.y ^ 2) = s.plr) (v : Fin 6 → K) :
    ∑ i, ∑ j, v i * s.mat i j * v j = twiceEnergy body v := by
  have t0 : ∀ f : Particle K → K, (∀ p ∈ body, f p = 0) → total body f = 0 := by
    intro f hf
    refine List.sum_eq_zero fun a ha => ?_
    obtain ⟨p, hp, rfl⟩ := List.mem_map.mp ha
    rw [hf p hp, mul_zero]
  have tc : ∀ f g : Particle K → K, (∀ p ∈ body, f p = g p) → total body f = total body g := by
    intro f g h
    rw [total, total]
    congr 1
    exact List.map_congr_left fun p hp => by rw [h p hp]
  rw [total_expand, hm, hx, hy, hpl, hp, t0 (fun p => p.z) hz, t0 (fun p => p.x * p.z) fun p h => by simp [hz p h],
    t0 (fun p => p.y * p.z) fun p h => by simp [hz p h], tc (fun p => p.y ^ 2 + p.z ^ 2) (fun p => p.y ^ 2) fun p h => by simp [hz p h],
    tc (fun p => p.x ^ 2 + p.z ^ 2) (fun p => p.x ^ 2) fun p h => by simp [hz p h], he, hf]
  simp [Fin.sum_univ_six, Inertia.mat, Kyn.massMat]
  ring

/-! ## Nacelle, yaw bearing and hub -/

/-- The numbers `I` are the moments of the body about its centre: three moments, then the three products with turned sign. -/
structure Moments (body : List (Particle K)) (m : K) (I : ℕ → K) : Prop where
  mass : total body (fun _ => 1) = m
  cx : total body (fun p => p.x) = 0
  cy : total body (fun p => p.y) = 0
  cz : total body (fun p => p.z) = 0
  xx : total body (fun p => p.y ^ 2 + p.z ^ 2) = I 0
  yy : total body (fun p => p.x ^ 2 + p.z ^ 2) = I 1
  zz : total body (fun p => p.x ^ 2 + p.y ^ 2) = I 2
  xy : total body (fun p => p.x * p.y) = -I 3
  xz : total body (fun p => p.x * p.z) = -I 4
  yz : total body (fun p => p.y * p.z) = -I 5

/-- The mass matrices of nacelle and hub give the kinetic energy of bodies with the moments of the file; the hub adds that of the generator,
which turns `ratio` times as fast about the axis of the rotor; the yaw bearing that of a body without products of inertia. -/
theorem bodies_energy (body : List (Particle K)) (m : K) (I : ℕ → K) (h : Moments body m I) (gen ratio : K) (v : Fin 6 → K) :
    ∑ i, ∑ j, v i * nacelleMass m I i j * v j = twiceEnergy body v ∧
    ∑ i, ∑ j, v i * Kyn.hubMat m I gen ratio i j * v j = twiceEnergy body v + gen * (ratio * v 3) ^ 2 ∧
    (I 3 = 0 → I 4 = 0 → I 5 = 0 → ∑ i, ∑ j, v i * yawMass m I i j * v j = twiceEnergy body v) := by
  rw [total_expand, h.mass, h.cx, h.cy, h.cz, h.xx, h.yy, h.zz, h.xy, h.xz, h.yz]
  refine ⟨?_, ?_, fun h3 h4 h5 => ?_⟩
  · simp [Fin.sum_univ_six, nacelleMass]; ring
  · simp [Fin.sum_univ_six, Kyn.hubMat]; ring
  · simp [Fin.sum_univ_six, yawMass, h3, h4, h5]; ring

/-- Two masses of 1 at `(1, 0)` and `(3, 2)`. -/
def pair : List (Particle ℚ) := [⟨1, 1, 0, 0⟩, ⟨1, 3, 2, 0⟩]

example : total pair (fun _ => 1) = 2 ∧ total pair (fun p => p.x) = 2 * 2 ∧ total pair (fun p => p.y) = 2 * 1 ∧
    total pair (fun p => p.y ^ 2) = 4 ∧ total pair (fun p => p.x ^ 2) = 10 ∧ total pair (fun p => p.x * p.y) = 6 ∧
    total pair (fun p => p.x ^ 2 + p.y ^ 2) = 14 ∧ (∀ p ∈ pair, p.z = 0) := by decide +kernel

example : Moments [⟨1, 1, 1, 0⟩, ⟨1, -1, -1, 0⟩] (2 : ℚ) (fun i => if i = 2 then 4 else if i = 3 then -2 else if 3 < i then 0 else 2) := by
  constructor <;> decide +kernel

example : (bladeSections (1 / 10 ^ 8 : ℚ) [0, 1] [0, 1] [⟨2, 2, 1, 6, 4, 10, 14⟩, ⟨2, 2, 1, 6, 4, 10, 14⟩]
    [fun _ _ => 1, fun _ _ => 2]).isSome = true := by decide +kernel

example : (bladeSections (1 / 10 ^ 8 : ℚ) [0, 1 / 2] [0, 1] [⟨2, 2, 1, 6, 4, 10, 14⟩, ⟨2, 2, 1, 6, 4, 10, 14⟩]
    [fun _ _ => 1, fun _ _ => 2]).isNone = true := by
  rw [Option.isNone_iff_eq_none, Option.eq_none_iff_forall_ne_some]
  intro l hl
  obtain ⟨_, h2, h3⟩ := blade_sections.mp hl
  obtain ⟨a, m, k, e1, e2, e3, _⟩ := h3 1 (by rw [h2]; decide)
  simp only [List.getElem?_cons_succ, List.getElem?_cons_zero, Option.some.injEq] at e1 e2
  rw [← e1, ← e2] at e3
  norm_num [abs_le] at e3

end AmrWind.Wio
