import Mathlib.Data.Rat.Defs
import Mathlib.Algebra.Order.Ring.Rat
import Mathlib.Data.List.Sort
import Mathlib.Data.String.Basic
import Mathlib.Tactic.NormNum
import Mathlib.Tactic.FieldSimp
import Mathlib.Tactic.Positivity
import Verif.Phys.SmallModel

/-!
# Theorems on the small modules of a run
-/

set_option linter.unusedSectionVars false

namespace AmrWind.Small

open AmrWind.Les (Cell84 Eps width)

section Names
variable {α : Type*} [LinearOrder α]

theorem mem_setInsert (x z : α) (s : List α) : z ∈ setInsert x s ↔ z = x ∨ z ∈ s := by
  induction s with
  | nil => simp [setInsert]
  | cons y t ih =>
    unfold setInsert
    by_cases h1 : x < y
    · rw [if_pos h1]; simp
    · rw [if_neg h1]
      by_cases h2 : x = y
      · subst h2
        rw [if_pos rfl]
        simp
      · rw [if_neg h2, List.mem_cons, ih, List.mem_cons]
        tauto

theorem mem_insertAll (l : List α) : ∀ (s : List α) (z : α), z ∈ insertAll l s ↔ z ∈ l ∨ z ∈ s := by
  induction l with
  | nil => intro s z; simp [insertAll]
  | cons x t ih =>
    intro s z
    have h := ih (setInsert x s) z
    unfold insertAll at h ⊢
    rw [List.foldl_cons, h, mem_setInsert, List.mem_cons]
    tauto

theorem sorted_setInsert (x : α) (s : List α) (h : s.Pairwise (· < ·)) : (setInsert x s).Pairwise (· < ·) := by
  induction s with
  | nil => simp [setInsert]
  | cons y t ih =>
    obtain ⟨hy, ht⟩ := List.pairwise_cons.mp h
    unfold setInsert
    by_cases h1 : x < y
    · rw [if_pos h1]
      refine List.pairwise_cons.mpr ⟨fun z hz => ?_, h⟩
      rcases List.mem_cons.mp hz with e | e
      · exact e ▸ h1
      · exact h1.trans (hy z e)
    · rw [if_neg h1]
      by_cases h2 : x = y
      · rw [if_pos h2]; exact h
      · rw [if_neg h2]
        refine List.pairwise_cons.mpr ⟨fun z hz => ?_, ih ht⟩
        rcases (mem_setInsert x z t).mp hz with e | e
        · exact e ▸ lt_of_le_of_ne (not_lt.mp h1) (fun e => h2 e.symm)
        · exact hy z e

theorem sorted_insertAll (l : List α) : ∀ s : List α, s.Pairwise (· < ·) → (insertAll l s).Pairwise (· < ·) := by
  induction l with
  | nil => intro s h; exact h
  | cons x t ih => intro s h; exact ih _ (sorted_setInsert x s h)

theorem queryarr_added (d : List (String × List α)) (key : String) (v : List α) : queryarr (d ++ [(key, v)]) key = v := by
  simp [queryarr]

theorem queryarr_other (d : List (String × List α)) {key k : String} (hk : k ≠ key) (v : List α) :
    queryarr (d ++ [(key, v)]) k = queryarr d k := by
  unfold queryarr
  rw [List.reverse_append, List.reverse_singleton, List.singleton_append, List.find?_cons_of_neg]
  simpa using fun e => hk e.symm

/-- C124. **The sources of a turbulence model are added to those of the user.** Whatever the user asked for and whatever the model
needs, the list read afterwards has exactly the terms of the two. With a list of the user each is there once, in the order of the
names; without one the list is the model's. No other list of the inputs changes. -/
theorem sources_merged (key : String) (terms : List α) (d : List (String × List α)) :
    (∀ n, n ∈ queryarr (inject key terms d) key ↔ n ∈ queryarr d key ∨ n ∈ terms) ∧
    (queryarr d key ≠ [] → (queryarr (inject key terms d) key).Pairwise (· < ·)) ∧
    (queryarr d key = [] → queryarr (inject key terms d) key = terms) ∧
    (∀ k, k ≠ key → queryarr (inject key terms d) k = queryarr d k) := by
  unfold inject
  dsimp only
  by_cases h : queryarr d key = []
  · rw [if_pos h]
    refine ⟨fun n => ?_, fun hn => absurd h hn, fun _ => queryarr_added d key terms, fun k hk => queryarr_other d hk _⟩
    rw [queryarr_added, h]
    simp
  · rw [if_neg h]
    refine ⟨fun n => ?_, fun _ => ?_, fun hn => absurd hn h, fun k hk => queryarr_other d hk _⟩
    · rw [queryarr_added, mem_insertAll, mem_insertAll]
      simp only [List.not_mem_nil, or_false]
      tauto
    · rw [queryarr_added]
      exact sorted_insertAll _ _ (sorted_insertAll _ _ List.Pairwise.nil)

/-- C124. Asking for the same terms once more changes nothing: the list has the same members. -/
theorem sources_once (key : String) (terms : List α) (d : List (String × List α)) (n : α) :
    n ∈ queryarr (inject key terms (inject key terms d)) key ↔ n ∈ queryarr (inject key terms d) key := by
  rw [(sources_merged key terms (inject key terms d)).1, (sources_merged key terms d).1]
  tauto

/-- A term of the user that the user lists twice is applied once when the model adds its own, and so is one the model needs too. -/
example : queryarr (inject "TKE" ["KsgsM84Src"] [("TKE", ["Zed", "KsgsM84Src", "Abc", "Zed"]), ("ICNS", ["x"])]) "TKE" =
    ["Abc", "KsgsM84Src", "Zed"] := by decide +kernel

theorem freeStream_fold (exist : α → Bool) (listed : List α) : ∀ s : List α, s.Pairwise (· < ·) →
    ((∃ n ∈ listed, n ∉ s ∧ exist n = false) → listed.foldl (fun s n => s.bind fun s => if n ∈ s then some s else
      if exist n then some (setInsert n s) else none) (some s) = none) ∧
    ((∀ n ∈ listed, n ∈ s ∨ exist n = true) → ∃ r, listed.foldl (fun s n => s.bind fun s => if n ∈ s then some s else
      if exist n then some (setInsert n s) else none) (some s) = some r ∧ r.Pairwise (· < ·) ∧
      ∀ z, z ∈ r ↔ z ∈ s ∨ z ∈ listed) := by
  have hn : ∀ l : List α, l.foldl (fun s n => s.bind fun s => if n ∈ s then some s else
      if exist n then some (setInsert n s) else none) none = none := by
    intro l
    induction l with
    | nil => rfl
    | cons x t ih => exact ih
  induction listed with
  | nil => intro s hs; exact ⟨fun ⟨n, h, _⟩ => by simp at h, fun _ => ⟨s, rfl, hs, fun z => by simp⟩⟩
  | cons x t ih =>
    intro s hs
    rw [List.foldl_cons]
    by_cases hx : x ∈ s
    · have e : ((some s).bind fun s => if x ∈ s then some s else if exist x then some (setInsert x s) else none) = some s :=
        if_pos hx
      rw [e]
      obtain ⟨h1, h2⟩ := ih s hs
      refine ⟨fun ⟨n, hm, hq, he⟩ => ?_, fun h => ?_⟩
      · rcases List.mem_cons.mp hm with r | r
        · exact absurd (r ▸ hx) hq
        · exact h1 ⟨n, r, hq, he⟩
      · obtain ⟨r, hr, hp, hz⟩ := h2 fun n hm => h n (List.mem_cons_of_mem _ hm)
        refine ⟨r, hr, hp, fun z => ?_⟩
        rw [hz, List.mem_cons]
        constructor
        · tauto
        · rintro (a | a | a)
          · exact Or.inl a
          · exact Or.inl (a ▸ hx)
          · exact Or.inr a
    · by_cases he : exist x = true
      · have e : ((some s).bind fun s => if x ∈ s then some s else if exist x then some (setInsert x s) else none) =
            some (setInsert x s) := by
          rw [Option.bind_some, if_neg hx, if_pos he]
        rw [e]
        obtain ⟨h1, h2⟩ := ih _ (sorted_setInsert x s hs)
        refine ⟨fun ⟨n, hm, hq, hf⟩ => ?_, fun h => ?_⟩
        · rcases List.mem_cons.mp hm with r | r
          · rw [r, he] at hf; simp at hf
          · refine h1 ⟨n, r, fun hh => ?_, hf⟩
            rcases (mem_setInsert x n s).mp hh with a | a
            · rw [a, he] at hf; simp at hf
            · exact hq a
        · obtain ⟨r, hr, hp, hz⟩ := h2 fun n hm => by
            rcases h n (List.mem_cons_of_mem _ hm) with a | a
            · exact Or.inl ((mem_setInsert x n s).mpr (Or.inr a))
            · exact Or.inr a
          refine ⟨r, hr, hp, fun z => ?_⟩
          rw [hz, mem_setInsert, List.mem_cons]
          tauto
      · have e : ((some s).bind fun s => if x ∈ s then some s else if exist x then some (setInsert x s) else none) = none := by
          rw [Option.bind_some, if_neg hx, if_neg he]
        rw [e, hn]
        refine ⟨fun _ => rfl, fun h => ?_⟩
        rcases h x (List.mem_cons_self ..) with a | a
        · exact absurd a hx
        · exact absurd a he

/-- C124. **A free stream initialises density, velocity, every transported scalar and the fields listed, each once.** It stops
exactly when a listed field is none of these and does not exist. Every field initialised has the value of its own function and every
other field keeps its value. -/
theorem free_stream {V : Type*} (density velocity : α) (scalars listed : List α) (exist : α → Bool) (udf : α → V) (f : α → V) :
    (freeStream density velocity scalars listed exist = none ↔
      ∃ n ∈ listed, n ≠ density ∧ n ≠ velocity ∧ n ∉ scalars ∧ exist n = false) ∧
    ∀ names, freeStream density velocity scalars listed exist = some names → names.Nodup ∧
      (∀ n, n ∈ names ↔ n = density ∨ n = velocity ∨ n ∈ scalars ∨ n ∈ listed) ∧
      ∀ n, initialise udf names f n = if n = density ∨ n = velocity ∨ n ∈ scalars ∨ n ∈ listed then udf n else f n := by
  have hs : (insertAll scalars (setInsert velocity (setInsert density ([] : List α)))).Pairwise (· < ·) :=
    sorted_insertAll _ _ (sorted_setInsert _ _ (sorted_setInsert _ _ List.Pairwise.nil))
  have hm : ∀ z, z ∈ insertAll scalars (setInsert velocity (setInsert density ([] : List α))) ↔
      z ∈ scalars ∨ z = velocity ∨ z = density := by
    intro z
    rw [mem_insertAll, mem_setInsert, mem_setInsert]
    simp
  obtain ⟨h1, h2⟩ := freeStream_fold exist listed _ hs
  have hin : ∀ (l : List α) (f : α → V) n, initialise udf l f n = if n ∈ l then udf n else f n := by
    intro l
    induction l with
    | nil => intro f n; simp [initialise]
    | cons x t ih =>
      intro f n
      have e : initialise udf (x :: t) f = initialise udf t (Function.update f x (udf x)) := rfl
      rw [e, ih]
      by_cases ht : n ∈ t
      · rw [if_pos ht, if_pos (List.mem_cons_of_mem _ ht)]
      · rw [if_neg ht]
        by_cases hx : n = x
        · subst hx
          rw [Function.update_self, if_pos (List.mem_cons_self ..)]
        · rw [Function.update_of_ne hx, if_neg]
          rw [List.mem_cons]
          tauto
  by_cases h : ∃ n ∈ listed, n ∉ insertAll scalars (setInsert velocity (setInsert density ([] : List α))) ∧ exist n = false
  · have hn := h1 h
    refine ⟨⟨fun _ => ?_, fun _ => hn⟩, fun names hh => ?_⟩
    · obtain ⟨n, a, b, c⟩ := h
      rw [hm] at b
      exact ⟨n, a, by tauto, by tauto, by tauto, c⟩
    · exact absurd (hn.symm.trans hh) (by simp)
  · have h' : ∀ n ∈ listed, n ∈ insertAll scalars (setInsert velocity (setInsert density ([] : List α))) ∨ exist n = true := by
      intro n hn
      by_cases a : n ∈ insertAll scalars (setInsert velocity (setInsert density ([] : List α)))
      · exact Or.inl a
      · exact Or.inr (by
          by_contra hc
          exact h ⟨n, hn, a, by simpa using hc⟩)
    obtain ⟨r, hr, hp, hz⟩ := h2 h'
    refine ⟨⟨fun hn => absurd (hr.symm.trans hn) (by simp), fun ⟨n, a, b, c, d, e⟩ => ?_⟩, fun names hh => ?_⟩
    · exact absurd ⟨n, a, fun hh => by rw [hm] at hh; tauto, e⟩ h
    · have e : names = r := Option.some.inj (hh.symm.trans hr)
      subst e
      have hmem : ∀ n, n ∈ names ↔ n = density ∨ n = velocity ∨ n ∈ scalars ∨ n ∈ listed := by
        intro n
        rw [hz, hm]
        tauto
      refine ⟨hp.imp (fun h => ne_of_lt h), hmem, fun n => ?_⟩
      rw [hin]
      by_cases hc : n ∈ names
      · rw [if_pos hc, if_pos ((hmem n).mp hc)]
      · rw [if_neg hc, if_neg (fun x => hc ((hmem n).mpr x))]

example : freeStream "density" "velocity" ["temperature", "density"] ["velocity", "mu", "mu"] (fun n => n = "mu") =
    some ["density", "mu", "temperature", "velocity"] := by decide +kernel
example : freeStream "density" "velocity" [] ["sigma"] (fun _ => false) = none := by decide +kernel

end Names

section Cells
variable {K : Type*} [Field K] [LinearOrder K] [IsStrictOrderedRing K]

/-! ## The tracer that marks turbines -/

/-- C124. **The tracer is one where the force of the turbines exceeds the threshold and is left alone elsewhere.**

Partial (C124). Missing: overset cells, which are never marked (`overset_not_marked`). -/
theorem tracer_marks_partial (c : TagCfg K) (hc : 0 ≤ c.threshold) (s : Fin 3 → K) (ib : ℤ) (t : K) :
    (∀ m : K, 0 ≤ m → m ^ 2 = s 0 ^ 2 + s 1 ^ 2 + s 2 ^ 2 →
      tagCell c (true, false) s ib t = if c.threshold < m then 1 else t) ∧
    tagCell c (true, false) s ib (tagCell c (true, false) s ib t) = tagCell c (true, false) s ib t := by
  constructor
  · intro m hm he
    have hiff : (c.threshold < 0 ∨ c.threshold * c.threshold < s 0 * s 0 + s 1 * s 1 + s 2 * s 2) ↔ c.threshold < m := by
      have e : s 0 * s 0 + s 1 * s 1 + s 2 * s 2 = m * m := by
        have : m * m = m ^ 2 := by ring
        rw [this, he]; ring
      rw [e]
      constructor
      · rintro (h | h)
        · exact absurd h (not_lt.mpr hc)
        · exact lt_of_mul_self_lt_mul_self₀ hm h
      · intro h
        exact Or.inr (mul_self_lt_mul_self hc h)
    unfold tagCell
    by_cases h : c.threshold < m
    · simp [h, hiff.mpr h]
    · have h' := mt hiff.mp h
      simp [h, h']
  · unfold tagCell
    simp only [Bool.not_true, Bool.not_false, Bool.false_and, Bool.false_eq_true, false_and, if_false, true_and]
    split <;> simp_all

/-- C124. **The overset cells are never marked.** The blanking is a field of integers and the module looks for it among the fields of
reals: with any repository whose real fields do not have that name, whatever its integer fields, the tracer of a cell does not depend
on the blanking, though fringe cells are to be marked by default; and without turbines nothing is ever marked. -/
theorem overset_not_marked (c : TagCfg K) (r : Repo) (hr : "iblank_cell" ∉ r.real) (s : Fin 3 → K) (ib ib' : ℤ) (t : K) :
    ∃ has, tagInit r = some has ∧ tagCell c has s ib t = tagCell c has s ib' t ∧
      ("actuator_src_term" ∉ r.real → tagCell c has s ib t = t) := by
  refine ⟨(r.fieldExists "actuator_src_term", false), ?_, ?_, fun h => ?_⟩
  · simp [tagInit, Repo.fieldExists, hr]
  · simp [tagCell]
  · simp [tagCell, Repo.fieldExists, h]

/-- What the module is written for, had the field been found: fringe and hole cells are marked as asked for. -/
theorem overset_marks (c : TagCfg K) (s : Fin 3 → K) (ib : ℤ) (t : K) :
    tagCell c (false, true) s ib t = if (c.fringe = true ∧ ib = -1) ∨ (c.hole = true ∧ ib = 0) then 1 else t := by
  simp [tagCell]

example : tagInit ⟨["velocity", "actuator_src_term"], ["iblank_cell"]⟩ = some (true, false) := by decide +kernel
example : tagCell (⟨1 / 10, true, false⟩ : TagCfg ℚ) (true, false) ![0, 3, 4] (-1) 0 = 1 := by
  decide +kernel

/-! ## Random perturbations of temperature -/

/-- C124. **Temperature is perturbed every so many steps.** With a positive interval the source changes only at steps that are
positive multiples of it. An interval of zero divides by zero. -/
theorem perturbed_when (p : Pert K) (index : ℤ) :
    (p.steps = 0 → active p index = none) ∧
    (0 < p.steps → (active p index = some true ↔ ∃ n : ℤ, 0 < n ∧ index = n * p.steps)) ∧
    (p.steps ≠ 0 → (∀ n : ℤ, 0 < n → index ≠ n * |p.steps|) → ∀ c draw src, perturb p index c draw src = some src) := by
  have hact : p.steps ≠ 0 → active p index = some (index.tmod p.steps = 0 && 0 < index) := fun h => if_neg h
  have hdvd : index.tmod p.steps = 0 ↔ p.steps ∣ index := Int.dvd_iff_tmod_eq_zero.symm
  refine ⟨fun h => if_pos h, fun h => ?_, fun h hn c draw src => ?_⟩
  · rw [hact h.ne']
    constructor
    · intro hh
      have hh' : index.tmod p.steps = 0 ∧ 0 < index := by simpa using hh
      obtain ⟨k, hk⟩ := hdvd.mp hh'.1
      refine ⟨k, ?_, by rw [hk]; ring⟩
      have := hh'.2
      rw [hk] at this
      exact (mul_pos_iff_of_pos_left h).mp this
    · rintro ⟨n, hn, rfl⟩
      have h1 : (n * p.steps).tmod p.steps = 0 := hdvd.mpr (Dvd.intro_left n rfl)
      have h2 : 0 < n * p.steps := mul_pos hn h
      simp [h1, h2]
  · have hf : (decide (index.tmod p.steps = 0) && decide (0 < index)) = false := by
      by_contra hc
      have hc' : index.tmod p.steps = 0 ∧ 0 < index := by simpa using hc
      obtain ⟨k, hk⟩ := (abs_dvd _ _).mpr (hdvd.mp hc'.1)
      refine hn k ?_ (by rw [hk]; ring)
      have := hc'.2
      rw [hk] at this
      exact (mul_pos_iff_of_pos_left (abs_pos.mpr h)).mp this
    unfold perturb
    rw [hact h, hf]
    rfl

/-- C124. **Where and how much.** At a step that perturbs, the source of a cell grows by the amplitude times its random number if its
point, at the height above the terrain, lies in the box, not at all inside the terrain, and not at all outside of the box.

Partial (C124). Missing: the first level, which is ignored (`start_level_ignored`). -/
theorem perturbed_where_partial (p : Pert K) (index : ℤ) (ha : active p index = some true) (b : (Fin 3 → K) × (Fin 3 → K)) (hb : p.box = some b)
    (c : PCell K) (draw src : K) :
    (c.terrain = none → perturb p index c draw src =
      some (if ∀ d, b.1 d ≤ point c d ∧ point c d ≤ b.2 d then src + p.amplitude * draw else src)) ∧
    (∀ h, c.terrain = some (h, 0) → perturb p index c draw src =
      some (if ∀ d, b.1 d ≤ point c d ∧ point c d ≤ b.2 d then src + p.amplitude * draw else src)) ∧
    (∀ h, c.terrain = some (h, 1) → perturb p index c draw src = some src) := by
  have e : perturb p index c draw src = some (if ∀ d, b.1 d ≤ point c d ∧ point c d ≤ b.2 d then
      src + (1 - (((c.terrain.map Prod.snd).getD 0 : ℤ) : K)) * (p.amplitude * draw) else src) := by
    unfold perturb inBox
    rw [ha, Option.bind_some, hb]
    simp
  refine ⟨fun h => ?_, fun h hh => ?_, fun h hh => ?_⟩
  · rw [e, h]; simp
  · rw [e, hh]; simp
  · rw [e, hh]; simp

/-- C124. The point has the height of the centre above the terrain wherever that is at least half a cell. -/
theorem perturbed_height (c : PCell K) (h : K) (bl : ℤ) (ht : c.terrain = some (h, bl)) :
    (1 / 2 * c.dx 2 ≤ c.lo 2 + (c.idx 2 + 1 / 2) * c.dx 2 - h → point c 2 = c.lo 2 + (c.idx 2 + 1 / 2) * c.dx 2 - h) ∧
    1 / 2 * c.dx 2 ≤ point c 2 := by
  have e : point c 2 = max (c.lo 2 + (c.idx 2 + 1 / 2) * c.dx 2 - h) (1 / 2 * c.dx 2) := by simp [point, ht]
  rw [e]
  exact ⟨fun hh => max_eq_left hh, le_max_right _ _⟩

/-- C124. **The first level of the perturbations is ignored.** `start_level` is read and changes nothing: cells of every level are
perturbed alike. -/
theorem start_level_ignored (p : Pert K) (l lev : ℤ) (index : ℤ) (c : PCell K) (draw src : K) :
    perturb { p with startLevel := l } index { c with lev := lev } draw src = perturb p index c draw src := rfl

/-- C124. **The two sources of a step are not the same.** The prediction of the faces uses other random numbers than the update: the
two sources of a cell differ by the amplitude times the difference of the numbers. -/
theorem perturbed_twice (p : Pert K) (index : ℤ) (ha : active p index = some true) (b : (Fin 3 → K) × (Fin 3 → K)) (hb : p.box = some b)
    (c : PCell K) (hc : c.terrain = none) (hin : ∀ d, b.1 d ≤ point c d ∧ point c d ≤ b.2 d) (draws : ℕ → K) (src : K) :
    ∃ u v, twoCalls p index c draws src = some (u, v) ∧ u - v = p.amplitude * (draws 0 - draws 1) ∧
      (p.amplitude ≠ 0 → draws 0 ≠ draws 1 → u ≠ v) := by
  have h0 := (perturbed_where_partial p index ha b hb c (draws 0) src).1 hc
  have h1 := (perturbed_where_partial p index ha b hb c (draws 1) src).1 hc
  rw [if_pos hin] at h0 h1
  refine ⟨src + p.amplitude * draws 0, src + p.amplitude * draws 1, ?_, ?_, ?_⟩
  · unfold twoCalls
    rw [h0, h1]
    rfl
  · ring
  · intro hA hd he
    have : p.amplitude * (draws 0 - draws 1) = 0 := by linear_combination he
    rcases mul_eq_zero.mp this with h | h
    · exact hA h
    · exact hd (sub_eq_zero.mp h)

/-- C124. Without a box in the inputs the first step that perturbs reads vectors that are empty. -/
theorem no_box (p : Pert K) (index : ℤ) (ha : active p index = some true) (hb : p.box = none) (c : PCell K) (draw src : K) :
    perturb p index c draw src = none := by
  unfold perturb
  rw [ha, Option.bind_some, hb]
  rfl

/-- Ten steps apart, in the box from the origin to (4, 4, 2). -/
def exPert : Pert ℚ := ⟨some (![0, 0, 0], ![4, 4, 2]), 10, 1, 1 / 2⟩

/-- A cell over terrain of height three. -/
def exCell : PCell ℚ := ⟨0, ![0, 0, 0], ![1, 1, 1], ![1, 2, 4], some (3, 0)⟩

example : active exPert 30 = some true ∧ active exPert 31 = some false ∧ active exPert 0 = some false := by decide +kernel
example : perturb exPert 30 exCell (1 / 5) 7 = some (71 / 10) := by decide +kernel
example : perturb exPert 30 { exCell with idx := ![1, 2, 7] } (1 / 5) 7 = some 7 := by decide +kernel
example : perturb { exPert with box := none } 30 exCell (1 / 5) 7 = none := by decide +kernel
example : twoCalls exPert 30 { exCell with terrain := none, idx := ![1, 2, 1] } (fun n => n) 7 = some (7, 15 / 2) := by decide +kernel

end Cells

/-! ## Hybrid runs -/

/-- C124. **The dissipation rate handed to a RANS model gives back the viscosity of the LES model where the air is not stably
stratified, and a larger one where it is.** With `omega` the stored rate of a cell, density times energy over `omega` is the eddy
viscosity there, and never less. -/
theorem hybrid_viscosity (eps : Eps) (c : Cell84) (dx dy dz : ℝ) (hds : c.ds = width dx dy dz) (hd : 0 < c.ds) (hC : 0 < c.Ce)
    (hr : 0 < c.rho) (hk : 0 < c.tke) :
    0 < hybridRate c.Ce c.tke dx dy dz ∧
    (c.strat ≤ eps.1 * 1000000 → c.rho * c.tke / hybridRate c.Ce c.tke dx dy dz = c.muT eps) ∧
    c.muT eps ≤ c.rho * c.tke / hybridRate c.Ce c.tke dx dy dz := by
  have hs : 0 < Real.sqrt c.tke := Real.sqrt_pos.mpr hk
  have hw : hybridRate c.Ce c.tke dx dy dz = Real.sqrt c.tke / (c.Ce * c.ds) := by
    unfold hybridRate
    rw [hds]
    rfl
  have hq : c.rho * c.tke / hybridRate c.Ce c.tke dx dy dz = c.rho * c.Ce * c.ds * Real.sqrt c.tke := by
    rw [hw]
    have h2 : Real.sqrt c.tke * Real.sqrt c.tke = c.tke := Real.mul_self_sqrt hk.le
    rw [div_eq_iff (by positivity)]
    field_simp
    rw [sq]; exact h2.symm
  have hl : c.lscale eps ≤ c.ds := by
    unfold Cell84.lscale
    split
    · exact min_le_left _ _
    · exact le_refl _
  refine ⟨by rw [hw]; positivity, fun h => ?_, ?_⟩
  · rw [hq]
    unfold Cell84.muT Cell84.lscale
    rw [if_neg (not_lt.mpr h)]
  · rw [hq]
    unfold Cell84.muT
    have : c.rho * c.Ce * c.lscale eps ≤ c.rho * c.Ce * c.ds := mul_le_mul_of_nonneg_left hl (by positivity)
    exact mul_le_mul_of_nonneg_right this hs.le

/-- A cell in neutral air with unit spacing meets the hypotheses. -/
example : ∃ c : Cell84, c.ds = width 1 1 1 ∧ 0 < c.ds ∧ 0 < c.Ce ∧ 0 < c.rho ∧ 0 < c.tke ∧ c.strat ≤ 1 * 1000000 := by
  refine ⟨⟨1, 1 / 10, 0, fun _ => 0, fun _ => 0, 1 / 2, 1, ⟨0, 0, 0, 0, 0, 0, 0, 0, 0⟩⟩, ?_, ?_, ?_, ?_, ?_, ?_⟩ <;> norm_num [width, Cell84.strat]

end AmrWind.Small
