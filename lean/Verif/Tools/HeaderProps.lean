import Verif.Tools.HeaderModel
import Mathlib.Data.List.Nodup
import Mathlib.Tactic.IntervalCases

/-!
# Headers of boundary planes (C153)
-/

set_option linter.unusedSectionVars false

namespace AmrWind.Hscript

/-! ## Specification -/

/-- The digit of a side. -/
def side (o : ℕ) : Char := Char.ofNat (48 + o)

/-- The name of the file of a field on a side: `velocity_4_H`. -/
def fileName (f : List Char) (o : ℕ) : List Char := f ++ '_' :: side o :: '_' :: 'H' :: []

/-! ## Names -/

theorem splitU_ne (l : List Char) : splitU l ≠ [] := by
  cases l with
  | nil => simp [splitU]
  | cons c t =>
    rw [splitU]
    split_ifs
    · simp
    · split <;> simp

theorem splitU_append {f : List Char} (h : '_' ∉ f) (t : List Char) : splitU (f ++ '_' :: t) = f :: splitU t := by
  induction f with
  | nil => simp [splitU]
  | cons c f ih =>
    rw [List.mem_cons, not_or] at h
    rw [List.cons_append, splitU, if_neg (Ne.symm h.1), ih h.2]

theorem splitU_none {f : List Char} (h : '_' ∉ f) : splitU f = [f] := by
  induction f with
  | nil => rfl
  | cons c f ih =>
    rw [List.mem_cons, not_or] at h
    rw [splitU, if_neg (Ne.symm h.1), ih h.2]

/-- C153. **The field and the side are read from the name of a file**, if the name of the field has no underscore. -/
theorem parse_partial {f : List Char} (h : '_' ∉ f) {o : ℕ} (ho : o < 6) : parse (fileName f o) = some (f, o) := by
  have hs : splitU (side o :: '_' :: 'H' :: []) = [[side o], ['H']] := by
    interval_cases o <;> decide
  have hn : num? [side o] = some o := by
    interval_cases o <;> decide
  unfold parse fileName
  rw [splitU_append h, hs]
  simp only [hn, Option.map_some]

/-- C153. **For a field with an underscore in its name** what follows it is taken for the side: an exception if it is no number. -/
theorem underscore_wrong {a b : List Char} (ha : '_' ∉ a) (hb : '_' ∉ b) (o : ℕ) :
    parse (fileName (a ++ '_' :: b) o) = (num? b).map fun n => (a, n) := by
  unfold parse fileName
  rw [List.append_assoc, List.cons_append, splitU_append ha, splitU_append hb]

example : parse (fileName "mu_turb".toList 4) = none ∧ parse (fileName "velocity".toList 4) = some ("velocity".toList, 4) := by decide

/-! ## Paths -/

theorem replaceH_append : ∀ p : List Char, ¬ ['_', 'H'] <:+: p → replaceH (p ++ ['_', 'H']) = p
  | [], _ => by simp [replaceH]
  | [c], h => by
    rw [List.singleton_append, replaceH.eq_2]
    · simp [replaceH]
    · intro t h1 h2; simp at h2
  | c :: d :: t, h => by
    have hcd : ¬ (c = '_' ∧ d = 'H') := by
      rintro ⟨rfl, rfl⟩
      exact h ⟨[], t, rfl⟩
    have ih := replaceH_append (d :: t) fun hi => h (hi.trans (List.suffix_cons c (d :: t)).isInfix)
    rw [List.cons_append, replaceH.eq_2, ih]
    intro t' h1 h2
    rw [List.cons_append, List.cons.injEq] at h2
    exact hcd ⟨h1, h2.1⟩

theorem replaceH_length_le : ∀ p : List Char, (replaceH p).length ≤ p.length := by
  intro p
  induction p using replaceH.induct with
  | case1 t ih => rw [replaceH.eq_1]; simp only [List.length_cons]; omega
  | case2 c t h ih => rw [replaceH.eq_2 _ _ h]; simp only [List.length_cons]; omega
  | case3 => simp [replaceH]

theorem replaceH_short : ∀ p : List Char, ['_', 'H'] <:+: p → (replaceH p).length + 2 ≤ p.length := by
  intro p
  induction p using replaceH.induct with
  | case1 t ih =>
    intro _
    have := replaceH_length_le t
    rw [replaceH.eq_1]; simp only [List.length_cons]; omega
  | case2 c t h ih =>
    intro hi
    rw [replaceH.eq_2 _ _ h]
    rw [List.infix_cons_iff] at hi
    rcases hi with hp | hi
    · obtain ⟨s, hs⟩ := hp
      simp only [List.cons_append, List.nil_append, List.cons.injEq] at hs
      exact absurd hs.2.symm (h s hs.1.symm)
    · have := ih hi
      simp only [List.length_cons]; omega
  | case3 => intro hi; simp at hi

theorem replaceH_infix_append : ∀ p : List Char, (replaceH (p ++ ['_', 'H'])).length ≤ (replaceH p).length := by
  intro p
  induction p using replaceH.induct with
  | case1 t ih => simpa only [List.cons_append, replaceH.eq_1] using ih
  | case2 c t h ih =>
    cases t with
    | nil =>
      rw [List.singleton_append, replaceH.eq_2]
      · simp [replaceH]
      · intro t h1 h2; simp at h2
    | cons d t =>
      rw [List.cons_append, replaceH.eq_2, replaceH.eq_2 _ _ h]
      · simpa using ih
      · intro t' h1 h2
        rw [List.cons_append, List.cons.injEq] at h2
        exact h t h1 (by rw [h2.1])
  | case3 => simp [replaceH]

/-- C153. **The data of a plane is read from its own file just if the path has no `_H` before the end**: all are taken out. -/
theorem path_iff (p : List Char) : replaceH (p ++ ['_', 'H']) = p ↔ ¬ ['_', 'H'] <:+: p := by
  refine ⟨fun h hi => ?_, replaceH_append p⟩
  have h1 := replaceH_short p hi
  have h2 := replaceH_infix_append p
  rw [h] at h2
  omega

example : ¬ ['_', 'H'] <:+: "bndry/Level_0/velocity_4".toList ∧ replaceH "run_HR/velocity_4_H".toList = "runR/velocity_4".toList := by decide

/-! ## Headers -/

variable {D : Type*}

theorem loop_spec {there : List Char × ℕ → Bool} {overwrite : Bool} {data : List Char × ℕ → Option D} : ∀ {l : List (List Char × ℕ)}
    {w : List ((List Char × ℕ) × D)}, loop there overwrite data l = some w →
    (w.map Prod.fst).Sublist l ∧ ∀ x d, (x, d) ∈ w ↔ x ∈ l ∧ (there x = false ∨ overwrite = true) ∧ data x = some d
  | [], w, h => by
    rw [loop, Option.some.injEq] at h
    subst h
    simp
  | y :: l, w, h => by
    rw [loop] at h
    split_ifs at h with hc
    · obtain ⟨h1, h2⟩ := loop_spec h
      refine ⟨h1.trans (List.sublist_cons_self ..), fun x d => ?_⟩
      rw [h2, List.mem_cons]
      refine ⟨fun hh => ⟨Or.inr hh.1, hh.2⟩, fun hh => ⟨?_, hh.2⟩⟩
      rcases hh.1 with rfl | hx
      · simp only [Bool.and_eq_true, Bool.not_eq_true'] at hc
        rcases hh.2.1 with h3 | h3
        · rw [hc.1] at h3; simp at h3
        · rw [hc.2] at h3; simp at h3
      · exact hx
    · obtain ⟨d0, hd0, h⟩ := Option.bind_eq_some_iff.mp h
      obtain ⟨w', hw', rfl⟩ := Option.map_eq_some_iff.mp h
      obtain ⟨h1, h2⟩ := loop_spec hw'
      refine ⟨by rw [List.map_cons]; exact h1.cons_cons y, fun x d => ?_⟩
      rw [List.mem_cons, h2, List.mem_cons]
      constructor
      · rintro (e | hh)
        · rw [Prod.mk.injEq] at e
          obtain ⟨rfl, rfl⟩ := e
          refine ⟨Or.inl rfl, ?_, hd0⟩
          by_contra hn
          rw [not_or] at hn
          apply hc
          simpa using hn
        · exact ⟨Or.inr hh.1, hh.2⟩
      · rintro ⟨rfl | hx, h3, h4⟩
        · rw [hd0] at h4
          rw [Option.some.inj h4]
          exact Or.inl rfl
        · exact Or.inr ⟨hx, h3, h4⟩

theorem loop_some {there : List Char × ℕ → Bool} {overwrite : Bool} {data : List Char × ℕ → Option D} : ∀ {l : List (List Char × ℕ)},
    (∀ x ∈ l, (data x).isSome) → ∃ w, loop there overwrite data l = some w
  | [], _ => ⟨[], rfl⟩
  | y :: l, h => by
    obtain ⟨w, hw⟩ := loop_some (there := there) (overwrite := overwrite) fun x hx => h x (List.mem_cons_of_mem _ hx)
    obtain ⟨d, hd⟩ := Option.isSome_iff_exists.mp (h y (List.mem_cons_self ..))
    rw [loop, hw, hd]
    split_ifs
    · exact ⟨w, rfl⟩
    · exact ⟨_, rfl⟩

theorem loop_none {there : List Char × ℕ → Bool} {overwrite : Bool} {data : List Char × ℕ → Option D} {x : List Char × ℕ} (hd : data x = none)
    (ht : there x = false ∨ overwrite = true) : ∀ {l : List (List Char × ℕ)}, x ∈ l → loop there overwrite data l = none
  | [], h => by simp at h
  | y :: l, h => by
    rw [loop]
    rcases List.mem_cons.mp h with rfl | h
    · rw [if_neg, hd]; · rfl
      rcases ht with ht | ht <;> simp [ht]
    · rw [loop_none hd ht h]
      split_ifs
      · rfl
      · cases data y <;> rfl

theorem mapM_parse {planes : List (List Char × ℕ)} (hp : ∀ x ∈ planes, '_' ∉ x.1 ∧ x.2 < 6) :
    (planes.map fun x => fileName x.1 x.2).mapM parse = some planes := by
  induction planes with
  | nil => rfl
  | cons x l ih =>
    obtain ⟨h1, h2⟩ := hp x (List.mem_cons_self ..)
    rw [List.map_cons, List.mapM_cons, parse_partial h1 h2, ih fun y hy => hp y (List.mem_cons_of_mem _ hy)]
    rfl

/-- C153. **Each plane gets one header, with its data**, those that have one already only when asked to, if every field is on every side. -/
theorem headers_partial {planes : List (List Char × ℕ)} (hp : ∀ x ∈ planes, '_' ∉ x.1 ∧ x.2 < 6) (hall : ∀ x ∈ planes, ∀ y ∈ planes, (x.1, y.2) ∈ planes)
    (there : List Char × ℕ → Bool) (overwrite : Bool) {data : List Char × ℕ → Option D} (hd : ∀ x ∈ planes, (data x).isSome) :
    ∃ w, headers there overwrite data (planes.map fun x => fileName x.1 x.2) = some w ∧ (w.map Prod.fst).Nodup ∧
      ∀ x d, (x, d) ∈ w ↔ x ∈ planes ∧ (there x = false ∨ overwrite = true) ∧ data x = some d := by
  have hm : ∀ x : List Char × ℕ, x ∈ (planes.map Prod.fst).dedup ×ˢ (planes.map Prod.snd).dedup ↔ x ∈ planes := by
    rintro ⟨f, o⟩
    rw [List.mem_product, List.mem_dedup, List.mem_dedup, List.mem_map, List.mem_map]
    constructor
    · rintro ⟨⟨x, hx, rfl⟩, ⟨y, hy, rfl⟩⟩
      exact hall x hx y hy
    · intro h
      exact ⟨⟨_, h, rfl⟩, ⟨_, h, rfl⟩⟩
  obtain ⟨w, hw⟩ := loop_some (there := there) (overwrite := overwrite) (data := data) fun x hx => hd x ((hm x).mp hx)
  obtain ⟨h1, h2⟩ := loop_spec hw
  refine ⟨w, ?_, ?_, fun x d => ?_⟩
  · unfold headers
    rw [mapM_parse hp]
    exact hw
  · exact h1.nodup ((List.nodup_dedup _).product (List.nodup_dedup _))
  · rw [h2, hm]

/-- C153. **When a field is missing on a side that another one has, the script stops**, unless that header is there. -/
theorem missing_wrong {planes : List (List Char × ℕ)} (hp : ∀ x ∈ planes, '_' ∉ x.1 ∧ x.2 < 6) {x y : List Char × ℕ} (hx : x ∈ planes) (hy : y ∈ planes)
    {there : List Char × ℕ → Bool} {overwrite : Bool} {data : List Char × ℕ → Option D} (hd : data (x.1, y.2) = none)
    (ht : there (x.1, y.2) = false ∨ overwrite = true) : headers there overwrite data (planes.map fun x => fileName x.1 x.2) = none := by
  unfold headers
  rw [mapM_parse hp]
  refine loop_none hd ht ?_
  rw [List.mem_product, List.mem_dedup, List.mem_dedup]
  exact ⟨List.mem_map_of_mem hx, List.mem_map_of_mem hy⟩

/-- Velocity and temperature on two sides. -/
example : (∀ x ∈ [("velocity".toList, 0), ("velocity".toList, 4), ("temperature".toList, 0), ("temperature".toList, 4)], '_' ∉ x.1 ∧ x.2 < 6) ∧
    ∀ x ∈ [("velocity".toList, 0), ("velocity".toList, 4), ("temperature".toList, 0), ("temperature".toList, 4)],
    ∀ y ∈ [("velocity".toList, 0), ("velocity".toList, 4), ("temperature".toList, 0), ("temperature".toList, 4)],
      (x.1, y.2) ∈ [("velocity".toList, 0), ("velocity".toList, 4), ("temperature".toList, 0), ("temperature".toList, 4)] := by decide

/-! ## Times -/

/-- C153. **The time of a header is that of its step**, when the table has it once. -/
theorem time_partial {T : Type*} {table : List (ℕ × T)} (h : (table.map Prod.fst).Nodup) {step : ℕ} {t : T} :
    timeOf table step = some t ↔ (step, t) ∈ table := by
  have key : ∀ {u : T}, (step, u) ∈ table → timeOf table step = some u := by
    intro u hu
    induction table with
    | nil => simp at hu
    | cons r l ih =>
      rw [List.map_cons, List.nodup_cons] at h
      unfold timeOf
      rcases List.mem_cons.mp hu with rfl | hu
      · simp
      · have hne : r.1 ≠ step := by
          rintro rfl
          exact h.1 (List.mem_map.mpr ⟨_, hu, rfl⟩)
        rw [List.filter_cons_of_neg (by simpa using hne)]
        exact ih h.2 hu
  refine ⟨fun ht => ?_, key⟩
  unfold timeOf at ht
  have := List.mem_of_mem_head? ht
  obtain ⟨r, hr, rfl⟩ := List.mem_map.mp this
  obtain ⟨hr, e⟩ := List.mem_filter.mp hr
  simp only [decide_eq_true_eq] at e
  rw [← e]
  exact hr

/-- C153. **A step that comes twice, in tables of two runs put together, gets the time of the first one**, whatever the second has. -/
theorem time_twice_wrong {T : Type*} {first second : List (ℕ × T)} {step : ℕ} {t : T} (h : timeOf first step = some t) :
    timeOf (first ++ second) step = some t := by
  unfold timeOf at *
  rw [List.filter_append, List.map_append, List.head?_append, h]
  rfl

example : timeOf [(0, 0), (10, 5), (20, 9), (10, 6), (20, 12)] 20 = some 9 ∧ ([(0, 0), (10, 5)].map (Prod.fst : ℕ × ℕ → ℕ)).Nodup := by decide

end AmrWind.Hscript
