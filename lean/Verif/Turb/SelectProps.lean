import Verif.Turb.SelectModel

/-!
# Models chosen by name (C155)
-/

namespace AmrWind.Select

/-- Names of which no one has a hyphen. -/
def Registry.Plain (r : Registry) : Prop := (∀ t ∈ r.turb, '-' ∉ t) ∧ ∀ m ∈ r.trans, '-' ∉ m

theorem code_plain : code.Plain := by unfold Registry.Plain; decide

/-- A name with one hyphen is split in one way only. -/
theorem key_inj {t m : Name} (ht : '-' ∉ t) (hm : '-' ∉ m) {t' m' : Name} (h : key t' m' = key t m) : t' = t ∧ m' = m := by
  unfold key at h
  induction t generalizing t' with
  | nil =>
    cases t' with
    | nil => simpa using h
    | cons c t' =>
      simp only [List.nil_append, List.cons_append, List.cons.injEq] at h
      exact absurd (h.2 ▸ by simp) hm
  | cons d t ih =>
    simp only [List.mem_cons, not_or] at ht
    cases t' with
    | nil =>
      simp only [List.nil_append, List.cons_append, List.cons.injEq] at h
      exact absurd h.1 ht.1
    | cons c t' =>
      simp only [List.cons_append, List.cons.injEq] at h
      obtain ⟨e1, e2⟩ := ih ht.2 h.2
      exact ⟨by rw [h.1, e1], e2⟩

theorem mem_table {r : Registry} {e : Name × Name × Name} : e ∈ r.table ↔ ∃ t ∈ r.turb, ∃ m ∈ r.trans, e = (key t m, t, m) := by
  unfold Registry.table
  simp only [List.mem_flatMap, List.mem_map]
  constructor
  · rintro ⟨t, ht, m, hm, rfl⟩
    exact ⟨t, ht, m, hm, rfl⟩
  · rintro ⟨t, ht, m, hm, rfl⟩
    exact ⟨t, ht, m, hm, rfl⟩

theorem createTurb_eq {r : Registry} (hr : r.Plain) (t m : Name) :
    r.createTurb (key t m) = if t ∈ r.turb ∧ m ∈ r.trans then some (t, m) else none := by
  unfold Registry.createTurb
  cases hf : r.table.find? (fun e => e.1 = key t m) with
  | none =>
    rw [List.find?_eq_none] at hf
    rw [if_neg]
    · rfl
    · rintro ⟨h1, h2⟩
      exact hf (key t m, t, m) (mem_table.2 ⟨t, h1, m, h2, rfl⟩) (by simp)
  | some e =>
    obtain ⟨t', ht', m', hm', rfl⟩ := mem_table.1 (List.mem_of_find?_eq_some hf)
    have hk := List.find?_some hf
    simp only [decide_eq_true_eq] at hk
    obtain ⟨e1, e2⟩ := key_inj (hr.1 t' ht') (hr.2 m' hm') hk.symm
    rw [if_pos ⟨e1 ▸ ht', e2 ▸ hm'⟩, e1, e2]
    rfl

theorem createTrans_eq (r : Registry) (m : Name) : r.createTrans m = if m ∈ r.trans then some m else none := by
  unfold Registry.createTrans
  cases hf : r.trans.find? (fun x => decide (x = m)) with
  | none =>
    rw [List.find?_eq_none] at hf
    rw [if_neg]
    exact fun h => hf m h (by simp)
  | some x =>
    have h1 := List.mem_of_find?_eq_some hf
    have h2 := List.find?_some hf
    simp only [decide_eq_true_eq] at h2
    subst h2
    rw [if_pos h1]

/-- C155: the run starts exactly if both names, or `Laminar` and `ConstTransport` where a name is not given, are registered; then
the turbulence model is the one named, and the transport model it makes for itself is of the class of that of the simulation, the
one named. -/
theorem start_iff {r : Registry} (hr : r.Plain) (inT inM : Option Name) (x : Name × Name × Name) :
    r.start inT inM = some x ↔ inT.getD "Laminar".toList ∈ r.turb ∧ inM.getD "ConstTransport".toList ∈ r.trans ∧
      x = (inM.getD "ConstTransport".toList, inT.getD "Laminar".toList, inM.getD "ConstTransport".toList) := by
  have e1 : dfltTurb = "Laminar".toList := rfl
  have e2 : dfltTrans = "ConstTransport".toList := rfl
  unfold Registry.start
  rw [createTurb_eq hr, createTrans_eq, e1, e2]
  generalize inT.getD "Laminar".toList = t
  generalize inM.getD "ConstTransport".toList = m
  by_cases hm : m ∈ r.trans
  · by_cases ht : t ∈ r.turb
    · simp [hm, ht, eq_comm]
    · simp [hm, ht]
  · simp [hm]

theorem reorder (x a b c d e f g h i j : Name) : x ∈ [a, b, c, d, e, f, g, h, i, j] ↔ x ∈ [a, e, d, b, c, f, g, j, h, i] := by
  simp only [List.mem_cons, List.not_mem_nil, or_false]
  tauto

theorem either (x a b : Name) : x ∈ [a, b] ↔ x = a ∨ x = b := by
  simp only [List.mem_cons, List.not_mem_nil, or_false]

/-- C155 for the classes of the code: ten turbulence models, each with both transport models, and no other name, whatever
characters it has. -/
theorem code_start_iff (inT inM : Option Name) :
    (∃ x, code.start inT inM = some x) ↔
      (inT.getD "Laminar".toList ∈ ["Laminar".toList, "Smagorinsky".toList, "AMD".toList, "AMDNoTherm".toList, "Kosovic".toList,
        "OneEqKsgsM84".toList, "OneEqKsgsS94".toList, "KOmegaSST".toList, "KOmegaSSTIDDES".toList, "KLAxell".toList]) ∧
      (inM.getD "ConstTransport".toList = "ConstTransport".toList ∨ inM.getD "ConstTransport".toList = "TwoPhaseTransport".toList) := by
  have h : (∃ x, code.start inT inM = some x) ↔ inT.getD "Laminar".toList ∈ code.turb ∧ inM.getD "ConstTransport".toList ∈ code.trans := by
    constructor
    · rintro ⟨x, hx⟩
      have := (start_iff code_plain inT inM x).1 hx
      exact ⟨this.1, this.2.1⟩
    · rintro ⟨h1, h2⟩
      exact ⟨_, (start_iff code_plain inT inM _).2 ⟨h1, h2, rfl⟩⟩
  rw [h]
  generalize inT.getD "Laminar".toList = t
  generalize inM.getD "ConstTransport".toList = m
  exact and_congr (reorder t _ _ _ _ _ _ _ _ _ _) (either m _ _)

example : code.start none (some "TwoPhaseTransport".toList) =
    some ("TwoPhaseTransport".toList, "Laminar".toList, "TwoPhaseTransport".toList) := by decide
example : code.start (some "Smagorinsky-ConstTransport".toList) none = none := by decide

/-- C155: no two registered classes have the same key, so that the order in which they are registered does not matter. -/
theorem keys_apart {r : Registry} (hr : r.Plain) {a b : Name × Name × Name} (ha : a ∈ r.table) (hb : b ∈ r.table) (h : a.1 = b.1) : a = b := by
  obtain ⟨t, ht, m, hm, rfl⟩ := mem_table.1 ha
  obtain ⟨t', ht', m', hm', rfl⟩ := mem_table.1 hb
  obtain ⟨e1, e2⟩ := key_inj (hr.1 t' ht') (hr.2 m' hm') h
  rw [e1, e2]

example : ("AMD-ConstTransport".toList, "AMD".toList, "ConstTransport".toList) ∈ code.table := by decide

theorem key_assoc (a b c : Name) : key (key a b) c = key a (key b c) := by
  unfold key
  simp

/-- C155 would fail for classes with a hyphen in their names: with a turbulence model `a-b` and transport models `c` and `b-c`, the input
`a` with `b-c` is accepted although there is no `a`, and the turbulence model then works with `c` while the simulation has `b-c`. -/
theorem hyphen_wrong (a b c : Name) : (⟨[key a b], [c, key b c]⟩ : Registry).start (some a) (some (key b c)) = some (key b c, key a b, c) ∧
    a ∉ [key a b] ∧ key b c ≠ c := by
  have hc : key b c ≠ c := by
    intro h
    have := congrArg List.length h
    simp [key] at this
    omega
  refine ⟨?_, ?_, hc⟩
  · simp only [Registry.start, Option.getD_some, createTrans_eq]
    simp [Registry.createTurb, Registry.table, key_assoc]
  · intro h
    have := congrArg List.length (List.mem_singleton.1 h)
    simp [key] at this

end AmrWind.Select
