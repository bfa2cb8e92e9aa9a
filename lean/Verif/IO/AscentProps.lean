import Verif.IO.AscentModel
import Verif.IO.Props

/-!
# Fields handed to Ascent (C152)
-/

namespace AmrWind.IO

theorem ascLoop_eq (lookup : String → Option Fld) : ∀ (ns : List String) (a : Asc), ascLoop lookup ns a =
    ⟨a.fields ++ ns.filterMap lookup, a.names ++ (ns.filterMap lookup).flatMap fun f => addVarNames f.name f.ncomp⟩
  | [], a => by simp [ascLoop]
  | n :: ns, a => by
    rw [ascLoop]
    cases h : lookup n with
    | none => simp only [ascLoop_eq lookup ns a, List.filterMap_cons, h]
    | some f => simp only [ascLoop_eq lookup ns _, List.filterMap_cons, h, List.append_assoc, List.flatMap_cons, List.singleton_append]

theorem ascComps_eq (a : Asc) : ascComps a = (a.fields.map Fld.ncomp).sum := by
  have : ∀ (l : List Fld) (n : ℕ), l.foldl (fun n f => n + f.ncomp) n = n + (l.map Fld.ncomp).sum := by
    intro l
    induction l with
    | nil => simp
    | cons f l ih => intro n; simp [ih, Nat.add_assoc]
  rw [ascComps, this, Nat.zero_add]

theorem holds_asc (fs : List Fld) (a : ℕ) (out : Cols) : Holds (ascLevel fs a out) out a (fs.flatMap fieldCols) := by
  induction fs generalizing out a with
  | nil => exact Holds.nil _ _
  | cons f fs ih =>
    rw [List.flatMap_cons]
    refine Holds.append (holds_copy _ _ _ _) ?_
    rw [fieldCols_length]
    exact ih _ _

/-- **C152.** The run stops just if a name is given twice. -/
theorem asc_defined_iff (lookup : String → Option Fld) (request : List String) : (ascInit lookup request).isSome ↔ request.Nodup := by
  unfold ascInit
  rw [← List.dedup_eq_self]
  split_ifs with h
  · simp only [Option.isSome_some, true_iff]
    exact (List.dedup_sublist request).eq_of_length h
  · simp only [Option.isSome_none, Bool.false_eq_true, false_iff]
    intro e
    exact h (by rw [e])

/-- **C152.** On every level the columns are all components of the fields asked for that exist, in the order asked for; each column has the
name of what it holds, there are as many names as columns, and every level has the step of the run. -/
theorem asc_columns (lookup : String → Option Fld) (request : List String) (a : Asc) (h : ascInit lookup request = some a) (finest : ℕ) (step : ℤ) :
    ∃ cols : List Src, cols = (request.filterMap lookup).flatMap (fun f => (List.range f.ncomp).map (Src.field f)) ∧
      (ascWrite a finest step).1 = cols.length ∧ a.names = cols.map Src.label ∧
      (ascWrite a finest step).2.1.length = finest + 1 ∧ (∀ out ∈ (ascWrite a finest step).2.1, ∀ k, out k = cols[k]?) ∧
      (ascWrite a finest step).2.2.length = finest + 1 ∧ ∀ s ∈ (ascWrite a finest step).2.2, s = step := by
  unfold ascInit at h
  split_ifs at h
  rw [Option.some.injEq, ascLoop_eq] at h
  subst h
  refine ⟨_, rfl, ?_, ?_, by simp [ascWrite], ?_, by simp [ascWrite], ?_⟩
  · show ascComps _ = ((List.filterMap lookup request).flatMap fieldCols).length
    rw [ascComps_eq, length_flatMap_fieldCols, List.nil_append]
  · show _ = ((List.filterMap lookup request).flatMap fieldCols).map Src.label
    rw [labels_flatMap _ fieldCols _ (fun f _ => fieldCols_label f)]
    exact List.nil_append _
  · intro out ho k
    simp only [ascWrite, List.mem_map, List.nil_append] at ho
    obtain ⟨-, -, rfl⟩ := ho
    have hh := holds_asc (request.filterMap lookup) 0 fun _ => none
    show _ = ((List.filterMap lookup request).flatMap fieldCols)[k]?
    by_cases hk : k < ((List.filterMap lookup request).flatMap fieldCols).length
    · rw [← hh.1 k hk, Nat.zero_add]
    · rw [hh.2 k (Or.inr (by omega)), List.getElem?_eq_none (by omega)]
  · intro s hs
    exact List.eq_of_mem_replicate hs

/-- **C152.** Two columns can have the same name though no name is given twice: a vector `a` and a scalar `ax`. -/
theorem asc_names_clash_wrong (lookup : String → Option Fld) (s : String) (hs : lookup s = some ⟨s, 3⟩)
    (hx : lookup (s ++ "x") = some ⟨s ++ "x", 1⟩) :
    ∃ a, ascInit lookup [s, s ++ "x"] = some a ∧ a.names[0]? = some (s ++ "x") ∧ a.names[3]? = some (s ++ "x") := by
  have hne : s ≠ s ++ "x" := by
    intro h
    have := congrArg String.length h
    rw [String.length_append] at this
    have e : "x".length = 1 := rfl
    omega
  refine ⟨⟨[⟨s, 3⟩, ⟨s ++ "x", 1⟩], [s ++ "x", s ++ "y", s ++ "z", s ++ "x"]⟩, ?_, rfl, rfl⟩
  have hn : [s, s ++ "x"].Nodup := by simp [hne]
  unfold ascInit
  rw [if_pos (by rw [List.Nodup.dedup hn]), ascLoop_eq]
  simp [hs, hx, addVarNames]

/-- Velocity and density exist, pressure does not. -/
example : ∃ a, ascInit (fun n => if n = "velocity" then some ⟨n, 3⟩ else if n = "density" then some ⟨n, 1⟩ else none) ["velocity", "p", "density"] = some a ∧
    a.names = ["velocityx", "velocityy", "velocityz", "density"] := by
  refine ⟨_, rfl, ?_⟩
  decide +kernel

end AmrWind.IO
