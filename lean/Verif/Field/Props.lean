import Verif.Field.Lemmas

/-!
# Properties C14-C16: the field registry

The registry is observed through `getField` (`FieldRepo::get_field(name, state)`), the returned
positions (`Field&`), the attributes of the fields and the arrays `getArr` (`field(lev)`).
-/

set_option linter.unusedSectionVars false

namespace AmrWind.FieldRepo

variable {V : Type*} [Zero V]

/-! ## Specification -/

/-- An operation a caller may issue: a declaration asks for at least one time state. -/
def AtLeastOneState : Op V → Prop
  | .declare _ _ _ nstates _ => 1 ≤ nstates
  | _ => True

/-- A repository reached by some history of operations that did not abort. -/
def Reachable (r : Repo V) : Prop :=
  ∃ ops : List (Op V), (∀ o ∈ ops, AtLeastOneState o) ∧ run empty ops = .ok r

/-- What "the registry is consistent" means. -/
structure Consistent (r : Repo V) : Prop where
  /-- ids are dense and equal storage positions; the name of a field resolves to that field -/
  id_is_position : ∀ (i : ℕ) (f : Field), r.fields[i]? = some f → f.id = i ∧ r.fidMap f.name = some i
  /-- every registered name resolves to exactly one field and that field has the name -/
  resolves : ∀ (n : Name) (id : ℕ), r.fidMap n = some id →
    ∃ f, r.fields[id]? = some f ∧ f.name = n ∧
      ∀ (j : ℕ) (f' : Field), r.fields[j]? = some f' → f'.name = n → j = id
  /-- `get_field(name, state)` returns a field with that base name and state -/
  lookup : ∀ (n : Name) (st : FState) (id : ℕ), getField r n st = .ok id →
    ∃ f, r.fields[id]? = some f ∧ f.name = nameWithState n st
  /-- every level holds one array per field, with the declared components, ghost cells and location -/
  levels : ∀ (lev : ℕ) (l : List (Arr V)), r.levels[lev]? = some l → l.length = r.fields.length ∧
    ∀ (i : ℕ) (f : Field), r.fields[i]? = some f →
      ∃ a, getArr r lev i = some a ∧ a.ncomp = f.ncomp ∧ a.ngrow = f.ngrow ∧ a.loc = f.loc
  /-- the state pointers of a field lead to fields of the same family and the requested state, and all
  of the declared states exist -/
  states : ∀ (i : ℕ) (f : Field), r.fields[i]? = some f → ∀ st ∈ firstStates f.nstates.toNat,
    ∃ j g, stateOf r i st = .ok j ∧ r.fields[j]? = some g ∧ g.base = f.base ∧ g.state = st ∧
      g.ncomp = f.ncomp ∧ g.ngrow = f.ngrow ∧ g.loc = f.loc

/-! ## Proofs -/

theorem step_wf {r r' : Repo V} (h : WF r) {o : Op V} (ho : AtLeastOneState o)
    (hs : step r o = .ok r') : WF r' := by
  cases o with
  | declare name nc ng ns loc =>
    simp only [step] at hs
    rcases hd : declare r name nc ng ns loc with e | ⟨r1, k⟩
    · rw [hd] at hs; simp [Except.map] at hs
    · rw [hd] at hs
      simp only [Except.map, Except.ok.injEq] at hs
      subst hs
      exact declare_inv h ho hd
  | createState fid st =>
    simp only [step] at hs
    rcases hd : createState r fid st with e | ⟨r1, k⟩
    · rw [hd] at hs; simp [Except.map] at hs
    · rw [hd] at hs
      simp only [Except.map, Except.ok.injEq] at hs
      subst hs
      exact createState_inv h hd
  | newLevel fill => simp only [step, Except.ok.injEq] at hs; subst hs; exact newLevel_inv h fill
  | remakeLevel lev fill =>
    simp only [step, Except.ok.injEq] at hs; subst hs; exact remakeLevel_inv h lev fill
  | clearFinest => simp only [step, Except.ok.injEq] at hs; subst hs; exact clearFinest_inv h
  | setData lev fid v => simp only [step, Except.ok.injEq] at hs; subst hs; exact setData_inv h lev fid v
  | advance =>
    simp only [step] at hs
    obtain ⟨r1, e, _, w, _⟩ := advanceStates_spec h
    rw [e] at hs
    injection hs with hs
    subst hs; exact w

theorem run_wf {r r' : Repo V} (h : WF r) {ops : List (Op V)} (ho : ∀ o ∈ ops, AtLeastOneState o)
    (hs : run r ops = .ok r') : WF r' := by
  induction ops generalizing r with
  | nil => simp only [run, Except.ok.injEq] at hs; subst hs; exact h
  | cons o ops ih =>
    simp only [run] at hs
    rcases h1 : step r o with e | r1
    · rw [h1] at hs; simp at hs
    · rw [h1] at hs
      exact ih (step_wf h (ho o List.mem_cons_self) h1) (fun o' h' => ho o' (List.mem_cons_of_mem _ h')) hs

theorem reachable_wf {r : Repo V} (h : Reachable r) : WF r := by
  obtain ⟨ops, ho, hr⟩ := h
  exact run_wf inv_empty ho hr

theorem run_append (r : Repo V) (a b : List (Op V)) :
    run r (a ++ b) = match run r a with | .error e => .error e | .ok r' => run r' b := by
  induction a generalizing r with
  | nil => rfl
  | cons o a ih =>
    simp only [List.cons_append, run]
    rcases step r o with e | r1
    · rfl
    · exact ih r1

theorem wf_consistent {r : Repo V} (h : WF r) : Consistent r := by
  refine ⟨fun i f hf => ⟨h.ids i f hf, h.complete i f hf⟩, ?_, ?_, ?_, ?_⟩
  · intro n id hid
    obtain ⟨f, hf, hn⟩ := h.sound n id hid
    refine ⟨f, hf, hn, fun j f' hj hn' => ?_⟩
    have := h.complete j f' hj
    rw [hn', hid] at this
    injection this with this
    exact this.symm
  · intro n st id hg
    unfold getField at hg
    rcases hm : r.fidMap (nameWithState n st) with _ | k
    · simp [hm] at hg
    · simp only [hm] at hg
      obtain ⟨f, hf, hn⟩ := h.sound _ _ hm
      rw [if_pos (idx_lt hf)] at hg
      injection hg with hg
      subst hg
      exact ⟨f, hf, hn⟩
  · intro lev l hl
    have hs := h.levels l (List.mem_of_getElem? hl)
    have hlen := congrArg List.length hs
    simp only [List.length_map] at hlen
    refine ⟨hlen, fun i f hf => ?_⟩
    have hi : i < l.length := by rw [hlen]; exact idx_lt hf
    refine ⟨l[i], by simp [getArr, hl, List.getElem?_eq_getElem hi], ?_⟩
    have hsi := congrArg (·[i]?) hs
    simp only [List.getElem?_map, List.getElem?_eq_getElem hi, hf, Option.map_some, Option.some.injEq,
      Arr.shape, Field.shape, Prod.mk.injEq] at hsi
    exact hsi
  · intro i f hf st hst
    obtain ⟨h1, g, hg, hgg, hgs⟩ := stateOf_ok h hf hst
    have hp := h.params _ _ _ _ hg hf hgg
    simp only [Field.params, Prod.mk.injEq] at hp
    exact ⟨_, g, h1, hg, hp.1, hgs, hp.2.1, hp.2.2.1, hp.2.2.2.2⟩

/-- **C14.**  After any history of declarations, state creations, level creations, regrids, level
removals, writes and state shifts that did not abort, the registry is consistent. -/
theorem registry_consistent {r : Repo V} (h : Reachable r) : Consistent r :=
  wf_consistent (reachable_wf h)

theorem step_prefix {r r' : Repo V} (h : WF r) {o : Op V} (ho : AtLeastOneState o)
    (hs : step r o = .ok r') : r.fields <+: r'.fields := by
  cases o with
  | declare name nc ng ns loc =>
    simp only [step] at hs
    rcases hd : declare r name nc ng ns loc with e | ⟨r1, k⟩
    · rw [hd] at hs; simp [Except.map] at hs
    · rw [hd] at hs
      simp only [Except.map, Except.ok.injEq] at hs
      subst hs
      rcases hn : r.fidMap name with _ | id
      · unfold declare at hd
        rw [hn] at hd
        simp only at hd
        by_cases a : 3 < ns
        · rw [if_pos a] at hd; simp at hd
        rw [if_neg a] at hd
        by_cases b : isValidName name
        · rw [if_neg (not_not.mpr b)] at hd
          have := addStates_prefix { r with groups := r.groups ++ [fun _ => none] } name nc ng ns loc
            r.groups.length (firstStates ns.toNat)
          split at hd
          · simp only [Except.ok.injEq, Prod.mk.injEq] at hd
            rw [← hd.1]; exact this
          · split at hd
            · simp at hd
            · simp only [Except.ok.injEq, Prod.mk.injEq] at hd
              rw [← hd.1]; exact this
        · rw [if_pos b] at hd; simp at hd
      · obtain ⟨rfl, _⟩ := declare_old hd hn
        exact List.prefix_rfl
  | createState fid st =>
    simp only [step] at hs
    rcases hd : createState r fid st with e | ⟨r1, k⟩
    · rw [hd] at hs; simp [Except.map] at hs
    · rw [hd] at hs
      simp only [Except.map, Except.ok.injEq] at hs
      subst hs
      unfold createState at hd
      rcases hf : r.fields[fid]? with _ | f
      · simp [hf] at hd
      simp only [hf] at hd
      rcases hg : r.groups[f.group]? with _ | m
      · simp [hg] at hd
      simp only [hg] at hd
      rcases hm : m st with _ | id
      · simp only [hm, Except.ok.injEq, Prod.mk.injEq] at hd
        rw [← hd.1]; exact List.prefix_append _ _
      · simp only [hm, Except.ok.injEq, Prod.mk.injEq] at hd
        rw [← hd.1]
  | newLevel fill => simp only [step, Except.ok.injEq] at hs; subst hs; exact List.prefix_rfl
  | remakeLevel lev fill => simp only [step, Except.ok.injEq] at hs; subst hs; exact List.prefix_rfl
  | clearFinest => simp only [step, Except.ok.injEq] at hs; subst hs; exact List.prefix_rfl
  | setData lev fid v => simp only [step, Except.ok.injEq] at hs; subst hs; exact List.prefix_rfl
  | advance =>
    simp only [step] at hs
    obtain ⟨r1, e, m, _, _⟩ := advanceStates_spec h
    rw [e] at hs
    injection hs with hs
    subst hs; rw [m.1]

theorem getField_eq_iff {r : Repo V} (h : WF r) (n : Name) (st : FState) (id : ℕ) :
    getField r n st = .ok id ↔ r.fidMap (nameWithState n st) = some id := by
  unfold getField
  rcases hm : r.fidMap (nameWithState n st) with _ | k
  · simp
  · obtain ⟨f, hf, _⟩ := h.sound _ _ hm
    simp [idx_lt hf]

/-- **C14.**  Nothing that happens later changes an existing field: it keeps its position (and so every
reference to it stays good), its attributes, and the names that resolve to it. -/
theorem fields_persist {r r' : Repo V} (h : Reachable r) {ops : List (Op V)}
    (ho : ∀ o ∈ ops, AtLeastOneState o) (hr : run r ops = .ok r') :
    (∀ (i : ℕ) (f : Field), r.fields[i]? = some f → r'.fields[i]? = some f) ∧
    (∀ (n : Name) (st : FState) (id : ℕ), getField r n st = .ok id → getField r' n st = .ok id) := by
  have hw := reachable_wf h
  have hw' := run_wf hw ho hr
  have hpre : r.fields <+: r'.fields := by
    clear h hw'
    induction ops generalizing r with
    | nil => simp only [run, Except.ok.injEq] at hr; subst hr; exact List.prefix_rfl
    | cons o ops ih =>
      simp only [run] at hr
      rcases h1 : step r o with e | r1
      · rw [h1] at hr; simp at hr
      · rw [h1] at hr
        have ho1 := ho o List.mem_cons_self
        exact (step_prefix hw ho1 h1).trans
          (ih (fun o' h' => ho o' (List.mem_cons_of_mem _ h')) hr (step_wf hw ho1 h1))
  have hfix : ∀ (i : ℕ) (f : Field), r.fields[i]? = some f → r'.fields[i]? = some f := by
    intro i f hf
    obtain ⟨t, ht⟩ := hpre
    rw [← ht, List.getElem?_append_left (idx_lt hf)]
    exact hf
  refine ⟨hfix, fun n st id hg => ?_⟩
  rw [getField_eq_iff hw] at hg
  rw [getField_eq_iff hw']
  obtain ⟨f, hf, hn⟩ := hw.sound _ _ hg
  have := hw'.complete _ _ (hfix _ _ hf)
  rwa [hn] at this

/-- **C14.**  A declaration of a new, valid name with 1 to 3 states succeeds, and from then on the name
resolves (for each of the declared states) to a field with the declared attributes. -/
theorem declare_new_succeeds {r : Repo V} (h : Reachable r) {name : Name} {nc ng ns : Int} {loc : Loc}
    (hn : ∀ id, getField r name .NP1 ≠ .ok id) (h1 : 1 ≤ ns) (h3 : ns ≤ 3) (hv : isValidName name) :
    ∃ r' id, declare r name nc ng ns loc = .ok (r', id) ∧ Reachable r' ∧
      getField r' name .NP1 = .ok id ∧
      ∀ st ∈ firstStates ns.toNat, ∃ j f, getField r' name st = .ok j ∧ r'.fields[j]? = some f ∧
        r.fields.length ≤ j ∧
        f.base = name ∧ f.state = st ∧ f.ncomp = nc ∧ f.ngrow = ng ∧ f.nstates = ns ∧ f.loc = loc := by
  have hw := reachable_wf h
  have hnone : r.fidMap name = none := by
    rcases hm : r.fidMap name with _ | k
    · rfl
    · exact absurd ((getField_eq_iff hw name .NP1 k).mpr (by rw [nameWithState_new]; exact hm)) (hn k)
  obtain ⟨r', id, hd, hr', hid, hw'⟩ := declare_new (nc := nc) (ng := ng) (loc := loc) hw hnone h1 h3 hv
  have hreach : Reachable r' := by
    obtain ⟨ops, ho, hr⟩ := h
    refine ⟨ops ++ [.declare name nc ng ns loc], ?_, ?_⟩
    · intro o hm
      rcases List.mem_append.mp hm with hm | hm
      · exact ho o hm
      · rw [List.mem_singleton.mp hm]; exact h1
    · rw [run_append, hr]
      simp [run, step, hd, Except.map]
  refine ⟨r', id, hd, hreach, (getField_eq_iff hw' _ _ _).mpr (by rw [nameWithState_new]; exact hid), ?_⟩
  intro st hst
  obtain ⟨m', hm', _, hall, _⟩ := addStates_groups { r with groups := r.groups ++ [fun _ => none] }
    name nc ng ns loc r.groups.length (firstStates ns.toNat) r.groups.length (fun _ => none) (by simp)
  rw [← hr'] at hm'
  obtain ⟨j, hj⟩ := Option.isSome_iff_exists.mp (hall rfl st hst)
  obtain ⟨f, hf, hg, hs⟩ := hw'.group_sound _ _ _ _ hm' hj
  have hnew := addStates_new { r with groups := r.groups ++ [fun _ => none] }
    name nc ng ns loc r.groups.length (firstStates ns.toNat) j f (by rw [← hr']; exact hf)
  rcases hnew with hold | ⟨_, hp⟩
  · exact absurd hg (by have := group_lt hw.toWF0 hold; omega)
  · simp only [Field.params, Prod.mk.injEq] at hp
    have hge : r.fields.length ≤ j := by
      by_contra hlt
      obtain ⟨t, ht⟩ := addStates_prefix { r with groups := r.groups ++ [fun _ => none] } name nc ng ns
        loc r.groups.length (firstStates ns.toNat)
      rw [← hr'] at ht
      rw [← ht, List.getElem?_append_left (by simpa using hlt)] at hf
      have := group_lt hw.toWF0 hf
      omega
    refine ⟨j, f, ?_, hf, hge, hp.1, hs, hp.2.1, hp.2.2.1, hp.2.2.2.1, hp.2.2.2.2⟩
    rw [getField_eq_iff hw']
    have := hw'.complete _ _ hf
    rwa [(hw'.names _ _ hf).1, hp.1, hs] at this

/-! ### C15 -/

/-- **C15.**  Declaring an existing field again with the same component count, state count and location
returns the existing field and changes nothing; with a different one it aborts.  (The number of ghost
cells is not compared: the declared number of the first declaration stays.) -/
theorem redeclare {r : Repo V} (h : Reachable r) {i : ℕ} {f : Field} (hf : r.fields[i]? = some f)
    (nc ng ns : Int) (loc : Loc) :
    (nc = f.ncomp ∧ ns = f.nstates ∧ loc = f.loc → declare r f.name nc ng ns loc = .ok (r, i)) ∧
    (¬ (nc = f.ncomp ∧ ns = f.nstates ∧ loc = f.loc) →
      declare r f.name nc ng ns loc = .error .inconsistent) := by
  have hw := reachable_wf h
  unfold declare
  rw [hw.complete i f hf]
  simp only [hf]
  constructor
  · rintro ⟨rfl, rfl, rfl⟩; simp
  · intro hne
    rw [if_pos]
    by_contra hc
    push Not at hc
    exact hne ⟨hc.1, hc.2.1.symm, hc.2.2⟩

/-- **C15 (partial).**  A name containing the guard reserved for time states is rejected if it is not
already registered, and a declaration never makes a base name with the guard.  What is missing: see
`reserved_name_accepted`. -/
theorem reserved_names_partial {r : Repo V} (h : Reachable r) {name : Name} (hv : ¬ isValidName name)
    (nc ng ns : Int) (loc : Loc) :
    (∀ r' id, declare r name nc ng ns loc = .ok (r', id) → r' = r ∧ getField r name .NP1 = .ok id) ∧
    (∀ (i : ℕ) (f : Field), r.fields[i]? = some f → f.base ≠ name) := by
  have hw := reachable_wf h
  constructor
  · intro r' id hd
    rcases hm : r.fidMap name with _ | k
    · unfold declare at hd
      rw [hm] at hd
      simp only at hd
      by_cases a : 3 < ns
      · rw [if_pos a] at hd; simp at hd
      · rw [if_neg a, if_pos hv] at hd; simp at hd
    · obtain ⟨h1, h2⟩ := declare_old hd hm
      exact ⟨h1, (getField_eq_iff hw _ _ _).mpr (by rw [nameWithState_new, h2]; exact hm)⟩
  · intro i f hf hb
    exact hv (hb ▸ (hw.names i f hf).2)

/-- More than three states are refused for a new name. -/
theorem too_many_states {r : Repo V} {name : Name} (hn : r.fidMap name = none) (nc ng ns : Int)
    (loc : Loc) (h : 3 < ns) : declare r name nc ng ns loc = .error .invalidStates := by
  unfold declare; rw [hn]; simp [h]

/-! ### C16 -/

/-- **C16.**  In every reachable registry, advancing the states succeeds, changes nothing but data, and
on every level: the newest data stay; Old becomes the previous New; the state before Old becomes the
previous Old; single-state fields and the half-time states are untouched. -/
theorem advance_shifts_history {r : Repo V} (h : Reachable r) :
    ∃ r', advanceStates r = .ok r' ∧ Reachable r' ∧ r'.fields = r.fields ∧
      r'.levels.length = r.levels.length ∧
      (∀ (n : Name) (st : FState), getField r' n st = getField r n st) ∧
      ∀ (lev i : ℕ) (f : Field), r.fields[i]? = some f →
        (f.state = .NP1 ∨ f.state = .NPH ∨ f.state = .NMH ∨ f.nstates = 1 →
          dataAt r' lev i = dataAt r lev i) ∧
        (f.state = .N → 2 ≤ f.nstates →
          ∃ j, getField r f.base .NP1 = .ok j ∧ dataAt r' lev i = dataAt r lev j) ∧
        (f.state = .NM1 → f.nstates = 3 →
          ∃ j, getField r f.base .N = .ok j ∧ dataAt r' lev i = dataAt r lev j) := by
  have hw := reachable_wf h
  obtain ⟨r', e, m, w, d⟩ := advanceStates_spec hw
  have hreach : Reachable r' := by
    obtain ⟨ops, ho, hr⟩ := h
    refine ⟨ops ++ [.advance], ?_, ?_⟩
    · intro o hm
      rcases List.mem_append.mp hm with hm | hm
      · exact ho o hm
      · rw [List.mem_singleton.mp hm]; trivial
    · rw [run_append, hr]; simp [run, step, e]
  refine ⟨r', e, hreach, m.1, m.2.2.2.2, fun n st => by unfold getField; rw [m.1, m.2.1], ?_⟩
  intro lev i f hf
  have hd := d lev i f hf
  obtain ⟨h1, h3, _⟩ := hw.nstates _ _ hf
  have hget : ∀ st ∈ firstStates f.nstates.toNat, getField r f.base st = .ok (groupId r f.group st) := by
    intro st hst
    obtain ⟨_, g, hg, hgg, hgs⟩ := stateOf_ok hw hf hst
    rw [getField_eq_iff hw]
    have hc := hw.complete _ _ hg
    have hp := hw.params _ _ _ _ hg hf hgg
    simp only [Field.params, Prod.mk.injEq] at hp
    rwa [(hw.names _ _ hg).1, hgs, hp.1] at hc
  refine ⟨?_, ?_, ?_⟩
  · intro hc
    rw [hd]
    unfold srcOf
    rcases hc with hc | hc | hc | hc
    · rw [hc]
    · rw [hc]
    · rw [hc]
    · rw [hc]; cases f.state <;> simp
  · intro hs hn
    refine ⟨_, hget .NP1 (new_mem_firstStates (by omega)), ?_⟩
    rw [hd]; simp [srcOf, hs, hn]
  · intro hs hn
    refine ⟨_, hget .N (by rw [hn]; decide), ?_⟩
    rw [hd]; simp [srcOf, hs, hn]

theorem dataAt_setData (r : Repo V) (lev fid : ℕ) (v : V) (lev' i : ℕ) :
    dataAt (setData r lev fid v) lev' i =
      if lev' = lev ∧ i = fid then (dataAt r lev' i).map (fun _ => v) else dataAt r lev' i := by
  unfold dataAt getArr setData
  simp only [List.getElem?_modify]
  rcases hl : r.levels[lev']? with _ | l
  · simp
  · by_cases h1 : lev' = lev
    · subst h1
      simp only [if_true, Option.map_eq_map, Option.map_some, Option.bind_some, List.getElem?_modify]
      rcases l[i]? with _ | a
      · simp
      · by_cases h2 : i = fid
        · subst h2; simp
        · simp [h2, Ne.symm h2]
    · simp [h1, Ne.symm h1]

/-- One time step as far as one field is concerned: the solver writes a new value, then the states are
advanced. -/
def stepOps (lev fid : ℕ) (v : V) : List (Op V) := [.setData lev fid v, .advance]

/-- **C16.**  Writing `vs` one after the other into the New state, advancing after each, never aborts;
afterwards Old holds the last value written and, for a three-state field, the state before it holds the
last but one. -/
theorem history_after_steps {r : Repo V} (h : Reachable r) {lev i : ℕ} {f : Field}
    (hf : r.fields[i]? = some f) (hs : f.state = .NP1) (hlev : lev < r.levels.length)
    (hn : 2 ≤ f.nstates) (vs : List V) :
    ∃ r' old, run r (vs.flatMap (stepOps lev i)) = .ok r' ∧ getField r' f.base .N = .ok old ∧
      (∀ ws b, vs = ws ++ [b] → dataAt r' lev i = some b ∧ dataAt r' lev old = some b) ∧
      (f.nstates = 3 → ∃ older, getField r' f.base .NM1 = .ok older ∧
        ∀ ws a b, vs = ws ++ [a, b] → dataAt r' lev older = some a) := by
  have hw := reachable_wf h
  obtain ⟨h1, h3, _⟩ := hw.nstates _ _ hf
  have hget : ∀ st ∈ firstStates f.nstates.toNat, ∃ j g, getField r f.base st = .ok j ∧
      r.fields[j]? = some g ∧ g.base = f.base ∧ g.state = st ∧ g.nstates = f.nstates := by
    intro st hst
    obtain ⟨_, g, hg, hgg, hgs⟩ := stateOf_ok hw hf hst
    have hc := hw.complete _ _ hg
    have hp := hw.params _ _ _ _ hg hf hgg
    simp only [Field.params, Prod.mk.injEq] at hp
    rw [(hw.names _ _ hg).1, hgs, hp.1] at hc
    exact ⟨_, g, (getField_eq_iff hw _ _ _).mpr hc, hg, hp.1, hgs, hp.2.2.2.1⟩
  have hNmem : FState.N ∈ firstStates f.nstates.toNat := by
    have : f.nstates = 2 ∨ f.nstates = 3 := by omega
    rcases this with e | e <;> rw [e] <;> decide
  obtain ⟨old, fo, ho, hfo, hfob, hfos, hfon⟩ := hget .N hNmem
  have hnew : getField r f.base .NP1 = .ok i := by
    rw [getField_eq_iff hw]
    have := hw.complete _ _ hf
    rwa [(hw.names _ _ hf).1, hs] at this
  have hne : old ≠ i := by
    rintro rfl; rw [hf] at hfo; injection hfo with hfo; rw [hfo, hfos] at hs; simp at hs
  -- invariant carried through the steps
  have key : ∀ vs : List V, ∃ r', run r (vs.flatMap (stepOps lev i)) = .ok r' ∧ Reachable r' ∧
      r'.fields = r.fields ∧ lev < r'.levels.length ∧
      (∀ n st, getField r' n st = getField r n st) ∧
      (∀ ws b, vs = ws ++ [b] → dataAt r' lev i = some b ∧ dataAt r' lev old = some b) ∧
      (∀ older, f.nstates = 3 → getField r f.base .NM1 = .ok older →
        ∀ ws a b, vs = ws ++ [a, b] → dataAt r' lev older = some a) := by
    intro vs
    induction vs using List.reverseRecOn with
    | nil =>
      refine ⟨r, rfl, h, rfl, hlev, fun _ _ => rfl, ?_, ?_⟩
      · intro ws b hb; simp at hb
      · intro _ _ _ ws a b hb; simp at hb
    | append_singleton vs v ih =>
      obtain ⟨r1, e1, hre1, hf1, hl1, hg1, hA, hB⟩ := ih
      have hw1 := reachable_wf hre1
      have hre2 : Reachable (setData r1 lev i v) := by
        obtain ⟨ops, hop, hr⟩ := hre1
        refine ⟨ops ++ [.setData lev i v], ?_, ?_⟩
        · intro o hm
          rcases List.mem_append.mp hm with hm | hm
          · exact hop o hm
          · rw [List.mem_singleton.mp hm]; trivial
        · rw [run_append, hr]; rfl
      have hgs : ∀ n st, getField (setData r1 lev i v) n st = getField r1 n st := fun _ _ => rfl
      have hfs : (setData r1 lev i v).fields = r.fields := hf1
      obtain ⟨r2, e2, hre3, hf2, hl2, hg2, hD⟩ := advance_shifts_history hre2
      have hi1 : (dataAt r1 lev i).isSome := by
        unfold dataAt
        rw [Option.isSome_map]
        exact (getArr_isSome hw1 lev i).mpr ⟨hl1, by rw [hf1]; exact idx_lt hf⟩
      obtain ⟨x, hx⟩ := Option.isSome_iff_exists.mp hi1
      have dnew : dataAt (setData r1 lev i v) lev i = some v := by
        rw [dataAt_setData]; simp [hx]
      refine ⟨r2, ?_, hre3, by rw [hf2, hfs], ?_, fun n st => by rw [hg2, hgs, hg1], ?_, ?_⟩
      · rw [List.flatMap_append, run_append, e1]
        simp [stepOps, run, step, e2]
      · rw [hl2]; simpa [setData] using hl1
      · intro ws b hb
        obtain ⟨_, hb⟩ := List.append_inj' hb rfl
        injection hb with hb _
        subst hb
        obtain ⟨d1, _, _⟩ := hD lev i f (by rw [hfs]; exact hf)
        obtain ⟨_, d2, _⟩ := hD lev old fo (by rw [hfs]; exact hfo)
        refine ⟨by rw [d1 (Or.inl hs), dnew], ?_⟩
        obtain ⟨j, hj, hdj⟩ := d2 hfos (by omega)
        rw [hfob, hgs, hg1, hnew] at hj
        injection hj with hj
        rw [hdj, ← hj, dnew]
      · intro older hn3 hold ws a b hb
        have hsplit : ws ++ [a, b] = (ws ++ [a]) ++ [b] := by simp
        rw [hsplit] at hb
        obtain ⟨hb1, hb2⟩ := List.append_inj' hb rfl
        injection hb2 with hb2 _
        subst hb2
        obtain ⟨_, hprev⟩ := hA ws a hb1
        have hNM1 : FState.NM1 ∈ firstStates f.nstates.toNat := by rw [hn3]; decide
        obtain ⟨j, g, hj, hg, hgb, hgs', hgn⟩ := hget .NM1 hNM1
        rw [hold] at hj
        injection hj with hj
        subst hj
        obtain ⟨_, _, d3⟩ := hD lev older g (by rw [hfs]; exact hg)
        obtain ⟨k, hk, hdk⟩ := d3 hgs' (by omega)
        rw [hgb, hgs, hg1, ho] at hk
        injection hk with hk
        subst hk
        rw [hdk, dataAt_setData, if_neg (fun hh => hne hh.2)]
        exact hprev
  obtain ⟨r', e, hre, hff, _, hg, hA, hB⟩ := key vs
  refine ⟨r', old, e, by rw [hg]; exact ho, hA, ?_⟩
  intro hn3
  obtain ⟨older, g, hj, _⟩ := hget .NM1 (by rw [hn3]; decide)
  exact ⟨older, by rw [hg]; exact hj, hB older hn3 hj⟩

/-! ## Concrete cases and refutations -/

/-- A mesh with one level, a two-state field `u` and a three-state field `v`. -/
def demoOps : List (Op ℤ) :=
  [.declare ['u'] 3 1 2 .cell, .newLevel (fun i => i), .declare ['v'] 1 0 3 .node,
   .createState 0 .NPH]

def demoRepo : Repo ℤ := match run empty demoOps with | .ok r => r | .error _ => empty

theorem demoRepo_reachable : Reachable demoRepo :=
  ⟨demoOps, by intro o ho; simp [demoOps] at ho; rcases ho with rfl | rfl | rfl | rfl <;> simp [AtLeastOneState],
    rfl⟩

/-- The demo registry has six fields and one level. -/
example : demoRepo.fields.map (·.name) = [['u'], nameWithState ['u'] .N, ['v'], nameWithState ['v'] .N,
    nameWithState ['v'] .NM1, nameWithState ['u'] .NPH] ∧ demoRepo.levels.length = 1 := by decide

/-- The hypotheses of `fields_persist` and `declare_new_succeeds` are met by declaring a third field. -/
example : (match run demoRepo [.declare ['w'] 1 0 1 .xface] with
    | .ok r => r.fields.length | .error _ => 0) = 7 ∧
    getField demoRepo ['w'] .NP1 = .error .notFound ∧ isValidName ['w'] := by decide

/-- The hypotheses of `redeclare` are met by field `v`. -/
example : ∃ f, demoRepo.fields[2]? = some f ∧ f.name = ['v'] ∧ f.ncomp = 1 ∧ f.nstates = 3 := by
  refine ⟨_, rfl, ?_⟩; decide

/-- The hypotheses of `history_after_steps` are met by `v`; after writing 7, 8, 9 Old is 9 and the state
before it 8. -/
example : ∃ f, demoRepo.fields[2]? = some f ∧ f.state = .NP1 ∧ f.nstates = 3 ∧
    0 < demoRepo.levels.length ∧
    (match run demoRepo ([7, 8, 9].flatMap (stepOps 0 2)) with
      | .ok r => [dataAt r 0 2, dataAt r 0 3, dataAt r 0 4] | .error _ => []) = [some 9, some 9, some 8] := by
  refine ⟨_, rfl, ?_⟩; decide

/-- **C15 fails in this case:** a name with the reserved guard is accepted when it spells an existing
time state (the name lookup precedes the validity check): declaring `u__FS_Old` returns the Old state
of `u`. -/
theorem reserved_name_accepted :
    Reachable demoRepo ∧ ¬ isValidName (nameWithState ['u'] .N) ∧
    (match declare demoRepo (nameWithState ['u'] .N) 3 0 2 .cell with
      | .ok (_, id) => some id | .error _ => none) = some 1 :=
  ⟨demoRepo_reachable, by decide, by decide⟩

/-- **C14 needs at least one state per declaration:** declaring a new name with zero states succeeds,
creates no field, and makes the name resolve to the first field of the registry. -/
theorem declare_zero_states_corrupts :
    (match run demoRepo [.declare ['w'] 1 0 0 .cell] with
      | .ok r => (match getField r ['w'] .NP1 with
        | .ok id => (r.fields[id]?).map (·.name) | .error _ => none)
      | .error _ => none) = some ['u'] := by decide

/-- A different ghost-cell count in a repeated declaration is ignored. -/
theorem redeclare_ngrow_ignored :
    (match declare demoRepo ['u'] 3 5 2 .cell with
      | .ok (r, id) => (r.fields[id]?).map (·.ngrow) | .error _ => none) = some 1 := by decide

end AmrWind.FieldRepo
