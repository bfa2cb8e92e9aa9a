import Verif.Field.Model
import Mathlib.Tactic.Linarith
import Mathlib.Tactic.SplitIfs
import Mathlib.Data.List.Basic

/-! Helper lemmas for the field registry. -/

set_option linter.unusedSectionVars false

namespace AmrWind.FieldRepo

variable {V : Type*} [Zero V]

/-! ## Names -/

theorem suffix_length {st : FState} (h : st ≠ .NP1) : (suffix st).length = 8 := by
  cases st <;> simp_all [suffix]

theorem guard_infix_suffix {st : FState} (h : st ≠ .NP1) : guard <:+: suffix st := by
  cases st
  · exact absurd rfl h
  · exact ⟨[], ['O', 'l', 'd'], rfl⟩
  · exact ⟨[], ['N', 'M', '1'], rfl⟩
  · exact ⟨[], ['N', 'P', 'H'], rfl⟩
  · exact ⟨[], ['N', 'M', 'H'], rfl⟩

theorem suffix_inj {a b : FState} (h : suffix a = suffix b) : a = b := by
  cases a <;> cases b <;> simp_all [suffix]

/-- On valid base names, (base, state) is determined by the stored name. -/
theorem nameWithState_inj {a b : Name} {s t : FState} (ha : isValidName a) (hb : isValidName b)
    (h : nameWithState a s = nameWithState b t) : a = b ∧ s = t := by
  unfold nameWithState at h
  by_cases hs : s = .NP1
  · by_cases ht : t = .NP1
    · subst hs; subst ht; simpa [suffix] using h
    · exfalso
      subst hs
      simp only [suffix, List.append_nil] at h
      apply ha
      rw [h]
      exact (guard_infix_suffix ht).trans (List.suffix_append b (suffix t)).isInfix
  · by_cases ht : t = .NP1
    · exfalso
      subst ht
      simp only [suffix, List.append_nil] at h
      apply hb
      rw [← h]
      exact (guard_infix_suffix hs).trans (List.suffix_append a (suffix s)).isInfix
    · have hl : (suffix s).length = (suffix t).length := by
        rw [suffix_length hs, suffix_length ht]
      have := List.append_inj' h hl
      exact ⟨this.1, suffix_inj this.2⟩

theorem nameWithState_new (a : Name) : nameWithState a .NP1 = a := by simp [nameWithState, suffix]

/-! ## The invariant -/

/-- What a field and an array must agree on. -/
def Field.shape (f : Field) : Int × Int × Loc := (f.ncomp, f.ngrow, f.loc)
/-- Shape of an array. -/
def Arr.shape (a : Arr V) : Int × Int × Loc := (a.ncomp, a.ngrow, a.loc)
/-- The parameters shared by all states of a field. -/
def Field.params (f : Field) : Name × Int × Int × Int × Loc :=
  (f.base, f.ncomp, f.ngrow, f.nstates, f.loc)

/-- The invariant that holds also inside `declare_field`. -/
structure WF0 (r : Repo V) : Prop where
  ids : ∀ (i : ℕ) (f : Field), r.fields[i]? = some f → f.id = i
  sound : ∀ (n : Name) (id : ℕ), r.fidMap n = some id → ∃ f, r.fields[id]? = some f ∧ f.name = n
  complete : ∀ (i : ℕ) (f : Field), r.fields[i]? = some f → r.fidMap f.name = some i
  names : ∀ (i : ℕ) (f : Field), r.fields[i]? = some f → f.name = nameWithState f.base f.state ∧ isValidName f.base
  group : ∀ (i : ℕ) (f : Field), r.fields[i]? = some f → ∃ m, r.groups[f.group]? = some m ∧ m f.state = some i
  group_sound : ∀ (g : ℕ) (m : FState → Option ℕ) (st : FState) (id : ℕ), r.groups[g]? = some m → m st = some id →
    ∃ f, r.fields[id]? = some f ∧ f.group = g ∧ f.state = st
  params : ∀ (i j : ℕ) (f h : Field), r.fields[i]? = some f → r.fields[j]? = some h → f.group = h.group →
    f.params = h.params
  base : ∀ (i j : ℕ) (f h : Field), r.fields[i]? = some f → r.fields[j]? = some h → f.base = h.base →
    f.group = h.group
  levels : ∀ l ∈ r.levels, l.map Arr.shape = r.fields.map Field.shape
  init : r.initialized = false → r.levels = []

/-- The full invariant: additionally, every field has between 1 and 3 states and all of them exist. -/
structure WF (r : Repo V) : Prop extends WF0 r where
  nstates : ∀ (i : ℕ) (f : Field), r.fields[i]? = some f → 1 ≤ f.nstates ∧ f.nstates ≤ 3 ∧
    ∀ st ∈ firstStates f.nstates.toNat, ∃ (m : FState → Option ℕ) (j : ℕ), r.groups[f.group]? = some m ∧ m st = some j

theorem inv_empty : WF (empty : Repo V) := by
  refine ⟨⟨?_, ?_, ?_, ?_, ?_, ?_, ?_, ?_, ?_, ?_⟩, ?_⟩ <;> simp [empty]

/-- What `addField` needs. -/
structure CanAdd (r : Repo V) (base : Name) (ncomp ngrow nstates : Int) (loc : Loc) (g : ℕ)
    (st : FState) : Prop where
  valid : isValidName base
  slot : ∃ m, r.groups[g]? = some m ∧ m st = none
  grp : ∀ (i : ℕ) (f : Field), r.fields[i]? = some f → (f.group = g ↔ f.base = base)
  par : ∀ (i : ℕ) (f : Field), r.fields[i]? = some f → f.group = g → f.params = (base, ncomp, ngrow, nstates, loc)

theorem canAdd_fresh {r : Repo V} (h : WF0 r) {base : Name} {nc ng ns : Int} {loc : Loc} {g : ℕ}
    {st : FState} (c : CanAdd r base nc ng ns loc g st) : r.fidMap (nameWithState base st) = none := by
  by_contra hne
  obtain ⟨id, hid⟩ := Option.ne_none_iff_exists'.mp hne
  obtain ⟨f, hf, hn⟩ := h.sound _ _ hid
  obtain ⟨h1, h2⟩ := h.names _ _ hf
  rw [h1] at hn
  obtain ⟨hb, hs⟩ := nameWithState_inj h2 c.valid hn
  have hg := (c.grp _ _ hf).mpr hb
  obtain ⟨m, hm, hms⟩ := h.group _ _ hf
  obtain ⟨m', hm', hn'⟩ := c.slot
  rw [hg, hm'] at hm
  injection hm with hm
  rw [← hm, hs, hn'] at hms
  simp at hms

theorem getElem?_append_one {α : Type*} (l : List α) (a b : α) (i : ℕ) :
    (l ++ [a])[i]? = some b ↔ l[i]? = some b ∨ (i = l.length ∧ b = a) := by
  rcases lt_trichotomy i l.length with h | h | h
  · rw [List.getElem?_append_left h]
    constructor
    · exact Or.inl
    · rintro (h' | ⟨h', _⟩)
      · exact h'
      · omega
  · subst h
    simp only [List.getElem?_concat_length, true_and]
    rw [List.getElem?_eq_none le_rfl]
    simp only [Option.some.injEq, reduceCtorEq, false_or]
    exact eq_comm
  · rw [List.getElem?_eq_none (by simp; omega), List.getElem?_eq_none (by omega)]
    simp; omega

theorem addField_inv0 {r : Repo V} (h : WF0 r) {base : Name} {nc ng ns : Int} {loc : Loc} {g : ℕ}
    {st : FState} (c : CanAdd r base nc ng ns loc g st) :
    WF0 (addField r base nc ng ns loc g st) := by
  have hfresh := canAdd_fresh h c
  obtain ⟨m0, hm0, hm0s⟩ := c.slot
  have hgr : ∀ k, (r.groups.modify g (fun m => Function.update m st (some r.fields.length)))[k]? =
      if k = g then some (Function.update m0 st (some r.fields.length)) else r.groups[k]? := by
    intro k
    rw [List.getElem?_modify]
    by_cases hk : k = g
    · subst hk; simp [hm0]
    · simp [hk, Ne.symm hk]
  have hlt : ∀ (i : ℕ) (f : Field), r.fields[i]? = some f → i < r.fields.length := fun i f hf => by
    obtain ⟨hi, _⟩ := List.getElem?_eq_some_iff.mp hf; exact hi
  refine ⟨?_, ?_, ?_, ?_, ?_, ?_, ?_, ?_, ?_, ?_⟩
  · intro i f hf
    rcases (getElem?_append_one _ _ _ _).mp hf with hf | ⟨rfl, rfl⟩
    · exact h.ids _ _ hf
    · rfl
  · intro n id hid
    simp only [addField] at hid ⊢
    by_cases hn : n = nameWithState base st
    · subst hn
      rw [Function.update_self] at hid
      injection hid with hid
      exact ⟨_, (getElem?_append_one _ _ _ _).mpr (Or.inr ⟨hid.symm, rfl⟩), rfl⟩
    · rw [Function.update_of_ne hn] at hid
      obtain ⟨f, hf, hfn⟩ := h.sound _ _ hid
      exact ⟨f, (getElem?_append_one _ _ _ _).mpr (Or.inl hf), hfn⟩
  · intro i f hf
    simp only [addField]
    rcases (getElem?_append_one _ _ _ _).mp hf with hf | ⟨rfl, rfl⟩
    · have h1 := h.complete _ _ hf
      rw [Function.update_of_ne]
      · exact h1
      · intro hn; rw [hn, hfresh] at h1; simp at h1
    · simp
  · intro i f hf
    rcases (getElem?_append_one _ _ _ _).mp hf with hf | ⟨rfl, rfl⟩
    · exact h.names _ _ hf
    · exact ⟨rfl, c.valid⟩
  · intro i f hf
    simp only [addField]
    rcases (getElem?_append_one _ _ _ _).mp hf with hf | ⟨rfl, rfl⟩
    · obtain ⟨m, hm, hms⟩ := h.group _ _ hf
      by_cases hg : f.group = g
      · refine ⟨_, by rw [hgr, if_pos hg], ?_⟩
        rw [hg, hm0] at hm
        injection hm with hm
        rw [Function.update_of_ne]
        · rw [hm]; exact hms
        · intro hst; rw [hst, ← hm, hm0s] at hms; simp at hms
      · exact ⟨m, by rw [hgr, if_neg hg]; exact hm, hms⟩
    · exact ⟨_, by rw [hgr, if_pos rfl], by simp⟩
  · intro k m s id hk hs
    simp only [addField] at hk ⊢
    rw [hgr] at hk
    by_cases hg : k = g
    · rw [if_pos hg] at hk
      injection hk with hk
      subst hk
      by_cases hst : s = st
      · subst hst
        rw [Function.update_self] at hs
        injection hs with hs
        exact ⟨_, (getElem?_append_one _ _ _ _).mpr (Or.inr ⟨hs.symm, rfl⟩), hg.symm, rfl⟩
      · rw [Function.update_of_ne hst] at hs
        obtain ⟨f, hf, h1, h2⟩ := h.group_sound g m0 s id hm0 hs
        exact ⟨f, (getElem?_append_one _ _ _ _).mpr (Or.inl hf), h1.trans hg.symm, h2⟩
    · rw [if_neg hg] at hk
      obtain ⟨f, hf, h1, h2⟩ := h.group_sound k m s id hk hs
      exact ⟨f, (getElem?_append_one _ _ _ _).mpr (Or.inl hf), h1, h2⟩
  · intro i j f f' hf hf' hg
    rcases (getElem?_append_one _ _ _ _).mp hf with hf | ⟨rfl, rfl⟩
    · rcases (getElem?_append_one _ _ _ _).mp hf' with hf' | ⟨rfl, rfl⟩
      · exact h.params _ _ _ _ hf hf' hg
      · exact c.par _ _ hf hg
    · rcases (getElem?_append_one _ _ _ _).mp hf' with hf' | ⟨rfl, rfl⟩
      · exact (c.par _ _ hf' hg.symm).symm
      · rfl
  · intro i j f f' hf hf' hb
    rcases (getElem?_append_one _ _ _ _).mp hf with hf | ⟨rfl, rfl⟩
    · rcases (getElem?_append_one _ _ _ _).mp hf' with hf' | ⟨rfl, rfl⟩
      · exact h.base _ _ _ _ hf hf' hb
      · exact (c.grp _ _ hf).mpr hb
    · rcases (getElem?_append_one _ _ _ _).mp hf' with hf' | ⟨rfl, rfl⟩
      · exact ((c.grp _ _ hf').mpr hb.symm).symm
      · rfl
  · intro l hl
    simp only [addField] at hl ⊢
    split at hl
    · obtain ⟨l', hl', rfl⟩ := List.mem_map.mp hl
      rw [List.map_append, List.map_append, h.levels _ hl']
      rfl
    · rename_i hi
      rw [h.init (by simpa using hi)] at hl
      simp at hl
  · intro hi
    simp only [addField] at hi ⊢
    rw [hi, h.init hi]
    rfl

/-- After adding one state the other free states can still be added. -/
theorem canAdd_next {r : Repo V} {base : Name} {nc ng ns : Int} {loc : Loc} {g : ℕ}
    {st st' : FState} (hne : st' ≠ st) (c : CanAdd r base nc ng ns loc g st)
    (c' : CanAdd r base nc ng ns loc g st') :
    CanAdd (addField r base nc ng ns loc g st) base nc ng ns loc g st' := by
  obtain ⟨m0, hm0, hm0s⟩ := c'.slot
  refine ⟨c.valid, ?_, ?_, ?_⟩
  · refine ⟨Function.update m0 st (some r.fields.length), ?_, ?_⟩
    · simp only [addField, List.getElem?_modify, hm0]; simp
    · rw [Function.update_of_ne hne]; exact hm0s
  · intro i f hf
    rcases (getElem?_append_one _ _ _ _).mp hf with hf | ⟨rfl, rfl⟩
    · exact c.grp _ _ hf
    · simp
  · intro i f hf hg
    rcases (getElem?_append_one _ _ _ _).mp hf with hf | ⟨rfl, rfl⟩
    · exact c.par _ _ hf hg
    · rfl

theorem addStates_inv0 {r : Repo V} (h : WF0 r) {base : Name} {nc ng ns : Int} {loc : Loc} {g : ℕ}
    (sts : List FState) (hnd : sts.Nodup) (c : ∀ st ∈ sts, CanAdd r base nc ng ns loc g st) :
    WF0 (addStates r base nc ng ns loc g sts) := by
  induction sts generalizing r with
  | nil => exact h
  | cons st sts ih =>
    unfold addStates
    have hc := c st List.mem_cons_self
    rw [List.nodup_cons] at hnd
    refine ih (addField_inv0 h hc) hnd.2 ?_
    intro st' hst'
    refine canAdd_next ?_ hc (c st' (List.mem_cons_of_mem _ hst'))
    rintro rfl; exact hnd.1 hst'

/-! ## Frames: what `addStates` keeps and adds -/

theorem addField_fields (r : Repo V) (base : Name) (nc ng ns : Int) (loc : Loc) (g : ℕ) (st : FState) :
    (addField r base nc ng ns loc g st).fields =
      r.fields ++ [⟨nameWithState base st, base, nc, ng, ns, loc, r.fields.length, st, g⟩] := rfl

theorem addStates_prefix (r : Repo V) (base : Name) (nc ng ns : Int) (loc : Loc) (g : ℕ)
    (sts : List FState) : r.fields <+: (addStates r base nc ng ns loc g sts).fields := by
  induction sts generalizing r with
  | nil => exact List.prefix_rfl
  | cons st sts ih =>
    exact (List.prefix_append _ _).trans (ih (addField r base nc ng ns loc g st))

theorem addStates_new (r : Repo V) (base : Name) (nc ng ns : Int) (loc : Loc) (g : ℕ)
    (sts : List FState) : ∀ (i : ℕ) (f : Field), (addStates r base nc ng ns loc g sts).fields[i]? = some f →
      r.fields[i]? = some f ∨ (f.group = g ∧ f.params = (base, nc, ng, ns, loc)) := by
  induction sts generalizing r with
  | nil => exact fun i f hf => Or.inl hf
  | cons st sts ih =>
    intro i f hf
    rcases ih (addField r base nc ng ns loc g st) i f hf with h | h
    · rcases (getElem?_append_one _ _ _ _).mp h with h | ⟨rfl, rfl⟩
      · exact Or.inl h
      · exact Or.inr ⟨rfl, rfl⟩
    · exact Or.inr h

theorem addStates_groups (r : Repo V) (base : Name) (nc ng ns : Int) (loc : Loc) (g : ℕ)
    (sts : List FState) (k : ℕ) (m : FState → Option ℕ) (hm : r.groups[k]? = some m) :
    ∃ m', (addStates r base nc ng ns loc g sts).groups[k]? = some m' ∧
      (∀ s, (m s).isSome → (m' s).isSome) ∧ (k = g → ∀ s ∈ sts, (m' s).isSome) ∧
      (k ≠ g → m' = m) := by
  induction sts generalizing r m with
  | nil => exact ⟨m, hm, fun _ h => h, fun _ s hs => by simp at hs, fun _ => rfl⟩
  | cons st sts ih =>
    unfold addStates
    by_cases hk : k = g
    · subst hk
      obtain ⟨m', h1, h2, h3, _⟩ := ih (addField r base nc ng ns loc k st)
        (Function.update m st (some r.fields.length))
        (by simp only [addField, List.getElem?_modify, hm]; simp)
      refine ⟨m', h1, ?_, ?_, fun h => absurd rfl h⟩
      · intro s hs
        apply h2
        by_cases hst : s = st
        · subst hst; simp
        · rw [Function.update_of_ne hst]; exact hs
      · intro _ s hs
        rcases List.mem_cons.mp hs with rfl | hs
        · apply h2; simp
        · exact h3 rfl s hs
    · obtain ⟨m', h1, h2, _, h4⟩ := ih (addField r base nc ng ns loc g st) m
        (by simp only [addField, List.getElem?_modify, hm]; simp [Ne.symm hk])
      exact ⟨m', h1, h2, fun h => absurd h hk, h4⟩

/-! ## `declare` -/

theorem firstStates_nodup (n : ℕ) : (firstStates n).Nodup := by
  unfold firstStates
  exact List.Nodup.sublist (List.take_sublist _ _) (by decide)

theorem new_mem_firstStates {n : ℕ} (h : 1 ≤ n) : FState.NP1 ∈ firstStates n := by
  unfold firstStates
  cases n with
  | zero => omega
  | succ n => simp [List.take_succ_cons]

/-- The repository after `groups.push_back(new FieldInfo)`. -/
theorem pushGroup_inv0 {r : Repo V} (h : WF0 r) :
    WF0 { r with groups := r.groups ++ [fun _ => none] } := by
  refine ⟨h.ids, h.sound, h.complete, h.names, ?_, ?_, h.params, h.base, h.levels, h.init⟩
  · intro i f hf
    obtain ⟨m, hm, hs⟩ := h.group i f hf
    exact ⟨m, (getElem?_append_one _ _ _ _).mpr (Or.inl hm), hs⟩
  · intro g m st id hg hs
    rcases (getElem?_append_one _ _ _ _).mp hg with hg | ⟨_, rfl⟩
    · exact h.group_sound g m st id hg hs
    · simp at hs

theorem group_lt {r : Repo V} (h : WF0 r) {i : ℕ} {f : Field} (hf : r.fields[i]? = some f) :
    f.group < r.groups.length := by
  obtain ⟨m, hm, _⟩ := h.group i f hf
  obtain ⟨hi, _⟩ := List.getElem?_eq_some_iff.mp hm
  exact hi

theorem canAdd_declare {r : Repo V} (h : WF0 r) {name : Name} (nc ng ns : Int) (loc : Loc)
    (hv : isValidName name) (hno : ∀ (i : ℕ) (f : Field), r.fields[i]? = some f → f.base ≠ name) (st : FState) :
    CanAdd { r with groups := r.groups ++ [fun _ => none] } name nc ng ns loc r.groups.length st := by
  refine ⟨hv, ⟨fun _ => none, by simp, rfl⟩, ?_, ?_⟩
  · intro i f hf
    have := group_lt h hf
    constructor
    · intro hg; omega
    · intro hb; exact absurd hb (hno i f hf)
  · intro i f hf hg
    have := group_lt h hf
    omega

/-- A valid name that is not registered is not the base of any field (its New state would be). -/
theorem not_base {r : Repo V} (h : WF r) {name : Name} (hn : r.fidMap name = none) :
    ∀ (i : ℕ) (f : Field), r.fields[i]? = some f → f.base ≠ name := by
  intro i f hf hb
  obtain ⟨h1, h2, h3⟩ := h.nstates i f hf
  obtain ⟨m, j, hm, hj⟩ := h3 .NP1 (new_mem_firstStates (by omega))
  obtain ⟨f', hf', hg, hs⟩ := h.group_sound _ _ _ _ hm hj
  have hp := h.params _ _ _ _ hf' hf hg
  have hb' : f'.base = name := by
    have := congrArg Prod.fst hp
    exact this.trans hb
  have hc := h.complete _ _ hf'
  rw [(h.names _ _ hf').1, hs, nameWithState_new, hb', hn] at hc
  simp at hc

/-- The outcome of a successful declaration of a new name. -/
theorem declare_new {r : Repo V} (h : WF r) {name : Name} {nc ng ns : Int} {loc : Loc}
    (hn : r.fidMap name = none) (h1 : 1 ≤ ns) (h3 : ns ≤ 3) (hv : isValidName name) :
    ∃ r' id, declare r name nc ng ns loc = .ok (r', id) ∧
      r' = addStates { r with groups := r.groups ++ [fun _ => none] } name nc ng ns loc
        r.groups.length (firstStates ns.toNat) ∧ r'.fidMap name = some id ∧ WF r' := by
  set r1 : Repo V := { r with groups := r.groups ++ [fun _ => none] } with hr1
  set r2 := addStates r1 name nc ng ns loc r.groups.length (firstStates ns.toNat) with hr2
  have hcan : ∀ st, CanAdd r1 name nc ng ns loc r.groups.length st := fun st =>
    canAdd_declare h.toWF0 nc ng ns loc hv (not_base h hn) st
  have hi0 : WF0 r2 := addStates_inv0 (pushGroup_inv0 h.toWF0) _ (firstStates_nodup _)
    (fun st _ => hcan st)
  obtain ⟨m', hm', _, hall, _⟩ := addStates_groups r1 name nc ng ns loc r.groups.length
    (firstStates ns.toNat) r.groups.length (fun _ => none) (by simp [hr1])
  have hinv : WF r2 := by
    refine ⟨hi0, ?_⟩
    intro i f hf
    rcases addStates_new r1 name nc ng ns loc r.groups.length _ i f hf with hold | ⟨hg, hp⟩
    · obtain ⟨a, b, d⟩ := h.nstates i f hold
      refine ⟨a, b, fun st hst => ?_⟩
      obtain ⟨m, j, hm, hj⟩ := d st hst
      have hlt := group_lt h.toWF0 hold
      obtain ⟨m2, hm2, _, _, heq⟩ := addStates_groups r1 name nc ng ns loc r.groups.length
        (firstStates ns.toNat) f.group m
        ((getElem?_append_one _ _ _ _).mpr (Or.inl hm))
      exact ⟨m2, j, hm2, by rw [heq (by omega)]; exact hj⟩
    · have hns : f.nstates = ns := by
        simp only [Field.params, Prod.mk.injEq] at hp; exact hp.2.2.2.1
      rw [hns, hg]
      refine ⟨h1, h3, fun st hst => ?_⟩
      obtain ⟨j, hj⟩ := Option.isSome_iff_exists.mp (hall rfl st hst)
      exact ⟨m', j, hm', hj⟩
  -- the New state is registered under the plain name
  obtain ⟨id, hid⟩ := Option.isSome_iff_exists.mp
    (hall rfl .NP1 (new_mem_firstStates (by omega)))
  obtain ⟨f, hf, hg, hs⟩ := hi0.group_sound _ _ _ _ hm' hid
  have hname : f.name = name := by
    rw [(hi0.names _ _ hf).1, hs, nameWithState_new]
    rcases addStates_new r1 name nc ng ns loc r.groups.length _ id f hf with hold | ⟨_, hp⟩
    · have := group_lt h.toWF0 hold; omega
    · exact congrArg Prod.fst hp
  have hmap : r2.fidMap name = some id := by
    have := hi0.complete _ _ hf
    rwa [hname] at this
  refine ⟨r2, id, ?_, rfl, hmap, hinv⟩
  unfold declare
  rw [hn]
  simp only
  rw [if_neg (by omega), if_neg (not_not.mpr hv)]
  rw [← hr1, ← hr2, hmap]

theorem declare_old {r : Repo V} {name : Name} {nc ng ns : Int} {loc : Loc}
    {r' : Repo V} {k : ℕ} (h : declare r name nc ng ns loc = .ok (r', k)) {id : ℕ}
    (hn : r.fidMap name = some id) : r' = r ∧ k = id := by
  unfold declare at h
  rw [hn] at h
  simp only at h
  split at h
  · simp at h
  · split at h
    · simp at h
    · simp only [Except.ok.injEq, Prod.mk.injEq] at h
      exact ⟨h.1.symm, h.2.symm⟩

theorem declare_inv {r r' : Repo V} (h : WF r) {name : Name} {nc ng ns : Int} {loc : Loc} {k : ℕ}
    (h1 : 1 ≤ ns) (hd : declare r name nc ng ns loc = .ok (r', k)) : WF r' := by
  rcases hn : r.fidMap name with _ | id
  · by_cases h3 : ns ≤ 3
    · by_cases hv : isValidName name
      · obtain ⟨r2, id, h2, _, _, h4⟩ := declare_new (loc := loc) (nc := nc) (ng := ng) h hn h1 h3 hv
        rw [hd] at h2
        simp only [Except.ok.injEq, Prod.mk.injEq] at h2
        rw [h2.1]; exact h4
      · unfold declare at hd
        rw [hn] at hd
        simp [hv] at hd
        split at hd <;> simp at hd
    · unfold declare at hd
      rw [hn] at hd
      simp [not_le.mp h3] at hd
  · obtain ⟨rfl, _⟩ := declare_old hd hn
    exact h

/-! ## Other operations -/

theorem createState_inv {r r' : Repo V} (h : WF r) {fid k : ℕ} {st : FState}
    (hc : createState r fid st = .ok (r', k)) : WF r' := by
  unfold createState at hc
  rcases hf : r.fields[fid]? with _ | f
  · simp [hf] at hc
  simp only [hf] at hc
  obtain ⟨m, hm, hms⟩ := h.group _ _ hf
  simp only [hm] at hc
  rcases hst : m st with _ | id
  · simp only [hst, Except.ok.injEq, Prod.mk.injEq] at hc
    obtain ⟨hc, _⟩ := hc
    subst hc
    have c : CanAdd r f.base f.ncomp f.ngrow f.nstates f.loc f.group st := by
      refine ⟨(h.names _ _ hf).2, ⟨m, hm, hst⟩, ?_, ?_⟩
      · intro i f' hf'
        constructor
        · intro hg; exact congrArg Prod.fst (h.params _ _ _ _ hf' hf hg)
        · intro hb; exact h.base _ _ _ _ hf' hf hb
      · intro i f' hf' hg
        exact h.params _ _ _ _ hf' hf hg
    refine ⟨addField_inv0 h.toWF0 c, ?_⟩
    have hgr : ∀ (g' : ℕ) (m' : FState → Option ℕ), r.groups[g']? = some m' → ∀ s j, m' s = some j →
        ∃ m2, (addField r f.base f.ncomp f.ngrow f.nstates f.loc f.group st).groups[g']? = some m2 ∧
          m2 s = some j := by
      intro g' m' hg' s j hj
      by_cases hgg : g' = f.group
      · subst hgg
        rw [hm] at hg'
        injection hg' with hg'
        refine ⟨Function.update m st (some r.fields.length), ?_, ?_⟩
        · simp only [addField, List.getElem?_modify, hm]; simp
        · rw [Function.update_of_ne]
          · rw [hg']; exact hj
          · rintro rfl; rw [← hg', hst] at hj; simp at hj
      · exact ⟨m', by simp only [addField, List.getElem?_modify, hg']; simp [Ne.symm hgg], hj⟩
    intro i f' hf'
    rcases (getElem?_append_one _ _ _ _).mp hf' with hf' | ⟨rfl, rfl⟩
    · obtain ⟨a, b, d⟩ := h.nstates _ _ hf'
      refine ⟨a, b, fun s hs => ?_⟩
      obtain ⟨m', j, hm', hj⟩ := d s hs
      obtain ⟨m2, h1, h2⟩ := hgr _ _ hm' s j hj
      exact ⟨m2, j, h1, h2⟩
    · obtain ⟨a, b, d⟩ := h.nstates _ _ hf
      refine ⟨a, b, fun s hs => ?_⟩
      obtain ⟨m', j, hm', hj⟩ := d s hs
      obtain ⟨m2, h1, h2⟩ := hgr _ _ hm' s j hj
      exact ⟨m2, j, h1, h2⟩
  · simp only [hst, Except.ok.injEq, Prod.mk.injEq] at hc
    rw [← hc.1]; exact h

/-- Changing only the level data to data of the right shape keeps the invariant. -/
theorem setLevels_inv {r : Repo V} (h : WF r) (ls : List (List (Arr V))) (b : Bool)
    (hl : ∀ l ∈ ls, l.map Arr.shape = r.fields.map Field.shape) (hb : b = false → ls = []) :
    WF { r with levels := ls, initialized := b } :=
  ⟨⟨h.ids, h.sound, h.complete, h.names, h.group, h.group_sound, h.params, h.base, hl, hb⟩, h.nstates⟩

theorem freshLevel_shape (r : Repo V) (fill : ℕ → V) :
    (freshLevel r fill).map Arr.shape = r.fields.map Field.shape := by
  unfold freshLevel; rw [List.map_map]; rfl

theorem newLevel_inv {r : Repo V} (h : WF r) (fill : ℕ → V) : WF (newLevel r fill) := by
  refine setLevels_inv h _ true ?_ (by simp)
  intro l hl
  rcases List.mem_append.mp hl with hl | hl
  · exact h.levels l hl
  · rw [List.mem_singleton.mp hl]; exact freshLevel_shape r fill

theorem remakeLevel_inv {r : Repo V} (h : WF r) (lev : ℕ) (fill : ℕ → V) :
    WF (remakeLevel r lev fill) := by
  refine setLevels_inv h _ true ?_ (by simp)
  intro l hl
  rcases List.mem_or_eq_of_mem_set hl with hl | rfl
  · exact h.levels l hl
  · exact freshLevel_shape r fill

theorem clearFinest_inv {r : Repo V} (h : WF r) : WF (clearFinest r) := by
  refine setLevels_inv h _ r.initialized ?_ ?_
  · intro l hl; exact h.levels l (List.mem_of_mem_dropLast hl)
  · intro hb; rw [h.init hb]; rfl

theorem modify_shape (l : List (Arr V)) (i : ℕ) (v : V) :
    (l.modify i (fun a => { a with data := v })).map Arr.shape = l.map Arr.shape := by
  apply List.ext_getElem?
  intro j
  rw [List.getElem?_map, List.getElem?_map, List.getElem?_modify]
  rcases l[j]? with _ | a
  · rfl
  · by_cases h : i = j <;> simp [h, Arr.shape]

theorem setData_inv {r : Repo V} (h : WF r) (lev fid : ℕ) (v : V) : WF (setData r lev fid v) := by
  refine setLevels_inv h _ r.initialized ?_ ?_
  · intro l hl
    obtain ⟨j, hj⟩ := List.mem_iff_getElem?.mp hl
    rw [List.getElem?_modify] at hj
    rcases hx : r.levels[j]? with _ | l'
    · simp [hx] at hj
    · have hl' := h.levels l' (List.mem_of_getElem? hx)
      by_cases hjl : lev = j
      · simp only [hx, hjl, if_true, Option.map_eq_map, Option.map_some, Option.some.injEq] at hj
        rw [← hj, modify_shape]; exact hl'
      · simp [hx, hjl] at hj
        rw [← hj]; exact hl'
  · intro hb; rw [h.init hb]; simp

theorem copyArr_shape (l : List (Arr V)) (d s : ℕ) : (copyArr l d s).map Arr.shape = l.map Arr.shape := by
  unfold copyArr
  split
  · rfl
  · exact modify_shape l d _

theorem copyField_inv {r : Repo V} (h : WF r) (d s : ℕ) : WF (copyField r d s) := by
  refine setLevels_inv h _ r.initialized ?_ ?_
  · intro l hl
    obtain ⟨l', hl', rfl⟩ := List.mem_map.mp hl
    rw [copyArr_shape]; exact h.levels l' hl'
  · intro hb; rw [h.init hb]; rfl

/-- `r'` differs from `r` in array data only. -/
def SameMeta (r r' : Repo V) : Prop :=
  r'.fields = r.fields ∧ r'.fidMap = r.fidMap ∧ r'.groups = r.groups ∧
  r'.initialized = r.initialized ∧ r'.levels.length = r.levels.length

theorem SameMeta.refl (r : Repo V) : SameMeta r r := ⟨rfl, rfl, rfl, rfl, rfl⟩

theorem SameMeta.trans {a b c : Repo V} (h : SameMeta a b) (h' : SameMeta b c) : SameMeta a c :=
  ⟨h'.1.trans h.1, h'.2.1.trans h.2.1, h'.2.2.1.trans h.2.2.1, h'.2.2.2.1.trans h.2.2.2.1,
    h'.2.2.2.2.trans h.2.2.2.2⟩

theorem copyField_meta (r : Repo V) (d s : ℕ) : SameMeta r (copyField r d s) :=
  ⟨rfl, rfl, rfl, rfl, by simp [copyField]⟩

theorem stateOf_meta {r r' : Repo V} (h : SameMeta r r') (fid : ℕ) (st : FState) :
    stateOf r' fid st = stateOf r fid st := by
  unfold stateOf; rw [h.1, h.2.2.1]

/-- Data of field `i` on level `lev`. -/
def dataAt (r : Repo V) (lev i : ℕ) : Option V := (getArr r lev i).map (·.data)

/-- Array existence depends on the numbers of levels and fields only. -/
theorem getArr_isSome {r : Repo V} (h : WF r) (lev i : ℕ) :
    (getArr r lev i).isSome ↔ lev < r.levels.length ∧ i < r.fields.length := by
  unfold getArr
  rcases hl : r.levels[lev]? with _ | l
  · have := List.getElem?_eq_none_iff.mp hl
    simp; omega
  · have h1 : lev < r.levels.length := (List.getElem?_eq_some_iff.mp hl).1
    have h2 := congrArg List.length (h.levels l (List.mem_of_getElem? hl))
    simp only [List.length_map] at h2
    rcases hi : l[i]? with _ | a
    · have := List.getElem?_eq_none_iff.mp hi
      simp [hi]; omega
    · have := (List.getElem?_eq_some_iff.mp hi).1
      simp [hi]; omega

theorem dataAt_copyField {r : Repo V} (h : WF r) {d s : ℕ}
    (hs : s < r.fields.length) (hd : d < r.fields.length) (lev i : ℕ) :
    dataAt (copyField r d s) lev i = if i = d then dataAt r lev s else dataAt r lev i := by
  unfold dataAt getArr copyField
  simp only [List.getElem?_map]
  rcases hl : r.levels[lev]? with _ | l
  · simp
  · have h2 := congrArg List.length (h.levels l (List.mem_of_getElem? hl))
    simp only [List.length_map] at h2
    have hs' : s < l.length := by omega
    have hd' : d < l.length := by omega
    simp only [Option.map_some, Option.bind_some]
    unfold copyArr
    rw [List.getElem?_eq_getElem hs']
    simp only [List.getElem?_modify]
    by_cases hid : i = d
    · subst hid; simp [List.getElem?_eq_getElem hd']
    · rw [if_neg hid]
      rcases l[i]? with _ | a <;> simp [Ne.symm hid]

/-! ## Advancing -/

/-- The field stored for state `st` in group `g`. -/
def groupId (r : Repo V) (g : ℕ) (st : FState) : ℕ := ((r.groups[g]?).bind (· st)).getD 0

/-- Which field's old contents field `i` holds after its group is advanced. -/
def srcOf (r : Repo V) (i : ℕ) (f : Field) : ℕ :=
  match f.state with
  | .N => if 2 ≤ f.nstates then groupId r f.group .NP1 else i
  | .NM1 => if f.nstates = 3 then groupId r f.group .N else i
  | _ => i

theorem stateOf_ok {r : Repo V} (h : WF r) {fid : ℕ} {f : Field} (hf : r.fields[fid]? = some f)
    {st : FState} (hst : st ∈ firstStates f.nstates.toNat) :
    stateOf r fid st = .ok (groupId r f.group st) ∧
    ∃ g, r.fields[groupId r f.group st]? = some g ∧ g.group = f.group ∧ g.state = st := by
  obtain ⟨_, _, h3⟩ := h.nstates _ _ hf
  obtain ⟨m, j, hm, hj⟩ := h3 st hst
  have hid : groupId r f.group st = j := by simp [groupId, hm, hj]
  refine ⟨?_, ?_⟩
  · unfold stateOf; rw [hf, hid]; simp [hm, hj]
  · rw [hid]; exact h.group_sound _ _ _ _ hm hj

theorem eq_groupId {r : Repo V} (h : WF r) {i : ℕ} {f : Field} (hf : r.fields[i]? = some f) :
    groupId r f.group f.state = i := by
  obtain ⟨m, hm, hs⟩ := h.group _ _ hf
  simp [groupId, hm, hs]

theorem idx_lt {r : Repo V} {i : ℕ} {f : Field} (hf : r.fields[i]? = some f) :
    i < r.fields.length := (List.getElem?_eq_some_iff.mp hf).1

/-- A field is the one stored for `st` in group `g` exactly when its group and state are these. -/
theorem eq_groupId_iff {r : Repo V} (h : WF r) {i : ℕ} {f f' : Field} (hf : r.fields[i]? = some f)
    {g : ℕ} {st : FState} (hg : r.fields[groupId r g st]? = some f') (hgg : f'.group = g)
    (hst : f'.state = st) : i = groupId r g st ↔ f.group = g ∧ f.state = st := by
  constructor
  · intro hi
    rw [← hi, hf] at hg
    injection hg with hg
    subst hg
    exact ⟨hgg, hst⟩
  · rintro ⟨rfl, rfl⟩
    exact (eq_groupId h hf).symm

theorem advanceField_spec {r : Repo V} (h : WF r) {fid : ℕ} {f : Field}
    (hf : r.fields[fid]? = some f) :
    ∃ r', advanceField r fid = .ok r' ∧ SameMeta r r' ∧ WF r' ∧
      ∀ lev i fi, r.fields[i]? = some fi →
        dataAt r' lev i = if fi.group = f.group then dataAt r lev (srcOf r i fi) else dataAt r lev i := by
  obtain ⟨h1, h3, hall⟩ := h.nstates _ _ hf
  have hns : ∀ (i : ℕ) (fi : Field), r.fields[i]? = some fi → fi.group = f.group → fi.nstates = f.nstates := by
    intro i fi hi hg
    have := h.params _ _ _ _ hi hf hg
    simp only [Field.params, Prod.mk.injEq] at this
    exact this.2.2.2.1
  have hcases : f.nstates = 1 ∨ f.nstates = 2 ∨ f.nstates = 3 := by omega
  unfold advanceField
  rw [hf]
  simp only
  rcases hcases with hn | hn | hn
  · refine ⟨r, by rw [hn]; rfl, SameMeta.refl r, h, ?_⟩
    intro lev i fi hi
    split
    · rename_i hg
      have := hns i fi hi hg
      unfold srcOf
      rw [this, hn]
      cases fi.state <;> simp
    · rfl
  · rw [hn] at hall ⊢
    obtain ⟨s0, g0, hg0, hg0g, hg0s⟩ := stateOf_ok (st := .NP1) h hf (by rw [hn]; decide)
    obtain ⟨s1, g1, hg1, hg1g, hg1s⟩ := stateOf_ok (st := .N) h hf (by rw [hn]; decide)
    refine ⟨copyField r (groupId r f.group .N) (groupId r f.group .NP1), ?_, copyField_meta _ _ _,
      copyField_inv h _ _, ?_⟩
    · simp [shiftPairs, copyStates, s0, s1]
    · intro lev i fi hi
      rw [dataAt_copyField h (idx_lt hg0) (idx_lt hg1)]
      by_cases hgr : fi.group = f.group
      · have hnn := hns i fi hi hgr
        rw [if_pos hgr]
        by_cases hst : fi.state = .N
        · rw [if_pos ((eq_groupId_iff h hi hg1 hg1g hg1s).mpr ⟨hgr, hst⟩)]
          simp [srcOf, hst, hnn, hn, hgr]
        · rw [if_neg (fun hh => hst ((eq_groupId_iff h hi hg1 hg1g hg1s).mp hh).2)]
          unfold srcOf
          rw [hnn, hn]
          rcases hs : fi.state with _ | _ | _ | _ | _ <;> simp_all
      · rw [if_neg hgr, if_neg (fun hh => hgr ((eq_groupId_iff h hi hg1 hg1g hg1s).mp hh).1)]
  · rw [hn] at hall ⊢
    obtain ⟨s0, g0, hg0, hg0g, hg0s⟩ := stateOf_ok (st := .NP1) h hf (by rw [hn]; decide)
    obtain ⟨s1, g1, hg1, hg1g, hg1s⟩ := stateOf_ok (st := .N) h hf (by rw [hn]; decide)
    obtain ⟨s2, g2, hg2, hg2g, hg2s⟩ := stateOf_ok (st := .NM1) h hf (by rw [hn]; decide)
    set a := copyField r (groupId r f.group .NM1) (groupId r f.group .N) with ha
    have hma : SameMeta r a := copyField_meta _ _ _
    have hwa : WF a := copyField_inv h _ _
    have hda : ∀ lev i, dataAt a lev i = if i = groupId r f.group .NM1 then
        dataAt r lev (groupId r f.group .N) else dataAt r lev i := fun lev i =>
      dataAt_copyField h (idx_lt hg1) (idx_lt hg2) lev i
    refine ⟨copyField a (groupId r f.group .N) (groupId r f.group .NP1), ?_,
      hma.trans (copyField_meta _ _ _), copyField_inv hwa _ _, ?_⟩
    · simp [shiftPairs, copyStates, s1, s2, ← ha, stateOf_meta hma, s0]
    · intro lev i fi hi
      rw [dataAt_copyField hwa (idx_lt (by rw [hma.1]; exact hg0)) (idx_lt (by rw [hma.1]; exact hg1)),
        hda, hda]
      have e2 := eq_groupId_iff h hi hg2 hg2g hg2s
      have e1 := eq_groupId_iff h hi hg1 hg1g hg1s
      have ne02 : groupId r f.group .NP1 ≠ groupId r f.group .NM1 := by
        intro hh; rw [hh, hg2] at hg0; injection hg0 with hg0; rw [hg0, hg0s] at hg2s; simp at hg2s
      rw [if_neg ne02]
      by_cases hgr : fi.group = f.group
      · have hnn := hns i fi hi hgr
        rw [if_pos hgr]
        unfold srcOf
        rw [hnn, hn, hgr]
        rcases hs : fi.state with _ | _ | _ | _ | _ <;> simp_all
      · rw [if_neg hgr, if_neg (fun hh => hgr (e1.mp hh).1), if_neg (fun hh => hgr (e2.mp hh).1)]

theorem groupId_meta {r r' : Repo V} (h : SameMeta r r') (g : ℕ) (st : FState) :
    groupId r' g st = groupId r g st := by unfold groupId; rw [h.2.2.1]

theorem srcOf_meta {r r' : Repo V} (h : SameMeta r r') (i : ℕ) (f : Field) :
    srcOf r' i f = srcOf r i f := by unfold srcOf; simp only [groupId_meta h]

/-- The source of a shifted field is in the same group. -/
theorem srcOf_group {r : Repo V} (h : WF r) {i : ℕ} {f : Field} (hf : r.fields[i]? = some f) :
    ∃ f', r.fields[srcOf r i f]? = some f' ∧ f'.group = f.group := by
  obtain ⟨h1, h3, _⟩ := h.nstates _ _ hf
  unfold srcOf
  rcases hs : f.state with _ | _ | _ | _ | _ <;> simp only
  · exact ⟨f, hf, rfl⟩
  · split
    · obtain ⟨_, g, hg, hgg, _⟩ := stateOf_ok (st := .NP1) h hf (new_mem_firstStates (by omega))
      exact ⟨g, hg, hgg⟩
    · exact ⟨f, hf, rfl⟩
  · split
    · rename_i hn
      obtain ⟨_, g, hg, hgg, _⟩ := stateOf_ok (st := .N) h hf (by rw [hn]; decide)
      exact ⟨g, hg, hgg⟩
    · exact ⟨f, hf, rfl⟩
  · exact ⟨f, hf, rfl⟩
  · exact ⟨f, hf, rfl⟩

theorem advanceList_spec {r : Repo V} (h : WF r) (L : List ℕ) (hnd : L.Nodup)
    (hL : ∀ i ∈ L, ∃ f, r.fields[i]? = some f ∧ f.state = .NP1) :
    ∃ r', advanceList r L = .ok r' ∧ SameMeta r r' ∧ WF r' ∧
      ∀ lev i fi, r.fields[i]? = some fi →
        ((∃ j ∈ L, ∃ fj, r.fields[j]? = some fj ∧ fj.group = fi.group) →
          dataAt r' lev i = dataAt r lev (srcOf r i fi)) ∧
        ((¬ ∃ j ∈ L, ∃ fj, r.fields[j]? = some fj ∧ fj.group = fi.group) →
          dataAt r' lev i = dataAt r lev i) := by
  induction L generalizing r with
  | nil => exact ⟨r, rfl, SameMeta.refl r, h, fun lev i fi hi => ⟨by simp, fun _ => rfl⟩⟩
  | cons k L ih =>
    rw [List.nodup_cons] at hnd
    obtain ⟨f, hf, hfs⟩ := hL k List.mem_cons_self
    obtain ⟨r1, e1, m1, w1, d1⟩ := advanceField_spec h hf
    obtain ⟨r2, e2, m2, w2, d2⟩ := ih w1 hnd.2 (fun i hi => by
      rw [m1.1]; exact hL i (List.mem_cons_of_mem _ hi))
    refine ⟨r2, by unfold advanceList; rw [e1]; exact e2, m1.trans m2, w2, ?_⟩
    intro lev i fi hi
    obtain ⟨dA, dB⟩ := d2 lev i fi (by rw [m1.1]; exact hi)
    rw [m1.1] at dA dB
    rw [srcOf_meta m1] at dA
    -- no other element of the list is in the group of `f`
    have huniq : ∀ j ∈ L, ∀ fj, r.fields[j]? = some fj → fj.group ≠ f.group := by
      intro j hj fj hfj hg
      obtain ⟨fj', hfj', hs⟩ := hL j (List.mem_cons_of_mem _ hj)
      rw [hfj] at hfj'
      injection hfj' with hfj'
      subst hfj'
      have a := eq_groupId h hfj
      have b := eq_groupId h hf
      rw [hs, hg] at a
      rw [hfs] at b
      rw [a] at b
      rw [b] at hj
      exact hnd.1 hj
    by_cases hgr : fi.group = f.group
    · have hno : ¬ ∃ j ∈ L, ∃ fj, r.fields[j]? = some fj ∧ fj.group = fi.group := by
        rintro ⟨j, hj, fj, hfj, hg⟩
        exact huniq j hj fj hfj (hg.trans hgr)
      refine ⟨fun _ => ?_, fun hh => absurd ⟨k, List.mem_cons_self, f, hf, hgr.symm⟩ hh⟩
      rw [dB hno, d1 lev i fi hi, if_pos hgr]
    · have hiff : (∃ j ∈ k :: L, ∃ fj, r.fields[j]? = some fj ∧ fj.group = fi.group) ↔
          ∃ j ∈ L, ∃ fj, r.fields[j]? = some fj ∧ fj.group = fi.group := by
        constructor
        · rintro ⟨j, hj, fj, hfj, hg⟩
          rcases List.mem_cons.mp hj with rfl | hj
          · rw [hf] at hfj; injection hfj with hfj; subst hfj; exact absurd hg.symm hgr
          · exact ⟨j, hj, fj, hfj, hg⟩
        · rintro ⟨j, hj, x⟩; exact ⟨j, List.mem_cons_of_mem _ hj, x⟩
      rw [hiff]
      refine ⟨fun hh => ?_, fun hh => ?_⟩
      · rw [dA hh]
        obtain ⟨f', hf', hg'⟩ := srcOf_group h hi
        rw [d1 lev _ f' hf', if_neg (by rw [hg']; exact hgr)]
      · rw [dB hh, d1 lev i fi hi, if_neg hgr]

theorem newIds_nodup {r : Repo V} (h : WF r) :
    ((r.fields.filter (fun f => f.state = .NP1)).map (·.id)).Nodup := by
  have : (r.fields.map (·.id)) = List.range r.fields.length := by
    apply List.ext_getElem?
    intro i
    rw [List.getElem?_map]
    by_cases hi : i < r.fields.length
    · rw [List.getElem?_range hi, List.getElem?_eq_getElem hi]
      simp [h.ids i r.fields[i] (List.getElem?_eq_getElem hi)]
    · rw [List.getElem?_eq_none (by omega), List.getElem?_eq_none (by simp; omega)]; rfl
  refine List.Nodup.sublist (List.Sublist.map _ List.filter_sublist) ?_
  rw [this]
  exact List.nodup_range

theorem advanceStates_spec {r : Repo V} (h : WF r) :
    ∃ r', advanceStates r = .ok r' ∧ SameMeta r r' ∧ WF r' ∧
      ∀ lev i fi, r.fields[i]? = some fi → dataAt r' lev i = dataAt r lev (srcOf r i fi) := by
  obtain ⟨r', e, m, w, d⟩ := advanceList_spec h _ (newIds_nodup h) (fun i hi => by
    obtain ⟨f, hf, rfl⟩ := List.mem_map.mp hi
    rw [List.mem_filter] at hf
    obtain ⟨j, hj⟩ := List.mem_iff_getElem?.mp hf.1
    rw [h.ids j f hj]
    exact ⟨f, hj, by simpa using hf.2⟩)
  refine ⟨r', e, m, w, fun lev i fi hi => (d lev i fi hi).1 ?_⟩
  obtain ⟨h1, _, _⟩ := h.nstates _ _ hi
  obtain ⟨_, g, hg, hgg, hgs⟩ := stateOf_ok (st := .NP1) h hi (new_mem_firstStates (by omega))
  refine ⟨g.id, ?_, g, ?_, hgg⟩
  · exact List.mem_map.mpr ⟨g, List.mem_filter.mpr ⟨List.mem_of_getElem? hg, by simpa using hgs⟩, rfl⟩
  · rw [h.ids _ _ hg]; exact hg

end AmrWind.FieldRepo
