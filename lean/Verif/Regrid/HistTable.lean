import Verif.Regrid.HistProps

/-!
# The fields that the physics set up, one by one (C134)

When each field is set in the code, and which of them are there after every history.
-/

namespace AmrWind.Hist

open Plane (Cell Axis)
open Regrid

/-- Fields with values that follow from the input. -/
inductive Name
  | wallDist | burggrafSource | mmsSource | forestDrag | terrainRoughness | referenceDensity | ibLevelset | meshMap
  deriving DecidableEq

/-- When a field is set, whether it is saved and whether it is filled on a change of the mesh. -/
structure Life where
  map : Bool := false
  init : Bool := false
  postRegrid : Bool := false
  postInit : Bool := false
  saved : Bool := false
  flagged : Bool := false

/-- `wall_dist`: ChannelFlow.cpp:186-200 (`initialize_fields`), KOmegaSSTI.H:27-30. `bf_src_term`: BurggrafFlow.cpp:53,
BurggrafFlow.H:61. `mms_vel_source`: MMS.cpp:123-125. `forest_drag`: ForestDrag.cpp:33-90. `terrainz0`: TerrainDrag.cpp:45,
53, 177-187 (terrain from a file). `reference_density`: ABLAnelastic.cpp:47-61, MultiPhase.cpp:110-171. `ib_levelset`:
IB.cpp:59-69. `mesh_scaling_factor_cc`: incflo.cpp:397-399 and 209. -/
def life : Name → Life
  | .wallDist => { init := true, flagged := true }
  | .burggrafSource => { init := true }
  | .mmsSource => { postRegrid := true, postInit := true }
  | .forestDrag => { init := true, postRegrid := true }
  | .terrainRoughness => { init := true, postRegrid := true, saved := true }
  | .referenceDensity => { postRegrid := true, postInit := true }
  | .ibLevelset => { postInit := true }
  | .meshMap => { map := true }

/-- The fields numbered as in the repository of such a run. -/
def Name.num : Name → ℕ
  | .wallDist => 0 | .burggrafSource => 1 | .mmsSource => 2 | .forestDrag => 3 | .terrainRoughness => 4
  | .referenceDensity => 5 | .ibLevelset => 6 | .meshMap => 7

/-- The field with a number; higher numbers are other fields. -/
def Name.ofNum (n : ℕ) : Option Name :=
  [Name.wallDist, .burggrafSource, .mmsSource, .forestDrag, .terrainRoughness, .referenceDensity, .ibLevelset, .meshMap][n]?

variable {K : Type*}

/-- An action that sets the fields chosen by `p` to their values. -/
def setBy (exact : Name → ℕ → Cell → K) (p : Life → Bool) (lev : ℕ) (d : Data K) : Data K :=
  ⟨fun fld => match Name.ofNum fld with
    | some n => if p (life n) then exact n lev else d.val fld
    | none => d.val fld, d.ival⟩

/-- The actions of a run with all these fields. -/
def hooks (exact : Name → ℕ → Cell → K) : Hooks K where
  createMap := setBy exact (·.map)
  initFields := setBy exact (·.init)
  postRegrid := setBy exact (·.postRegrid)
  postInit := fun _ => setBy exact (·.postInit)
  saved := [Name.num .terrainRoughness]

theorem ofNum_num (n : Name) : Name.ofNum n.num = some n := by cases n <;> rfl

theorem setBy_sets {exact : Name → ℕ → Cell → K} {p : Life → Bool} {n : Name} (hp : p (life n) = true) :
    Sets n.num (exact n) (setBy exact p) := by
  intro lev d
  simp [setBy, ofNum_num, hp]

theorem setBy_leaves {exact : Name → ℕ → Cell → K} {p : Life → Bool} {n : Name} (hp : p (life n) = false) :
    Leaves n.num (setBy exact p) := by
  intro lev d
  simp [setBy, ofNum_num, hp]

/-- The flags of the fields in the repository. -/
def Flags [Zero K] (o : Ops K) : Prop := ∀ n : Name, o.flagged n.num = (life n).flagged

section
variable [Zero K] {o : Ops K} {exact : Name → ℕ → Cell → K}

/-- **C134.** The source of the manufactured solution, the forest, the terrain and the reference density have their values
in every cell after every history. -/
theorem always_there {n : Name} (hn : n ∈ [Name.mmsSource, .forestDrag, .terrainRoughness, .referenceDensity])
    (cells : Finset Cell) (fine : List (Finset Cell)) (es : List (Ev K)) (hes : StepsKeep n.num es) {t : State K}
    (ht : run o (hooks exact) (start (hooks exact) cells fine) es = some t) : Holds o.ratio n.num (exact n) t := by
  have e1 : (life n).postRegrid = true := by cases n <;> first | rfl | simp at hn
  have e2 : (life n).init = true ∨ (life n).postInit = true := by cases n <;> first | exact .inl rfl | exact .inr rfl | simp at hn
  have e3 : Sets n.num (exact n) (setBy exact (·.postInit)) ∨ Leaves n.num (setBy exact (·.postInit)) := by
    cases hp : (life n).postInit
    · exact .inr (setBy_leaves (p := (·.postInit)) hp)
    · exact .inl (setBy_sets (p := (·.postInit)) hp)
  refine setup_everywhere (h := hooks exact) ?_ (setBy_sets (p := (·.postRegrid)) e1) e3 e3 cells fine es hes ht
  exact e2.imp (fun e => setBy_sets (p := (·.init)) e) fun e => setBy_sets (p := (·.postInit)) e

/-- **C134, disagreement.** The source of the Burggraf flow and the level set of immersed bodies are zero on every level that
a change of the mesh has changed. -/
theorem gone_after_regrid (ho : Flags o) {n : Name} (hn : n = .burggrafSource ∨ n = .ibLevelset) (s : State K)
    (news : List (Option (Finset Cell))) {l : ℕ} {m : Finset Cell} (hl : news[l]? = some (some m)) {L : Level K}
    (hL : (regridUpdate o (hooks exact) s news).fine[l]? = some L) (c : Cell) : L.data.val n.num c = 0 := by
  refine lost_on_regrid (h := hooks exact) ?_ ?_ ?_ s news hl hL c
  · rw [ho]; rcases hn with rfl | rfl <;> rfl
  · rcases hn with rfl | rfl <;> exact setBy_leaves rfl
  · rcases hn with rfl | rfl <;> exact setBy_leaves rfl

/-- **C134, disagreement.** On the levels that a restart adds the source of the Burggraf flow and the mesh map are zero. -/
theorem gone_after_restart (ho : Flags o) {n : Name} (hn : n = .burggrafSource ∨ n = .meshMap) {allow : Bool} {f : File K}
    {added : List (Finset Cell)} {t : State K} (ht : restart o (hooks exact) allow f added = some t) {l : ℕ} {m : Finset Cell}
    (hm : added[l]? = some m) {L : Level K} (hL : t.fine[f.fine.length + l]? = some L) (c : Cell) : L.data.val n.num c = 0 := by
  refine lost_on_restart (h := hooks exact) ?_ ?_ ?_ ht hm hL c
  · rw [ho]; rcases hn with rfl | rfl <;> rfl
  · rcases hn with rfl | rfl <;> exact setBy_leaves rfl
  · rcases hn with rfl | rfl <;> exact setBy_leaves rfl

/-- **C134.** Every field is there as long as no level changes: after the start, steps, and restarts that add no level. -/
theorem there_on_same_mesh (n : Name) (hn : n ≠ .meshMap) (cells : Finset Cell) (fine : List (Finset Cell)) (es : List (Ev K))
    (hes : StepsKeep n.num es) (hsame : ∀ e ∈ es, e.SameMesh fine.length) {t : State K}
    (ht : run o (hooks exact) (start (hooks exact) cells fine) es = some t) : Holds o.ratio n.num (exact n) t := by
  by_cases h1 : n = .wallDist ∨ n = .burggrafSource
  · refine init_only (h := hooks exact) ?_ ?_ ?_ ?_ ?_ cells fine es hes hsame ht
    · rcases h1 with rfl | rfl <;> exact setBy_sets rfl
    · rcases h1 with rfl | rfl <;> exact setBy_leaves rfl
    · rcases h1 with rfl | rfl <;> exact setBy_leaves rfl
    · rcases h1 with rfl | rfl <;> exact fun _ => setBy_leaves rfl
    · rcases h1 with rfl | rfl <;> simp [hooks, Name.num]
  by_cases h2 : n = .ibLevelset
  · subst h2
    have h0 : Holds o.ratio Name.ibLevelset.num (exact .ibLevelset) (start (hooks exact) cells fine) :=
      holds_sets (setBy_sets (p := (·.postInit)) rfl) _
    have hk : (start (hooks exact) cells fine).fine.length = fine.length := by simp [start, mapLev, fromScratch]
    generalize start (hooks exact) cells fine = s at h0 ht hk
    induction es generalizing s with
    | nil => simp only [run, Option.some.injEq] at ht; exact ht ▸ h0
    | cons e es ih =>
      rw [run, Option.bind_eq_some_iff] at ht
      obtain ⟨u, hu, ht⟩ := ht
      have hs := hsame e List.mem_cons_self
      suffices hh : Holds o.ratio Name.ibLevelset.num (exact .ibLevelset) u ∧ u.fine.length = fine.length from
        ih (fun e' he' => hsame e' (List.mem_cons_of_mem _ he')) (fun g hg => hes g (List.mem_cons_of_mem _ hg)) u hh.1 ht hh.2
      cases e with
      | step g =>
        simp only [ev, Option.some.injEq] at hu
        have hg := hes g List.mem_cons_self
        exact hu ▸ ⟨holds_keeps hg h0, (keeps_length hg s).trans hk⟩
      | regrid news =>
        simp only [ev, Option.some.injEq] at hu
        have hq : news = List.replicate fine.length none := hs
        rw [← hu, regridUpdate, hq, ← hk, regrid_same]
        exact ⟨holds_leaves (setBy_leaves (p := (·.postRegrid)) rfl) (holds_leaves (setBy_leaves (p := (·.map)) rfl) h0),
          by simp [mapLev]⟩
      | restart allow added =>
        obtain rfl : added = [] := hs
        exact ⟨regained_on_restart (h := hooks exact) (setBy_sets (p := (·.postInit)) rfl) s allow [] hu,
          (restart_length hu).trans hk⟩
  · refine always_there ?_ cells fine es hes ht
    cases n <;> simp_all

end

/-! ## A case -/

/-- Constant interpolation, ratio two, wall distance filled. -/
def exOps : Ops ℚ := ⟨fun _ _ => 2, fun _ _ _ u c => u (Amr.coarsen (fun _ => 2) c), fun n => n = 0⟩

example : Flags exOps := by intro n; cases n <;> rfl
example : Local { exOps with interp := fun _ _ cov u c => if Amr.coarsen (fun _ => 2) c ∈ cov then u (Amr.coarsen (fun _ => 2) c) else 0 } := by
  intro lev fld cov u v c huv
  by_cases hc : Amr.coarsen (fun _ => 2) c ∈ cov
  · simp [hc, huv]
  · simp [hc]

/-- Every field is one; one cell, refined at the start. -/
def exRun (es : List (Ev ℚ)) : Option (State ℚ) :=
  run exOps (hooks fun _ _ _ => 1) (start (hooks fun _ _ _ => 1) {(0, 0, 0)} [{(0, 0, 0)}]) es

/-- After the start the body is there, after a change of the mesh it is not, after a restart it is; the forest always is. -/
example : (exRun []).map (fun s => s.fine.map fun L => (L.data.val 6 (0, 0, 0), L.data.val 3 (0, 0, 0))) = some [(1, 1)] ∧
    (exRun [.regrid [some {(0, 0, 0)}]]).map (fun s => s.fine.map fun L => (L.data.val 6 (0, 0, 0), L.data.val 3 (0, 0, 0))) =
      some [(0, 1)] ∧
    (exRun [.regrid [some {(0, 0, 0)}], .restart false []]).map
      (fun s => s.fine.map fun L => (L.data.val 6 (0, 0, 0), L.data.val 3 (0, 0, 0))) = some [(1, 1)] := by decide +kernel

/-- A restart that adds a level: no mesh map on it. -/
example : (exRun [.restart false [{(0, 0, 0), (0, 0, 1)}]]).map
    (fun s => s.fine.map fun L => (L.data.val 7 (0, 0, 0), L.data.val 3 (0, 0, 0))) = some [(1, 1), (0, 1)] := by decide +kernel

/-- A run that adds the forest to a saved field, changes the mesh and adds again goes on the same after a restart. -/
example : let o : Ops ℚ := { exOps with
        flagged := fun n => n = 0 ∨ n = 9
        interp := fun _ _ cov u c => if Amr.coarsen (fun _ => 2) c ∈ cov then u (Amr.coarsen (fun _ => 2) c) else 0 }
    let h : Hooks ℚ := { hooks fun _ _ _ => 1 with saved := [4, 9] }
    let add : Ev ℚ := .step (mapLev fun _ d => ⟨fun n c => if n = 9 then d.val 9 c + d.val 3 c else d.val n c, d.ival⟩)
    let es := [add, .regrid [some {(0, 0, 0)}], add]
    ∃ s' t', run o h (start h {(0, 0, 0)} []) es = some s' ∧
      run o h (start h {(0, 0, 0)} []) (.restart false [] :: es) = some t' ∧ Agree o.ratio (fun n => n = 3 ∨ n = 9) s' t' := by
  intro o h add es
  have hadd : Respects (K := ℚ) (fun n => n = 3 ∨ n = 9)
      fun _ d => ⟨fun n c => if n = 9 then d.val 9 c + d.val 3 c else d.val n c, d.ival⟩ := by
    rintro _ P d e hde fld (rfl | rfl) c hc
    · simpa using hde 3 (.inl rfl) c hc
    · simp [hde 3 (.inl rfl) c hc, hde 9 (.inr rfl) c hc]
  have hset : ∀ p : Life → Bool, Respects (K := ℚ) (fun n => n = 3 ∨ n = 9) (setBy (fun _ _ _ => 1) p) := by
    rintro p _ P d e hde fld hf c hc
    have := hde fld hf c hc
    rcases hf with rfl | rfl
    · rw [show (3 : ℕ) = Name.forestDrag.num from rfl] at this ⊢
      cases hp : p (life .forestDrag)
      · rw [setBy_leaves hp, setBy_leaves hp]; exact this
      · rw [setBy_sets hp, setBy_sets hp]
    · exact this
  refine restart_continues_partial (o := o) (h := h) (fun _ _ => two_pos) ?_ (fun _ _ _ => 1) (hset _) (hset _) _ ?_ false es ?_
  · intro lev fld cov u v c huv
    by_cases hc : Amr.coarsen (fun _ => 2) c ∈ cov
    · simp [o, hc, huv]
    · simp [o, hc]
  · rintro fld (rfl | rfl)
    · refine .inr ⟨?_, .inr (setBy_leaves (n := .forestDrag) rfl), .inr (.inl (setBy_sets (n := .forestDrag) rfl))⟩
      exact holds_leaves (setBy_leaves (n := .forestDrag) (p := (·.postInit)) rfl)
        (fromScratch_holds (setBy_sets (n := .forestDrag) rfl) _ _)
    · exact .inl ⟨by simp [h], fun _ _ => rfl, fun _ _ => rfl⟩
  · intro e he
    simp only [es, List.mem_cons, List.not_mem_nil, or_false] at he
    rcases he with rfl | rfl | rfl
    · exact fun s t hst => agree_mapLev hadd hst
    · trivial
    · exact fun s t hst => agree_mapLev hadd hst

/-- A checkpoint without the terrain roughness is refused unless allowed. -/
example : restart exOps (hooks fun _ _ _ => 1) false ⟨{(0, 0, 0)}, [], fun _ _ => none⟩ [] = none :=
  (refused_iff (o := exOps) (h := hooks fun _ _ _ => (1 : ℚ)) false ⟨{(0, 0, 0)}, [], fun _ _ => none⟩ []).mpr
    ⟨rfl, 0, Nat.le_refl 0, 4, by simp [hooks, Name.num], rfl⟩

/-- Waves are relaxed on start and restart: with weight one half towards zero the saved value is halved by a restart. -/
example : (ev exOps { hooks fun _ _ _ => (1 : ℚ) with
      saved := [9], postRegrid := fun _ d => d, postInit := fun _ _ d => ⟨fun n c => if n = 9 then d.val n c / 2 else d.val n c, d.ival⟩ }
    ⟨{(0, 0, 0)}, ⟨fun _ _ => 8, fun _ _ => none⟩, []⟩ (.restart false [])).map (fun s => s.base.val 9 (0, 0, 0)) = some 4 := by
  decide +kernel

end AmrWind.Hist
