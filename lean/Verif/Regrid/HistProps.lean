import Verif.Regrid.HistSpec
import Verif.Regrid.Props
import Mathlib.Tactic.NormNum

/-!
# Start, checkpoint, restart and change of the mesh: what is kept (C134)
-/

namespace AmrWind.Hist

open Plane (Cell Axis)
open Regrid
open Amr (coarsen)

set_option linter.unusedSectionVars false

/-! ## Helpers -/

section helpers
variable {K : Type*}

theorem mapLev_fine (g : ℕ → Data K → Data K) (s : State K) (l : ℕ) :
    (mapLev g s).fine[l]? = s.fine[l]?.map fun L => ⟨L.refined, g (l + 1) L.data⟩ := by
  simp [mapLev]

theorem holds_sets {r : ℕ → Axis → ℕ} {fld : ℕ} {exact : ℕ → Cell → K} {g : ℕ → Data K → Data K} (hg : Sets fld exact g)
    (s : State K) : Holds r fld exact (mapLev g s) := by
  refine ⟨fun c _ => congrFun (hg 0 _) c, fun l L hL c _ => ?_⟩
  rw [mapLev_fine, Option.map_eq_some_iff] at hL
  obtain ⟨M, _, rfl⟩ := hL
  exact congrFun (hg (l + 1) _) c

theorem holds_leaves {r : ℕ → Axis → ℕ} {fld : ℕ} {exact : ℕ → Cell → K} {g : ℕ → Data K → Data K} (hg : Leaves fld g)
    {s : State K} (hs : Holds r fld exact s) : Holds r fld exact (mapLev g s) := by
  refine ⟨fun c hc => (congrFun (hg 0 _) c).trans (hs.1 c hc), fun l L hL c hc => ?_⟩
  rw [mapLev_fine, Option.map_eq_some_iff] at hL
  obtain ⟨M, hM, rfl⟩ := hL
  exact (congrFun (hg (l + 1) _) c).trans (hs.2 l M hM c hc)

theorem holds_either {r : ℕ → Axis → ℕ} {fld : ℕ} {exact : ℕ → Cell → K} {g : ℕ → Data K → Data K}
    (hg : Sets fld exact g ∨ Leaves fld g) {s : State K} (hs : Holds r fld exact s) : Holds r fld exact (mapLev g s) :=
  hg.elim (fun h => holds_sets h s) fun h => holds_leaves h hs

theorem holds_keeps {r : ℕ → Axis → ℕ} {fld : ℕ} {exact : ℕ → Cell → K} {g : State K → State K} (hg : KeepsField fld g)
    {s : State K} (hs : Holds r fld exact s) : Holds r fld exact (g s) := by
  obtain ⟨h1, h2, h3, h4⟩ := hg s
  refine ⟨fun c hc => ?_, fun l L hL c hc => ?_⟩
  · rw [h3]; exact hs.1 c (h1 ▸ hc)
  · have e2 := congrArg (·[l]?) h2
    have e4 := congrArg (·[l]?) h4
    simp only [List.getElem?_map, hL, Option.map_some] at e2 e4
    cases hM : s.fine[l]? with
    | none => rw [hM] at e2; simp at e2
    | some M =>
      rw [hM, Option.map_some, Option.some.injEq] at e2 e4
      rw [e4]; exact hs.2 l M hM c (e2 ▸ hc)

end helpers

section main
variable {K : Type*} [Zero K] {o : Ops K} {h : Hooks K}

theorem from_same (lev : ℕ) (cov : Finset Cell) (co : Data K) (olds : List (Level K)) :
    regridFrom o lev cov co olds (List.replicate olds.length none) = olds := by
  induction olds generalizing lev cov co with
  | nil => simp [regridFrom]
  | cons a olds ih => simp [List.replicate_succ, regridFrom, ih]

theorem regrid_same (s : State K) : regrid o s (List.replicate s.fine.length none) = s := by
  simp [regrid, from_same]

theorem scratch_sets {fld : ℕ} {exact : ℕ → Cell → K} (hi : Sets fld exact h.initFields) (lev : ℕ) :
    (scratch h lev).val fld = exact lev := hi lev _

theorem fromScratch_holds {r : ℕ → Axis → ℕ} {fld : ℕ} {exact : ℕ → Cell → K} (hi : Sets fld exact h.initFields)
    (cells : Finset Cell) (fine : List (Finset Cell)) : Holds r fld exact (fromScratch h cells fine) := by
  refine ⟨fun c _ => congrFun (scratch_sets hi 0) c, fun l L hL c _ => ?_⟩
  simp only [fromScratch, List.getElem?_mapIdx, Option.map_eq_some_iff] at hL
  obtain ⟨m, _, rfl⟩ := hL
  exact congrFun (scratch_sets hi (l + 1)) c

theorem restart_eq {allow : Bool} {f : File K} {added : List (Finset Cell)} {t : State K}
    (ht : restart o h allow f added = some t) : ∃ s, readCheckpoint h allow f = some s ∧
      t = mapLev (h.postInit true) (mapLev h.postRegrid (regrid o s (List.replicate s.fine.length none ++ added.map some))) := by
  rw [restart, Option.map_eq_some_iff] at ht
  obtain ⟨s, hs, rfl⟩ := ht
  exact ⟨s, hs, rfl⟩

theorem read_eq {allow : Bool} {f : File K} {s : State K} (hs : readCheckpoint h allow f = some s) :
    s = mapLev (restore h.saved f) (fromScratch h f.cells f.fine) := by
  unfold readCheckpoint at hs
  split at hs
  · simp at hs
  · exact (Option.some.inj hs).symm

theorem keeps_length {fld : ℕ} {g : State K → State K} (hg : KeepsField fld g) (s : State K) :
    (g s).fine.length = s.fine.length := by
  have := congrArg List.length (hg s).2.1
  simpa using this

theorem restart_length {allow : Bool} {s t : State K} (ht : ev o h s (.restart allow []) = some t) :
    t.fine.length = s.fine.length := by
  obtain ⟨w, hw, rfl⟩ := restart_eq ht
  rw [List.map_nil, List.append_nil, regrid_same, read_eq hw]
  simp [mapLev, fromScratch, write]

/-! ## Fields that the physics set up -/

/-- **C134, fields set up after every change of the mesh.** A field that is set when the run starts and after each change of
the mesh has its value in every cell of every level after every history of steps, changes of the mesh and restarts. (The
forest, the terrain, the source of the manufactured solution, the reference states.) -/
theorem setup_everywhere {fld : ℕ} {exact : ℕ → Cell → K}
    (hstart : Sets fld exact h.initFields ∨ Sets fld exact (h.postInit false))
    (hreg : Sets fld exact h.postRegrid)
    (hp : Sets fld exact (h.postInit false) ∨ Leaves fld (h.postInit false))
    (hp' : Sets fld exact (h.postInit true) ∨ Leaves fld (h.postInit true))
    (cells : Finset Cell) (fine : List (Finset Cell)) (es : List (Ev K)) (hes : StepsKeep fld es) {t : State K}
    (ht : run o h (start h cells fine) es = some t) : Holds o.ratio fld exact t := by
  have h0 : Holds o.ratio fld exact (start h cells fine) := by
    rcases hstart with hi | hi
    · exact holds_either hp (fromScratch_holds hi _ _)
    · exact holds_sets hi _
  generalize start h cells fine = s at h0 ht
  induction es generalizing s with
  | nil => simp only [run, Option.some.injEq] at ht; exact ht ▸ h0
  | cons e es ih =>
    rw [run, Option.bind_eq_some_iff] at ht
    obtain ⟨u, hu, ht⟩ := ht
    refine ih (fun g hg => hes g (List.mem_cons_of_mem _ hg)) u ?_ ht
    cases e with
    | step g =>
      simp only [ev, Option.some.injEq] at hu
      exact hu ▸ holds_keeps (hes g List.mem_cons_self) h0
    | regrid news =>
      simp only [ev, Option.some.injEq] at hu
      exact hu ▸ holds_sets hreg _
    | restart allow added =>
      obtain ⟨w, _, rfl⟩ := restart_eq hu
      exact holds_either hp' (holds_sets hreg _)

/-- **C134, fields set up at the start only.** A field that is set only when its level is made from scratch has its value
everywhere as long as the mesh stays as it is, through steps and restarts. -/
theorem init_only {fld : ℕ} {exact : ℕ → Cell → K} (hi : Sets fld exact h.initFields) (hm : Leaves fld h.createMap)
    (hreg : Leaves fld h.postRegrid) (hp : ∀ b, Leaves fld (h.postInit b)) (hsv : fld ∉ h.saved)
    (cells : Finset Cell) (fine : List (Finset Cell)) (es : List (Ev K)) (hes : StepsKeep fld es)
    (hsame : ∀ e ∈ es, e.SameMesh fine.length) {t : State K}
    (ht : run o h (start h cells fine) es = some t) : Holds o.ratio fld exact t := by
  have h0 : Holds o.ratio fld exact (start h cells fine) := holds_leaves (hp false) (fromScratch_holds hi _ _)
  have hn : (start h cells fine).fine.length = fine.length := by simp [start, mapLev, fromScratch]
  generalize start h cells fine = s at h0 ht hn
  induction es generalizing s with
  | nil => simp only [run, Option.some.injEq] at ht; exact ht ▸ h0
  | cons e es ih =>
    rw [run, Option.bind_eq_some_iff] at ht
    obtain ⟨u, hu, ht⟩ := ht
    have hs := hsame e List.mem_cons_self
    suffices hh : Holds o.ratio fld exact u ∧ u.fine.length = fine.length from
      ih (fun g hg => hes g (List.mem_cons_of_mem _ hg)) (fun e' he' => hsame e' (List.mem_cons_of_mem _ he')) u hh.1 ht hh.2
    cases e with
    | step g =>
      simp only [ev, Option.some.injEq] at hu
      have hg := hes g List.mem_cons_self
      exact hu ▸ ⟨holds_keeps hg h0, (keeps_length hg s).trans hn⟩
    | regrid news =>
      simp only [ev, Option.some.injEq] at hu
      have hq : news = List.replicate fine.length none := hs
      rw [← hu, regridUpdate, hq, ← hn, regrid_same]
      exact ⟨holds_leaves hreg (holds_leaves hm h0), by simp [mapLev]⟩
    | restart allow added =>
      obtain rfl : added = [] := hs
      refine ⟨?_, (restart_length hu).trans hn⟩
      obtain ⟨w, hw, rfl⟩ := restart_eq hu
      rw [List.map_nil, List.append_nil, regrid_same, read_eq hw]
      refine holds_leaves (hp true) (holds_leaves hreg (holds_leaves ?_ (fromScratch_holds hi _ _)))
      intro lev d
      simp [restore, hsv]

/-- **C134, disagreement.** A field that no action after a change of the mesh sets, and that is not filled, is zero on every
level that the change has changed. (The source of the Burggraf flow; the level set and normal of immersed bodies.) -/
theorem lost_on_regrid {fld : ℕ} (hf : o.flagged fld = false) (hm : Leaves fld h.createMap)
    (hreg : Leaves fld h.postRegrid) (s : State K) (news : List (Option (Finset Cell))) {l : ℕ} {m : Finset Cell}
    (hl : news[l]? = some (some m)) {L : Level K} (hL : (regridUpdate o h s news).fine[l]? = some L) (c : Cell) :
    L.data.val fld c = 0 := by
  rw [regridUpdate, mapLev_fine, mapLev_fine, Option.map_map, Option.map_eq_some_iff] at hL
  obtain ⟨M, hM, rfl⟩ := hL
  refine (congrFun (hreg _ _) c).trans ((congrFun (hm _ _) c).trans ?_)
  exact (regrid_loses o s news hl hM).1 fld c hf

/-- **C134.** A field that is set when the run starts, or starts again, has its value everywhere after every restart, whatever
happened before. -/
theorem regained_on_restart {fld : ℕ} {exact : ℕ → Cell → K} (hp : Sets fld exact (h.postInit true)) (s : State K)
    (allow : Bool) (added : List (Finset Cell)) {t : State K} (ht : ev o h s (.restart allow added) = some t) :
    Holds o.ratio fld exact t := by
  obtain ⟨w, _, rfl⟩ := restart_eq ht
  exact holds_sets hp _

/-- The levels added on a restart. -/
theorem restart_added {allow : Bool} {f : File K} {added : List (Finset Cell)} {t : State K}
    (ht : restart o h allow f added = some t) {l : ℕ} {m : Finset Cell} (hm : added[l]? = some m) {L : Level K}
    (hL : t.fine[f.fine.length + l]? = some L) : ∃ d : Data K, (∀ fld c, o.flagged fld = false → d.val fld c = 0) ∧
      L.refined = m ∧ L.data = h.postInit true (f.fine.length + l + 1) (h.postRegrid (f.fine.length + l + 1) d) := by
  obtain ⟨w, hw, rfl⟩ := restart_eq ht
  have hlen : w.fine.length = f.fine.length := by rw [read_eq hw]; simp [mapLev, fromScratch]
  rw [mapLev_fine, mapLev_fine, Option.map_map, Option.map_eq_some_iff] at hL
  obtain ⟨M, hM, rfl⟩ := hL
  have hn : (List.replicate w.fine.length none ++ added.map some)[f.fine.length + l]? = some (some m) := by
    rw [List.getElem?_append_right (by simp [hlen])]
    simp [hlen, hm]
  exact ⟨M.data, (regrid_loses o w _ hn hM).1, (from_dropped hn hM).1, rfl⟩

/-- **C134, disagreement.** A field that is set only when its level is made from scratch, the mesh map among them, is zero on
the levels that a restart adds. -/
theorem lost_on_restart {fld : ℕ} (hf : o.flagged fld = false) (hreg : Leaves fld h.postRegrid)
    (hp : Leaves fld (h.postInit true)) {allow : Bool} {f : File K} {added : List (Finset Cell)} {t : State K}
    (ht : restart o h allow f added = some t) {l : ℕ} {m : Finset Cell} (hm : added[l]? = some m) {L : Level K}
    (hL : t.fine[f.fine.length + l]? = some L) (c : Cell) : L.data.val fld c = 0 := by
  obtain ⟨d, hd, _, e⟩ := restart_added ht hm hL
  rw [e, hp, hreg]
  exact hd fld c hf

/-- **C134.** The mesh map is there again after the next change of the mesh, whatever the change. -/
theorem map_regained {fld : ℕ} {exact : ℕ → Cell → K} (hm : Sets fld exact h.createMap) (hreg : Leaves fld h.postRegrid)
    (s : State K) (news : List (Option (Finset Cell))) : Holds o.ratio fld exact (regridUpdate o h s news) :=
  holds_leaves hreg (holds_sets hm _)

/-! ## Checkpoints -/

theorem level_mapLev (g : ℕ → Data K → Data K) (s : State K) (lev : ℕ) : level (mapLev g s) lev = (level s lev).map (g lev) := by
  cases lev with
  | zero => rfl
  | succ l => simp only [level, mapLev_fine, Option.map_map]; rfl

theorem level_fromScratch (cells : Finset Cell) (fine : List (Finset Cell)) (lev : ℕ) (hl : lev ≤ fine.length) :
    level (fromScratch h cells fine) lev = some (scratch h lev) := by
  cases lev with
  | zero => rfl
  | succ l => simp [level, fromScratch, List.getElem?_eq_getElem (show l < fine.length by omega)]

/-- **C134, missing files.** A restart is refused exactly if a registered field has no file on some level of the checkpoint
and this is not allowed. -/
theorem refused_iff (allow : Bool) (f : File K) (added : List (Finset Cell)) :
    restart o h allow f added = none ↔
      allow = false ∧ ∃ lev ≤ f.fine.length, ∃ fld ∈ h.saved, f.val lev fld = none := by
  have hm : missing h.saved f = true ↔ ∃ lev ≤ f.fine.length, ∃ fld ∈ h.saved, f.val lev fld = none := by
    simp [missing, Nat.lt_succ_iff]
  rw [← hm, restart, Option.map_eq_none_iff, readCheckpoint]
  cases missing h.saved f <;> cases allow <;> simp

/-- **C134, missing files.** A field that may be missing, and is, has after reading what the physics give it at the start
of a run. -/
theorem missing_initial {allow : Bool} {f : File K} {s : State K} (hs : readCheckpoint h allow f = some s) {lev fld : ℕ}
    (hl : lev ≤ f.fine.length) (hv : f.val lev fld = none) :
    ∃ d, level s lev = some d ∧ d.val fld = (scratch h lev).val fld := by
  rw [read_eq hs, level_mapLev, level_fromScratch _ _ _ hl]
  refine ⟨_, rfl, ?_⟩
  simp [restore, hv]

/-- **C134, round trip.** A checkpoint is never refused by a run with the same fields; reading it gives the same mesh, and
every registered field has on every level, in every cell, the value it had; the others have what the physics give them at
the start of a run. -/
theorem round_trip (allow : Bool) (s : State K) : ∃ t, readCheckpoint h allow (write h.saved s) = some t ∧
    t.cells = s.cells ∧ t.fine.map (·.refined) = s.fine.map (·.refined) ∧
    ∀ lev d, level s lev = some d → ∃ e, level t lev = some e ∧ (∀ fld ∈ h.saved, e.val fld = d.val fld) ∧
      ∀ fld, fld ∉ h.saved → e.val fld = (scratch h lev).val fld := by
  have hlen : (write h.saved s).fine.length = s.fine.length := by simp [write]
  have hmiss : missing h.saved (write h.saved s) = false := by
    by_contra hc
    rw [Bool.not_eq_false, missing, List.any_eq_true] at hc
    obtain ⟨lev, hl, hc⟩ := hc
    rw [List.any_eq_true] at hc
    obtain ⟨fld, hf, hc⟩ := hc
    rw [List.mem_range, hlen] at hl
    simp only [write, if_pos hf] at hc
    cases lev with
    | zero => simp [level] at hc
    | succ l => simp [level, List.getElem?_eq_getElem (show l < s.fine.length by omega)] at hc
  refine ⟨mapLev (restore h.saved (write h.saved s)) (fromScratch h (write h.saved s).cells (write h.saved s).fine),
    by simp [readCheckpoint, hmiss], rfl, ?_, fun lev d hd => ?_⟩
  · apply List.ext_getElem?
    intro i
    simp [mapLev, fromScratch, write]
    cases s.fine[i]? <;> rfl
  · have hl : lev ≤ (write h.saved s).fine.length := by
      rw [hlen]
      cases lev with
      | zero => omega
      | succ l =>
        by_contra hc
        rw [level, List.getElem?_eq_none (by omega)] at hd
        simp at hd
    rw [level_mapLev, level_fromScratch _ _ _ hl]
    refine ⟨_, rfl, fun fld hf => ?_, fun fld hf => ?_⟩
    · simp [restore, write, hf, hd]
    · simp [restore, hf]

/-! ## A restarted run continues -/

theorem agreeFrom_mapLev {r : ℕ → Axis → ℕ} {D : ℕ → Prop} {g : ℕ → Data K → Data K} (hg : Respects D g) :
    ∀ (a b : List (Level K)) (lev : ℕ), AgreeFrom r D lev a b →
      AgreeFrom r D lev (a.mapIdx fun i L => ⟨L.refined, g (lev + i + 1) L.data⟩)
        (b.mapIdx fun i L => ⟨L.refined, g (lev + i + 1) L.data⟩)
  | [], [], _, _ => by simp [AgreeFrom]
  | L :: a, M :: b, lev, ⟨h1, h2, h3⟩ => by
    rw [List.mapIdx_cons, List.mapIdx_cons]
    refine ⟨h1, hg _ _ _ _ h2, ?_⟩
    have := agreeFrom_mapLev (r := r) hg a b (lev + 1) h3
    simpa only [Nat.add_assoc, Nat.add_comm 1] using this
  | [], _ :: _, _, h => h.elim
  | _ :: _, [], _, h => h.elim

theorem agree_mapLev {r : ℕ → Axis → ℕ} {D : ℕ → Prop} {g : ℕ → Data K → Data K} (hg : Respects D g) {s t : State K}
    (hs : Agree r D s t) : Agree r D (mapLev g s) (mapLev g t) := by
  refine ⟨hs.1, hg _ _ _ _ hs.2.1, ?_⟩
  have := agreeFrom_mapLev (r := r) hg s.fine t.fine 0 hs.2.2
  simp only [Nat.zero_add] at this
  exact this

theorem agreeFrom_regrid (hr : ∀ lev d, 0 < o.ratio lev d) (ho : Local o) {D : ℕ → Prop} :
    ∀ (news : List (Option (Finset Cell))) (a b : List (Level K)) (lev : ℕ) (cov : Finset Cell) (d e : Data K),
      AgreeOn D cov d e → AgreeFrom o.ratio D lev a b →
      AgreeFrom o.ratio D lev (regridFrom o lev cov d a news) (regridFrom o lev cov e b news)
  | [], a, b, _, _, _, _, _, _ => by simp [regridFrom, AgreeFrom]
  | none :: news, [], [], _, _, _, _, _, _ => by simp [regridFrom, AgreeFrom]
  | some m :: news, [], [], lev, cov, d, e, hde, _ => by
    have hnew : AgreeOn D (cellsOf (o.ratio lev) m) (fromCoarse o lev cov d m).data (fromCoarse o lev cov e m).data := by
      intro fld hf c _
      simp only [fromCoarse]
      by_cases hfl : o.flagged fld = true
      · simp only [hfl, if_true]; exact ho _ _ _ _ _ _ fun p hp => hde fld hf p hp
      · simp only [hfl]; rfl
    exact ⟨rfl, hnew, agreeFrom_regrid hr ho news [] [] (lev + 1) _ _ _ hnew trivial⟩
  | none :: news, L :: a, M :: b, lev, cov, d, e, _, ⟨h1, h2, h3⟩ => by
    refine ⟨h1, h2, ?_⟩
    have := agreeFrom_regrid hr ho news a b (lev + 1) _ _ _ h2 h3
    rwa [← h1]
  | some m :: news, L :: a, M :: b, lev, cov, d, e, hde, ⟨h1, h2, h3⟩ => by
    have hnew : AgreeOn D (cellsOf (o.ratio lev) m) (remake o lev cov d L m).data (remake o lev cov e M m).data := by
      intro fld hf c _
      simp only [remake]
      by_cases hfl : o.flagged fld = true
      · simp only [hfl, if_true, ← h1]
        by_cases hc : coarsen (o.ratio lev) c ∈ L.refined
        · simp only [hc, if_true]; exact h2 fld hf c ((mem_cellsOf (hr lev)).mpr hc)
        · simp only [hc, if_false]; exact ho _ _ _ _ _ _ fun p hp => hde fld hf p hp
      · simp only [hfl]; rfl
    exact ⟨rfl, hnew, agreeFrom_regrid hr ho news a b (lev + 1) _ _ _ hnew h3⟩
  | _ :: _, [], _ :: _, _, _, _, _, _, h => h.elim
  | _ :: _, _ :: _, [], _, _, _, _, _, h => h.elim

theorem agree_regrid (hr : ∀ lev d, 0 < o.ratio lev d) (ho : Local o) {D : ℕ → Prop} {s t : State K}
    (hs : Agree o.ratio D s t) (news : List (Option (Finset Cell))) : Agree o.ratio D (regrid o s news) (regrid o t news) := by
  refine ⟨hs.1, hs.2.1, ?_⟩
  have := agreeFrom_regrid hr ho news s.fine t.fine 0 s.cells s.base t.base hs.2.1 hs.2.2
  simp only [regrid, ← hs.1]
  exact this

/-- Events of a run that is not interrupted: steps that make of the fields `D` what depends on the fields `D` only, and changes
of the mesh. -/
def Plain (r : ℕ → Axis → ℕ) (D : ℕ → Prop) (e : Ev K) : Prop :=
  match e with
  | .step g => ∀ s t, Agree r D s t → Agree r D (g s) (g t)
  | .regrid _ => True
  | .restart _ _ => False

theorem agree_run (hr : ∀ lev d, 0 < o.ratio lev d) (ho : Local o) {D : ℕ → Prop} (hm : Respects D h.createMap)
    (hreg : Respects D h.postRegrid) (es : List (Ev K)) (hes : ∀ e ∈ es, Plain o.ratio D e) {s t : State K}
    (hs : Agree o.ratio D s t) :
    ∃ s' t', run o h s es = some s' ∧ run o h t es = some t' ∧ Agree o.ratio D s' t' := by
  induction es generalizing s t with
  | nil => exact ⟨s, t, rfl, rfl, hs⟩
  | cons e es ih =>
    have he := hes e List.mem_cons_self
    have hes' := fun e' he' => hes e' (List.mem_cons_of_mem _ he')
    cases e with
    | step g => exact ih hes' (he s t hs)
    | regrid news => exact ih hes' (agree_mapLev hreg (agree_mapLev hm (agree_regrid hr ho hs news)))
    | restart allow added => exact he.elim

theorem agreeFrom_of {r : ℕ → Axis → ℕ} {D : ℕ → Prop} : ∀ (a b : List (Level K)) (lev : ℕ),
    a.map (·.refined) = b.map (·.refined) →
    (∀ (l : ℕ) (L M : Level K), a[l]? = some L → b[l]? = some M → AgreeOn D (cellsOf (r (lev + l)) L.refined) L.data M.data) →
    AgreeFrom r D lev a b
  | [], [], _, _, _ => trivial
  | [], _ :: _, _, he, _ => by simp at he
  | _ :: _, [], _, he, _ => by simp at he
  | L :: a, M :: b, lev, he, hv => by
    simp only [List.map_cons, List.cons.injEq] at he
    refine ⟨he.1, hv 0 L M rfl rfl, agreeFrom_of a b (lev + 1) he.2 fun l A B hA hB => ?_⟩
    have := hv (l + 1) A B (by simpa using hA) (by simpa using hB)
    rwa [show lev + (l + 1) = lev + 1 + l by omega] at this

/-- **C134, continuation.** Let the steps depend only on fields of two kinds: registered fields that the actions of a restart
leave alone, and fields with a value that is known everywhere at the checkpoint and that the set-up of a restart gives. Then
a run that is restarted from a checkpoint, if no level is added, goes on exactly as the run that wrote it: after any steps and
changes of the mesh both have the same mesh and the same values of these fields in every cell.

Partial (C134). Missing: steps that depend on fields that are neither saved nor set, see the refutations of C134. -/
theorem restart_continues_partial (hr : ∀ lev d, 0 < o.ratio lev d) (ho : Local o) {D : ℕ → Prop} (exact : ℕ → ℕ → Cell → K)
    (hm : Respects D h.createMap) (hreg : Respects D h.postRegrid)
    (s : State K)
    (hD : ∀ fld, D fld → (fld ∈ h.saved ∧ Leaves fld h.postRegrid ∧ Leaves fld (h.postInit true)) ∨
      (Holds o.ratio fld (exact fld) s ∧ (Sets fld (exact fld) (h.postInit true) ∨ Leaves fld (h.postInit true)) ∧
        (Sets fld (exact fld) (h.postInit true) ∨ Sets fld (exact fld) h.postRegrid ∨
          fld ∉ h.saved ∧ Sets fld (exact fld) h.initFields ∧ Leaves fld h.postRegrid)))
    (allow : Bool) (es : List (Ev K)) (hes : ∀ e ∈ es, Plain o.ratio D e) :
    ∃ s' t', run o h s es = some s' ∧ run o h s (.restart allow [] :: es) = some t' ∧ Agree o.ratio D s' t' := by
  obtain ⟨w, hw, hc, hf, hv⟩ := round_trip (h := h) allow s
  set t := mapLev (h.postInit true) (mapLev h.postRegrid w) with ht
  have hrs : ev o h s (.restart allow []) = some t := by
    simp only [ev, restart, hw, Option.map_some, List.map_nil, List.append_nil, regrid_same, ht]
  have key : ∀ fld, D fld → ∀ lev d e, level s lev = some d → level t lev = some e → ∀ c,
      (lev = 0 → c ∈ s.cells) → (∀ l L, lev = l + 1 → s.fine[l]? = some L → c ∈ cellsOf (o.ratio l) L.refined) →
      d.val fld c = e.val fld c := by
    intro fld hfld lev d e hd he c hc0 hc1
    obtain ⟨e', he', hsv, hns⟩ := hv lev d hd
    rw [ht, level_mapLev, level_mapLev, he', Option.map_some, Option.map_some, Option.some.injEq] at he
    rcases hD fld hfld with ⟨h1, h2, h3⟩ | ⟨h1, h2, h3⟩
    · rw [← he, h3, h2, hsv fld h1]
    · have hdx : d.val fld c = exact fld lev c := by
        cases lev with
        | zero =>
          simp only [level, Option.some.injEq] at hd
          rw [← hd]; exact h1.1 c (hc0 rfl)
        | succ l =>
          simp only [level, Option.map_eq_some_iff] at hd
          obtain ⟨L, hL, rfl⟩ := hd
          exact h1.2 l L hL c (hc1 l L rfl hL)
      rw [hdx, ← he]
      rcases h3 with h3 | h3 | ⟨h4, h5, h6⟩
      · rw [h3]
      · rcases h2 with h2 | h2
        · rw [h2]
        · rw [h2, h3]
      · rcases h2 with h2 | h2
        · rw [h2]
        · rw [h2, h6, hns fld h4, scratch_sets h5]
  have hag : Agree o.ratio D s t := by
    refine ⟨hc.symm, fun fld hfld c hcc => key fld hfld 0 _ _ rfl rfl c (fun _ => hcc) (by omega), agreeFrom_of _ _ _ ?_ ?_⟩
    · rw [← hf]
      apply List.ext_getElem?
      intro i
      simp [ht, mapLev]
      cases w.fine[i]? <;> rfl
    · intro l L M hL hM fld hfld c hcc
      rw [Nat.zero_add] at hcc
      refine key fld hfld (l + 1) _ _ (by simp [level, hL]) (by simp [level, hM]) c (by omega) ?_
      intro l' L' hl hL'
      obtain rfl : l = l' := by omega
      rw [hL, Option.some.injEq] at hL'
      exact hL' ▸ hcc
  obtain ⟨s', t', e1, e2, e3⟩ := agree_run hr ho hm hreg es hes hag
  exact ⟨s', t', e1, by rw [run, hrs]; exact e2, e3⟩

/-- **C134, disagreement.** What the start of a run does to a registered field it does again on every restart: the field
has in the new run not the value that was saved, but what the action makes of it. (The relaxation of waves,
OceanWaves.cpp:78-80; the post-solve operations of the equations, PDE.H:79.) -/
theorem start_action_repeated {fld : ℕ} (hs : fld ∈ h.saved) (hreg : ∀ lev d, h.postRegrid lev d = d) (s : State K) (allow : Bool)
    {t : State K} (ht : ev o h s (.restart allow []) = some t) {lev : ℕ} {d : Data K} (hd : level s lev = some d) :
    ∃ e, e.val fld = d.val fld ∧ level t lev = some (h.postInit true lev e) := by
  obtain ⟨w, hw, _, _, hv⟩ := round_trip (h := h) allow s
  obtain ⟨e, he, h1, _⟩ := hv lev d hd
  refine ⟨e, h1 fld hs, ?_⟩
  simp only [ev, restart, hw, Option.map_some, List.map_nil, List.append_nil, regrid_same, Option.some.injEq] at ht
  rw [← ht, level_mapLev, level_mapLev, he, Option.map_some, Option.map_some, hreg]

end main

end AmrWind.Hist
