import Verif.Phys.MmsModel
import Verif.Phys.ExactErr

/-! # Manufactured solutions (property C128) -/

set_option linter.unusedSectionVars false

namespace AmrWind.Mms

open Plane (Cell Axis cells)
open Amr (Lev Nested Uncovered cellVol total)
open Exact (rmsActive rmsDomain)

/-! ## Parameters -/

/-- **C128**: the library gets the value of the input for each of the eleven names, or the value of the table; the viscosity of the
transport section goes before `MMS.nu`; parameters of other names are left alone. -/
theorem pars_spec (mms tr : Config.Params ℝ) (lib : Pars) :
    (∀ n v, (n, v) ∈ defaults → n ≠ "nu" → pars mms tr lib n = (mms n).headD v) ∧
    pars mms tr lib "nu" = (tr "viscosity").headD ((mms "nu").headD 1) ∧
    (∀ n, n ∉ defaults.map Prod.fst → pars mms tr lib n = lib n) := by
  refine ⟨fun n v h hn => ?_, ?_, fun n h => ?_⟩
  · simp only [defaults, List.mem_cons, List.not_mem_nil, or_false, Prod.mk.injEq] at h
    rcases h with h | h | h | h | h | h | h | h | h | h | h <;> obtain ⟨rfl, rfl⟩ := h <;>
      first
        | exact absurd rfl hn
        | simp [pars, withViscosity, queried, defaults, Config.query, List.lookup]
  · simp [pars, withViscosity, queried, defaults, Config.query, List.lookup]
  · have : ((withViscosity tr (queried mms)).lookup n) = none := by
      rw [List.lookup_eq_none_iff]
      rintro ⟨k, v⟩ hp
      simp only [withViscosity, queried, List.mem_map] at hp
      obtain ⟨a, ⟨b, hb, rfl⟩, he⟩ := hp
      have hk : k = b.1 := by
        split_ifs at he <;> exact (congrArg Prod.fst he).symm
      simp only [bne_iff_ne, ne_eq, beq_eq_false_iff_ne]
      rintro rfl
      exact h (List.mem_map.mpr ⟨b, hb, hk.symm⟩)
    rw [pars, this]
    rfl

/-- A disagreement with the name: a viscosity of the transport section replaces the `MMS.nu` that was given, without a word. -/
theorem nu_replaced (mms tr : Config.Params ℝ) (lib : Pars) {v : ℝ} (h : tr "viscosity" = [v]) : pars mms tr lib "nu" = v := by
  rw [(pars_spec mms tr lib).2.1, h]
  rfl

/-! ## The source -/

theorem has_iff {levels : List Lev} {nproc lev : ℕ} {c : Cell} :
    Has levels nproc lev c = true ↔ ∃ L, levels[lev]? = some L ∧ ∃ p < nproc, ∃ b ∈ L.boxes p, c ∈ cells b := by
  unfold Has
  cases h : levels[lev]? with
  | none => simp
  | some l => simp

/-- **C128**: from the start of the run on, after every sequence of steps and new meshes, every cell of every level has the source of the
solution at its centre, and the momentum equation gets it on top of the other sources. -/
theorem source_everywhere (s : Case) (nproc : ℕ) (f : Fields) (es : List Ev) (other : ℕ → Cell → Fin 3 → ℝ) {lev : ℕ} {c : Cell} {L : Lev}
    (hL : (es.foldl (ev s nproc) (fillSrc s nproc f)).levels[lev]? = some L) {p : ℕ} (hp : p < nproc) {b : Plane.Bx} (hb : b ∈ L.boxes p)
    (hc : c ∈ cells b) : added (es.foldl (ev s nproc) (fillSrc s nproc f)) other lev c =
      some fun i => other lev c i + s.masa.source s.par (s.lo .x + (c.1 + 1 / 2) * s.dx lev .x, s.lo .y + (c.2.1 + 1 / 2) * s.dx lev .y,
        s.lo .z + (c.2.2 + 1 / 2) * s.dx lev .z) i := by
  let Inv : Fields → Prop := fun g => ∀ lev c, Has g.levels nproc lev c = true → g.src lev c = some (s.masa.source s.par (centre s.lo s.dx lev c))
  have hf : ∀ g, Inv (fillSrc s nproc g) := fun g lev c h => by
    unfold fillSrc at h ⊢
    simp only [h, if_true]
  have key : ∀ (es : List Ev) (g : Fields), Inv g → Inv (es.foldl (ev s nproc) g) := by
    intro es
    induction es with
    | nil => intro g h; exact h
    | cons e t ih =>
      intro g h
      refine ih _ ?_
      cases e with
      | step v => exact h
      | regrid l v => exact hf _
  have := key es _ (hf f) lev c (has_iff.mpr ⟨L, hL, p, hp, b, hb, hc⟩)
  unfold added
  rw [this]
  rfl

/-! ## The error -/

/-- **C128**: the error of a component is zero just when the velocity is exact at the centre of every cell that no finer level covers. -/
theorem error_zero {s : Case} {nproc : ℕ} {domVol : ℝ} {f : Fields} {i : Fin 3} (hn : Nested nproc f.levels) (hd : ∀ lev d, 0 < s.dx lev d)
    (hV : 0 < domVol) (hex : ∃ lev c, Uncovered nproc f.levels lev c) :
    error s nproc domVol f i = 0 ↔ ∀ lev c, Uncovered nproc f.levels lev c → f.vel lev c i = s.masa.exact s.par (centre s.lo s.dx lev c) i := by
  have hv : ∀ lev c, Uncovered nproc f.levels lev c → 0 < cellVol s.dx lev := fun lev c _ => by
    unfold cellVol
    exact mul_pos (mul_pos (hd _ _) (hd _ _)) (hd _ _)
  obtain ⟨l0, c0, h0⟩ := hex
  have hW := Exact.total_vol_pos (vol := fun lev _ => cellVol s.dx lev) (act := fun _ _ => true) hn hv h0 rfl
  have hz := Exact.rms_zero (u := fun lev c => f.vel lev c i) (ex := fun lev c => s.masa.exact s.par (centre s.lo s.dx lev c) i)
    (vol := fun lev _ => cellVol s.dx lev) (act := fun _ _ => true) hn hv ⟨l0, c0, h0, rfl⟩
  have e : error s nproc domVol f i = 0 ↔ rmsActive nproc (fun lev _ => cellVol s.dx lev) (fun _ _ => true) (fun lev c => f.vel lev c i)
      (fun lev c => s.masa.exact s.par (centre s.lo s.dx lev c) i) f.levels = 0 := by
    unfold error rmsDomain rmsActive
    rw [Real.sqrt_eq_zero', Real.sqrt_eq_zero', div_le_iff₀ hV, div_le_iff₀ hW, zero_mul, zero_mul]
  rw [e, hz]
  simp

/-- C128: with the volume of the domain the error is the root mean square deviation: its square times the volume is the sum over the cells of
the finest mesh. -/
theorem error_is_rms {s : Case} {nproc : ℕ} {f : Fields} {i : Fin 3} {dom : Plane.Bx} (hn : Nested nproc f.levels)
    (hc : Amr.Covers nproc dom f.levels) {h : Axis → ℝ} (hdx : Amr.Spacing s.dx h f.levels) {F : Cell → ℝ}
    (hF : Amr.Represents nproc f.levels (fun lev c => f.vel lev c i - s.masa.exact s.par (centre s.lo s.dx lev c) i) F)
    (hV : 0 < Amr.volume h (Amr.refineBox (Amr.refine f.levels) dom)) :
    error s nproc (Amr.volume h (Amr.refineBox (Amr.refine f.levels) dom)) f i ^ 2 * Amr.volume h (Amr.refineBox (Amr.refine f.levels) dom) =
      h .x * h .y * h .z * ((cells (Amr.refineBox (Amr.refine f.levels) dom)).map fun x => F x ^ 2).sum :=
  (Exact.rms_domain_partial hn hc hdx hF).2.2 hV

/-- C128: the initial velocity is exact. -/
theorem initial_exact {s : Case} {nproc : ℕ} {domVol : ℝ} {levels : List Lev} {src : ℕ → Cell → Option (Fin 3 → ℝ)} {i : Fin 3}
    (hn : Nested nproc levels) (hd : ∀ lev d, 0 < s.dx lev d) (hV : 0 < domVol) (hex : ∃ lev c, Uncovered nproc levels lev c) :
    error s nproc domVol ⟨levels, initial s, src⟩ i = 0 := by
  rw [error_zero hn hd hV hex]
  intro lev c _
  rfl

/-! ## The log -/

/-- The log of a run from time `t` with the steps and errors of `l`. -/
noncomputable def logRun (t : ℝ) (old : List (ℝ × (Fin 3 → ℝ))) (l : List (ℝ × (Fin 3 → ℝ))) : Log :=
  l.foldl (fun g e => logStep g e.1 e.2) (open_ t old)

theorem logRun_from (l : List (ℝ × (Fin 3 → ℝ))) (g : Log) : (l.foldl (fun g e => logStep g e.1 e.2) g).lines =
    g.lines ++ (List.range l.length).map (fun k => (g.new + ((l.take k).map Prod.fst).sum, (l[k]?.map Prod.snd).getD 0)) := by
  induction l generalizing g with
  | nil => simp
  | cons a t ih =>
    rw [List.foldl_cons, ih, List.length_cons, List.range_succ_eq_map, List.map_cons, List.map_map]
    unfold logStep
    simp only [List.append_assoc, List.singleton_append, List.take_zero, List.map_nil, List.sum_nil, add_zero]
    congr 1
    simp only [List.getElem?_cons_zero, Option.map_some, Option.getD_some, List.cons.injEq, true_and]
    apply List.map_congr_left
    intro k _
    simp only [Function.comp_apply, List.take_succ_cons, List.map_cons, List.sum_cons, List.getElem?_cons_succ]
    rw [add_assoc]

/-- C128: every step adds one line; its errors are those after the step.

Partial (C128). Missing: the time of a line, which is that of the start of the step (`log_time_early`), and restarts. -/
theorem log_lines_partial (t : ℝ) (old l : List (ℝ × (Fin 3 → ℝ))) : (logRun t old l).lines.length = l.length ∧
    (logRun t old l).lines.map Prod.snd = l.map Prod.snd := by
  unfold logRun
  rw [logRun_from]
  unfold open_
  refine ⟨by simp, ?_⟩
  rw [List.nil_append, List.map_map]
  refine List.ext_getElem (by simp) fun k h1 h2 => ?_
  simp at h1 h2
  simp [List.getElem?_eq_getElem h2]

/-- A disagreement: the time of a line is that of the start of the step, whose end the errors are of. -/
theorem log_time_early (t : ℝ) (old l : List (ℝ × (Fin 3 → ℝ))) (k : ℕ) (hk : k < l.length) (hpos : ∀ e ∈ l, 0 < e.1) :
    ∃ e, (logRun t old l).lines[k]? = some e ∧ e.1 = t + ((l.take k).map Prod.fst).sum ∧ e.1 < t + ((l.take (k + 1)).map Prod.fst).sum := by
  unfold logRun
  rw [logRun_from]
  unfold open_
  simp only [List.nil_append, List.getElem?_map, List.getElem?_range hk, Option.map_some]
  refine ⟨_, rfl, rfl, ?_⟩
  rw [List.take_add_one, List.getElem?_eq_getElem hk]
  simp only [Option.toList_some, List.map_append, List.map_cons, List.map_nil, List.sum_append, List.sum_cons, List.sum_nil, add_zero]
  have := hpos _ (List.getElem_mem hk)
  linarith

/-- A disagreement: a continued run has nothing left of the log before it. -/
theorem log_restart_loses (t : ℝ) (old l : List (ℝ × (Fin 3 → ℝ))) : (logRun t old l).lines = (logRun t [] l).lines := rfl

/-! ## A case -/

/-- One cell, a velocity that grows along x. -/
noncomputable def exCase : Case := ⟨⟨fun p x i => if i = 0 then p "a" * x.1 else 0, fun _ _ _ => 1⟩, pars (fun _ => []) (fun _ => []) (fun _ => 0), fun _ => 0, fun _ _ => 1⟩

example : initial exCase 0 (1, 0, 0) 0 = 1.05 * (3 / 2) := by
  have h : exCase.par "a" = 1.05 := (pars_spec (fun _ => []) (fun _ => []) fun _ => 0).1 "a" 1.05 (by simp [defaults]) (by decide)
  show exCase.par "a" * _ = _
  rw [h]
  norm_num [centre, exCase]

end AmrWind.Mms
