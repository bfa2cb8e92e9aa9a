import Verif.Config.Model
import Verif.Plane.Lemmas

/-!
# Lemmas on the loops over the faces of the domain
-/

namespace AmrWind.Config

open Plane

theorem mem_faces (f : Face) : f ∈ faces := by
  obtain ⟨d, s⟩ := f
  cases d <;> cases s <;> decide

theorem nodup_faces : faces.Nodup := by decide

/-- A loop that writes one entry per face. -/
theorem foldlM_update {β : Type*} (g : Face → Option β) (L : List Face) (nd : L.Nodup) (t0 t : Face → β) :
    L.foldlM (fun t f => (g f).map fun b => fun h => if h = f then b else t h) t0 = some t ↔
      (∀ f ∈ L, g f = some (t f)) ∧ ∀ f, f ∉ L → t f = t0 f := by
  induction L generalizing t0 with
  | nil =>
    simp only [List.foldlM_nil, List.not_mem_nil, false_implies, implies_true, true_and, not_false_eq_true, forall_const]
    show some t0 = some t ↔ _
    rw [Option.some.injEq]
    exact ⟨fun h f => by rw [h], fun h => (funext h).symm⟩
  | cons f L ih =>
    rw [List.nodup_cons] at nd
    rw [List.foldlM_cons]
    cases hg : g f with
    | none =>
      constructor
      · intro h; simp at h
      · intro h
        have := h.1 f (by simp)
        rw [hg] at this; simp at this
    | some b =>
      show L.foldlM _ (fun h => if h = f then b else t0 h) = some t ↔ _
      rw [ih nd.2]
      constructor
      · rintro ⟨h1, h2⟩
        have hf : t f = b := by have := h2 f nd.1; simpa using this
        refine ⟨?_, ?_⟩
        · intro f' hf'
          rcases List.mem_cons.1 hf' with rfl | hf'
          · rw [hg, hf]
          · exact h1 f' hf'
        · intro f' hf'
          rw [List.mem_cons, not_or] at hf'
          rw [h2 f' hf'.2, if_neg hf'.1]
      · rintro ⟨h1, h2⟩
        refine ⟨fun f' hf' => h1 f' (List.mem_cons_of_mem _ hf'), ?_⟩
        intro f' hf'
        by_cases e : f' = f
        · subst e
          rw [if_pos rfl]
          have := h1 f' (by simp)
          rw [hg] at this
          simpa using this.symm
        · rw [if_neg e]
          exact h2 f' (by simp [e, hf'])

/-- The entries written for one face. -/
def velTab (b : BC) (normal : Bool) : MathBC :=
  match b with
  | .periodic => .int_dir
  | .pressure_outflow | .zero_gradient => .foextrap
  | .wave_generation | .mass_inflow | .no_slip_wall => .ext_dir
  | .mass_inflow_outflow => .direction_dependent
  | .slip_wall | .wall_model => if normal then .ext_dir else .hoextrap
  | .symmetric_wall => if normal then .ext_dir else .foextrap
  | .fixed_gradient | .undefined => .bogus

def scalarTab (b : BC) : MathBC :=
  match b with
  | .periodic => .int_dir
  | .pressure_outflow | .zero_gradient | .symmetric_wall => .foextrap
  | .wave_generation | .mass_inflow | .no_slip_wall => .ext_dir
  | .mass_inflow_outflow => .direction_dependent
  | .slip_wall | .wall_model | .fixed_gradient => .hoextrap
  | .undefined => .bogus

theorem velFace_spec (ncomp : ℕ) (bc : Face → BC) (r : Bcrec × Bool) (f : Face) :
    (velFace ncomp bc r f = none ↔ bc f = .fixed_gradient ∨ bc f = .undefined) ∧
    ∀ r', velFace ncomp bc r f = some r' →
      (∀ n d s, n < ncomp → r'.1 n d s =
        if (d, s) = f then velTab (bc f) (decide (n = normalComp f.1)) else r.1 n d s) ∧
      r'.2 = (r.2 || decide (bc f = .mass_inflow_outflow)) := by
  constructor
  · unfold velFace
    cases bc f <;> simp
  · intro r' h
    unfold velFace at h
    cases hb : bc f <;> rw [hb] at h <;> simp only [Option.some.injEq, reduceCtorEq] at h <;> subst h <;>
      refine ⟨?_, by simp⟩ <;> intro n d s hn <;> simp only [velTab, setBcrec, setOne, hn, true_and] <;>
      by_cases e : (d, s) = f <;> simp [e]

theorem scalarFace_spec (ncomp : ℕ) (bc : Face → BC) (r : Bcrec × Bool) (f : Face) :
    (scalarFace ncomp bc r f = none ↔ bc f = .undefined) ∧
    ∀ r', scalarFace ncomp bc r f = some r' →
      (∀ n d s, n < ncomp → r'.1 n d s = if (d, s) = f then scalarTab (bc f) else r.1 n d s) ∧
      r'.2 = (r.2 || decide (bc f = .mass_inflow_outflow)) := by
  constructor
  · unfold scalarFace
    cases bc f <;> simp
  · intro r' h
    unfold scalarFace at h
    cases hb : bc f <;> rw [hb] at h <;> simp only [Option.some.injEq, reduceCtorEq] at h <;> subst h <;>
      refine ⟨?_, by simp⟩ <;> intro n d s hn <;> simp only [scalarTab, setBcrec, hn, true_and]

/-- A loop over faces each of which writes its own entries. -/
theorem foldlM_bcrec (ncomp : ℕ) (bc : Face → BC) (step : Bcrec × Bool → Face → Option (Bcrec × Bool))
    (bad : BC → Prop) (tab : Face → ℕ → MathBC)
    (hstep : ∀ r f, (step r f = none ↔ bad (bc f)) ∧ ∀ r', step r f = some r' →
      (∀ n d s, n < ncomp → r'.1 n d s = if (d, s) = f then tab f n else r.1 n d s) ∧
      r'.2 = (r.2 || decide (bc f = .mass_inflow_outflow)))
    (L : List Face) (nd : L.Nodup) (r : Bcrec × Bool) :
    (L.foldlM step r = none ↔ ∃ f ∈ L, bad (bc f)) ∧
    ∀ r', L.foldlM step r = some r' →
      (∀ n d s, n < ncomp → r'.1 n d s = if (d, s) ∈ L then tab (d, s) n else r.1 n d s) ∧
      (r'.2 = true ↔ r.2 = true ∨ ∃ f ∈ L, bc f = .mass_inflow_outflow) := by
  induction L generalizing r with
  | nil =>
    constructor
    · simp
    · intro r' h
      have h : some r = some r' := h
      simp only [Option.some.injEq] at h
      subst h
      simp
  | cons f L ih =>
    rw [List.nodup_cons] at nd
    rw [List.foldlM_cons]
    obtain ⟨hn, hs⟩ := hstep r f
    cases hr : step r f with
    | none =>
      have hb := hn.1 hr
      constructor
      · constructor
        · intro _; exact ⟨f, by simp, hb⟩
        · intro _; rfl
      · intro r' h; simp at h
    | some q =>
      have hb : ¬ bad (bc f) := fun h => by rw [hn.2 h] at hr; simp at hr
      obtain ⟨q1, q2⟩ := hs q hr
      obtain ⟨i1, i2⟩ := ih nd.2 q
      constructor
      · show L.foldlM step q = none ↔ _
        rw [i1]
        constructor
        · rintro ⟨f', h, h'⟩; exact ⟨f', List.mem_cons_of_mem _ h, h'⟩
        · rintro ⟨f', h, h'⟩
          rcases List.mem_cons.1 h with rfl | h
          · exact absurd h' hb
          · exact ⟨f', h, h'⟩
      · intro r' h
        have h : L.foldlM step q = some r' := h
        obtain ⟨j1, j2⟩ := i2 r' h
        constructor
        · intro n d s hn
          rw [j1 n d s hn]
          by_cases e : (d, s) ∈ L
          · rw [if_pos e, if_pos (List.mem_cons_of_mem _ e)]
          · rw [if_neg e, q1 n d s hn]
            by_cases e' : (d, s) = f
            · rw [if_pos e', if_pos (by simp [e']), e']
            · rw [if_neg e', if_neg (by simp [e, e'])]
        · rw [j2, q2]
          simp only [Bool.or_eq_true, decide_eq_true_eq, List.mem_cons, exists_eq_or_imp]
          tauto

/-- One kind of user-defined function. -/
theorem udf_fold (g : Face → List String) (L : List Face) (s0 : String) :
    (L.foldlM (fun u f => udfStep (g f) u) ((s0, false) : Udf) = none ↔
      ∃ f ∈ L, ∃ f' ∈ L, ∃ v v', (g f).head? = some v ∧ (g f').head? = some v' ∧ v ≠ v') ∧
    ∀ u, L.foldlM (fun u f => udfStep (g f) u) ((s0, false) : Udf) = some u →
      (∀ f ∈ L, ∀ v, (g f).head? = some v → u.1 = v) ∧
      ((∃ f ∈ L, (g f).head? = some u.1) ∧ u.2 = true ∨ u = (s0, false) ∧ ∀ f ∈ L, g f = []) := by
  induction L using List.reverseRecOn with
  | nil =>
    constructor
    · simp
    · intro u h
      have h : some ((s0, false) : Udf) = some u := h
      simp only [Option.some.injEq] at h
      subst h; simp
  | append_singleton L f ih =>
    obtain ⟨i1, i2⟩ := ih
    rw [List.foldlM_append]
    cases hu : L.foldlM (fun u f => udfStep (g f) u) ((s0, false) : Udf) with
    | none =>
      obtain ⟨a, ha, b, hb, v, v', h⟩ := i1.1 hu
      constructor
      · constructor
        · intro _; exact ⟨a, by simp [ha], b, by simp [hb], v, v', h⟩
        · intro _; rfl
      · intro u h; simp at h
    | some w =>
      have hno : ¬ ∃ f ∈ L, ∃ f' ∈ L, ∃ v v', (g f).head? = some v ∧ (g f').head? = some v' ∧ v ≠ v' := by
        intro h; rw [i1.2 h] at hu; simp at hu
      obtain ⟨j1, j2⟩ := i2 w hu
      have e : (do let a ← some w; [f].foldlM (fun u f => udfStep (g f) u) a) = udfStep (g f) w := by
        show [f].foldlM (fun u f => udfStep (g f) u) w = _
        simp
      rw [e]
      cases hg : g f with
      | nil =>
        constructor
        · show (some w = none) ↔ _
          constructor
          · intro h; simp at h
          · rintro ⟨a, ha, b, hb, v, v', h1, h2, h3⟩
            exfalso; apply hno
            refine ⟨a, ?_, b, ?_, v, v', h1, h2, h3⟩
            · rcases List.mem_append.1 ha with h | h
              · exact h
              · rw [List.mem_singleton.1 h, hg] at h1; simp at h1
            · rcases List.mem_append.1 hb with h | h
              · exact h
              · rw [List.mem_singleton.1 h, hg] at h2; simp at h2
        · intro u h
          have h : some w = some u := h
          simp only [Option.some.injEq] at h
          subst h
          constructor
          · intro a ha v hv
            rcases List.mem_append.1 ha with h | h
            · exact j1 a h v hv
            · rw [List.mem_singleton.1 h, hg] at hv; simp at hv
          · rcases j2 with ⟨⟨a, ha, h⟩, h'⟩ | ⟨h, h'⟩
            · exact Or.inl ⟨⟨a, by simp [ha], h⟩, h'⟩
            · refine Or.inr ⟨h, ?_⟩
              intro a ha
              rcases List.mem_append.1 ha with h | h
              · exact h' a h
              · rw [List.mem_singleton.1 h, hg]
      | cons v l =>
        have hf : (g f).head? = some v := by rw [hg]; rfl
        have eq : udfStep (v :: l) w = if w.2 = true ∧ w.1 ≠ v then none else some (v, true) := rfl
        rw [eq]
        by_cases hc : w.2 = true ∧ w.1 ≠ v
        · rw [if_pos hc]
          constructor
          · constructor
            · intro _
              rcases j2 with ⟨⟨a, ha, h⟩, _⟩ | ⟨h, _⟩
              · exact ⟨a, by simp [ha], f, by simp, w.1, v, h, hf, hc.2⟩
              · rw [h] at hc; simp at hc
            · intro _; rfl
          · intro u h; simp at h
        · rw [if_neg hc]
          have all : ∀ a ∈ L, ∀ v', (g a).head? = some v' → v' = v := by
            intro a ha v' hv
            have := j1 a ha v' hv
            rcases j2 with ⟨_, h⟩ | ⟨_, h⟩
            · by_contra hne
              exact hc ⟨h, by rw [this]; exact hne⟩
            · rw [h a ha] at hv; simp at hv
          constructor
          · constructor
            · intro h; simp at h
            · rintro ⟨a, ha, b, hb, x, y, h1, h2, h3⟩
              exfalso; apply h3
              have hx : x = v := by
                rcases List.mem_append.1 ha with h | h
                · exact all a h x h1
                · rw [List.mem_singleton.1 h, hf] at h1; simpa using h1.symm
              have hy : y = v := by
                rcases List.mem_append.1 hb with h | h
                · exact all b h y h2
                · rw [List.mem_singleton.1 h, hf] at h2; simpa using h2.symm
              rw [hx, hy]
          · intro u h
            simp only [Option.some.injEq] at h
            subst h
            constructor
            · intro a ha x hx
              rcases List.mem_append.1 ha with h | h
              · exact (all a h x hx).symm
              · rw [List.mem_singleton.1 h, hf] at hx; simpa using hx
            · exact Or.inl ⟨⟨f, by simp, hf⟩, rfl⟩

/-- Three independent loops in one. -/
theorem foldlM_triple {α : Type*} (A B D : α → Face → Option α) (L : List Face) (a b c : α) :
    L.foldlM (fun (u : α × α × α) f => (A u.1 f).bind fun x => (B u.2.1 f).bind fun y => (D u.2.2 f).map fun z =>
      (x, y, z)) (a, b, c) =
    (L.foldlM A a).bind fun x => (L.foldlM B b).bind fun y => (L.foldlM D c).map fun z => (x, y, z) := by
  induction L generalizing a b c with
  | nil => rfl
  | cons f L ih =>
    rw [List.foldlM_cons, List.foldlM_cons, List.foldlM_cons, List.foldlM_cons]
    cases hA : A a f with
    | none => rfl
    | some x =>
      cases hB : B b f with
      | none =>
        show none = (L.foldlM A x).bind fun _ => none
        cases L.foldlM A x <;> rfl
      | some y =>
        cases hD : D c f with
        | none =>
          show none = (L.foldlM A x).bind fun _ => (L.foldlM B y).bind fun _ => none
          cases L.foldlM A x <;> cases L.foldlM B y <;> rfl
        | some z => exact ih x y z

end AmrWind.Config
