import Verif.Config.BCLemmas
import Mathlib.Algebra.Order.Ring.Rat

/-!
# Properties of boundary types and boundary values (C44, C67, C68)
-/

namespace AmrWind.Config

open Plane

/-! ## C44: every face has exactly one type or the program aborts -/

/-- Specification: what the input says about a face for a field. The entry for the field counts more than the general
one; without either it is "null". Case does not matter. -/
def given (p : Params String) (field : String) (f : Face) : String :=
  match p (bcname f ++ "." ++ (field ++ "_type")), p (bcname f ++ ".type") with
  | a :: _, _ => a.toLower
  | [], b :: _ => b.toLower
  | [], [] => "null".toLower

/-- Specification: the names of the types (name and abbreviation). -/
def names : BC → List String
  | .pressure_outflow => ["pressure_outflow", "po"]
  | .mass_inflow => ["mass_inflow", "mi"]
  | .mass_inflow_outflow => ["mass_inflow_outflow", "mio"]
  | .zero_gradient => ["zero_gradient", "zg"]
  | .no_slip_wall => ["no_slip_wall", "nsw"]
  | .slip_wall => ["slip_wall", "sw"]
  | .wall_model => ["wall_model", "wm"]
  | .fixed_gradient => ["fixed_gradient", "fg"]
  | .wave_generation => ["wave_generation", "wg"]
  | .symmetric_wall => ["symmetric_wall", "symw"]
  | .periodic => []
  | .undefined => []

/-- Specification: face `f` has type `b`. A periodic face may only be called periodic, or not be mentioned; any other
face must have one of the names. -/
def IsType (periodic : Bool) (s : String) (b : BC) : Prop :=
  (periodic = true ∧ b = .periodic ∧ (s = "null" ∨ s = "periodic")) ∨ (periodic = false ∧ s ∈ names b)

instance (periodic : Bool) (s : String) (b : BC) : Decidable (IsType periodic s b) := by
  unfold IsType; infer_instance

theorem bcString_given (p : Params String) (field : String) (f : Face) : bcString p field f = given p field f := by
  unfold bcString given query
  generalize bcname f ++ "." ++ (field ++ "_type") = k1
  generalize bcname f ++ ".type" = k2
  cases h1 : p k1 with
  | nil => cases h2 : p k2 <;> rfl
  | cons a l => rfl

/-- No name belongs to two types. -/
theorem names_disjoint (a b : BC) (s : String) (ha : s ∈ names a) (hb : s ∈ names b) : a = b := by
  cases a <;> simp only [names, List.mem_cons, List.not_mem_nil, or_false] at ha <;>
    rcases ha with rfl | rfl <;> cases b <;> simp [names] at hb ⊢

theorem bcOfName_mem (s : String) : bcOfName s = .undefined ∨ s ∈ names (bcOfName s) := by
  unfold bcOfName
  by_cases h0 : s = "pressure_outflow" ∨ s = "po"
  · rw [if_pos h0]; right; simpa only [names, List.mem_cons, List.not_mem_nil, or_false] using h0
  rw [if_neg h0]
  by_cases h1 : s = "mass_inflow" ∨ s = "mi"
  · rw [if_pos h1]; right; simpa only [names, List.mem_cons, List.not_mem_nil, or_false] using h1
  rw [if_neg h1]
  by_cases h2 : s = "mass_inflow_outflow" ∨ s = "mio"
  · rw [if_pos h2]; right; simpa only [names, List.mem_cons, List.not_mem_nil, or_false] using h2
  rw [if_neg h2]
  by_cases h3 : s = "no_slip_wall" ∨ s = "nsw"
  · rw [if_pos h3]; right; simpa only [names, List.mem_cons, List.not_mem_nil, or_false] using h3
  rw [if_neg h3]
  by_cases h4 : s = "slip_wall" ∨ s = "sw"
  · rw [if_pos h4]; right; simpa only [names, List.mem_cons, List.not_mem_nil, or_false] using h4
  rw [if_neg h4]
  by_cases h5 : s = "wall_model" ∨ s = "wm"
  · rw [if_pos h5]; right; simpa only [names, List.mem_cons, List.not_mem_nil, or_false] using h5
  rw [if_neg h5]
  by_cases h6 : s = "zero_gradient" ∨ s = "zg"
  · rw [if_pos h6]; right; simpa only [names, List.mem_cons, List.not_mem_nil, or_false] using h6
  rw [if_neg h6]
  by_cases h7 : s = "fixed_gradient" ∨ s = "fg"
  · rw [if_pos h7]; right; simpa only [names, List.mem_cons, List.not_mem_nil, or_false] using h7
  rw [if_neg h7]
  by_cases h8 : s = "wave_generation" ∨ s = "wg"
  · rw [if_pos h8]; right; simpa only [names, List.mem_cons, List.not_mem_nil, or_false] using h8
  rw [if_neg h8]
  by_cases h9 : s = "symmetric_wall" ∨ s = "symw"
  · rw [if_pos h9]; right; simpa only [names, List.mem_cons, List.not_mem_nil, or_false] using h9
  rw [if_neg h9]
  exact Or.inl rfl

theorem bcOfName_spec (s : String) (b : BC) (hb : b ≠ .undefined) : bcOfName s = b ↔ s ∈ names b := by
  constructor
  · intro h
    rcases bcOfName_mem s with h' | h'
    · exact absurd (h.symm.trans h') hb
    · rwa [h] at h'
  · intro h
    cases b <;> simp only [names, List.mem_cons, List.not_mem_nil, or_false] at h <;>
      rcases h with rfl | rfl <;> simp [bcOfName]

theorem bcOfFace_spec (per : Bool) (s : String) (b : BC) : bcOfFace per s = some b ↔ IsType per s b := by
  unfold bcOfFace IsType
  cases per
  · simp only [Bool.false_eq_true, false_and, if_false, true_and, false_or]
    by_cases hu : bcOfName s = .undefined
    · rw [if_pos hu]
      constructor
      · intro h; simp at h
      · intro h
        exfalso
        have hb : b ≠ .undefined := by rintro rfl; simp [names] at h
        exact hb (((bcOfName_spec s b hb).2 h).symm.trans hu)
    · rw [if_neg hu, Option.some.injEq]
      constructor
      · intro h
        exact (bcOfName_spec s b (by rw [← h]; exact hu)).1 h
      · intro h
        have hb : b ≠ .undefined := by rintro rfl; simp [names] at h
        exact (bcOfName_spec s b hb).2 h
  · simp only [true_and, if_true, Bool.true_eq_false, false_and, or_false]
    by_cases h1 : s = "null"
    · simp [h1, eq_comm]
    · by_cases h2 : s = "periodic"
      · simp [h2, eq_comm]
      · simp [h1, h2]

/-- **C44** The types read from the input are exactly those the specification allows, for all six faces. -/
theorem bc_types_spec (per : Axis → Bool) (p : Params String) (field : String) (t0 t : Face → BC) :
    readBCType per p field t0 = some t ↔ ∀ f, IsType (per f.1) (given p field f) (t f) := by
  unfold readBCType
  rw [foldlM_update (fun f => bcOfFace (per f.1) (bcString p field f)) faces nodup_faces]
  constructor
  · intro h f
    rw [← bcString_given, ← bcOfFace_spec]
    exact h.1 f (mem_faces f)
  · intro h
    refine ⟨?_, fun f hf => absurd (mem_faces f) hf⟩
    intro f _
    rw [bcOfFace_spec, bcString_given]
    exact h f

/-- **C44** At most one type per face. -/
theorem bc_type_unique (per : Bool) (s : String) (a b : BC) (ha : IsType per s a) (hb : IsType per s b) : a = b := by
  rcases ha with ⟨p1, h1, _⟩ | ⟨p1, h1⟩ <;> rcases hb with ⟨p2, h2, _⟩ | ⟨p2, h2⟩
  · rw [h1, h2]
  · rw [p1] at p2; simp at p2
  · rw [p1] at p2; simp at p2
  · exact names_disjoint a b s h1 h2

/-- **C44** The program aborts exactly if some face has no type; the type is then never the leftover of an earlier
state. -/
theorem bc_types_abort (per : Axis → Bool) (p : Params String) (field : String) (t0 : Face → BC) :
    readBCType per p field t0 = none ↔ ∃ f, ∀ b, ¬ IsType (per f.1) (given p field f) b := by
  constructor
  · intro h
    by_contra hc
    push Not at hc
    choose t ht using hc
    rw [(bc_types_spec per p field t0 t).2 ht] at h
    simp at h
  · rintro ⟨f, hf⟩
    cases h : readBCType per p field t0 with
    | none => rfl
    | some t => exact absurd ((bc_types_spec per p field t0 t).1 h f) (hf (t f))

/-- **C44** Unknown names abort, a missing entry aborts, and so does a type on a periodic face or "periodic" on a face
that is not. -/
theorem bc_bad_inputs (per : Axis → Bool) (p : Params String) (field : String) (t0 : Face → BC) (f : Face)
    (h : (per f.1 = false ∧ ∀ b, given p field f ∉ names b) ∨ (per f.1 = true ∧ given p field f ≠ "null" ∧
      given p field f ≠ "periodic")) : readBCType per p field t0 = none := by
  rw [bc_types_abort]
  refine ⟨f, ?_⟩
  intro b hb
  rcases hb with ⟨h1, _, h2⟩ | ⟨h1, h2⟩ <;> rcases h with ⟨h3, h4⟩ | ⟨h3, h4, h5⟩
  · rw [h1] at h3; simp at h3
  · rcases h2 with h2 | h2
    · exact h4 h2
    · exact h5 h2
  · exact h4 b h2
  · rw [h1] at h3; simp at h3

theorem null_and_periodic_unnamed (b : BC) : "null" ∉ names b ∧ "periodic" ∉ names b := by
  cases b <;> simp [names]

/-- **C44** Periodic faces, and only these, have the periodic type, and so come in pairs. -/
theorem periodic_iff (per : Axis → Bool) (p : Params String) (field : String) (t0 t : Face → BC)
    (h : readBCType per p field t0 = some t) (f : Face) : t f = .periodic ↔ per f.1 = true := by
  rcases (bc_types_spec per p field t0 t).1 h f with ⟨h1, h2, _⟩ | ⟨h1, h2⟩
  · simp [h1, h2]
  · constructor
    · intro e; rw [e] at h2; simp [names] at h2
    · intro e; rw [h1] at e; simp at e

/-- **C44** The mathematical types of the velocity after a successful set up: each entry depends on its own face only;
normal components vanish through Dirichlet values on every kind of wall, tangential ones on no-slip walls only. -/
theorem velocity_bcrec (bc : Face → BC) (r0 r : Bcrec × Bool) (h : velBcrec 3 bc r0 = some r) :
    (∀ n < 3, ∀ d s, (r.1 n d s = .int_dir ↔ bc (d, s) = .periodic) ∧
      (r.1 n d s = .ext_dir ↔ bc (d, s) ∈ [.wave_generation, .mass_inflow, .no_slip_wall] ∨
        (n = normalComp d ∧ bc (d, s) ∈ [.slip_wall, .wall_model, .symmetric_wall])) ∧
      (r.1 n d s = .direction_dependent ↔ bc (d, s) = .mass_inflow_outflow) ∧
      (r.1 n d s = .foextrap ↔ bc (d, s) ∈ [.pressure_outflow, .zero_gradient] ∨
        (n ≠ normalComp d ∧ bc (d, s) = .symmetric_wall)) ∧
      (r.1 n d s = .hoextrap ↔ n ≠ normalComp d ∧ bc (d, s) ∈ [.slip_wall, .wall_model])) ∧
    (r.2 = true ↔ r0.2 = true ∨ ∃ f, bc f = .mass_inflow_outflow) := by
  have key := foldlM_bcrec 3 bc (velFace 3 bc) (fun b => b = .fixed_gradient ∨ b = .undefined)
    (fun f n => velTab (bc f) (decide (n = normalComp f.1))) (velFace_spec 3 bc) faces nodup_faces r0
  have hb : ∀ f, bc f ≠ .fixed_gradient ∧ bc f ≠ .undefined := by
    intro f
    have : ¬ ∃ f ∈ faces, bc f = .fixed_gradient ∨ bc f = .undefined := by
      intro hc
      have h' : velBcrec 3 bc r0 = none := key.1.2 hc
      rw [h] at h'; simp at h'
    push Not at this
    exact this f (mem_faces f)
  obtain ⟨k1, k2⟩ := key.2 r h
  constructor
  · intro n hn d s
    have e := k1 n d s hn
    rw [if_pos (mem_faces _)] at e
    simp only [e]
    have := hb (d, s)
    cases hbc : bc (d, s) <;> rw [hbc] at this <;> simp [velTab] at this ⊢ <;>
      by_cases hnd : n = normalComp d <;> simp [hnd]
  · rw [k2]
    constructor
    · rintro (h | ⟨f, _, h⟩)
      · exact Or.inl h
      · exact Or.inr ⟨f, h⟩
    · rintro (h | ⟨f, h⟩)
      · exact Or.inl h
      · exact Or.inr ⟨f, mem_faces f, h⟩

/-- **C44** Velocity: a fixed gradient is the only readable type that aborts. -/
theorem velocity_bcrec_abort (bc : Face → BC) (r0 : Bcrec × Bool) :
    velBcrec 3 bc r0 = none ↔ ∃ f, bc f = .fixed_gradient ∨ bc f = .undefined := by
  have key := foldlM_bcrec 3 bc (velFace 3 bc) (fun b => b = .fixed_gradient ∨ b = .undefined)
    (fun f n => velTab (bc f) (decide (n = normalComp f.1))) (velFace_spec 3 bc) faces nodup_faces r0
  constructor
  · intro h
    obtain ⟨f, _, hf⟩ := key.1.1 h
    exact ⟨f, hf⟩
  · rintro ⟨f, hf⟩
    exact key.1.2 ⟨f, mem_faces f, hf⟩

/-- **C44** Scalars and pressure: all readable types are supported, all components are alike. -/
theorem scalar_bcrec (ncomp : ℕ) (bc : Face → BC) (r0 : Bcrec × Bool) (hbc : ∀ f, bc f ≠ .undefined) :
    ∃ r, scalarBcrec ncomp bc r0 = some r ∧
    ∀ n < ncomp, ∀ d s, (r.1 n d s = .int_dir ↔ bc (d, s) = .periodic) ∧
      (r.1 n d s = .ext_dir ↔ bc (d, s) ∈ [.wave_generation, .mass_inflow, .no_slip_wall]) ∧
      (r.1 n d s = .direction_dependent ↔ bc (d, s) = .mass_inflow_outflow) ∧
      (r.1 n d s = .foextrap ↔ bc (d, s) ∈ [.pressure_outflow, .zero_gradient, .symmetric_wall]) ∧
      (r.1 n d s = .hoextrap ↔ bc (d, s) ∈ [.slip_wall, .wall_model, .fixed_gradient]) := by
  have key := foldlM_bcrec ncomp bc (scalarFace ncomp bc) (fun b => b = .undefined)
    (fun f _ => scalarTab (bc f)) (scalarFace_spec ncomp bc) faces nodup_faces r0
  cases h : scalarBcrec ncomp bc r0 with
  | none =>
    obtain ⟨f, _, hf⟩ := key.1.1 h
    exact absurd hf (hbc f)
  | some r =>
    refine ⟨r, rfl, ?_⟩
    obtain ⟨k1, _⟩ := key.2 r h
    intro n hn d s
    have e := k1 n d s hn
    rw [if_pos (mem_faces _)] at e
    simp only [e]
    have := hbc (d, s)
    cases hb : bc (d, s) <;> rw [hb] at this <;> simp [scalarTab] at this ⊢

/-- **C44** Source terms and auxiliary fields: extrapolation everywhere except across periodic faces. -/
theorem extrap_bcrec (t : MathBC) (ncomp : ℕ) (bc : Face → BC) (r : Bcrec) (n : ℕ) (hn : n < ncomp) (d : Axis) (s : Bool) :
    extrapBcrec t ncomp bc r n d s = if bc (d, s) = .periodic then .int_dir else t := by
  have gen : ∀ (L : List Face) (r : Bcrec), L.foldl (fun r f => if bc f = .periodic then setBcrec ncomp r f .int_dir
      else setBcrec ncomp r f t) r n d s =
      if (d, s) ∈ L then (if bc (d, s) = .periodic then .int_dir else t) else r n d s := by
    intro L
    induction L with
    | nil => intro r; simp
    | cons f L ih =>
      intro r
      rw [List.foldl_cons, ih]
      by_cases hL : (d, s) ∈ L
      · rw [if_pos hL, if_pos (List.mem_cons_of_mem _ hL)]
      · rw [if_neg hL]
        by_cases hf : (d, s) = f
        · have hm : (d, s) ∈ f :: L := by rw [hf]; exact List.mem_cons_self
          rw [if_pos hm]
          subst hf
          by_cases hp : bc (d, s) = .periodic
          · simp only [if_pos hp]; exact if_pos ⟨hn, rfl⟩
          · simp only [if_neg hp]; exact if_pos ⟨hn, rfl⟩
        · have hm : (d, s) ∉ f :: L := by rw [List.mem_cons]; exact not_or.2 ⟨hf, hL⟩
          rw [if_neg hm]
          by_cases hp : bc f = .periodic
          · simp only [if_pos hp]; exact if_neg fun h => hf h.2
          · simp only [if_neg hp]; exact if_neg fun h => hf h.2
  unfold extrapBcrec
  rw [gen, if_pos (mem_faces _)]

/-! ## C67: Dirichlet values and user-defined functions -/

/-- The faces of one kind and the name given for a function on them. -/
def udfOf (bc : Face → BC) (p : Params String) (field : String) (kind : BC) (key : String) (f : Face) : Option String :=
  if bc f = kind then (p (bcname f ++ "." ++ (field ++ key))).head? else none

theorem udf_kind (bc : Face → BC) (p : Params String) (field : String) (kind : BC) (key : String) :
    (fun (u : Udf) (f : Face) => if bc f = kind then udfStep (p (bcname f ++ "." ++ (field ++ key))) u else some u) =
    fun u f => udfStep (if bc f = kind then p (bcname f ++ "." ++ (field ++ key)) else []) u := by
  funext u f
  by_cases h : bc f = kind
  · simp [h]
  · simp [h, udfStep]

/-- **C67** The functions found are, for each kind of face, the one name all faces of that kind that name one agree on,
`ConstDirichlet` if none does; it aborts exactly if two faces of one kind disagree. -/
theorem udfs_spec (bc : Face → BC) (p : Params String) (field : String) :
    (dirichletUdfs bc p field = none ↔ ∃ k ∈ [(BC.mass_inflow, ".inflow_type"),
      (.mass_inflow_outflow, ".inflow_outflow_type"), (.slip_wall, ".wall_type")], ∃ f f' v v',
        udfOf bc p field k.1 k.2 f = some v ∧ udfOf bc p field k.1 k.2 f' = some v' ∧ v ≠ v') ∧
    ∀ a b c, dirichletUdfs bc p field = some (a, b, c) →
      ∀ k ∈ [(BC.mass_inflow, ".inflow_type", a), (.mass_inflow_outflow, ".inflow_outflow_type", b),
        (.slip_wall, ".wall_type", c)],
        (∀ f v, udfOf bc p field k.1 k.2.1 f = some v → v = k.2.2) ∧
        ((∃ f, udfOf bc p field k.1 k.2.1 f = some k.2.2) ∨
          (k.2.2 = "ConstDirichlet" ∧ ∀ f, udfOf bc p field k.1 k.2.1 f = none)) := by
  have e : dirichletUdfs bc p field = ((faces.foldlM (fun u f => udfStep (if bc f = .mass_inflow then
      p (bcname f ++ "." ++ (field ++ ".inflow_type")) else []) u) (("ConstDirichlet", false) : Udf)).bind fun x =>
      (faces.foldlM (fun u f => udfStep (if bc f = .mass_inflow_outflow then
      p (bcname f ++ "." ++ (field ++ ".inflow_outflow_type")) else []) u) (("ConstDirichlet", false) : Udf)).bind fun y =>
      (faces.foldlM (fun u f => udfStep (if bc f = .slip_wall then
      p (bcname f ++ "." ++ (field ++ ".wall_type")) else []) u) (("ConstDirichlet", false) : Udf)).map fun z =>
      (x, y, z)).map fun u => (u.1.1, u.2.1.1, u.2.2.1) := by
    unfold dirichletUdfs
    congr 1
    rw [← udf_kind, ← udf_kind, ← udf_kind]
    exact foldlM_triple
      (fun u f => if bc f = .mass_inflow then udfStep (p (bcname f ++ "." ++ (field ++ ".inflow_type"))) u else some u)
      (fun u f => if bc f = .mass_inflow_outflow then udfStep (p (bcname f ++ "." ++ (field ++ ".inflow_outflow_type"))) u
        else some u)
      (fun u f => if bc f = .slip_wall then udfStep (p (bcname f ++ "." ++ (field ++ ".wall_type"))) u else some u)
      faces _ _ _
  have conv : ∀ kind key f v, ((if bc f = kind then p (bcname f ++ "." ++ (field ++ key)) else []).head? = some v) ↔
      udfOf bc p field kind key f = some v := by
    intro kind key f v
    unfold udfOf
    by_cases h : bc f = kind <;> simp [h]
  have conv0 : ∀ kind key f, ((if bc f = kind then p (bcname f ++ "." ++ (field ++ key)) else []) = []) →
      udfOf bc p field kind key f = none := by
    intro kind key f h
    unfold udfOf
    by_cases h' : bc f = kind
    · rw [if_pos h'] at h ⊢; rw [h]; rfl
    · rw [if_neg h']
  have F := fun kind key => udf_fold (fun f => if bc f = kind then p (bcname f ++ "." ++ (field ++ key)) else []) faces
    "ConstDirichlet"
  have bad : ∀ kind key, (faces.foldlM (fun u f => udfStep (if bc f = kind then
      p (bcname f ++ "." ++ (field ++ key)) else []) u) (("ConstDirichlet", false) : Udf)) = none ↔
      ∃ f f' v v', udfOf bc p field kind key f = some v ∧ udfOf bc p field kind key f' = some v' ∧ v ≠ v' := by
    intro kind key
    rw [(F kind key).1]
    constructor
    · rintro ⟨f, _, f', _, v, v', h1, h2, h3⟩
      exact ⟨f, f', v, v', (conv _ _ _ _).1 h1, (conv _ _ _ _).1 h2, h3⟩
    · rintro ⟨f, f', v, v', h1, h2, h3⟩
      exact ⟨f, mem_faces f, f', mem_faces f', v, v', (conv _ _ _ _).2 h1, (conv _ _ _ _).2 h2, h3⟩
  have good : ∀ kind key u, (faces.foldlM (fun u f => udfStep (if bc f = kind then
      p (bcname f ++ "." ++ (field ++ key)) else []) u) (("ConstDirichlet", false) : Udf)) = some u →
      (∀ f v, udfOf bc p field kind key f = some v → v = u.1) ∧
      ((∃ f, udfOf bc p field kind key f = some u.1) ∨
          (u.1 = "ConstDirichlet" ∧ ∀ f, udfOf bc p field kind key f = none)) := by
    intro kind key u hu
    obtain ⟨h1, h2⟩ := (F kind key).2 u hu
    refine ⟨fun f v hv => (h1 f (mem_faces f) v ((conv _ _ _ _).2 hv)).symm, ?_⟩
    rcases h2 with ⟨⟨f, _, h⟩, _⟩ | ⟨h, h'⟩
    · exact Or.inl ⟨f, (conv _ _ _ _).1 h⟩
    · exact Or.inr ⟨by rw [h], fun f => conv0 _ _ _ (h' f (mem_faces f))⟩
  rw [e]
  constructor
  · simp only [List.mem_cons, List.not_mem_nil, or_false, exists_eq_or_imp, exists_eq_left, ← bad]
    have cases3 : ∀ (A B D : Option Udf), (A.bind fun x => B.bind fun y => D.map fun z => (x, y, z)).map
        (fun u => (u.1.1, u.2.1.1, u.2.2.1)) = none ↔ A = none ∨ B = none ∨ D = none := by
      intro A B D
      cases A <;> cases B <;> cases D <;> simp
    exact cases3 _ _ _
  · intro a b c h
    rw [Option.map_eq_some_iff] at h
    obtain ⟨u, h, hu⟩ := h
    rw [Option.bind_eq_some_iff] at h
    obtain ⟨x, hx, h⟩ := h
    rw [Option.bind_eq_some_iff] at h
    obtain ⟨y, hy, h⟩ := h
    rw [Option.map_eq_some_iff] at h
    obtain ⟨z, hz, h⟩ := h
    subst h
    simp only [Prod.mk.injEq] at hu
    obtain ⟨rfl, rfl, rfl⟩ := hu
    simp only [List.mem_cons, List.not_mem_nil, or_false, forall_eq_or_imp, forall_eq]
    exact ⟨good _ _ x hx, good _ _ y hy, good _ _ z hz⟩

section
variable {K : Type*}

/-- The operator of a face. -/
def faceOp (bc : Face → BC) (inflow wall : Face → ℕ → Cell → K) (f : Face) (n : ℕ) (iv : Cell) : K :=
  if bc f = .mass_inflow ∨ bc f = .mass_inflow_outflow then inflow f n iv else wall f n iv

/-- Specification: the index lies beyond a face with Dirichlet values. -/
def Outside (dom : Bx) (faceDir : Option Axis) (r : Bcrec) (n : ℕ) (iv : Cell) (f : Face) : Prop :=
  (r n f.1 f.2 = .ext_dir ∨ r n f.1 f.2 = .direction_dependent) ∧
  if f.2 then f.1.idx iv > f.1.idx dom.hi + (if faceDir = some f.1 then 1 else 0) else f.1.idx iv < f.1.idx dom.lo

instance (dom : Bx) (faceDir : Option Axis) (r : Bcrec) (n : ℕ) (iv : Cell) (f : Face) :
    Decidable (Outside dom faceDir r n iv f) := by unfold Outside; infer_instance

theorem dirichletOp_foldl (dom : Bx) (faceDir : Option Axis) (bc : Face → BC) (r : Bcrec)
    (inflow wall : Face → ℕ → Cell → K) (n : ℕ) (iv : Cell) (v : K) :
    dirichletOp dom faceDir bc r inflow wall n iv v =
      faces.foldl (fun v f => if Outside dom faceDir r n iv f then faceOp bc inflow wall f n iv else v) v := by
  unfold dirichletOp
  congr 1
  funext v f
  obtain ⟨d, s⟩ := f
  unfold Outside beyond faceOp
  have hs : ∀ (P : Prop) [Decidable P] (x : K), (if decide P = false then v else x) = if P then x else v := by
    intro P _ x
    by_cases h : P <;> simp [h]
  by_cases h1 : r n d s = .ext_dir ∨ r n d s = .direction_dependent
  · rw [if_neg (by rintro ⟨a, b⟩; rcases h1 with h | h; exacts [a h, b h])]
    cases s
    · simp only [Bool.false_eq_true, if_false, hs, h1, true_and]
    · simp only [if_true, hs, h1, true_and]
  · rw [if_pos (not_or.1 h1)]
    exact (if_neg (fun h : Outside dom faceDir r n iv (d, s) => h1 h.1)).symm

theorem foldl_last {α : Type*} (P : Face → Prop) [DecidablePred P] (g : Face → α) (L : List Face) (v : α) :
    L.foldl (fun v f => if P f then g f else v) v =
      ((L.filter fun f => decide (P f)).getLast?.map g).getD v := by
  induction L generalizing v with
  | nil => rfl
  | cons f L ih =>
    rw [List.foldl_cons, ih]
    by_cases h : P f
    · rw [if_pos h, List.filter_cons_of_pos (by simpa using h), List.getLast?_cons]
      cases (L.filter fun f => decide (P f)).getLast? <;> rfl
    · rw [if_neg h, List.filter_cons_of_neg (by simpa using h)]

/-- **C67** Cells beyond no Dirichlet face, in particular all cells of the domain, keep their value. -/
theorem dirichlet_inside (dom : Bx) (faceDir : Option Axis) (bc : Face → BC) (r : Bcrec)
    (inflow wall : Face → ℕ → Cell → K) (n : ℕ) (iv : Cell) (v : K) (h : ∀ f, ¬ Outside dom faceDir r n iv f) :
    dirichletOp dom faceDir bc r inflow wall n iv v = v := by
  rw [dirichletOp_foldl, foldl_last, List.filter_eq_nil_iff.2 (fun f _ => by simpa using h f)]
  rfl

/-- **C67** The cells of the domain (and, for face-centred fields, the faces on its boundary) are never written. -/
theorem dirichlet_domain (dom : Bx) (faceDir : Option Axis) (bc : Face → BC) (r : Bcrec)
    (inflow wall : Face → ℕ → Cell → K) (n : ℕ) (iv : Cell) (v : K)
    (h : ∀ d : Axis, d.idx dom.lo ≤ d.idx iv ∧ d.idx iv ≤ d.idx dom.hi + (if faceDir = some d then 1 else 0)) :
    dirichletOp dom faceDir bc r inflow wall n iv v = v := by
  apply dirichlet_inside
  rintro ⟨d, s⟩ ⟨_, ho⟩
  have := h d
  cases s
  · simp only [Bool.false_eq_true, if_false] at ho; omega
  · simp only [if_true] at ho; omega

/-- **C67** A cell beyond exactly one Dirichlet face gets the value of the operator of that face. -/
theorem dirichlet_one_face (dom : Bx) (faceDir : Option Axis) (bc : Face → BC) (r : Bcrec)
    (inflow wall : Face → ℕ → Cell → K) (n : ℕ) (iv : Cell) (v : K) (f : Face) (hf : Outside dom faceDir r n iv f)
    (hu : ∀ g, Outside dom faceDir r n iv g → g = f) :
    dirichletOp dom faceDir bc r inflow wall n iv v = faceOp bc inflow wall f n iv := by
  rw [dirichletOp_foldl, foldl_last]
  have hne : faces.filter (fun f => decide (Outside dom faceDir r n iv f)) ≠ [] := by
    intro h
    have := List.filter_eq_nil_iff.1 h f (mem_faces f)
    simp [hf] at this
  rw [List.getLast?_eq_some_getLast hne]
  have hm := List.getLast_mem hne
  have h2 := (List.mem_filter.1 hm).2
  have h3 : Outside dom faceDir r n iv (List.getLast _ hne) := of_decide_eq_true h2
  have h4 := hu _ h3
  rw [h4]
  rfl

/-- **C67** Beyond an edge or a corner the value is that of one of the faces the cell is beyond (the last in the order
xlo, ylo, zlo, xhi, yhi, zhi). -/
theorem dirichlet_corner (dom : Bx) (faceDir : Option Axis) (bc : Face → BC) (r : Bcrec)
    (inflow wall : Face → ℕ → Cell → K) (n : ℕ) (iv : Cell) (v : K) (h : ∃ f, Outside dom faceDir r n iv f) :
    ∃ f, Outside dom faceDir r n iv f ∧
      dirichletOp dom faceDir bc r inflow wall n iv v = faceOp bc inflow wall f n iv ∧
      ∀ g, Outside dom faceDir r n iv g → faces.idxOf g ≤ faces.idxOf f := by
  obtain ⟨f, hf⟩ := h
  rw [dirichletOp_foldl, foldl_last]
  have hne : faces.filter (fun f => decide (Outside dom faceDir r n iv f)) ≠ [] := by
    intro h
    have := List.filter_eq_nil_iff.1 h f (mem_faces f)
    simp [hf] at this
  rw [List.getLast?_eq_some_getLast hne]
  have hm := List.getLast_mem hne
  refine ⟨_, by simpa using (List.mem_filter.1 hm).2, rfl, ?_⟩
  intro g hg
  have hgm : g ∈ faces.filter (fun f => decide (Outside dom faceDir r n iv f)) :=
    List.mem_filter.2 ⟨mem_faces g, by simpa using hg⟩
  have ord : ∀ (L : List Face) (P : Face → Bool) (hne : L.filter P ≠ []) (g : Face), L.Nodup → g ∈ L.filter P →
      L.idxOf g ≤ L.idxOf ((L.filter P).getLast hne) := by
    intro L P
    induction L with
    | nil => intro hne; simp at hne
    | cons a L ih =>
      intro hne g nd hg
      rw [List.nodup_cons] at nd
      by_cases hga : a = g
      · subst hga; simp
      · have hg' : g ∈ L.filter P := by
          rcases List.mem_filter.1 hg with ⟨h1, h2⟩
          refine List.mem_filter.2 ⟨?_, h2⟩
          rcases List.mem_cons.1 h1 with h | h
          · exact absurd h.symm hga
          · exact h
        have hne' : L.filter P ≠ [] := List.ne_nil_of_mem hg'
        have el : ((a :: L).filter P).getLast hne = (L.filter P).getLast hne' := by
          by_cases hP : P a = true
          · simp only [List.filter_cons_of_pos hP]
            rw [List.getLast_cons hne']
          · simp only [List.filter_cons_of_neg hP]
        rw [el]
        have hlast : (L.filter P).getLast hne' ∈ L := (List.mem_filter.1 (List.getLast_mem hne')).1
        have hla : a ≠ (L.filter P).getLast hne' := fun e => nd.1 (e ▸ hlast)
        rw [List.idxOf_cons_ne _ hga, List.idxOf_cons_ne _ hla]
        exact Nat.succ_le_succ (ih hne' g nd.2 hg')
  exact ord faces _ hne g nodup_faces hgm

/-- **C67** (partial) With constant values everywhere, the velocity in the cells beyond one inflow face or no-slip wall
only is what the user gave for that face, zero for the component normal to the wall. Missing: corners, and faces next to
one with a user-defined function (see `udf_on_other_face`). -/
theorem velocity_ghost_partial [Zero K] (p : Params K) (bc : Face → BC) (vals : Face → List K) (dom : Bx)
    (r0 r : Bcrec × Bool) (hr : velBcrec 3 bc r0 = some r) (v0 : Face → List K) (hv0 : ∀ f, (v0 f).length = 3)
    (hv : ∀ f, velValues p "velocity" bc f (v0 f) = some (vals f)) (f : Face) (n : ℕ) (hn : n < 3) (iv : Cell) (v a b c : K)
    (hb : bc f = .mass_inflow ∨ bc f = .no_slip_wall) (hin : p (bcname f ++ "." ++ "velocity") = [a, b, c])
    (hf : if f.2 then f.1.idx iv > f.1.idx dom.hi else f.1.idx iv < f.1.idx dom.lo)
    (hu : ∀ g, Outside dom none r.1 n iv g → g = f) :
    some (dirichletOp dom none bc r.1 (constDirichlet fun f n => (vals f).getD n 0)
      (constDirichlet fun f n => (vals f).getD n 0) n iv v) =
      if bc f = .no_slip_wall ∧ n = normalComp f.1 then some 0 else [a, b, c][n]? := by
  have hx : r.1 n f.1 f.2 = .ext_dir := by
    rw [((velocity_bcrec bc r0 r hr).1 n hn f.1 f.2).2.1]
    left
    rcases hb with h | h <;> simp [h]
  have ho : Outside dom none r.1 n iv f := by
    refine ⟨Or.inl hx, ?_⟩
    simpa using hf
  rw [dirichlet_one_face dom none bc r.1 _ _ n iv v f ho hu]
  have hop : faceOp bc (constDirichlet fun f n => (vals f).getD n 0) (constDirichlet fun f n => (vals f).getD n 0) f n iv
      = (vals f).getD n 0 := by
    unfold faceOp constDirichlet
    simp
  rw [hop]
  have hval := hv f
  unfold velValues queryarrN at hval
  have hh : has p (bcname f ++ "." ++ "velocity") = true := by unfold has; rw [hin]; rfl
  rw [if_pos hh, hin] at hval
  simp only [List.length_cons, List.length_nil, le_refl, if_true, Option.map_some,
    Option.some.injEq] at hval
  have hd : (v0 f).drop 3 = [] := by rw [List.drop_eq_nil_iff, hv0 f]
  rw [hd] at hval
  simp only [List.take_succ_cons, List.take_zero, List.append_nil] at hval
  rw [← hval]
  have h3 : n = 0 ∨ n = 1 ∨ n = 2 := by omega
  rcases hb with h | h
  · rw [h]
    rcases h3 with rfl | rfl | rfl <;> simp
  · rw [h]
    cases hd : f.1 <;> rcases h3 with rfl | rfl | rfl <;> simp [normalComp]

/-- **C67** A scalar at an inflow face without user-defined function must be given: no default is used. -/
theorem scalar_inflow_required (p : Params K) (field : String) (bc : Face → BC) (udfs : String × String × String)
    (ncomp : ℕ) (f : Face) (v0 v : List K) (hb : bc f = .mass_inflow) (hu : udfs.1 = "ConstDirichlet")
    (hv0 : v0.length = ncomp) :
    scalarValues p field bc udfs ncomp f v0 = some v ↔
      p (bcname f ++ "." ++ field) ≠ [] ∧ ncomp ≤ (p (bcname f ++ "." ++ field)).length ∧
      v = (p (bcname f ++ "." ++ field)).take ncomp := by
  unfold scalarValues getarrN queryarrN
  rw [if_pos (Or.inl ⟨hb, hu⟩)]
  have hh : has p (bcname f ++ "." ++ field) = true ↔ p (bcname f ++ "." ++ field) ≠ [] := by
    unfold has; cases p (bcname f ++ "." ++ field) <;> simp
  by_cases h : p (bcname f ++ "." ++ field) = []
  · simp [has, h]
  · have h1 := hh.2 h
    rw [if_pos h1, if_pos h1]
    by_cases hl : ncomp ≤ (p (bcname f ++ "." ++ field)).length
    · rw [if_pos hl]
      have hd : v0.drop ncomp = [] := by rw [List.drop_eq_nil_iff, hv0]
      simp [h, hl, hd, eq_comm]
    · rw [if_neg hl]; simp [hl]

/-- **C67** The same at a face with inflow and outflow; at every other face, and wherever a user-defined function gives the values, nothing need be
given and the default is kept. -/
theorem scalar_required_iff (p : Params K) (field : String) (bc : Face → BC) (udfs : String × String × String)
    (ncomp : ℕ) (f : Face) (v0 : List K) (hp : p (bcname f ++ "." ++ field) = []) :
    scalarValues p field bc udfs ncomp f v0 = if (bc f = .mass_inflow ∧ udfs.1 = "ConstDirichlet") ∨
      (bc f = .mass_inflow_outflow ∧ udfs.2.1 = "ConstDirichlet") then none else some v0 := by
  unfold scalarValues getarrN queryarrN
  simp [has, hp]

/-- Two inflow faces, `xlo` with a linear profile and `ylo` with a constant velocity. -/
def twoInflows : Params String := fun k =>
  if k = "xlo.type" then ["mass_inflow"] else if k = "ylo.type" then ["mass_inflow"]
  else if k = "xlo.velocity.inflow_type" then ["LinearProfile"] else []

/-- Their types: everything else is an outflow. -/
def twoTypes : Face → BC := fun f => if f = (.x, false) ∨ f = (.y, false) then .mass_inflow else .pressure_outflow

/-- **C67** is false with user-defined functions: the profile named on one inflow face replaces the constant values given
on every other inflow (and inflow-outflow) face. -/
theorem udf_on_other_face :
    dirichletUdfs twoTypes twoInflows "velocity" = some ("LinearProfile", "ConstDirichlet", "ConstDirichlet") ∧
    registerUdf velocityProfiles ("LinearProfile", "ConstDirichlet", "ConstDirichlet") = some "LinearProfile" ∧
    ∀ (profile const : Face → ℕ → Cell → ℚ) (r : Bcrec × Bool), velBcrec 3 twoTypes (fun _ _ _ => .bogus, false) = some r →
      dirichletOp ⟨(0, 0, 0), (7, 7, 7)⟩ none twoTypes r.1 profile const 0 (3, -1, 3) 0 =
        profile (.y, false) 0 (3, -1, 3) := by
  refine ⟨?_, ?_, ?_⟩
  · decide +kernel
  · decide
  · intro profile const r hr
    have hx : ∀ d s, r.1 0 d s = .ext_dir ↔ (d, s) = (.x, false) ∨ (d, s) = (.y, false) := by
      intro d s
      rw [((velocity_bcrec twoTypes _ r hr).1 0 (by norm_num) d s).2.1]
      cases d <;> cases s <;> simp [twoTypes, normalComp]
    have hx' : ∀ d s, r.1 0 d s ≠ .direction_dependent := by
      intro d s
      rw [ne_eq, ((velocity_bcrec twoTypes _ r hr).1 0 (by norm_num) d s).2.2.1]
      cases d <;> cases s <;> simp [twoTypes]
    have ho : ∀ f, Outside ⟨(0, 0, 0), (7, 7, 7)⟩ none r.1 0 (3, -1, 3) f ↔ f = (.y, false) := by
      rintro ⟨d, s⟩
      unfold Outside
      simp only [hx' d s, or_false, hx d s]
      cases d <;> cases s <;> simp [Axis.idx]
    rw [dirichlet_one_face _ none twoTypes r.1 profile const 0 (3, -1, 3) 0 (.y, false) ((ho _).2 rfl)
      fun g hg => (ho g).1 hg]
    unfold faceOp
    rw [if_pos (Or.inl (by decide))]

/-- **C67** is false with functions on both kinds of face: the one for inflow-outflow faces replaces the other. -/
theorem udf_last_kind_wins :
    registerUdf velocityProfiles ("LinearProfile", "TwoLayer", "ConstDirichlet") = some "TwoLayer" := by decide

/-- **C67** The operator registered is a profile that exists for the field, or the constant values. -/
theorem registered_known (known : List String) (u : String × String × String) (v : String)
    (h : registerUdf known u = some v) : v ∈ known ∨ v = "ConstDirichlet" := by
  unfold registerUdf at h
  by_cases h0 : u.1 = "ConstDirichlet" ∧ u.2.1 = "ConstDirichlet" ∧ u.2.2 = "ConstDirichlet"
  · rw [if_pos h0] at h; right; simpa using h.symm
  · rw [if_neg h0] at h
    by_cases h1 : u.2.2 ≠ "ConstDirichlet"
    · rw [if_pos h1] at h; simp at h
    · rw [if_neg h1] at h
      simp only at h
      by_cases h2 : u.2.1 ≠ "ConstDirichlet"
      · simp only [if_pos h2] at h
        by_cases h3 : u.2.1 ∈ known
        · simp only [if_pos h3] at h
          rw [Option.bind_eq_some_iff] at h
          obtain ⟨_, _, h⟩ := h
          left
          have : u.2.1 = v := by simpa using h
          rw [← this]; exact h3
        · simp only [if_neg h3] at h
          rw [Option.bind_eq_some_iff] at h
          obtain ⟨_, _, h⟩ := h
          simp at h
      · simp only [if_neg h2] at h
        by_cases h4 : u.1 ≠ "ConstDirichlet"
        · rw [if_pos h4] at h
          by_cases h5 : u.1 ∈ known
          · rw [if_pos h5] at h
            left
            have : u.1 = v := by simpa using h
            rw [← this]; exact h5
          · rw [if_neg h5] at h; simp at h
        · rw [if_neg h4] at h
          right
          simpa using h.symm

/-! ## C68: custom boundary operators write the first ghost layer only -/

/-- Specification: the cell is in the first layer beyond face `f` of the domain, next to box `b` (up to `g` cells beyond
the box along the face). -/
def OneBeyond (dom : Bx) (f : Face) (b : Bx) (g : ℤ) (c : Cell) : Prop :=
  (if f.2 then f.1.idx c = f.1.idx dom.hi + 1 else f.1.idx c = f.1.idx dom.lo - 1) ∧
  ∀ d : Axis, d ≠ f.1 → d.idx b.lo - g ≤ d.idx c ∧ d.idx c ≤ d.idx b.hi + g

/-- The box touches face `f` of the domain. -/
def Touches (dom : Bx) (f : Face) (b : Bx) : Prop :=
  if f.2 then f.1.idx b.hi = f.1.idx dom.hi else f.1.idx b.lo = f.1.idx dom.lo

/-- **C68** `MassInflowOutflowBC`: in the first ghost layer of the face, where the velocity there points out of the
domain the field takes the value of the neighbour inside; everything else keeps its value. -/
theorem inflow_outflow_spec [LinearOrder K] [Zero K] (dom : Bx) (f : Face) (b : Bx) (vel phi : Cell → K) (c : Cell) :
    (Touches dom f b → OneBeyond dom f b 1 c → (if f.2 then 0 < vel c else vel c < 0) →
      inflowOutflow dom f b vel phi c = phi (step f.1 (if f.2 then -1 else 1) c)) ∧
    (¬ (Touches dom f b ∧ OneBeyond dom f b 1 c ∧ (if f.2 then 0 < vel c else vel c < 0)) →
      inflowOutflow dom f b vel phi c = phi c) := by
  have key : Touches dom f b → ((c ∈ cells (ghostLayer f (growTangent f.1 b))) ↔ OneBeyond dom f b 1 c) := by
    intro ht
    rw [mem_cells]
    obtain ⟨d, s⟩ := f
    obtain ⟨⟨l1, l2, l3⟩, ⟨h1, h2, h3⟩⟩ := b
    obtain ⟨i, j, k⟩ := c
    unfold OneBeyond
    unfold Touches at ht
    cases d <;> cases s <;> simp only [ghostLayer, growTangent, withIdx, Axis.idx, Bx.Has, Bool.false_eq_true, if_false,
      if_true] at ht ⊢ <;>
    · constructor
      · intro h
        refine ⟨by omega, ?_⟩
        intro d hd
        cases d <;> simp at hd ⊢ <;> omega
      · rintro ⟨ha, hb⟩
        have hx := hb .x
        have hy := hb .y
        have hz := hb .z
        simp at hx hy hz
        omega
  have ht : (if f.2 then f.1.idx (growTangent f.1 b).hi = f.1.idx dom.hi
      else f.1.idx (growTangent f.1 b).lo = f.1.idx dom.lo) ↔ Touches dom f b := by
    unfold Touches
    obtain ⟨d, s⟩ := f
    cases d <;> cases s <;> rfl
  unfold inflowOutflow
  simp only
  by_cases h1 : Touches dom f b
  · by_cases h2 : OneBeyond dom f b 1 c
    · by_cases h3 : (if f.2 then 0 < vel c else vel c < 0)
      · constructor
        · intro _ _ _
          exact if_pos ⟨ht.2 h1, (key h1).2 h2, h3⟩
        · intro h; exact absurd ⟨h1, h2, h3⟩ h
      · constructor
        · intro _ _ h; exact absurd h h3
        · intro _; exact if_neg fun h => h3 h.2.2
    · constructor
      · intro _ h; exact absurd h h2
      · intro _; exact if_neg fun h => h2 ((key h1).1 h.2.1)
  · constructor
    · intro h; exact absurd h h1
    · intro _; exact if_neg fun h => h1 (ht.1 h.1)

/-- **C68** `FixedGradientBC`: the first ghost layer of the face holds the given gradient, everything else keeps its
value. -/
theorem fixed_gradient_spec (dom : Bx) (f : Face) (b : Bx) (g : K) (phi : Cell → K) (c : Cell) :
    (Touches dom f b → OneBeyond dom f b 0 c → fixedGradient dom f b g phi c = g) ∧
    (¬ (Touches dom f b ∧ OneBeyond dom f b 0 c) → fixedGradient dom f b g phi c = phi c) := by
  have key : Touches dom f b → ((c ∈ cells (ghostLayer f b)) ↔ OneBeyond dom f b 0 c) := by
    intro ht
    rw [mem_cells]
    obtain ⟨d, s⟩ := f
    obtain ⟨⟨l1, l2, l3⟩, ⟨h1, h2, h3⟩⟩ := b
    obtain ⟨i, j, k⟩ := c
    unfold OneBeyond
    unfold Touches at ht
    cases d <;> cases s <;> simp only [ghostLayer, withIdx, Axis.idx, Bx.Has, Bool.false_eq_true, if_false,
      if_true] at ht ⊢ <;>
    · constructor
      · intro h
        refine ⟨by omega, ?_⟩
        intro d hd
        cases d <;> simp at hd ⊢ <;> omega
      · rintro ⟨ha, hb⟩
        have hx := hb .x
        have hy := hb .y
        have hz := hb .z
        simp at hx hy hz
        omega
  unfold fixedGradient
  simp only
  have ht : (if f.2 then f.1.idx b.hi = f.1.idx dom.hi else f.1.idx b.lo = f.1.idx dom.lo) ↔ Touches dom f b := Iff.rfl
  by_cases h1 : Touches dom f b
  · by_cases h2 : OneBeyond dom f b 0 c
    · exact ⟨fun _ _ => if_pos ⟨ht.2 h1, (key h1).2 h2⟩, fun h => absurd ⟨h1, h2⟩ h⟩
    · exact ⟨fun _ h => absurd h h2, fun _ => if_neg fun h => h2 ((key h1).1 h.2)⟩
  · exact ⟨fun h => absurd h h1, fun _ => if_neg fun h => h1 (ht.1 h.1)⟩

/-- **C68** The neighbour read lies inside the domain, in the box itself when the ghost cell is directly beside it. -/
theorem inner_cell_in_box (dom : Bx) (f : Face) (b : Bx) (hb : ∀ d : Axis, d.idx b.lo ≤ d.idx b.hi) (c : Cell) (ht : Touches dom f b)
    (hc : OneBeyond dom f b 0 c) : b.Has (step f.1 (if f.2 then -1 else 1) c) := by
  obtain ⟨d, s⟩ := f
  obtain ⟨⟨l1, l2, l3⟩, ⟨h1, h2, h3⟩⟩ := b
  obtain ⟨i, j, k⟩ := c
  unfold OneBeyond at hc
  unfold Touches at ht
  obtain ⟨ha, hd⟩ := hc
  have hx := hd .x
  have hy := hd .y
  have hz := hd .z
  have bx := hb .x
  have bY := hb .y
  have bz := hb .z
  clear hd hb
  cases d <;> cases s <;> simp [step, Axis.idx, Bx.Has] at * <;> omega

end

/-! ## Concrete cases -/

/-- The types of the channel-like case: periodic in y, inflow, outflow, a wall below and a slip wall above. -/
def exParams : Params String := fun k =>
  if k = "xlo.type" then ["Mass_Inflow"] else if k = "xhi.type" then ["po"] else if k = "zlo.type" then ["nsw"]
  else if k = "zhi.type" then ["slip_wall"] else if k = "zhi.temperature_type" then ["fixed_gradient"] else []

def exPer : Axis → Bool := fun d => d = .y

/-- The types read for the velocity and for the temperature. -/
example : ∃ t, readBCType exPer exParams "velocity" (fun _ => .undefined) = some t ∧ t (.x, false) = .mass_inflow ∧
    t (.x, true) = .pressure_outflow ∧ t (.y, true) = .periodic ∧ t (.z, false) = .no_slip_wall ∧
    t (.z, true) = .slip_wall := by
  refine ⟨fun f => match f with
    | (.x, false) => .mass_inflow | (.x, true) => .pressure_outflow | (.y, _) => .periodic
    | (.z, false) => .no_slip_wall | (.z, true) => .slip_wall, ?_, rfl, rfl, rfl, rfl, rfl⟩
  rw [bc_types_spec]
  rintro ⟨d, s⟩
  cases d <;> cases s <;> decide +kernel

example : readBCType exPer (fun k => if k = "ylo.type" then ["po"] else exParams k) "velocity" (fun _ => .undefined) =
    none := by
  apply bc_bad_inputs _ _ _ _ (.y, false)
  right
  decide +kernel

example : readBCType exPer (fun k => if k = "xlo.type" then ["inflow"] else exParams k) "velocity" (fun _ => .undefined) =
    none := by
  apply bc_bad_inputs _ _ _ _ (.x, false)
  left
  refine ⟨by decide, ?_⟩
  intro b
  cases b <;> decide +kernel

/-- The hypotheses of `velocity_bcrec` and `velocity_ghost_partial` are met. -/
example : ∃ r, velBcrec 3 twoTypes (fun _ _ _ => .bogus, false) = some r := by
  cases h : velBcrec 3 twoTypes (fun _ _ _ => .bogus, false) with
  | some r => exact ⟨r, rfl⟩
  | none =>
    rw [velocity_bcrec_abort] at h
    obtain ⟨⟨d, s⟩, h⟩ := h
    cases d <;> cases s <;> simp [twoTypes] at h

example : velValues (fun k => if k = "zlo.velocity" then [(1 : ℚ), 2, 3] else []) "velocity"
    (fun f => if f = (.z, false) then .no_slip_wall else .mass_inflow) (.z, false) [0, 0, 0] = some [1, 2, 0] := by
  decide +kernel

/-- `OneBeyond` and `Touches` hold for a concrete ghost cell. -/
example : Touches ⟨(0, 0, 0), (7, 7, 7)⟩ (.x, true) ⟨(4, 0, 0), (7, 3, 3)⟩ ∧
    OneBeyond ⟨(0, 0, 0), (7, 7, 7)⟩ (.x, true) ⟨(4, 0, 0), (7, 3, 3)⟩ 0 (8, 2, 1) := by
  refine ⟨by simp [Touches, Axis.idx], by simp [Axis.idx], ?_⟩
  intro d hd
  cases d <;> simp [Axis.idx] at hd ⊢

/-- **C67** A pressure is read only at a pressure outflow; elsewhere an entry is ignored. -/
theorem pressure_read (p : Params K) (field : String) (bc : Face → BC) (ncomp : ℕ) (f : Face) (v0 : List K) (hv0 : v0.length = ncomp) :
    (bc f ≠ .pressure_outflow → pressureValues p field bc ncomp f v0 = some v0) ∧
    (bc f = .pressure_outflow → p (bcname f ++ "." ++ field) = [] → pressureValues p field bc ncomp f v0 = some v0) ∧
    (bc f = .pressure_outflow → p (bcname f ++ "." ++ field) ≠ [] → ∀ v, pressureValues p field bc ncomp f v0 = some v ↔
      ncomp ≤ (p (bcname f ++ "." ++ field)).length ∧ v = (p (bcname f ++ "." ++ field)).take ncomp) := by
  unfold pressureValues queryarrN
  refine ⟨fun h => by rw [if_neg h], fun h hp => by rw [if_pos h]; simp [has, hp], fun h hp v => ?_⟩
  have h1 : has p (bcname f ++ "." ++ field) = true := by
    unfold has; cases hc : p (bcname f ++ "." ++ field) <;> simp_all
  rw [if_pos h, if_pos h1]
  have hd : v0.drop ncomp = [] := by rw [List.drop_eq_nil_iff, hv0]
  by_cases hl : ncomp ≤ (p (bcname f ++ "." ++ field)).length
  · simp [hl, hd, eq_comm]
  · simp [hl]

end AmrWind.Config
