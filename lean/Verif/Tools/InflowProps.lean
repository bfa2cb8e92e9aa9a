import Verif.Tools.InflowModel
import Mathlib.Algebra.Order.BigOperators.Group.List
import Mathlib.Tactic.Ring
import Mathlib.Tactic.Linarith
import Mathlib.Tactic.NormNum
import Mathlib.Tactic.FieldSimp

/-!
# Preparation of a run with inflow and outflow
-/

set_option linter.unusedSectionVars false

namespace AmrWind.Iscript

section avg
variable {K : Type*} [Field K] [LinearOrder K] [IsStrictOrderedRing K]

/-- C151. The script stops just if no record lies between both times. -/
theorem found_iff (ts te : K) (h : List K) (l : List (Rec K)) : (found ts te h l).isSome ↔ ∃ r ∈ l, ts < r.time ∧ r.time < te := by
  unfold found
  simp only
  split_ifs with hw
  · simp only [Option.isSome_none, Bool.false_eq_true, false_iff]
    rintro ⟨r, hr, h1, h2⟩
    have : r ∈ window ts te l := List.mem_filter.mpr ⟨hr, by simp [h1, h2]⟩
    rw [hw] at this
    simp at this
  · simp only [Option.isSome_some, true_iff]
    obtain ⟨r, hr⟩ := List.exists_mem_of_ne_nil _ hw
    obtain ⟨hr, hh⟩ := List.mem_filter.mp hr
    simp only [Bool.and_eq_true, decide_eq_true_eq] at hh
    exact ⟨r, hr, hh⟩

theorem average_sum {α : Type*} {w : List α} (hw : w ≠ []) (f : α → K) : average (w.map f) * (w.length : K) = (w.map f).sum := by
  unfold average
  rw [List.length_map, div_mul_cancel₀]
  exact_mod_cast (List.length_pos_iff.mpr hw).ne'

theorem average_between {α : Type*} {w : List α} (hw : w ≠ []) (f : α → K) {a b : K} (h : ∀ r ∈ w, a ≤ f r ∧ f r ≤ b) :
    a ≤ average (w.map f) ∧ average (w.map f) ≤ b := by
  have hl : (0 : K) < w.length := by exact_mod_cast List.length_pos_iff.mpr hw
  unfold average
  rw [List.length_map, le_div_iff₀ hl, div_le_iff₀ hl]
  constructor
  · have := List.card_nsmul_le_sum (w.map f) a (fun x hx => by obtain ⟨r, hr, rfl⟩ := List.mem_map.mp hx; exact (h r hr).1)
    rw [List.length_map, nsmul_eq_mul] at this
    linarith
  · have := List.sum_le_card_nsmul (w.map f) b (fun x hx => by obtain ⟨r, hr, rfl⟩ := List.mem_map.mp hx; exact (h r hr).2)
    rw [List.length_map, nsmul_eq_mul] at this
    linarith

/-- The mean over a list of records of one of their values, as a specification. -/
def IsMean (w : List (Rec K)) (f : Rec K → K) (m : K) : Prop := w ≠ [] ∧ m * (w.length : K) = (w.map f).sum

/-- C151. **What is written are means over the records between both times**: forces, wind at the lowest height and its temperature, and the
profile at every height. -/
theorem found_means {ts te : K} {h : List K} {l : List (Rec K)} {o : Found K} (ho : found ts te h l = some o) :
    let w := l.filter fun r => ts < r.time ∧ r.time < te
    IsMean w Rec.fx o.fx ∧ IsMean w Rec.fy o.fy ∧ IsMean w Rec.hvelmag o.hvelmag ∧ IsMean w Rec.u o.u ∧ IsMean w Rec.v o.v ∧
    IsMean w (fun r => r.theta.getD 0 0) o.theta ∧ o.profile.length = h.length ∧
    ∀ (i : ℕ) (z m : K), o.profile[i]? = some (z, m) → h[i]? = some z ∧ IsMean w (fun r => r.theta.getD i 0) m := by
  intro w
  have ew : window ts te l = w := by
    show l.filter _ = l.filter _
    congr 1
    funext r
    simp
  unfold found at ho
  simp only [ew] at ho
  split_ifs at ho with hw
  rw [Option.some.injEq] at ho
  subst ho
  have hm : ∀ f : Rec K → K, IsMean w f (average (w.map f)) := fun f => ⟨hw, average_sum hw f⟩
  refine ⟨hm _, hm _, hm _, hm _, hm _, hm _, by simp, ?_⟩
  intro i z m hi
  rw [List.getElem?_map] at hi
  obtain ⟨j, hj, e⟩ := Option.map_eq_some_iff.mp hi
  obtain ⟨hlt, rfl⟩ := List.getElem?_eq_some_iff.mp hj
  simp only [List.getElem_range, Prod.mk.injEq] at e
  rw [List.length_range] at hlt
  obtain ⟨rfl, rfl⟩ := e
  refine ⟨?_, hm _⟩
  rw [List.getD_eq_getElem?_getD, List.getElem?_eq_getElem hlt]; rfl

/-- C151. Records at or outside both times have no influence. -/
theorem found_window (ts te : K) (h : List K) (l l' : List (Rec K))
    (e : (l.filter fun r => ts < r.time ∧ r.time < te) = l'.filter fun r => ts < r.time ∧ r.time < te) : found ts te h l = found ts te h l' := by
  have ew : ∀ l : List (Rec K), window ts te l = l.filter fun r => ts < r.time ∧ r.time < te := by
    intro l
    show l.filter _ = l.filter _
    congr 1
    funext r
    simp
  unfold found
  simp only [ew, e]

/-- C151. The mean speed is at least the speed of the mean wind, in every direction: what is written for both agrees. -/
theorem speed_of_mean {ts te : K} {h : List K} {l : List (Rec K)} {o : Found K} (ho : found ts te h l = some o) (a b : K)
    (hs : ∀ r ∈ l, a * r.u + b * r.v ≤ r.hvelmag) : a * o.u + b * o.v ≤ o.hvelmag := by
  obtain ⟨-, -, h1, h2, h3, -⟩ := found_means ho
  set w := l.filter fun r => ts < r.time ∧ r.time < te
  have hl : (0 : K) < w.length := by exact_mod_cast List.length_pos_iff.mpr h1.1
  have key : ∀ t : List (Rec K), (∀ r ∈ t, r ∈ l) → a * (t.map Rec.u).sum + b * (t.map Rec.v).sum ≤ (t.map Rec.hvelmag).sum := by
    intro t
    induction t with
    | nil => intro _; simp
    | cons r t ih =>
      intro ht
      have h1 := ih fun x hx => ht x (List.mem_cons_of_mem _ hx)
      have h2 := hs r (ht r (List.mem_cons_self ..))
      simp only [List.map_cons, List.sum_cons]
      linarith
  have := key w fun r hr => List.mem_of_mem_filter hr
  rw [← h1.2, ← h2.2, ← h3.2] at this
  refine le_of_mul_le_mul_right ?_ hl
  linarith

end avg

theorem pairs_getD {K : Type*} [Zero K] : ∀ (p : List (K × K)) (i : ℕ), i < p.length →
    ((p.flatMap fun q => [q.1, q.2]).getD (2 * i) 0, (p.flatMap fun q => [q.1, q.2]).getD (2 * i + 1) 0) = p.getD i (0, 0)
  | [], i, h => by simp at h
  | q :: p, 0, _ => by simp
  | q :: p, i + 1, h => by
    have ih := pairs_getD p i (by simpa using h)
    simp only [List.flatMap_cons, List.cons_append, List.nil_append, show 2 * (i + 1) = 2 * i + 1 + 1 by ring, List.getD_cons_succ]
    exact ih

/-- C151. **The solver reads back the profile that the script wrote.** -/
theorem profile_read {K : Type*} [Field K] [LinearOrder K] (p : List (K × K)) : readProfile (profileFile p) = p := by
  unfold readProfile profileFile
  apply List.ext_getElem
  · simp
  · intro i h1 h2
    simp only [List.getElem_map, List.getElem_range]
    rw [pairs_getD p i h2, List.getD_eq_getElem?_getD, List.getElem?_eq_getElem h2]; rfl

/-- C151. **With the settings the script writes the solver does not read the profile**: it takes averages over planes. -/
theorem profile_unused_wrong : Buoy.meanSource true "avg_theta.dat" = .planeAverage := by
  unfold Buoy.meanSource
  rw [if_neg]
  simp

/-! ## Input file -/

variable {V : Type*}

theorem update_written (add : List (Line V)) : ∀ l, update add true l = l
  | [] => rfl
  | a :: t => by rw [update, Bool.or_true, if_pos rfl, update_written add t]

/-- C151. Without a line of source terms the file is left as it is, and nothing is said. -/
theorem update_none (add : List (Line V)) : ∀ l : List (Line V), (∀ a ∈ l, a.terms = false) → update add false l = l
  | [], _ => rfl
  | a :: t, h => by
    rw [update, h a (List.mem_cons_self ..), update_none add t fun x hx => h x (List.mem_cons_of_mem _ hx)]
    simp

/-- C151. Else the lines are put once, after the first line of source terms, and all others stay. -/
theorem update_once (add : List (Line V)) : ∀ (pre : List (Line V)) (a : Line V) (post : List (Line V)), (∀ b ∈ pre, b.terms = false) →
    a.terms = true → update add false (pre ++ a :: post) = pre ++ a :: (add ++ post)
  | [], a, post, _, ha => by
    rw [List.nil_append, update, ha, update_written]
    simp
  | b :: pre, a, post, h, ha => by
    rw [List.cons_append, update, h b (List.mem_cons_self ..), update_once add pre a post (fun x hx => h x (List.mem_cons_of_mem _ hx)) ha]
    simp

theorem value_append (name : String) : ∀ a b : List (Line V), value name (a ++ b) = (value name b).or (value name a)
  | [], b => by simp [value]
  | x :: a, b => by rw [List.cons_append, value, value_append name a b, value, Option.or_assoc]

/-- The values the script is to set. -/
def Wanted (text : String → V) (vel vmag theta force : V) (name : String) (v : V) : Prop :=
  (name = "ABL.wall_shear_stress_type" ∧ v = text "local") ∨ (name = "ABL.inflow_outflow_mode" ∧ v = text "true") ∨
  (name = "ABL.wf_velocity" ∧ v = vel) ∨ (name = "ABL.wf_vmag" ∧ v = vmag) ∨ (name = "ABL.wf_theta" ∧ v = theta) ∨
  (name = "BodyForce.magnitude" ∧ v = force) ∨ (name = "ABLMeanBoussinesq.read_temperature_profile" ∧ v = text "true") ∨
  (name = "ABLMeanBoussinesq.temperature_profile_filename" ∧ v = text "avg_theta.dat")

theorem value_additions (text : String → V) (vel vmag theta force : V) {name : String} {v : V} (h : Wanted text vel vmag theta force name v) :
    value name (additions text vel vmag theta force) = some v := by
  rcases h with ⟨rfl, rfl⟩ | ⟨rfl, rfl⟩ | ⟨rfl, rfl⟩ | ⟨rfl, rfl⟩ | ⟨rfl, rfl⟩ | ⟨rfl, rfl⟩ | ⟨rfl, rfl⟩ | ⟨rfl, rfl⟩ <;>
    simp [value, additions]

/-- C151. **The solver uses the values the script found, if none of the lines after the source terms sets the same name.** -/
theorem values_used_partial (text : String → V) (vel vmag theta force : V) {pre post : List (Line V)} {a : Line V} (hp : ∀ b ∈ pre, b.terms = false)
    (ha : a.terms = true) {name : String} {v : V} (h : Wanted text vel vmag theta force name v) (hn : value name post = none) :
    value name (update (additions text vel vmag theta force) false (pre ++ a :: post)) = some v := by
  rw [update_once _ pre a post hp ha, value_append, show a :: (additions text vel vmag theta force ++ post) =
    [a] ++ (additions text vel vmag theta force ++ post) from rfl, value_append, value_append, hn, value_additions text vel vmag theta force h]
  rfl

/-- C151. **A value set after the source terms stays the one that is used**, whatever the script found. -/
theorem old_value_wrong (add : List (Line V)) {pre post : List (Line V)} {a : Line V} (hp : ∀ b ∈ pre, b.terms = false) (ha : a.terms = true)
    {name : String} {v : V} (hn : value name post = some v) : value name (update add false (pre ++ a :: post)) = some v := by
  rw [update_once _ pre a post hp ha, value_append, show a :: (add ++ post) = [a] ++ (add ++ post) from rfl, value_append, value_append, hn]
  rfl

/-- C151. **A second run of the script changes nothing the solver uses**: values of the first run stay. -/
theorem second_run_wrong (text : String → V) (vel vmag theta force vel' vmag' theta' force' : V) (l : List (Line V)) (hl : ∃ a ∈ l, a.terms = true)
    {name : String} {v : V} (h : Wanted text vel vmag theta force name v) :
    value name (update (additions text vel' vmag' theta' force') false (update (additions text vel vmag theta force) false l)) =
      value name (update (additions text vel vmag theta force) false l) := by
  obtain ⟨pre, a, post, rfl, hp, ha⟩ : ∃ pre a post, l = pre ++ a :: post ∧ (∀ b ∈ pre, b.terms = false) ∧ a.terms = true := by
    induction l with
    | nil => obtain ⟨a, ha, -⟩ := hl; simp at ha
    | cons x t ih =>
      cases hx : x.terms with
      | true => exact ⟨[], x, t, rfl, by simp, hx⟩
      | false =>
        obtain ⟨a, ha, hat⟩ := hl
        rcases List.mem_cons.mp ha with rfl | ha
        · rw [hx] at hat; simp at hat
        · obtain ⟨pre, b, post, rfl, hp, hb⟩ := ih ⟨a, ha, hat⟩
          refine ⟨x :: pre, b, post, rfl, ?_, hb⟩
          intro y hy
          rcases List.mem_cons.mp hy with rfl | hy
          · exact hx
          · exact hp y hy
  rw [update_once _ pre a post hp ha]
  have hs : ∃ u, value name (additions text vel vmag theta force ++ post) = some u := by
    rw [value_append, value_additions text vel vmag theta force h]
    cases value name post <;> exact ⟨_, rfl⟩
  obtain ⟨u, hu⟩ := hs
  rw [old_value_wrong _ hp ha hu, value_append, show a :: (additions text vel vmag theta force ++ post) =
    [a] ++ (additions text vel vmag theta force ++ post) from rfl, value_append, hu]
  rfl

/-- C151. Names the script does not set keep their values. -/
theorem others_kept (text : String → V) (vel vmag theta force : V) (l : List (Line V)) {name : String}
    (h : ∀ v, ¬ Wanted text vel vmag theta force name v) (written : Bool) :
    value name (update (additions text vel vmag theta force) written l) = value name l := by
  have hadd : value name (additions text vel vmag theta force) = none := by
    have h1 := h (text "local"); have h2 := h (text "true"); have h3 := h vel; have h4 := h vmag; have h5 := h theta
    have h6 := h force; have h7 := h (text "avg_theta.dat")
    simp only [Wanted, not_or, and_true] at h1 h2 h3 h4 h5 h6 h7
    simp only [value, additions, Option.bind_none, Option.bind_some, Option.or_none, Option.none_or]
    rw [if_neg (Ne.symm h1.1), if_neg (Ne.symm h2.2.1), if_neg (Ne.symm h3.2.2.1), if_neg (Ne.symm h4.2.2.2.1), if_neg (Ne.symm h5.2.2.2.2.1),
      if_neg (Ne.symm h6.2.2.2.2.2.1), if_neg (Ne.symm h2.2.2.2.2.2.2.1), if_neg (Ne.symm h7.2.2.2.2.2.2.2)]
    rfl
  induction l generalizing written with
  | nil => rfl
  | cons a t ih =>
    rw [update]
    split_ifs
    · rw [value, ih, value]
    · rw [value, value_append, ih, hadd, Option.or_none, value]

/-- An input file whose second line has the source terms; the fourth one sets the temperature at the wall. -/
def exInput : List (Line ℚ) := [⟨false, some ("time.max_step", 10)⟩, ⟨true, some ("ICNS.source_terms", 1)⟩, ⟨false, none⟩, ⟨false, some ("ABL.wf_theta", 300)⟩]

example : (∀ b ∈ exInput.take 1, b.terms = false) ∧ value "ABL.wf_vmag" (exInput.drop 2) = none ∧ value "ABL.wf_theta" (exInput.drop 2) = some 300 ∧
    Wanted (fun _ => 0) (8 : ℚ) 9 301 2 "ABL.wf_vmag" 9 ∧ ∀ v, ¬ Wanted (fun _ => 0) (8 : ℚ) 9 301 2 "time.max_step" v := by
  refine ⟨?_, ?_, ?_, ?_, ?_⟩ <;> simp [exInput, value, Wanted]

/-- Two of three records lie between both times. -/
example : (found (0 : ℚ) 3 [5, 15] [⟨1, 2, 0, 8, 8, 0, [300, 301]⟩, ⟨2, 4, 0, 10, 10, 0, [302, 301]⟩, ⟨3, 9, 9, 9, 9, 9, [9, 9]⟩]).map
    (fun o => (o.fx, o.hvelmag, o.theta, o.profile)) = some (3, 9, 301, [(5, 301), (15, 301)]) := by
  decide +kernel

end AmrWind.Iscript
