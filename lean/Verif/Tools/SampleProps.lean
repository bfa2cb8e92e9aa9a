import Verif.Tools.SampleModel
import Mathlib.Data.List.Perm.Basic
import Mathlib.Data.List.Nodup
import Mathlib.Tactic.Ring
import Mathlib.Tactic.Linarith
import Mathlib.Tactic.NormNum

/-!
# Tables made from native samples
-/

set_option linter.unusedSectionVars false

namespace AmrWind.Sscript

/-! ## Directories -/

/-- C148. **The directory read for a step is the one found.** -/
theorem value_name (n : ℕ) : value (name n) = n := by
  unfold value name
  rw [List.reverse_append, List.reverse_reverse, List.reverse_replicate, Nat.ofDigits_append, Nat.ofDigits_digits]
  simp [Nat.ofDigits_replicate_zero]

theorem name_length (n : ℕ) : (name n).length = max 5 (Nat.digits 10 n).length := by
  unfold name; simp; omega

theorem name_digits {n d : ℕ} (h : d ∈ name n) : d < 10 := by
  unfold name at h
  rw [List.mem_append] at h
  rcases h with h | h
  · rw [List.mem_replicate] at h; omega
  · exact Nat.digits_lt_base (by norm_num) (List.mem_reverse.mp h)

theorem value_cons (a : ℕ) (l : List ℕ) : value (a :: l) = a * 10 ^ l.length + value l := by
  unfold value
  rw [List.reverse_cons, Nat.ofDigits_append]
  simp; ring

theorem value_lt {l : List ℕ} (h : ∀ d ∈ l, d < 10) : value l < 10 ^ l.length := by
  unfold value
  have := Nat.ofDigits_lt_base_pow_length (b := 10) (l := l.reverse) (by norm_num) (fun x hx => h x (List.mem_reverse.mp hx))
  simpa using this

theorem lex_value {a b : List ℕ} (h : List.Lex (· < ·) a b) : a.length = b.length → (∀ d ∈ a, d < 10) → value a < value b := by
  induction h with
  | nil => intro hl; simp at hl
  | @rel x l y m h =>
    intro hl ha
    rw [value_cons, value_cons]
    have hlm : l.length = m.length := by simpa using hl
    have := value_lt fun d hd => ha d (List.mem_cons_of_mem _ hd)
    rw [hlm] at this ⊢
    have h' : (x + 1) * 10 ^ m.length ≤ y * 10 ^ m.length := Nat.mul_le_mul_right _ h
    have e : (x + 1) * 10 ^ m.length = x * 10 ^ m.length + 10 ^ m.length := by ring
    omega
  | @cons x l m h ih =>
    intro hl ha
    rw [value_cons, value_cons]
    have hlm : l.length = m.length := by simpa using hl
    have := ih hlm (fun d hd => ha d (List.mem_cons_of_mem _ hd))
    rw [hlm]
    omega

theorem longer_value {a b : ℕ} (h : (name a).length < (name b).length) : a < b := by
  rw [name_length, name_length] at h
  have h1 : (Nat.digits 10 a).length < (Nat.digits 10 b).length := by omega
  by_contra hc
  have := Nat.le_length_digits_le 10 b a (by omega)
  omega

theorem fold_min (t : List (List ℕ)) : ∀ a, (∀ b ∈ t, t.foldl (fun m b => min m b.length) a ≤ b.length) ∧
    t.foldl (fun m b => min m b.length) a ≤ a ∧ (t.foldl (fun m b => min m b.length) a = a ∨ ∃ b ∈ t, t.foldl (fun m b => min m b.length) a = b.length) := by
  induction t with
  | nil => intro a; simp
  | cons c t ih =>
    intro a
    obtain ⟨h1, h2, h3⟩ := ih (min a c.length)
    simp only [List.foldl_cons, List.mem_cons, forall_eq_or_imp, exists_eq_or_imp]
    refine ⟨⟨by omega, h1⟩, by omega, ?_⟩
    rcases h3 with h | h
    · rcases min_choice a c.length with e | e <;> rw [e] at h ⊢ <;> simp [h]
    · exact Or.inr (Or.inr h)

theorem fold_max (t : List (List ℕ)) : ∀ a, (∀ b ∈ t, b.length ≤ t.foldl (fun m b => max m b.length) a) ∧
    a ≤ t.foldl (fun m b => max m b.length) a ∧ (t.foldl (fun m b => max m b.length) a = a ∨ ∃ b ∈ t, t.foldl (fun m b => max m b.length) a = b.length) := by
  induction t with
  | nil => intro a; simp
  | cons c t ih =>
    intro a
    obtain ⟨h1, h2, h3⟩ := ih (max a c.length)
    simp only [List.foldl_cons, List.mem_cons, forall_eq_or_imp, exists_eq_or_imp]
    refine ⟨⟨by omega, h1⟩, by omega, ?_⟩
    rcases h3 with h | h
    · rcases max_choice a c.length with e | e <;> rw [e] at h ⊢ <;> simp [h]
    · exact Or.inr (Or.inr h)

theorem minLen_spec {l : List (List ℕ)} (h : l ≠ []) : (∀ b ∈ l, minLen l ≤ b.length) ∧ ∃ b ∈ l, minLen l = b.length := by
  cases l with
  | nil => exact absurd rfl h
  | cons a t =>
    obtain ⟨h1, h2, h3⟩ := fold_min t a.length
    simp only [minLen, List.mem_cons, forall_eq_or_imp, exists_eq_or_imp]
    exact ⟨⟨h2, h1⟩, h3⟩

theorem maxLen_spec {l : List (List ℕ)} (h : l ≠ []) : (∀ b ∈ l, b.length ≤ maxLen l) ∧ ∃ b ∈ l, maxLen l = b.length := by
  cases l with
  | nil => exact absurd rfl h
  | cons a t =>
    obtain ⟨h1, h2, h3⟩ := fold_max t a.length
    simp only [maxLen, List.mem_cons, forall_eq_or_imp, exists_eq_or_imp]
    exact ⟨⟨h2, h1⟩, h3⟩

/-- C148. **A time series has each step once, in order**, if the names of the directories, found sorted as text, have at most two
lengths, one the other and one more. -/
theorem series_order_partial {steps : List ℕ} {sdirs : List (List ℕ)} (hp : sdirs.Perm (steps.map name))
    (hs : sdirs.Pairwise (List.Lex (· < ·))) {a : ℕ} (ha : ∀ d ∈ sdirs, d.length = a ∨ d.length = a + 1) :
    ((reorder sdirs).map value).Pairwise (· < ·) ∧ ((reorder sdirs).map value).Perm steps := by
  have hname : ∀ d ∈ sdirs, ∃ n, d = name n := by
    intro d hd
    obtain ⟨n, -, h⟩ := List.mem_map.mp (hp.mem_iff.mp hd)
    exact ⟨n, h.symm⟩
  have hdig : ∀ d ∈ sdirs, ∀ x ∈ d, x < 10 := by
    intro d hd x hx
    obtain ⟨n, rfl⟩ := hname d hd
    exact name_digits hx
  have hval : (sdirs.map value).Perm steps := by
    have := hp.map value
    rwa [List.map_map, show (value ∘ name) = id from funext value_name, List.map_id] at this
  have hsame : ∀ c, ((sdirs.filter fun d => decide (d.length = c)).map value).Pairwise (· < ·) := by
    intro c
    rw [List.pairwise_map]
    refine (hs.filter _).imp_of_mem fun {u v} hu hv h => ?_
    simp only [List.mem_filter, decide_eq_true_eq] at hu hv
    exact lex_value h (hu.2.trans hv.2.symm) (hdig u hu.1)
  by_cases heq : maxLen sdirs = minLen sdirs
  · have hr : reorder sdirs = sdirs := by unfold reorder; simp [heq]
    rw [hr]
    refine ⟨?_, hval⟩
    by_cases hne : sdirs = []
    · simp [hne]
    have h1 := (minLen_spec hne).1
    have h2 := (maxLen_spec hne).1
    have := hsame (minLen sdirs)
    rwa [List.filter_eq_self.mpr] at this
    intro d hd
    have := h1 d hd
    have := h2 d hd
    simp; omega
  · have hne : sdirs ≠ [] := by rintro rfl; exact heq rfl
    obtain ⟨h1, b1, hb1, e1⟩ := minLen_spec hne
    obtain ⟨h2, b2, hb2, e2⟩ := maxLen_spec hne
    have hmin : minLen sdirs = a := by have := h1 b2 hb2; rcases ha b1 hb1 with e | e <;> rcases ha b2 hb2 with e' | e' <;> omega
    have hmax : maxLen sdirs = a + 1 := by have := h1 b2 hb2; rcases ha b1 hb1 with e | e <;> rcases ha b2 hb2 with e' | e' <;> omega
    have hfl : (sdirs.filter fun d => decide (d.length = a + 1)) = sdirs.filter fun d => !decide (d.length = a) := by
      apply List.filter_congr
      intro d hd
      rcases ha d hd with e | e <;> simp [e]
    have hpk : reorder sdirs = (sdirs.filter fun d => decide (d.length = a)) ++ sdirs.filter fun d => decide (d.length = a + 1) := by
      have hlen : ((sdirs.filter fun d => decide (d.length = a)) ++ sdirs.filter fun d => decide (d.length = a + 1)).length = sdirs.length := by
        rw [hfl]; exact (List.filter_append_perm _ _).length_eq
      unfold reorder
      rw [if_pos heq, hmin, hmax]
      have hl : lensFrom a (List.range (a + 1 - a + 1)) = [a, a + 1] := by
        rw [show a + 1 - a + 1 = 2 by omega]; rfl
      simp only [hl, List.flatMap_cons, List.flatMap_nil, List.append_nil]
      rw [hlen, List.drop_length, List.append_nil]
    rw [hpk]
    constructor
    · rw [List.map_append, List.pairwise_append]
      refine ⟨hsame a, hsame (a + 1), ?_⟩
      intro x hx y hy
      obtain ⟨u, hu, rfl⟩ := List.mem_map.mp hx
      obtain ⟨v, hv, rfl⟩ := List.mem_map.mp hy
      simp only [List.mem_filter, decide_eq_true_eq] at hu hv
      obtain ⟨m, rfl⟩ := hname u hu.1
      obtain ⟨n, rfl⟩ := hname v hv.1
      rw [value_name, value_name]
      exact longer_value (by omega)
    · refine List.Perm.trans (List.Perm.map _ ?_) hval
      rw [hfl]
      exact List.filter_append_perm _ _

/-- C148. **With names of three lengths a step is lost and another one comes twice**: steps 10, 99990, 100000 and 1000000. -/
theorem series_three_wrong : ∃ sdirs : List (List ℕ), sdirs.Perm ([10, 99990, 100000, 1000000].map name) ∧ sdirs.Pairwise (List.Lex (· < ·)) ∧
    (reorder sdirs).map value = [10, 99990, 100000, 99990] := by
  have e : [10, 99990, 100000, 1000000].map name = [[0, 0, 0, 1, 0], [9, 9, 9, 9, 0], [1, 0, 0, 0, 0, 0], [1, 0, 0, 0, 0, 0, 0]] := by
    simp [name]
  refine ⟨[[0, 0, 0, 1, 0], [1, 0, 0, 0, 0, 0], [1, 0, 0, 0, 0, 0, 0], [9, 9, 9, 9, 0]], ?_, ?_, ?_⟩
  · rw [e]; decide
  · decide
  · decide

/-- Four steps with names of two lengths, sorted as text. -/
example : ([[0, 0, 0, 1, 0], [1, 0, 0, 0, 0, 0], [9, 9, 9, 9, 0]] : List (List ℕ)).Perm ([10, 99990, 100000].map name) ∧
    (reorder [[0, 0, 0, 1, 0], [1, 0, 0, 0, 0, 0], [9, 9, 9, 9, 0]]).map value = [10, 99990, 100000] := by
  have e : [10, 99990, 100000].map name = [[0, 0, 0, 1, 0], [9, 9, 9, 9, 0], [1, 0, 0, 0, 0, 0]] := by simp [name]
  exact ⟨by rw [e]; decide, by decide⟩

/-! ## Particles -/

section
variable {K : Type*} [Zero K]

theorem load_some : ∀ {recs : List (Part K)} {t : ℕ → Option (Part K)} {u : ℕ} {r : Part K}, (recs.map Part.uid).Nodup →
    ((recs.foldl (fun (t : ℕ → Option (Part K)) r => Function.update t r.uid (some r)) t) u = some r ↔ (r ∈ recs ∧ r.uid = u) ∨ (u ∉ recs.map Part.uid ∧ t u = some r))
  | [], t, u, r, _ => by simp
  | a :: l, t, u, r, h => by
    rw [List.map_cons, List.nodup_cons] at h
    rw [List.foldl_cons, load_some h.2]
    by_cases hu : u = a.uid
    · subst hu
      simp only [Function.update_self, Option.some.injEq, List.mem_cons, List.map_cons, true_or, not_true, false_and, or_false]
      constructor
      · rintro (⟨h1, h2⟩ | ⟨-, rfl⟩)
        · exact ⟨Or.inr h1, h2⟩
        · exact ⟨Or.inl rfl, rfl⟩
      · rintro ⟨rfl | h1, h2⟩
        · exact Or.inr ⟨h.1, rfl⟩
        · exact Or.inl ⟨h1, h2⟩
    · simp only [Function.update_of_ne hu, List.mem_cons, List.map_cons, not_or]
      constructor
      · rintro (⟨h1, h2⟩ | ⟨h1, h2⟩)
        · exact Or.inl ⟨Or.inr h1, h2⟩
        · exact Or.inr ⟨⟨hu, h1⟩, h2⟩
      · rintro (⟨rfl | h1, h2⟩ | ⟨⟨-, h1⟩, h2⟩)
        · exact absurd h2.symm hu
        · exact Or.inl ⟨h1, h2⟩
        · exact Or.inr ⟨h1, h2⟩

/-- C148. **All particles are loaded**, each once, in the order of their numbers, whatever their order in the files. -/
theorem frame_perm {n : ℕ} {recs : List (Part K)} (hn : ∀ r ∈ recs, r.uid < n) (hd : (recs.map Part.uid).Nodup) :
    (frame n recs).Perm recs ∧ ((frame n recs).map Part.uid).Pairwise (· < ·) := by
  have hl : ∀ u r, load recs u = some r ↔ r ∈ recs ∧ r.uid = u := by
    intro u r; unfold load; rw [load_some hd]; simp
  have hmem : ∀ r, r ∈ frame n recs ↔ r ∈ recs := by
    intro r
    unfold frame
    simp only [List.mem_filterMap, List.mem_range, hl]
    exact ⟨fun ⟨_, _, h, _⟩ => h, fun h => ⟨r.uid, hn r h, h, rfl⟩⟩
  have hpw : ((frame n recs).map Part.uid).Pairwise (· < ·) := by
    rw [List.pairwise_map]
    unfold frame
    rw [List.pairwise_filterMap]
    refine List.pairwise_lt_range.imp fun {a b} hab r hr s hs => ?_
    have h1 := ((hl a r).mp hr).2
    have h2 := ((hl b s).mp hs).2
    omega
  refine ⟨(List.perm_ext_iff_of_nodup ?_ (List.Nodup.of_map _ hd)).mpr hmem, hpw⟩
  exact List.Nodup.of_map Part.uid (hpw.imp fun h => Nat.ne_of_lt h)

theorem fill_count (ps : List (Part K)) (s : ℕ) : ∀ oc : (ℕ → ℕ → K) × ℕ,
    (ps.foldl (fun oc r => if r.set = s then (Function.update oc.1 r.probe r.row, oc.2 + 1) else oc) oc).2 =
      oc.2 + (ps.filter fun r => decide (r.set = s)).length := by
  induction ps with
  | nil => intro oc; simp
  | cons a t ih =>
    intro oc
    rw [List.foldl_cons, ih]
    by_cases h : a.set = s
    · simp [h]; omega
    · simp [h]

theorem fill_row (s : ℕ) : ∀ (ps : List (Part K)) (oc : (ℕ → ℕ → K) × ℕ), ((ps.filter fun r => decide (r.set = s)).map Part.probe).Nodup →
    (∀ r ∈ ps, r.set = s → (ps.foldl (fun oc r => if r.set = s then (Function.update oc.1 r.probe r.row, oc.2 + 1) else oc) oc).1 r.probe = r.row) ∧
    ∀ i, (∀ r ∈ ps, r.set = s → r.probe ≠ i) →
      (ps.foldl (fun oc r => if r.set = s then (Function.update oc.1 r.probe r.row, oc.2 + 1) else oc) oc).1 i = oc.1 i
  | [], oc, _ => by simp
  | a :: t, oc, h => by
    by_cases ha : a.set = s
    · rw [List.filter_cons_of_pos (by simpa using ha), List.map_cons, List.nodup_cons] at h
      obtain ⟨h1, h2⟩ := fill_row s t (Function.update oc.1 a.probe a.row, oc.2 + 1) h.2
      simp only [List.foldl_cons, ha, if_true, List.mem_cons, forall_eq_or_imp, forall_true_left]
      refine ⟨⟨?_, h1⟩, ?_⟩
      · rw [h2]
        · simp
        · intro r hr hs e
          exact h.1 (List.mem_map.mpr ⟨r, List.mem_filter.mpr ⟨hr, by simpa using hs⟩, e⟩)
      · rintro i ⟨hi, hi'⟩
        rw [h2 i hi']
        simp [Function.update_of_ne (Ne.symm hi)]
    · rw [List.filter_cons_of_neg (by simpa using ha)] at h
      obtain ⟨h1, h2⟩ := fill_row s t oc h
      simp only [List.foldl_cons, ha, if_false, List.mem_cons, forall_eq_or_imp, false_implies, true_and]
      exact ⟨h1, h2⟩

/-- C148. **The table of a sampler has one row for each of its probes, in order**: if the particles found of a sampler have the numbers
from 0 on, row `i` of its table is the particle with number `i`, for every order of the particles in the files and all samplers. -/
theorem table_of_sampler {n : ℕ} {recs : List (Part K)} {samplers : List ℕ} {j s : ℕ} (hj : samplers[j]? = some s)
    (hn : ∀ r ∈ recs, r.uid < n) (hd : (recs.map Part.uid).Nodup)
    (hp : ((recs.filter fun r => decide (r.set = s)).map Part.probe).Perm (List.range (recs.filter fun r => decide (r.set = s)).length)) :
    ∃ T, (tables n recs samplers)[j]? = some T ∧ T.length = (recs.filter fun r => decide (r.set = s)).length ∧
      ∀ r ∈ recs, r.set = s → T[r.probe]? = some r.row := by
  have hfr := (frame_perm hn hd).1
  have hff := hfr.filter fun r => decide (r.set = s)
  have main : ∀ (samplers : List ℕ) (out : ℕ → ℕ → K) (j : ℕ), samplers[j]? = some s → ∃ T, (tablesFrom (frame n recs) samplers out)[j]? = some T ∧
      T.length = (recs.filter fun r => decide (r.set = s)).length ∧ ∀ r ∈ recs, r.set = s → T[r.probe]? = some r.row := by
    intro samplers
    induction samplers with
    | nil => intro out j h; simp at h
    | cons a t ih =>
      intro out j h
      cases j with
      | succ j =>
        obtain ⟨T, hT, h'⟩ := ih (fill (frame n recs) a out).1 j (by simpa using h)
        exact ⟨T, by simpa [tablesFrom] using hT, h'⟩
      | zero =>
        simp only [List.getElem?_cons_zero, Option.some.injEq] at h
        subst h
        have hc : (fill (frame n recs) a out).2 = (recs.filter fun r => decide (r.set = a)).length := by
          unfold fill; rw [fill_count]; simp [hff.length_eq]
        have hnd : (((frame n recs).filter fun r => decide (r.set = a)).map Part.probe).Nodup :=
          ((hff.map Part.probe).trans hp).nodup_iff.mpr List.nodup_range
        obtain ⟨h1, -⟩ := fill_row a (frame n recs) (out, 0) hnd
        refine ⟨_, rfl, by simp [hc], ?_⟩
        intro r hr hs
        have hlt : r.probe < (recs.filter fun r => decide (r.set = a)).length := by
          have : r.probe ∈ (recs.filter fun r => decide (r.set = a)).map Part.probe :=
            List.mem_map.mpr ⟨r, List.mem_filter.mpr ⟨hr, by simpa using hs⟩, rfl⟩
          exact List.mem_range.mp (hp.mem_iff.mp this)
        rw [List.getElem?_map, hc, List.getElem?_range hlt]
        simp only [Option.map_some, Option.some.injEq]
        exact h1 r (hfr.mem_iff.mpr hr) hs
  exact main samplers _ j hj

theorem series_fold (s i : ℕ) (r : Part K) : ∀ (ps : List (Part K)) (o : ℕ → K), (∀ q ∈ ps, q.set = s ∧ q.probe = i → q.row = r.row) →
    ps.foldl (fun o r => if r.set = s ∧ r.probe = i then r.row else o) o = r.row ∨
      ((∀ q ∈ ps, ¬ (q.set = s ∧ q.probe = i)) ∧ ps.foldl (fun o r => if r.set = s ∧ r.probe = i then r.row else o) o = o)
  | [], o, _ => by simp
  | a :: t, o, h => by
    rw [List.foldl_cons]
    by_cases ha : a.set = s ∧ a.probe = i
    · rw [if_pos ha, h a (List.mem_cons_self ..) ha]
      rcases series_fold s i r t r.row (fun q hq => h q (List.mem_cons_of_mem _ hq)) with e | ⟨-, e⟩ <;> exact Or.inl e
    · rw [if_neg ha]
      rcases series_fold s i r t o (fun q hq => h q (List.mem_cons_of_mem _ hq)) with e | ⟨e1, e2⟩
      · exact Or.inl e
      · refine Or.inr ⟨?_, e2⟩
        intro q hq
        rcases List.mem_cons.mp hq with rfl | hq
        · exact ha
        · exact e1 q hq

/-- C148. **The row of a step in a time series** is that of the probe asked for, if it was found once; if it was not found the row is
zero. -/
theorem series_row {n : ℕ} {recs : List (Part K)} (s i : ℕ) (hn : ∀ r ∈ recs, r.uid < n) (hd : (recs.map Part.uid).Nodup) :
    (∀ r ∈ recs, r.set = s → r.probe = i → (∀ q ∈ recs, q.set = s → q.probe = i → q = r) → seriesRow (frame n recs) s i = r.row) ∧
    ((∀ r ∈ recs, ¬ (r.set = s ∧ r.probe = i)) → seriesRow (frame n recs) s i = fun _ => 0) := by
  have hm := fun r => (frame_perm hn hd).1.mem_iff (a := r)
  constructor
  · intro r hr h1 h2 hu
    rcases series_fold s i r (frame n recs) (fun _ => 0) (fun q hq hh => by rw [hu q ((hm q).mp hq) hh.1 hh.2]) with e | ⟨e, -⟩
    · exact e
    · exact absurd ⟨h1, h2⟩ (e r ((hm r).mpr hr))
  · intro h
    unfold seriesRow
    have : ∀ (ps : List (Part K)) (o : ℕ → K), (∀ q ∈ ps, ¬ (q.set = s ∧ q.probe = i)) →
        ps.foldl (fun o r => if r.set = s ∧ r.probe = i then r.row else o) o = o := by
      intro ps
      induction ps with
      | nil => intro o _; rfl
      | cons a t ih =>
        intro o hh
        rw [List.foldl_cons, if_neg (hh a (List.mem_cons_self ..))]
        exact ih o fun q hq => hh q (List.mem_cons_of_mem _ hq)
    exact this _ _ fun q hq => h q ((hm q).mp hq)

end

/-- C148. **Which sampler a time series is of**: that with the label asked for; if no sampler has it, the first one, without complaint. -/
theorem sampler_index {α : Type*} [DecidableEq α] (labels : List α) (label : α) :
    (label ∈ labels → labels[samplerIndex labels label]? = some label) ∧ (label ∉ labels → samplerIndex labels label = 0) := by
  have main : ∀ (l : List ℕ) (o : ℕ), (labels[o]? = some label ∨ (∃ s ∈ l, labels[s]? = some label) →
      labels[l.foldl (fun o s => if labels[s]? = some label then s else o) o]? = some label) ∧
      ((∀ s ∈ l, labels[s]? ≠ some label) → l.foldl (fun o s => if labels[s]? = some label then s else o) o = o) := by
    intro l
    induction l with
    | nil => intro o; simp
    | cons a t ih =>
      intro o
      rw [List.foldl_cons]
      by_cases ha : labels[a]? = some label
      · rw [if_pos ha]
        exact ⟨fun _ => (ih a).1 (Or.inl ha), fun h => absurd ha (h a (List.mem_cons_self ..))⟩
      · rw [if_neg ha]
        refine ⟨fun h => (ih o).1 ?_, fun h => (ih o).2 fun s hs => h s (List.mem_cons_of_mem _ hs)⟩
        rcases h with h | ⟨s, hs, h⟩
        · exact Or.inl h
        · rcases List.mem_cons.mp hs with rfl | hs
          · exact absurd h ha
          · exact Or.inr ⟨s, hs, h⟩
  unfold samplerIndex
  constructor
  · intro h
    obtain ⟨i, hi⟩ := List.mem_iff_getElem?.mp h
    exact (main _ 0).1 (Or.inr ⟨i, List.mem_range.mpr (List.getElem?_eq_some_iff.mp hi).1, hi⟩)
  · intro h
    refine (main _ 0).2 fun s _ hs => h (List.mem_iff_getElem?.mpr ⟨s, hs⟩)

/-! ## Cases -/

/-- Two samplers, of two probes and one probe, out of order in the files. -/
def exRecs : List (Part ℚ) := [⟨2, 1, 0, fun _ => 7⟩, ⟨1, 0, 0, fun _ => 5⟩, ⟨0, 0, 1, fun _ => 3⟩]

example : (∀ r ∈ exRecs, r.uid < 3) ∧ (exRecs.map Part.uid).Nodup ∧
    ((exRecs.filter fun r => decide (r.set = 0)).map Part.probe).Perm (List.range (exRecs.filter fun r => decide (r.set = 0)).length) ∧
    (tables 3 exRecs [0, 1]).map (fun T => T.map fun r => r 0) = [[5, 3], [7]] := by
  decide +kernel

/-- C148. **A sampler that lost a probe shows the values of the sampler before it**: sampler 1 has found its probe 1 only, its table is
that of probe 0 of sampler 0. -/
theorem lost_probe_wrong : (tables 2 [(⟨0, 0, 0, fun _ => 5⟩ : Part ℚ), ⟨1, 1, 1, fun _ => 7⟩] [0, 1]).map (fun T => T.map fun r => r 0) = [[5], [5]] := by
  decide +kernel

end AmrWind.Sscript
