import Mathlib.Tactic.Ring
import Mathlib.Tactic.Linarith
import Mathlib.Data.Nat.Digits.Lemmas
import Mathlib.Algebra.BigOperators.Group.List.Basic
import Verif.Actuator.HistoryModel
import Verif.IO.NcProps
import Verif.Actuator.WingModel

/-!
# C139: the histories of actuators hold one record per due step, in order
-/

set_option linter.unusedSectionVars false

namespace AmrWind.ActOut

open Nc (File Series row)

/-! ## Records in the file -/

section Rec
variable {V : Type}

/-- One part of a record, written at row `n` while the time dimension has length `n` or, after earlier parts of the record, `n + 1`. -/
theorem put_part {f : File V} {g t n m : ℕ} (hm : m = n ∨ m = n + 1) {p : Part V} (hs : Series f g p.var t p.rest m) (hv : p.vals.length = p.rest.prod) :
    ∃ f', Nc.put f g p.var (⟨n, 1, 1⟩ :: p.rest.map fun c => ⟨0, c, 1⟩) p.vals = .ok f' ∧ Series f' g p.var t p.rest (n + 1) ∧ row f' g p.var p.rest n = .ok p.vals ∧
      (∀ i < n, row f' g p.var p.rest i = row f g p.var p.rest i) ∧
      ∀ v' rest', v' ≠ p.var → Series f g v' t rest' m → Series f' g v' t rest' (n + 1) ∧ ∀ i < m, row f' g v' rest' i = row f g v' rest' i := by
  obtain ⟨x, ds, T, L, h1, h2, h3, h4, h5, h6, h7, h8⟩ := hs
  set rest := p.rest with hrest
  set sl : List Nc.Sl := ⟨n, 1, 1⟩ :: rest.map fun c => ⟨0, c, 1⟩ with hsl
  have dT : Nc.dimsOf f.dims x.dims = some (T :: L) := by rw [h2]; simp [Nc.dimsOf, h3, h6]
  have lr : rest.length = L.length := by rw [← h7]; simp
  have ll : sl.length = (T :: L).length := by simp [hsl, lr]
  have fT : Nc.fitsAll true (T :: L) sl = true := by
    rw [hsl]
    simp only [Nc.fitsAll, Bool.and_eq_true]
    exact ⟨by simp [Nc.fits, h4], by rw [← h7]; exact Nc.fitsAll_full true L⟩
  have tk : sl.take (T :: L).length = sl := List.take_of_length_le (by omega)
  have iv : (Nc.indices sl).length = p.vals.length := by rw [Nc.indices_length, hv, hsl, Nc.volume_row]
  set D1 := f.dims.modify t fun x => if x.unlim then { x with len := max x.len (⟨n, 1, 1⟩ : Nc.Sl).stop } else x with hD1
  have tds : ∀ (es : List ℕ) (M : List Nc.Dim), Nc.dimsOf f.dims es = some M → (∀ d ∈ M, d.unlim = false) → t ∉ es := by
    intro es M e1 e2 q
    obtain ⟨y, hy, e⟩ := Nc.dimsOf_mem e1 q
    rw [h3] at e
    cases e
    rw [e2 _ hy] at h4
    exact Bool.false_ne_true h4
  have off : ∀ d, d ≠ t → D1[d]? = f.dims[d]? := by
    intro d hd
    rw [hD1, Nc.mod_other _ (fun e => hd e.symm)]
  have dOther : ∀ (es : List ℕ) (M : List Nc.Dim), Nc.dimsOf f.dims es = some M → (∀ d ∈ M, d.unlim = false) → Nc.dimsOf D1 es = some M := by
    intro es M e1 e2
    rw [Nc.dimsOf_congr (D := f.dims) fun d hd => off d (fun e => tds es M e1 e2 (e ▸ hd)), e1]
  have d6 := dOther ds L h6 h8
  have tD1 : D1[t]? = some { T with len := n + 1 } := by
    rw [hD1, Nc.mod_same h3]
    have : max T.len (⟨n, 1, 1⟩ : Nc.Sl).stop = n + 1 := by unfold Nc.Sl.stop; rw [h5]; simp; omega
    simp only [h4, if_true, this]
  have gD : Nc.growDims f.dims x.dims sl = D1 := by
    rw [h2, hsl, Nc.growDims, Nc.growDims_fixed d6 h8]
  have hp : Nc.put f g p.var sl p.vals =
      .ok ⟨D1, f.grps.modify g fun G => { G with vars := G.vars.modify p.var fun x => { x with data := Nc.store x.data (Nc.indices sl) p.vals } }⟩ := by
    unfold Nc.put
    simp only [h1, dT, fT, Bool.not_true, Bool.false_eq_true, if_false, tk, gD]
    rw [if_neg (by omega), if_neg (by omega)]
  obtain ⟨x', L', e1, e2, -, -, -, -, e7, e8⟩ := Nc.put_cases hp
  rw [h1] at e1
  cases e1
  rw [dT] at e2
  cases e2
  rw [tk] at e7
  have st : ∀ s ∈ sl, 0 < s.stride := by have := Nc.fits_stride true (T :: L) sl fT; rwa [tk] at this
  have fr : ∀ (M : List Nc.Dim) (i q : ℕ), Nc.fitsAll false ({ T with len := q } :: M) (⟨i, 1, 1⟩ :: (M.map Nc.Dim.len).map fun c => ⟨0, c, 1⟩) = decide (i < q) := by
    intro M i q
    simp only [Nc.fitsAll]
    rw [Nc.fitsAll_full, Bool.and_true]
    have st1 : (⟨i, 1, 1⟩ : Nc.Sl).stop = i + 1 := by simp [Nc.Sl.stop]
    unfold Nc.fits
    rw [st1, Bool.eq_iff_iff]
    simp only [Bool.and_eq_true, Bool.or_eq_true, decide_eq_true_eq, Bool.false_and, Bool.false_eq_true, false_or]
    omega
  -- reading a row of any series
  have rdG : ∀ (h : File V) (v : ℕ) (y : Nc.Var V) (es : List ℕ) (M : List Nc.Dim) (q i : ℕ), Nc.theVar h g v = some y → y.dims = t :: es →
      h.dims[t]? = some { T with len := q } → Nc.dimsOf h.dims es = some M → i < q →
      row h g v (M.map Nc.Dim.len) i = .ok ((Nc.indices (⟨i, 1, 1⟩ :: (M.map Nc.Dim.len).map fun c => ⟨0, c, 1⟩)).map y.data) := by
    intro h v y es M q i a1 a2 a3 a4 hi
    have dd : Nc.dimsOf h.dims y.dims = some ({ T with len := q } :: M) := by rw [a2]; simp [Nc.dimsOf, a3, a4]
    unfold row Nc.get
    simp only [a1, dd, fr, decide_eq_true hi, Bool.not_true, Bool.false_eq_true, if_false]
    rw [if_neg (by simp), List.take_of_length_le (by simp)]
  have h3' : f.dims[t]? = some { T with len := m } := by rw [h3, ← h5]
  refine ⟨_, hp, ⟨_, ds, { T with len := n + 1 }, L, e7, h2, tD1, h4, rfl, d6, h7, h8⟩, ?_, fun i hi => ?_, fun v' rest' hne hs' => ?_⟩
  · rw [← h7, rdG _ p.var _ ds L (n + 1) n e7 h2 tD1 d6 (by omega)]
    have hsl' : (⟨n, 1, 1⟩ : Nc.Sl) :: (L.map Nc.Dim.len).map (fun c => ⟨0, c, 1⟩) = sl := by rw [hsl, h7]
    rw [hsl']
    dsimp only
    rw [Nc.store_on _ _ _ (Nc.indices_nodup sl st) (by omega), iv, List.take_length]
  · rw [← h7, rdG _ p.var _ ds L (n + 1) i e7 h2 tD1 d6 (by omega), rdG f p.var x ds L m i h1 h2 h3' h6 (by omega)]
    congr 1
    refine List.map_congr_left fun q hq => Nc.store_off _ _ _ _ fun hq' => ?_
    obtain ⟨k, r, ⟨j, hj, rfl⟩, -, rfl⟩ := List.forall₂_cons_left_iff.mp ((Nc.mem_indices _ _).mp hq)
    obtain ⟨k', r', ⟨j', hj', rfl⟩, -, e⟩ := List.forall₂_cons_left_iff.mp ((Nc.mem_indices _ _).mp hq')
    have := (List.cons.inj e).1
    dsimp only at this hj hj'
    have a : j = 0 := by omega
    have b : j' = 0 := by omega
    subst a b
    omega
  · obtain ⟨y, es, T', M, a1, a2, a3, a4, a5, a6, a7, a8⟩ := hs'
    have b1 := e8 g v' (Or.inr hne)
    have b6 := dOther es M a6 a8
    refine ⟨⟨y, es, { T with len := n + 1 }, M, by rw [b1, a1], a2, tD1, h4, rfl, b6, a7, a8⟩, fun i hi => ?_⟩
    rw [← a7, rdG _ v' y es M (n + 1) i (by rw [b1, a1]) a2 tD1 b6 (by omega), rdG f v' y es M m i a1 a2 h3' a6 hi]

/-- A record after its first parts: lists of parts with different variables. -/
theorem put_parts {g t n : ℕ} (ps : List (Part V)) (hd : (ps.map Part.var).Nodup) {f : File V} {m : ℕ} (hm : m = n ∨ m = n + 1)
    (hs : ∀ p ∈ ps, Series f g p.var t p.rest m) (hv : ∀ p ∈ ps, p.vals.length = p.rest.prod) :
    ∃ f', putParts g n ps f = .ok f' ∧ (∀ p ∈ ps, Series f' g p.var t p.rest (n + 1) ∧ row f' g p.var p.rest n = .ok p.vals ∧
        ∀ i < n, row f' g p.var p.rest i = row f g p.var p.rest i) ∧
      ∀ v' rest', (∀ p ∈ ps, v' ≠ p.var) → Series f g v' t rest' m → (Series f' g v' t rest' (if ps = [] then m else n + 1)) ∧ ∀ i < m, row f' g v' rest' i = row f g v' rest' i := by
  induction ps generalizing f m with
  | nil => exact ⟨f, rfl, fun p hp => by simp at hp, fun v' rest' _ h => ⟨by simpa using h, fun _ _ => rfl⟩⟩
  | cons p ps ih =>
    obtain ⟨f1, a1, a2, a3, a4, a5⟩ := put_part hm (hs p List.mem_cons_self) (hv p List.mem_cons_self)
    rw [List.map_cons, List.nodup_cons] at hd
    have ne : ∀ q ∈ ps, q.var ≠ p.var := fun q hq e => hd.1 (e ▸ List.mem_map_of_mem hq)
    obtain ⟨f', b1, b2, b3⟩ := ih hd.2 (f := f1) (m := n + 1) (Or.inr rfl) (fun q hq => (a5 q.var q.rest (ne q hq) (hs q (List.mem_cons_of_mem _ hq))).1)
      (fun q hq => hv q (List.mem_cons_of_mem _ hq))
    refine ⟨f', by simp [putParts, a1, b1], fun q hq => ?_, fun v' rest' hne h => ?_⟩
    · rcases List.mem_cons.mp hq with rfl | hq
      · obtain ⟨c1, c2⟩ := b3 q.var q.rest (fun r hr => (ne r hr).symm) a2
        refine ⟨by split_ifs at c1 <;> exact c1, (c2 n (by omega)).trans a3, fun i hi => (c2 i (by omega)).trans (a4 i hi)⟩
      · obtain ⟨c1, c2, c3⟩ := b2 q hq
        exact ⟨c1, c2, fun i hi => (c3 i hi).trans ((a5 q.var q.rest (ne q hq) (hs q (List.mem_cons_of_mem _ hq))).2 i (by omega))⟩
    · obtain ⟨c1, c2⟩ := a5 v' rest' (hne p List.mem_cons_self) h
      obtain ⟨d1, d2⟩ := b3 v' rest' (fun r hr => hne r (List.mem_cons_of_mem _ hr)) c1
      exact ⟨by rw [if_neg (by simp)]; split_ifs at d1 <;> exact d1, fun i hi => (d2 i (by omega)).trans (c2 i hi)⟩

/-- **C139**: a record is one new row, the same for all variables of the record, with the values that were given; all older rows stay. -/
theorem record_written {f : File V} {g t n : ℕ} {ps : List (Part V)} (h0 : ps ≠ []) (hd : (ps.map Part.var).Nodup) (hs : ∀ p ∈ ps, Series f g p.var t p.rest n)
    (hv : ∀ p ∈ ps, p.vals.length = p.rest.prod) :
    ∃ f', writeRecord f g t ps = .ok f' ∧ ∀ p ∈ ps, Series f' g p.var t p.rest (n + 1) ∧ row f' g p.var p.rest n = .ok p.vals ∧
      ∀ i < n, row f' g p.var p.rest i = row f g p.var p.rest i := by
  obtain ⟨f', a1, a2, -⟩ := put_parts (g := g) (t := t) ps hd (Or.inl rfl) hs hv
  refine ⟨f', ?_, a2⟩
  obtain ⟨p, l, rfl⟩ := List.exists_cons_of_ne_nil h0
  obtain ⟨x, ds, T, L, -, -, h3, -, h5, -⟩ := hs p List.mem_cons_self
  unfold writeRecord Nc.ncInqDimlen
  simp only [h3, Option.map_some, h5]
  exact a1

/-- **C139**: any number of records of the same variables: row `n + i` of each variable is its part of record `i`. -/
theorem records_written {g t : ℕ} {vars : List (ℕ × List ℕ)} (h0 : vars ≠ []) (hd : (vars.map Prod.fst).Nodup) (rs : List (List (Part V)))
    (hr : ∀ r ∈ rs, r.map (fun p => (p.var, p.rest)) = vars ∧ ∀ p ∈ r, p.vals.length = p.rest.prod) {f : File V} {n : ℕ} (hs : ∀ v ∈ vars, Series f g v.1 t v.2 n) :
    ∃ f', writeRecords g t rs f = .ok f' ∧ (∀ v ∈ vars, Series f' g v.1 t v.2 (n + rs.length) ∧ ∀ i < n, row f' g v.1 v.2 i = row f g v.1 v.2 i) ∧
      ∀ i (h : i < rs.length), ∀ p ∈ rs[i], row f' g p.var p.rest (n + i) = .ok p.vals := by
  induction rs generalizing f n with
  | nil => exact ⟨f, rfl, fun v hv => ⟨by simpa using hs v hv, fun _ _ => rfl⟩, fun i h => by simp at h⟩
  | cons r rs ih =>
    obtain ⟨e1, e2⟩ := hr r List.mem_cons_self
    have mem : ∀ p ∈ r, (p.var, p.rest) ∈ vars := fun p hp => by rw [← e1]; exact List.mem_map.mpr ⟨p, hp, rfl⟩
    have back : ∀ v ∈ vars, ∃ p ∈ r, p.var = v.1 ∧ p.rest = v.2 := fun v hv => by
      rw [← e1] at hv
      obtain ⟨p, hp, rfl⟩ := List.mem_map.mp hv
      exact ⟨p, hp, rfl, rfl⟩
    obtain ⟨f1, a1, a2⟩ := record_written (f := f) (g := g) (t := t) (n := n) (ps := r) (fun e => h0 (by rw [← e1, e]; rfl))
      (by rw [← e1, List.map_map] at hd; exact hd) (fun p hp => hs _ (mem p hp)) e2
    obtain ⟨f', b1, b2, b3⟩ := ih (fun q hq => hr q (List.mem_cons_of_mem _ hq)) (f := f1) (n := n + 1) fun v hv => by
      obtain ⟨p, hp, q1, q2⟩ := back v hv
      rw [← q1, ← q2]
      exact (a2 p hp).1
    refine ⟨f', by simp [writeRecords, a1, b1], fun v hv => ?_, fun i h p hp => ?_⟩
    · obtain ⟨c1, c2⟩ := b2 v hv
      obtain ⟨p, hp, q1, q2⟩ := back v hv
      refine ⟨by rw [List.length_cons, show n + (rs.length + 1) = n + 1 + rs.length by omega]; exact c1, fun i hi => ?_⟩
      rw [c2 i (by omega), ← q1, ← q2]
      exact (a2 p hp).2.2 i hi
    · cases i with
      | zero =>
        rw [Nat.add_zero, (b2 (p.var, p.rest) (mem p hp)).2 n (by omega)]
        exact (a2 p hp).2.1
      | succ i =>
        have := b3 i (by simpa using h) p (by simpa using hp)
        rw [show n + (i + 1) = n + 1 + i by omega]
        exact this

end Rec

/-- **C139**: for every kind of actuator and every number of points, what is written at each record are all variables with the time dimension, each with its whole row,
and what is written at the start are all others, whole. -/
theorem layout_matches (k : Kind) (z : Sizes) :
    (each k z).Perm (((defined k).filter fun v => v.2.head? == some .time).map fun v => (v.1, v.2.tail.map (Dm.len z))) ∧
    (once k z).Perm (((defined k).filter fun v => v.2.head? != some .time).map fun v => (v.1, v.2.map (Dm.len z))) ∧ ((defined k).map Prod.fst).Nodup := by
  cases k
  · refine ⟨?_, List.Perm.refl _, by decide⟩
    refine .cons _ (.cons _ (.cons _ (.cons _ ?_)))
    exact List.Perm.swap _ _ _
  · exact ⟨List.Perm.refl _, List.Perm.refl _, by decide⟩
  · exact ⟨List.Perm.refl _, List.Perm.refl _, by decide⟩
  · exact ⟨List.Perm.refl _, List.Perm.refl _, by decide⟩

/-! ## Steps -/

/-- **C139**: records are due at the multiples of the frequency, whatever its sign for wings and disks; a turbine with a frequency that is not positive writes at every
step. -/
theorem due_spec (k : Kind) {freq : ℤ} (i : ℕ) : (freq ≠ 0 → (k ≠ .turbine ∨ 0 < freq) → (due k freq i = some true ↔ freq ∣ (i : ℤ)) ∧ (due k freq i = some false ↔ ¬ freq ∣ (i : ℤ))) ∧
    (freq ≤ 0 → due .turbine freq i = some true) := by
  have hd : (i : ℤ).tmod freq ≠ 0 ↔ ¬ freq ∣ (i : ℤ) := not_congr Int.dvd_iff_tmod_eq_zero.symm
  refine ⟨fun h0 hk => ?_, fun h => ?_⟩
  · by_cases hv : freq ∣ (i : ℤ)
    · have : ¬ (i : ℤ).tmod freq ≠ 0 := fun h => hd.1 h hv
      cases k <;> simp_all [due]
    · have := hd.2 hv
      cases k <;> simp_all [due]
  · have : ¬ 0 < freq := by omega
    simp [due, this]

/-- **C139**, disagreement: a frequency of zero is a division by zero for wings, disks and immersed bodies, and every step for turbines. -/
theorem zero_frequency {K D : Type} (i : ℕ) (F : Files K D) : due .wing 0 i = none ∧ due .uniformCt 0 i = none ∧ due .joukowsky 0 i = none ∧ due .turbine 0 i = some true ∧
    bodyPost 0 F = none := by
  simp [due, bodyPost]

variable {K S D : Type}

/-- **C139**: directories of different steps are different, for any number of digits. -/
theorem stamp_injective : Function.Injective stamp := by
  intro a b h
  have hh := congrArg (fun l => Nat.ofDigits 10 l.reverse) h
  simp only [stamp, List.reverse_append, List.reverse_reverse, List.reverse_replicate, Nat.ofDigits_append, Nat.ofDigits_digits] at hh
  have z : ∀ n, Nat.ofDigits 10 (List.replicate n 0) = 0 := by
    intro n
    induction n with
    | zero => rfl
    | succ n ih => rw [List.replicate_succ, Nat.ofDigits_cons, ih]
  rw [z, z] at hh
  simpa using hh

/-- The records of the due steps among `l`. -/
def recordsOf (w : World K S D) (k : Kind) (freq : ℤ) (l : List ℕ) : List (K × D) := (l.filter fun i => due k freq i == some true).map w.record

theorem posts_spec (w : World K S D) (k : Kind) {freq : ℤ} (hk : freq ≠ 0 ∨ k = .turbine) (p : Path) (l : List ℕ) {F : Files K D} {r : List (K × D)} (hF : F p = some r) :
    l.foldlM (post w k freq p) F = some (Function.update F p (some (r ++ recordsOf w k freq l))) := by
  induction l generalizing F r with
  | nil => simp [recordsOf, hF]
  | cons i l ih =>
    have some_due : due k freq i = some true ∨ due k freq i = some false := by
      rcases hk with hk | hk
      · cases k <;> simp [due, hk] <;> (have := em ((i : ℤ).tmod freq = 0); have := lt_or_ge 0 freq; tauto)
      · subst hk; simp [due]; have := em ((i : ℤ).tmod freq = 0); have := lt_or_ge 0 freq; tauto
    rcases some_due with e | e
    · have e1 : post w k freq p F i = some (Function.update F p (some (r ++ [w.record i]))) := by unfold post; rw [e]; simp [hF]
      rw [List.foldlM_cons, e1]
      simp only [Option.bind_eq_bind, Option.bind_some]
      rw [ih (r := r ++ [w.record i]) (by simp)]
      simp [recordsOf, e]
    · have e1 : post w k freq p F i = some F := by unfold post; rw [e]
      rw [List.foldlM_cons, e1]
      simp only [Option.bind_eq_bind, Option.bind_some]
      rw [ih hF]
      simp [recordsOf, e]

/-- **C139**: a run from step `start` makes one new file and leaves all others; it holds the records of the due steps after `start`, in order, each labelled with the new time of its step. -/
theorem launch_spec (w : World K S D) (k : Kind) {freq : ℤ} (hk : freq ≠ 0 ∨ k = .turbine) (label : String) (start n : ℕ) (F : Files K D) :
    ∃ F', launch w k freq label start n F = some F' ∧ F' ⟨stamp start, label⟩ = some (recordsOf w k freq (List.range' (start + 1) n)) ∧
      ∀ p, p ≠ ⟨stamp start, label⟩ → F' p = F p := by
  unfold launch
  rw [posts_spec w k hk _ _ (r := []) (by simp)]
  exact ⟨_, rfl, by simp, fun p hp => by simp [hp]⟩

/-- **C139**: a run, and a restart from its step `s` into another directory: the records up to the restart in the first file and those of the second are the history of a
run without a restart.

Partial (C139). Missing: what the coupled turbine program writes itself. -/
theorem restart_complete_partial (w : World K S D) (k : Kind) {freq : ℤ} (hk : freq ≠ 0 ∨ k = .turbine) (label : String) {start s n m : ℕ} (h1 : start < s) (h2 : s ≤ start + n)
    (F : Files K D) : ∃ F1 F2 a b, launch w k freq label start n F = some F1 ∧ launch w k freq label s m F1 = some F2 ∧ F2 ⟨stamp start, label⟩ = some a ∧
      F2 ⟨stamp s, label⟩ = some b ∧ ∃ a', a' <+: a ∧ a' = recordsOf w k freq (List.range' (start + 1) (s - start)) ∧
      a' ++ b = recordsOf w k freq (List.range' (start + 1) (s - start + m)) := by
  obtain ⟨F1, a1, a2, -⟩ := launch_spec w k hk label start n F
  obtain ⟨F2, b1, b2, b3⟩ := launch_spec w k hk label s m F1
  have ne : (⟨stamp start, label⟩ : Path) ≠ ⟨stamp s, label⟩ := fun e => by
    have := stamp_injective (Path.mk.inj e).1
    omega
  have sp : ∀ a b c : ℕ, recordsOf w k freq (List.range' a (b + c)) = recordsOf w k freq (List.range' a b) ++ recordsOf w k freq (List.range' (a + b) c) := by
    intro a b c
    unfold recordsOf
    rw [← List.map_append, ← List.filter_append]
    congr 2
    have := List.range'_append (s := a) (m := b) (n := c) (step := 1)
    simpa using this.symm
  refine ⟨F1, F2, _, _, a1, b1, (b3 _ ne).trans a2, b2, _, ?_, rfl, ?_⟩
  · conv_rhs => rw [show n = (s - start) + (n - (s - start)) by omega]
    rw [sp]
    exact List.prefix_append _ _
  · rw [sp, show start + 1 + (s - start) = s + 1 by omega]

/-- **C139**, disagreement: a second run from the same step begins the file anew; the records of the first are gone. -/
theorem same_start_loses (w : World K S D) (k : Kind) {freq : ℤ} (hk : freq ≠ 0 ∨ k = .turbine) (label : String) (start n m : ℕ) (F : Files K D) :
    ∃ F1 F2, launch w k freq label start n F = some F1 ∧ launch w k freq label start m F1 = some F2 ∧
      F2 ⟨stamp start, label⟩ = some (recordsOf w k freq (List.range' (start + 1) m)) := by
  obtain ⟨F1, a1, -, -⟩ := launch_spec w k hk label start n F
  obtain ⟨F2, b1, b2, -⟩ := launch_spec w k hk label start m F1
  exact ⟨F1, F2, a1, b1, b2⟩

/-- **C139**, disagreement: velocities are sampled before the step and labelled with the time after it. When what is measured changes in every step, every record of
every history differs from what the flow has at the time of the label. -/
theorem velocity_behind (w : World K S D) (k : Kind) {freq : ℤ} (hk : freq ≠ 0 ∨ k = .turbine) (label : String) (start n : ℕ) (F : Files K D)
    (hc : ∀ i t, w.measure (w.flow i) t ≠ w.measure (w.flow (i + 1)) t) :
    ∃ F' l, launch w k freq label start n F = some F' ∧ F' ⟨stamp start, label⟩ = some l ∧
      ∀ r ∈ l, ∃ i, start < i ∧ i ≤ start + n ∧ r.1 = w.time i ∧ r.2 = w.measure (w.flow (i - 1)) (w.time i) ∧ r.2 ≠ w.measure (w.flow i) (w.time i) := by
  obtain ⟨F', a1, a2, -⟩ := launch_spec w k hk label start n F
  refine ⟨F', _, a1, a2, fun r hr => ?_⟩
  obtain ⟨i, hi, rfl⟩ := List.mem_map.mp hr
  have hi := List.mem_range'_1.mp (List.mem_filter.mp hi).1
  refine ⟨i, by omega, by omega, rfl, rfl, ?_⟩
  have := hc (i - 1) (w.time i)
  rw [show i - 1 + 1 = i by omega] at this
  exact this

/-- **C139**, disagreement: the positions of a wing are written once, at the start; after any time of linear motion the wing is elsewhere. -/
theorem wing_positions_stale (meps : ℝ) (svec : Vs.Vec ℝ) (period : ℝ) (s : Wing.St) (hp : s.pos ≠ []) (hv : s.vtr.x ≠ 0) {t t' : ℝ} (ht : t ≠ t') :
    (Wing.run meps .linear svec period s t [(true, t')]).pos ≠ s.pos ∧ ("xyz", [Dm.pts, Dm.ndim]) ∈ defined .wing ∧ ∀ z, ∀ c, ("xyz", c) ∉ each .wing z := by
  refine ⟨fun h => ?_, by decide, fun z c h => by simp [each] at h⟩
  obtain ⟨a, l, e⟩ := List.exists_cons_of_ne_nil hp
  simp only [Wing.run, Wing.rankStep, if_true, Wing.move, Wing.disp, e, List.map_cons, List.cons.injEq] at h
  have := congrArg Vs.Vec.x h.1
  have q : s.vtr.x = 0 ∨ t' - t = 0 := by simpa [or_comm] using this
  rcases q with h | h
  · exact hv h
  · exact ht (by linarith)

/-! ## Examples -/

example : each .turbine ⟨5, 7, 0⟩ = [("time", []), ("rot_center", [3]), ("rotor_frame", [9]), ("xyz", [5, 3]), ("force", [5, 3]), ("orientation", [5, 9]), ("vel_xyz", [7, 3]), ("vel", [7, 3])] := rfl

/-- The file of a disk with two force points: `time`, `ct` and a vector per record. -/
def diskFile : File ℕ := ⟨[⟨"num_time_steps", true, 0⟩, ⟨"ndim", false, 3⟩], [⟨"/", none, [0, 1], []⟩, ⟨"T1", some 0, [], [⟨"time", [0], fun _ => 0⟩, ⟨"vref", [0, 1], fun _ => 0⟩]⟩]⟩

example : Series diskFile 1 0 0 [] 0 ∧ Series diskFile 1 1 0 [3] 0 :=
  ⟨⟨_, [], _, [], rfl, rfl, rfl, rfl, rfl, rfl, rfl, by simp⟩, ⟨_, [1], _, [⟨"ndim", false, 3⟩], rfl, rfl, rfl, rfl, rfl, rfl, rfl, by simp⟩⟩

example : (match writeRecords 1 0 [[⟨0, [], [7]⟩, ⟨1, [3], [1, 2, 3]⟩], [⟨0, [], [8]⟩, ⟨1, [3], [4, 5, 6]⟩]] diskFile with
    | .ok f => [row f 1 0 [] 0, row f 1 0 [] 1, row f 1 1 [3] 0, row f 1 1 [3] 1] | _ => []) = [.ok [7], .ok [8], .ok [1, 2, 3], .ok [4, 5, 6]] := by decide +kernel

/-- Time and state are the number of the step. -/
def count : World ℕ ℕ ℕ := ⟨fun i => 10 * i, fun i => i, fun s _ => s⟩

example : ((launch count .wing 2 "W" 3 5 (fun _ => none)).map fun F => (F ⟨[0, 0, 0, 0, 3], "W"⟩, F ⟨[0, 0, 0, 0, 4], "W"⟩)) = some (some [(4, 30), (6, 50), (8, 70)], none) := by
  decide +kernel

example : stamp 123 = [0, 0, 1, 2, 3] ∧ stamp 1234567 = [1, 2, 3, 4, 5, 6, 7] ∧ stamp 0 = [0, 0, 0, 0, 0] := by decide +kernel

end AmrWind.ActOut
